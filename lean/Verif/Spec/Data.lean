import Verif.Spec.Apart
/-!
# Contents of reports

How a host takes a report apart, and how a device that follows the descriptor tree fills it: the elements of the report one
after the other, lowest bit first, with anything in the padding.
-/
namespace Hrdc.Spec

/-- The low `n` bits of a number in two's complement, lowest first. -/
def lowBits : Nat → Int → List Bool
  | 0, _ => []
  | n + 1, x => decide (x % 2 = 1) :: lowBits n (x / 2)

/-- The number written with these bits, lowest first. -/
def unsignedOf : List Bool → Int
  | [] => 0
  | b :: bs => (if b then 1 else 0) + 2 * unsignedOf bs

/-- The same when the highest bit is the sign. -/
def numberOf (signed : Bool) (bs : List Bool) : Int :=
  if signed ∧ bs.getLast? = some true then unsignedOf bs - 2 ^ bs.length else unsignedOf bs

/-- What a host finds in a field: the value of a usage, or the usage chosen. -/
inductive Reading
  | value (usage : Option Int) (x : Int)
  | choice (usage : Option Int)
  deriving DecidableEq, Repr

/-- Number `k` of a list of usages, if there is one. -/
def usageAt (us : List (Option Int)) (k : Int) : Option Int := if 0 ≤ k then (us[k.toNat]?).join else none

/-- A host reading a report with the given bits: every field takes the bits of its size, as a signed number if its
logical minimum is negative; in an Array the logical minimum chooses the first usage.  `none` if the report is
too short; otherwise also the bits left. -/
def readReport : List Event → List Bool → Option (List Reading × List Bool)
  | [], bs => some ([], bs)
  | .control _ flags _ a what :: r, bs =>
    if bs.length < a.size.toNat then none
    else
      (readReport r (bs.drop a.size.toNat))
        |>.map fun p => ((if bitSet flags 1 then
          .value (what.head?.bind Selector.usage) (numberOf (decide (a.logMin < 0)) (bs.take a.size.toNat))
        else .choice (usageAt (what.map Selector.usage)
          (numberOf (decide (a.logMin < 0)) (bs.take a.size.toNat) - a.logMin))) :: p.1, p.2)
  | .padBit _ _ :: r, bs => if bs.length < 1 then none else readReport r (bs.drop 1)
  | _ :: r, bs => readReport r bs

/-- Bits a device puts in an element, `off` bits into the report, whose fields have the numbers `xs`. -/
def elementBits (junk : Nat → Bool) (off : Nat) (xs : List Int) : Leaf → List Bool
  | .value v =>
    if bitSet v.flags.toInt 0 then (List.range (v.size.toNat * v.count.toNat)).map fun k => junk (off + k)
    else xs.flatMap (lowBits v.size.toNat)
  | _ => []

/-- A report filled by a device: every element with the numbers of its fields, at its place.  `junk` is in the padding. -/
def fillReport (junk : Nat → Bool) (off : Nat) : List (Leaf × List Int) → List Bool
  | [] => []
  | (l, xs) :: r =>
    ((List.range (room off l).1).map fun k => junk (off + k)) ++ elementBits junk (off + (room off l).1) xs l ++
      fillReport junk (off + (room off l).1 + (room off l).2) r

/-- Numbers for all fields of an element, that its size and sign have room for. -/
def holds : Leaf × List Int → Prop
  | (.value v, xs) => bitSet v.flags.toInt 0 = true ∨ (xs.length = v.count.toNat ∧
      ∀ x ∈ xs, if v.logicalMin.getD 0 < 0 then -2 ^ v.size.toNat ≤ 2 * x ∧ 2 * x < 2 ^ v.size.toNat
        else 0 ≤ x ∧ x < 2 ^ v.size.toNat)
  | _ => True

/-- What the device says with an element: nothing with padding and constants, a usage chosen with a named array or an Array,
and otherwise values of its usage. -/
def saidBy : Leaf × List Int → List Reading
  | (.value v, xs) =>
    if bitSet v.flags.toInt 0 then []
    else match arrayUsages v.namedArray with
      | [] =>
        if bitSet v.flags.toInt 1 then xs.map (.value (usageOf v.usage))
        else xs.map fun x => .choice (usageAt ((usageOf v.usage).toList.map some) (x - v.logicalMin.getD 0))
      | us => xs.map fun x => .choice (usageAt (us.map some) (x - v.logicalMin.getD 0))
  | _ => []

end Hrdc.Spec
