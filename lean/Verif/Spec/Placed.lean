import Verif.Spec.Data
import Verif.Spec.Frame
/-!
# Where compiled elements are

How the code lays out reports, in all descriptors: elements after a `Report` are in the report entered last, `Report(0)` ends no
report but counts by itself, and of the fields of a value one is counted for the alignments that follow.
-/
namespace Hrdc.Spec

/-- Padding in front of an element when `c` bits are counted. -/
def padAt (c : Int) : Leaf → Nat
  | .value v => if v.alignment > 1 then ((-c) % v.alignment).toNat else 0
  | .align _ b => if b > 1 then ((-c) % b).toNat else 0
  | .padding _ s => s.toNat

/-- Bits counted after an element. -/
def bitsAfter (c : Int) (l : Leaf) : Int :=
  match l with
  | .value v => c + padAt c l + v.size
  | _ => c + padAt c l

/-- The elements of a report in order, each with the padding in front of it.  `cur` is the report entered last, `host` the
last one other than 0. -/
def placesFrom (w : Way) (id : Int) (c : Way → Int → Int) (cur host : Int) : List Tok → List (Leaf × Nat)
  | [] => []
  | .report i :: r => placesFrom w id c i (if i = 0 then host else i) r
  | .leaf l :: r =>
    (if l.way = w ∧ host = id then [(l, padAt (c w cur) l)] else []) ++
      placesFrom w id (fun w' i => if w' = l.way ∧ i = cur then bitsAfter (c w' i) l else c w' i) cur host r
  | _ :: r => placesFrom w id c cur host r

/-- The elements of a report of a descriptor, where the code puts them. -/
def placesOf (w : Way) (id : Int) (n : Node) : List (Leaf × Nat) := placesFrom w id (fun _ _ => 0) 0 0 (tokens n)

/-- The elements of a report where their alignments put them, after `off` bits. -/
def intended (off : Nat) : List Leaf → List (Leaf × Nat)
  | [] => []
  | l :: r => (l, (room off l).1) :: intended (off + (room off l).1 + (room off l).2) r

/-- A report filled by a device that knows where the elements are: padding, then the numbers of the element. -/
def fillPlaced (junk : Nat → Bool) (off : Nat) : List ((Leaf × Nat) × List Int) → List Bool
  | [] => []
  | ((l, p), xs) :: r =>
    ((List.range p).map fun k => junk (off + k)) ++ elementBits junk (off + p) xs l ++
      fillPlaced junk (off + p + (room 0 l).2) r

/-- What a host is told with an element: with the Variable flag, every number with the usage at its place in the list, or
the last; otherwise the usage chosen. -/
def toldBy : Leaf × List Int → List Reading
  | (.value v, xs) =>
    if bitSet v.flags.toInt 0 then []
    else
      let us := if arrayUsages v.namedArray = [] then (usageOf v.usage).toList else arrayUsages v.namedArray
      if bitSet v.flags.toInt 1 then ((List.range v.count.toNat).zip xs).map fun p => .value (pick us p.1) p.2
      else xs.map fun x => .choice (usageAt (us.map some) (x - v.logicalMin.getD 0))
  | _ => []

end Hrdc.Spec
