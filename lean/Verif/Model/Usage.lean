import Verif.Model.Py
/-!
# Named constants and usages (`hrdc/util/named_constant.py`, `hrdc/usage/usage.py`)
-/
namespace Hrdc

/-- `UsageType` instances, `hrdc/usage/usage.py:106-121`. -/
inductive UKind
  | CA | CL | CP | RTC | LC | MC | OSC | Sel | SV | SF | DF | DV | NAry | US | UM | OOC
  deriving DecidableEq, Repr, Inhabited

/-- A `Usage` object: name, integer value, kinds (`hrdc/usage/usage.py:6-11`). -/
structure UsageC where
  name : Text
  value : Int
  kinds : List UKind := []
  deriving DecidableEq, Repr, Inhabited

/-- The values an item or descriptor attribute may hold: a plain int, a `NamedConstant`
(`hrdc/util/named_constant.py:2-5`) or a `Usage`. -/
inductive PyVal
  | int (i : Int)
  | named (name : Text) (i : Int)
  | usage (u : UsageC)
  deriving DecidableEq, Repr, Inhabited

namespace PyVal

/-- Python `int(v)`; `NamedConstant.__int__`, `named_constant.py:7-8`. -/
def toInt : PyVal → Int
  | int i => i
  | named _ i => i
  | usage u => u.value

/-- Python truth value.  `NamedConstant` defines neither `__bool__` nor `__len__`, so named
constants and usages are always true, even with value 0. -/
def truthy : PyVal → Bool
  | int i => i != 0
  | named _ _ => true
  | usage _ => true

/-- Python `str(v)`; `NamedConstant.__str__`, `named_constant.py:10-11`. -/
def str : PyVal → Text
  | int i => pyStr i
  | named n _ => n
  | usage u => u.name

/-- `a == b` when at least one side is a `NamedConstant` or both are ints
(`named_constant.py:16-17`): comparison of the integer values. -/
def eqv (a b : PyVal) : Bool := a.toInt == b.toInt

end PyVal

/-- The class-level dictionary `Usage.reverse` (`usage.py:4,10-11`), as the list of registered
usages, latest first.  `Button(n)` / `Ordinal(n)` extend it at run time. -/
abbrev Registry := List UsageC

/-- `cls.reverse[v]` (`usage.py:53`); a later registration of the same value wins. -/
def Registry.get (r : Registry) (v : Int) : Option UsageC := r.find? (fun u => u.value == v)

namespace Usage

/-- `Usage.pageName`, `usage.py:25-43`. -/
def pageName : List (Int × Text) := [
  (0x1, tx "GenericDesktop"), (0x2, tx "Simulation"), (0x3, tx "VR"), (0x5, tx "Game"),
  (0x6, tx "Device"), (0x7, tx "Keyboard"), (0x8, tx "Led"), (0x9, tx "Button"),
  (0xa, tx "Ordinal"), (0xb, tx "TelephonyDevice"), (0xc, tx "Consumer"),
  (0xd, tx "Digitizers"), (0xf, tx "PID"), (0x20, tx "Sensors"), (0x59, tx "Lighting"),
  (0x90, tx "Camera"), (0xff00, tx "Arcade")]

/-- `Usage.page(no)`, `usage.py:13-17`. -/
def page (no : Int) : PyVal :=
  .named (((pageName.find? (fun p => p.1 == no)).map (·.2)).getD (pyStr no)) no

/-- `Usage.lookup(value)`, `usage.py:45-56`.  `int(value) >> 16` is non-zero iff the floor
quotient by 65536 is. -/
def lookup (reg : Registry) : PyVal → UsageC
  | .usage u => u
  | .named n i => { name := n, value := i }
  | .int i =>
    if i / 65536 ≠ 0 then
      match reg.get i with
      | some u => u
      | none => { name := pyHex i, value := i }
    else { name := pyHex i, value := i }

/-- `self.name.split(".", 1)` succeeding in giving two parts (`usage.py:60`). -/
def splitName (n : Text) : Option (Text × Text) :=
  match n.dropWhile (· != '.') with
  | _ :: u => some (n.takeWhile (· != '.'), u)
  | [] => none

/-- `Usage.split(self)`, `usage.py:58-67`.  `>> 16` is floor division by 65536 and `& 0xffff`
is the remainder modulo 65536, for ints of any sign. -/
def split (u : UsageC) : PyVal × PyVal :=
  match splitName u.name with
  | some (p, n) => (.named p (u.value / 65536), .named n (u.value % 65536))
  | none =>
    let id := u.value % 65536
    (page (u.value / 65536), .named (pyStr id) id)

/-- `(int(page) << 16) | int(no)` (`usage.py:21`) on non-negative ints. -/
def joinPage (page no : Int) : Int := ((page.toNat <<< 16) ||| no.toNat : Nat)

/-- `Usage.inpage(page, no)`, `usage.py:19-23`. -/
def inpage (reg : Registry) (page no : Int) : PyVal :=
  (split (lookup reg (.int (joinPage page no)))).2

/-- `UsageType.test(self, usage)`, `usage.py:100-104`, on a usage given as a value (not `None`). -/
def testKind (reg : Registry) (k : UKind) (v : PyVal) : Bool :=
  (lookup reg v).kinds.contains k

end Usage

/-- `UsageRange`, `usage.py:69-72`. -/
structure UsageRange where
  min : PyVal
  max : PyVal
  deriving DecidableEq, Repr, Inhabited

namespace UsageRange

/-- Integers `lo, lo+1, .., hi` : Python `range(lo, hi + 1)`. -/
def pyRange (lo hi : Int) : List Int :=
  (List.range (hi - lo + 1).toNat).map (fun (k : Nat) => lo + (k : Int))

/-- `__len__` before Python's non-negativity check, `usage.py:77-78`. -/
def rawLen (r : UsageRange) : Int := r.max.toInt - r.min.toInt + 1

/-- `len(r)`: Python raises `ValueError` when `__len__` returns a negative number. -/
def len (r : UsageRange) : Except PyErr Nat :=
  if r.rawLen < 0 then .error .value else .ok r.rawLen.toNat

/-- `r[no]`, `usage.py:80-81`. -/
def getItem (reg : Registry) (r : UsageRange) (no : Int) : UsageC :=
  Usage.lookup reg (.int (r.min.toInt + no))

/-- Iteration, `usage.py:83-85`. -/
def iter (reg : Registry) (r : UsageRange) : List UsageC :=
  (pyRange r.min.toInt r.max.toInt).map (fun i => Usage.lookup reg (.int i))

/-- The loop of `from_array`, `usage.py:91-93`. -/
def contiguous : List PyVal → Bool
  | a :: b :: r => a.toInt + 1 == b.toInt && contiguous (b :: r)
  | _ => true

/-- `UsageRange.from_array(arr)`, `usage.py:87-94`. -/
def fromArray (arr : List PyVal) : Except PyErr UsageRange :=
  match arr with
  | a :: b :: r =>
    if contiguous (a :: b :: r) then .ok ⟨a, (b :: r).getLast (by simp)⟩
    else .error .value
  | _ => .error .value

end UsageRange

/-- `Button(n)`, `hrdc/usage/button.py:3-5`. -/
def Button (n : Int) : UsageC :=
  { name := tx "button.Button(" ++ pyStr n ++ tx ")", value := 0x90000 + n,
    kinds := [.Sel, .OOC, .MC, .OSC] }

/-- `Ordinal(n)`, `hrdc/usage/ordinal.py:3-4`. -/
def Ordinal (n : Int) : UsageC :=
  { name := tx "ordinal.Ordinal(" ++ pyStr n ++ tx ")", value := 0xa0000 + n, kinds := [.CL] }

end Hrdc
