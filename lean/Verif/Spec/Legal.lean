import Verif.Spec.Descriptor
import Verif.Spec.Wire
/-!
# Descriptors a compiler should accept
-/
namespace Hrdc
namespace Spec

/-- The length of the array is not negative. -/
def arrayLegal : Option NamedArray → Bool
  | some (.range r) => decide (r.min.toInt ≤ r.max.toInt + 1)
  | _ => true

/-- Legal attributes of a value: nothing but bounds and exponent is negative; a constant only needs
its size, count and flags. -/
def valueLegal (v : Value) : Bool :=
  arrayLegal v.namedArray && decide (0 ≤ v.size) && decide (0 ≤ v.count) && decide (0 ≤ v.flags.toInt) &&
  (bitSet v.flags.toInt 0 ||
    ((usageOf v.usage).toList ++ arrayUsages v.namedArray).all (fun u => decide (0 ≤ u)) &&
    decide (0 ≤ v.unit.toInt) && decide (0 ≤ v.designator) && decide (0 ≤ v.string))

/-- Legal descriptors, read from left to right; `id` is the report entered last. -/
def legal (id : Int) : List Tok → Bool
  | [] => true
  | .report i :: r => decide (0 ≤ i) && legal i r
  | .endReport :: r => legal id r
  | .enter k u :: r =>
    (match u with
      | some u => decide (0 ≤ u.toInt)
      | none => false) && decide (0 ≤ keptValue .collection k) && legal id r
  | .leave :: r => legal id r
  | .leaf (.value v) :: r => decide (id < 256) && valueLegal v && legal id r
  | .leaf (.align _ b) :: r => (decide (b ≤ 1) || decide (id < 256)) && legal id r
  | .leaf (.padding _ s) :: r => (decide (s = 0) || decide (0 < s) && decide (id < 256)) && legal id r

end Spec

end Hrdc
