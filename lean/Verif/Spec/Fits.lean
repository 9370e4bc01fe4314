import Verif.Spec.Legal
import Verif.Proofs.Exact
/-!
# Descriptors whose numbers have an encoding
-/
namespace Hrdc
namespace Spec

/-- The number has an unsigned encoding in four bytes. -/
def unsigned32 (x : Int) : Bool := decide (0 ≤ x) && decide (x < 2 ^ 32)

/-- The number has a signed encoding in four bytes. -/
def signed32 (x : Int) : Bool := decide (-2 ^ 31 ≤ x) && decide (x < 2 ^ 31)

/-- The numbers of a value fit.  Only size, count and flags of a constant are sent; the physical bounds
of a named array are not. -/
def valueFits (v : Value) : Bool :=
  unsigned32 v.size && unsigned32 v.count && unsigned32 v.flags.toInt &&
  (bitSet v.flags.toInt 0 ||
    ((usageOf v.usage).toList ++ arrayUsages v.namedArray).all unsigned32 &&
    signed32 (v.logicalMin.getD 0) && signed32 (v.logicalMax.getD 0) &&
    (!(arrayUsages v.namedArray).isEmpty ||
      signed32 (v.physicalMin.getD 0) && signed32 (v.physicalMax.getD 0)) &&
    unsigned32 v.unit.toInt && signed32 v.unitExponent && unsigned32 v.designator && unsigned32 v.string)

/-- The numbers of a descriptor fit, read from left to right; `id` is the report entered last, `c` the
bits counted in each report.  Padding in front of an element has to fit as well. -/
def numbersFit (c : Streamer.Count) (id : Int) : List Tok → Bool
  | [] => true
  | .report i :: r => unsigned32 i && numbersFit c i r
  | .endReport :: r => numbersFit c id r
  | .enter k u :: r =>
    unsigned32 ((u.map PyVal.toInt).getD 0) && unsigned32 (keptValue .collection k) && numbersFit c id r
  | .leave :: r => numbersFit c id r
  | .leaf l :: r =>
    unsigned32 (Streamer.padBefore (c l.way id) l) &&
    (match l with
      | .value v => valueFits v
      | _ => true) && numbersFit (c.add id l) id r

end Spec
end Hrdc
