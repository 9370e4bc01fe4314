import Verif.Spec.Slot
import Verif.Spec.Descriptor
/-!
# How many elements a stream describes
-/
namespace Hrdc.Spec

/-- The elements a stream describes; `count` is the Report Count in force.  Padding and buffered bytes are one element each,
other data items are as many as their count. -/
def fieldsRead (count : Int) : List SItem → Nat
  | [] => 0
  | (c, v) :: r =>
    if c = .reportCount then fieldsRead v r
    else if c.isData then (if v % 2 = 1 ∨ v / 256 % 2 = 1 then 1 else count.toNat) + fieldsRead count r
    else fieldsRead count r

/-- The collections in a tree. -/
def collectionsIn (n : Node) : Nat := (tokens n).countP (fun t => match t with | .enter _ _ => true | _ => false)

end Hrdc.Spec
