import Verif.Spec.Descriptor
/-!
# Descriptors that can be merged
-/
namespace Hrdc.Spec

/-- The direction of every element and the Report opened last before it; `cur` stands for the Report opened before. -/
def places (cur : Option Int) : List Tok → List (Way × Option Int)
  | [] => []
  | .report i :: r => places (some i) r
  | .leaf l :: r => (l.way, cur) :: places cur r
  | _ :: r => places cur r

/-- No Report is opened. -/
def unnumbered : List Tok → Bool
  | [] => true
  | .report _ :: _ => false
  | _ :: r => unnumbered r

/-- Two descriptors can be merged: every element of the second comes after a Report of its own with an ID other than 0, or
the first has no Reports; and no report has fields of the same direction in both. -/
def Composable (a b : Node) : Prop :=
  ((∀ p ∈ places none (tokens b), p.2 ≠ none ∧ p.2 ≠ some 0) ∨ unnumbered (tokens a) = true) ∧
  ∀ p ∈ places (some 0) (tokens a), p ∉ places (some 0) (tokens b)

instance (a b : Node) : Decidable (Composable a b) := by unfold Composable; infer_instance

end Hrdc.Spec
