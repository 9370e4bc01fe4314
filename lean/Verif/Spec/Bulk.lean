import Verif.Spec.Descriptor
/-!
# How many items a descriptor takes
-/
namespace Hrdc.Spec

/-- Items a token takes at most: three of padding, and for a value up to fourteen and the usages of its array. -/
def tokMost : Tok → Nat
  | .leaf (.value v) => 17 + (arrayUsages v.namedArray).length
  | .leaf _ => 3
  | .report _ => 1
  | .endReport => 0
  | .enter _ _ => 2
  | .leave => 1

/-- Items a token takes at least: count, size and data item of a value. -/
def tokLeast : Tok → Nat
  | .leaf (.value _) => 3
  | .enter _ _ => 2
  | .leave => 1
  | _ => 0

def itemsMost (n : Node) : Nat := ((tokens n).map tokMost).sum
def itemsLeast (n : Node) : Nat := ((tokens n).map tokLeast).sum

end Hrdc.Spec
