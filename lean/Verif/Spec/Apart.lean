import Verif.Spec.Descriptor
/-!
# One report of a descriptor

The elements of a report are those of its direction inside a `Report` of its ID, innermost, or outside all for ID 0.
-/
namespace Hrdc.Spec

mutual
/-- Elements of direction `w` in report `id`, of an element standing in report `cur`. -/
def elementsOf (w : Way) (id cur : Int) : Node → List Leaf
  | .value v => if v.way = w ∧ cur = id then [.value v] else []
  | .align w' b => if w' = w ∧ cur = id then [.align w' b] else []
  | .padding w' s => if w' = w ∧ cur = id then [.padding w' s] else []
  | .report i ms => elementsOfL w id i ms
  | .top ms => elementsOfL w id cur ms
  | .coll _ _ ms => elementsOfL w id cur ms
/-- Those of a list of elements. -/
def elementsOfL (w : Way) (id cur : Int) : List Node → List Leaf
  | [] => []
  | n :: ns => elementsOf w id cur n ++ elementsOfL w id cur ns
end

/-- Controls and padding of one report. -/
def Event.inReport (w : Way) (id : Int) : Event → Bool
  | .control c _ i _ _ => decide (c = tag w ∧ i = id)
  | .padBit c i => decide (c = tag w ∧ i = id)
  | _ => false

/-- What one report of a descriptor holds, in order. -/
def reportOf (w : Way) (id : Int) (es : List Event) : List Event := es.filter (Event.inReport w id)

end Hrdc.Spec
