import Verif.Spec.Extract
/-!
# The main items of the directions
-/
namespace Hrdc.Spec

theorem tag_eq (w : Way) : tag w = w.cls := by cases w <;> rfl

theorem valueEvents_eq (id : Int) (v : Value) : valueEvents id v =
    (match arrayUsages v.namedArray with
  | [] =>
    if bitSet v.flags.toInt 0 then
      List.replicate (v.size.toNat * v.count.toNat) (.padBit v.way.cls id)
    else
      List.replicate v.count.toNat (.control v.way.cls v.flags.toInt id (attrsOf v)
        (if bitSet v.flags.toInt 1 then [selectorOf v (usageOf v.usage)]
         else (usageOf v.usage).toList.map (fun u => selectorOf v (some u))))
  | us =>
    let field := List.replicate v.count.toNat (Event.control v.way.cls 0 id
      (arrayAttrs v us.length) (us.map (fun u => selectorOf v (some u))))
    match usageOf v.usage with
    | none => field
    | some u => .enter 2 ⟨some u, 0, 0⟩ :: field ++ [.leave]) := by
  unfold valueEvents; simp only [tag_eq]; try rfl

theorem leafEvents_eq (id : Int) (off : Nat) (l : Leaf) : leafEvents id off l =
    (List.replicate (room off l).1 (.padBit l.way.cls id) ++
    match l with
    | .value v => valueEvents id v
    | _ => []) := by
  unfold leafEvents; simp only [tag_eq]; try rfl

theorem bareLeaf_value (id : Int) (v : Value) : bareLeaf id (.value v) = valueEvents id v := rfl
theorem bareLeaf_align (id : Int) (w : Way) (b : Int) : bareLeaf id (.align w b) = [] := rfl
theorem bareLeaf_padding (id : Int) (w : Way) (s : Int) :
    bareLeaf id (.padding w s) = List.replicate s.toNat (.padBit w.cls id) := by
  unfold bareLeaf; simp only [tag_eq]; try rfl

end Hrdc.Spec
