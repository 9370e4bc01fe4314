import Verif.Props.Seam
/-!
# C85: any number of documents decompiled together
-/
namespace Hrdc
open Spec Extractor

/-- The members of descriptors one behind the other. -/
def Spec.seams : List (List Node) → List Node
  | [] => []
  | [a] => a
  | a :: b :: r => seam a (seams (b :: r))

theorem independent_flatten {ks : List SItem} (yss : List (List Item)) (h : ∀ ys ∈ yss, Independent ks (keys ys)) :
    Independent ks (keys yss.flatten) := by
  intro k hk hg
  induction yss with
  | nil => trivial
  | cons ys yss ih =>
    have : keys (ys :: yss).flatten = keys ys ++ keys yss.flatten := by simp [keys]
    rw [this]
    exact given_append (h ys (by simp) k hk hg) (ih (fun zs hz => h zs (by simp [hz])))

/-- **C85, many.** Streams decompiled together, each but the last whole, and none taking a global from one before it: the tree
has the members of their trees one behind the other. -/
theorem C85_many (reg : Registry) : ∀ (ds : List (List Item × List Node)), ds ≠ [] →
    (∀ d ∈ ds, extract reg d.1 = .ok (.top d.2)) → (∀ d ∈ ds.dropLast, Whole (keys d.1)) →
    ds.Pairwise (fun d e => Independent (keys d.1) (keys e.1)) →
    extract reg (ds.map Prod.fst).flatten = .ok (.top (seams (ds.map Prod.snd)))
  | [], h, _, _, _ => absurd rfl h
  | [d], _, hx, _, _ => by simpa [seams] using hx d (by simp)
  | d :: e :: r, _, hx, hw, hi => by
    rw [List.pairwise_cons] at hi
    have ih := C85_many reg (e :: r) (by simp) (fun z hz => hx z (by simp [List.mem_cons.1 hz]))
      (fun z hz => hw z (by rw [List.dropLast_cons_of_ne_nil (by simp)]; exact List.mem_cons_of_mem _ hz)) hi.2
    have := C85_trees reg d.1 ((e :: r).map Prod.fst).flatten (hw d (by simp))
      (independent_flatten _ (by
        intro ys hy
        obtain ⟨z, hz, rfl⟩ := List.mem_map.1 hy
        exact hi.1 z hz)) d.2 _ (hx d (by simp)) ih
    simpa [seams] using this

/-- **C85, many, described.** It describes what they describe, in order. -/
theorem C85_many_described : ∀ as : List (List Node), as ≠ [] →
    bareMeaning (.top (seams as)) = as.flatMap (fun a => bareMeaning (.top a))
  | [], h => absurd rfl h
  | [a], _ => by simp [seams]
  | a :: b :: r, _ => by
    rw [seams, C85_described, C85_many_described (b :: r) (by simp)]
    rfl

/-! ## Case -/

/-- Three documents, the last two in one report. -/
example : let ds := [leaflet 2 0x30 1 17, leaflet 6 0x31 2 0, leaflet 5 0x32 2 0]
    (∀ d ∈ ds, Whole (keys d)) ∧ ds.Pairwise (fun d e => Independent (keys d) (keys e)) ∧
    ds.map topMembers = [some 1, some 1, some 1] ∧ topMembers ds.flatten = some 2 := by
  refine ⟨by decide +kernel, by decide +kernel, by decide +kernel, by decide +kernel⟩

end Hrdc
