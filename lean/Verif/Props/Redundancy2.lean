import Verif.Props.Redundancy
import Verif.Props.Sources
/-!
# Property C57, usage pages of any stream

A UsagePage item of the optimized stream that sets the page already in force stands for a UsagePage item
of the source: the optimizer writes none of its own.
-/
namespace Hrdc
open Spec Item Optimizer

/-- How many items of a stream give `c` the value it already has, `v` being its value before. -/
def timesRepeated (c : Cls) : Option Int → List SItem → Nat
  | _, [] => 0
  | v, k :: ks =>
    if k.1 = c then (if v = some k.2 then 1 else 0) + timesRepeated c (some k.2) ks
    else timesRepeated c v ks

/-- How many items of a stream are of class `c`. -/
def timesSet (c : Cls) (ks : List SItem) : Nat := ks.countP (fun k => k.1 == c)

theorem usagePage_repeats (reg : Registry) (page : Option Int) (xs : List Item) :
    timesRepeated .usagePage page (keys ((Optimizer.usagePage reg).runFrom page xs))
      ≤ timesSet .usagePage (keys xs) := by
  induction xs generalizing page with
  | nil => simp [Pass.runFrom, timesRepeated, keys]
  | cons x xs ih =>
    rw [Pass.runFrom_cons]
    by_cases hu : usageLike x.cls = true
    · have hx1 : x.cls ≠ .usagePage := by intro e; rw [e] at hu; simp [usageLike] at hu
      simp only [hu, if_true]
      generalize hsp : Usage.split (Usage.lookup reg x.val) = s
      obtain ⟨sp, su⟩ := s
      simp only
      have hx' : (build reg x.cls su).cls = x.cls := build_cls reg x.cls su
      have hp' : (build reg .usagePage sp).cls = .usagePage := build_cls reg _ _
      have hv : (build reg .usagePage sp).ival = sp.toInt := build_ival _ _ _ (by simp)
      have hs : timesSet .usagePage (keys (x :: xs)) = timesSet .usagePage (keys xs) := by
        simp [timesSet, keys, Item.key, hx1]
      have := ih (some sp.toInt)
      rw [hs]
      by_cases hpg : page = some sp.toInt
      · simp only [hpg, if_true, List.nil_append, List.cons_append, keys, List.map_cons, timesRepeated, Item.key, hx',
          hx1, if_false]
        exact this
      · simp only [hpg, if_false, List.cons_append, List.nil_append, keys, List.map_cons, timesRepeated, Item.key, hx',
          hx1, hp', hv, if_true, Nat.zero_add]
        exact this
    · by_cases hx1 : x.cls = .usagePage
      · have hst : (Optimizer.usagePage reg).step page x = (some x.ival, [x]) := by
          simp only
          rw [if_neg hu, if_pos hx1]
        rw [hst]
        simp only [List.cons_append, List.nil_append]
        have := ih (some x.ival)
        have hs : timesSet .usagePage (keys (x :: xs)) = timesSet .usagePage (keys xs) + 1 := by
          simp [timesSet, keys, Item.key, hx1]
        rw [hs]
        simp only [keys, List.map_cons, timesRepeated, Item.key, hx1, if_true]
        simp only [keys] at this ⊢
        split <;> omega
      · simp only [hu, hx1, if_false, List.cons_append, List.nil_append, Bool.false_eq_true]
        have hs : timesSet .usagePage (keys (x :: xs)) = timesSet .usagePage (keys xs) := by
          simp [timesSet, keys, Item.key, hx1]
        rw [hs]
        simp only [keys, List.map_cons, timesRepeated, Item.key, hx1, if_false]
        exact ih page

/-- **C57, the page, any stream.** The optimized stream sets the page already in force no more often than
the source stream has UsagePage items: none of the items that the optimizer adds is redundant.  (For a
stream without them the page is never set again, `C57_no_redundant_page_partial`.) -/
theorem C57_page_repeats (reg : Registry) (xs : List Item) :
    timesRepeated .usagePage none (keys (optimize reg xs)) ≤ timesSet .usagePage (keys xs) := by
  rw [optimize_eq]
  let P : SItem → Bool := fun k => k.1 == .usagePage
  have hP : ∀ k : SItem, k.1 ≠ .usagePage → P k = false := fun k hk => by simpa [P] using hk
  have hloc : ∀ k : SItem, k.1.kind = .loc → P k = false := by
    intro k hk; apply hP; intro e; rw [e] at hk; simp [Cls.kind] at hk
  have hc : ∀ ys : List Item, timesSet .usagePage (keys ys) = (view P ys).length := by
    intro ys; rw [timesSet, view, List.countP_eq_length_filter]
  refine Nat.le_trans (usagePage_repeats reg none _) ?_
  rw [hc, hc, rm_view P hloc reg _ local_usage, rm_view P hloc reg _ local_desig, rm_view P hloc reg _ local_str]
  refine Nat.le_trans (sub_gm P _).length_le ?_
  rw [pm_view P (fun k h => hP k (by rcases h with h | h <;> rw [h] <;> simp)),
    mm_view P (fun k h => hP k (by
      rcases h with h | h
      · intro e; rw [e] at h; simp [Cls.isData] at h
      · rw [h]; simp)), du_view P hloc]
  exact Nat.le_refl _

/-- The bound is reached: two pages of the source, both redundant after the pass has written its own. -/
example :
    let xs : List Item := [⟨.usage, .int 0x10002⟩, ⟨.collection, .int 1⟩, ⟨.usagePage, .int 1⟩,
      ⟨.usage, .int 0x20003⟩, ⟨.collection, .int 0⟩, ⟨.usagePage, .int 2⟩, ⟨.endCollection, .int 0⟩,
      ⟨.endCollection, .int 0⟩]
    timesSet .usagePage (keys xs) = 2 ∧ timesRepeated .usagePage none (keys (optimize [] xs)) = 2 := by
  decide +kernel

end Hrdc
