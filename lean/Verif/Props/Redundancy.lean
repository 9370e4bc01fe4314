import Verif.Props.Passes5
/-!
# Property C57: the optimized stream repeats no global
-/
namespace Hrdc
open Spec Item Optimizer

theorem lastSet_view (c : Cls) (d : Option Int) (xs : List Item) :
    lastSet c d xs = (view (fun k => k.1 == c) xs).foldl (fun _ k => some k.2) d := by
  induction xs generalizing d with
  | nil => rfl
  | cons x xs ih =>
    rw [view_cons, lastSet, List.foldl_cons]
    have := ih (if x.cls = c then some x.ival else d)
    rw [lastSet] at this
    rw [this]
    by_cases h : x.cls = c
    · have : (x.key.1 == c) = true := by simpa [Item.key] using h
      simp [this, h, Item.key]
    · have : (x.key.1 == c) = false := by simpa [Item.key] using h
      simp [this, h]

/-- Where the values given to a global are the same, so are its repetitions. -/
theorem repeat_view {c : Cls} {d : Option Int} {ys zs : List Item}
    (hv : view (fun k => k.1 == c) ys = view (fun k => k.1 == c) zs)
    (hz : ∀ pre i post, zs = pre ++ i :: post → i.cls = c → lastSet c d pre ≠ some i.ival) :
    ∀ pre i post, ys = pre ++ i :: post → i.cls = c → lastSet c d pre ≠ some i.ival := by
  intro pre i post hy hi
  have hk : (i.key.1 == c) = true := by simpa [Item.key] using hi
  rw [hy, view_append, view_cons] at hv
  simp only [hk, if_true] at hv
  have : ∃ pre' j post', zs = pre' ++ j :: post' ∧ view (fun k => k.1 == c) pre' = view (fun k => k.1 == c) pre ∧
      j.key = i.key := by
    clear hz hy
    generalize view (fun k => k.1 == c) pre = a at hv
    induction zs generalizing a with
    | nil => simp at hv
    | cons z zs ih =>
      rw [view_cons] at hv
      by_cases hz : z.cls = c
      · have hzk : (z.key.1 == c) = true := by simpa [Item.key] using hz
        simp only [hzk, if_true] at hv
        cases a with
        | nil =>
          simp only [List.nil_append, List.cons_append, List.cons.injEq] at hv
          exact ⟨[], z, zs, rfl, rfl, hv.1.symm⟩
        | cons k a =>
          simp only [List.cons_append, List.nil_append, List.cons.injEq] at hv
          obtain ⟨p, j, q, h1, h2, h3⟩ := ih a hv.2
          exact ⟨z :: p, j, q, by rw [h1]; rfl, by rw [view_cons, h2, if_pos hzk, hv.1]; rfl, h3⟩
      · have hzk : (z.key.1 == c) = false := by simpa [Item.key] using hz
        simp only [hzk, Bool.false_eq_true, if_false, List.nil_append] at hv
        obtain ⟨p, j, q, h1, h2, h3⟩ := ih a hv
        exact ⟨z :: p, j, q, by rw [h1]; rfl, by rw [view_cons, h2, hzk]; rfl, h3⟩
  obtain ⟨pre', j, post', h1, h2, h3⟩ := this
  have hj : j.cls = c := by rw [← hi]; exact congrArg Prod.fst h3
  have := hz pre' j post' h1 hj
  rw [lastSet_view, h2, ← lastSet_view] at this
  have hv : j.ival = i.ival := congrArg Prod.snd h3
  rwa [hv] at this

/-- **C57.** In the optimized stream no global item (Push, Pop and UsagePage aside) gives its tag the
value it already has, or its HID default when the tag was not yet set.  No hypothesis on the
stream. -/
theorem C57_no_redundant_global (reg : Registry) (xs pre post : List Item) (i : Item)
    (h : optimize reg xs = pre ++ i :: post) (hk : i.cls.kind = .global)
    (h1 : i.cls ≠ .push) (h2 : i.cls ≠ .pop) (h3 : i.cls ≠ .usagePage) :
    lastSet i.cls (hidDefault i.cls) pre ≠ some i.ival := by
  rw [optimize_eq] at h
  have hloc : ∀ k : SItem, k.1.kind = .loc → (k.1 == i.cls) = false := by
    intro k hl
    simp only [beq_eq_false_iff_ne, ne_eq]
    intro e; rw [e, hk] at hl; simp at hl
  refine repeat_view (c := i.cls)
    (zs := globalMerge.run (physicalMerge.run ((mainMerge reg).run (designatorUniq.run xs)))) ?_ ?_ pre i post h rfl
  · rw [up_view _ (fun k hk' => ?_), rm_view _ hloc reg _ local_usage, rm_view _ hloc reg _ local_desig,
      rm_view _ hloc reg _ local_str]
    rcases hk' with e | e
    · exact hloc k e
    · simp only [beq_eq_false_iff_ne, ne_eq]
      intro e'; exact h3 (e'.symm.trans e)
  · intro p j q hz hj
    have := C19_no_redundant_global _ p q j hz (hj ▸ hk) (hj ▸ h1) (hj ▸ h2)
    rwa [hj] at this

theorem usagePage_lastSet (reg : Registry) (page : Option Int) (xs : List Item)
    (hx : ∀ i ∈ xs, i.cls ≠ .usagePage) :
    ∀ pre i post, (Optimizer.usagePage reg).runFrom page xs = pre ++ i :: post → i.cls = .usagePage →
      lastSet .usagePage page pre ≠ some i.ival := by
  induction xs generalizing page with
  | nil => intro pre i post h; simp [Pass.runFrom] at h
  | cons x xs ih =>
    intro pre i post h hi
    have hxs : ∀ i ∈ xs, i.cls ≠ .usagePage := fun i hi => hx i (by simp [hi])
    have hx1 := hx x (by simp)
    rw [Pass.runFrom_cons] at h
    by_cases hu : usageLike x.cls = true
    · simp only [hu, if_true] at h
      generalize hsp : Usage.split (Usage.lookup reg x.val) = s at h
      obtain ⟨sp, su⟩ := s
      simp only at h
      have hx' : (build reg x.cls su).cls = x.cls := build_cls reg x.cls su
      have hp' : (build reg .usagePage sp).cls = .usagePage := build_cls reg _ _
      by_cases hpg : page = some sp.toInt
      · simp only [hpg, if_true, List.nil_append, List.cons_append] at h
        cases pre with
        | nil =>
          simp only [List.nil_append, List.cons.injEq] at h
          exact absurd (h.1 ▸ hi) (by rw [hx']; exact hx1)
        | cons y pre =>
          simp only [List.cons_append, List.cons.injEq] at h
          have := ih _ hxs pre i post h.2 hi
          rw [hpg]
          rw [lastSet, List.foldl_cons, ← h.1, hx', if_neg hx1]
          exact this
      · simp only [hpg, if_false, List.cons_append, List.nil_append] at h
        cases pre with
        | nil =>
          simp only [List.nil_append, List.cons.injEq] at h
          simp only [lastSet, List.foldl_nil]
          rw [← h.1, build_ival _ _ _ (by simp)]
          exact hpg
        | cons y pre =>
          simp only [List.cons_append, List.cons.injEq] at h
          obtain ⟨rfl, h⟩ := h
          cases pre with
          | nil =>
            simp only [List.nil_append, List.cons.injEq] at h
            exact absurd (h.1 ▸ hi) (by rw [hx']; exact hx1)
          | cons z pre =>
            simp only [List.cons_append, List.cons.injEq] at h
            have := ih _ hxs pre i post h.2 hi
            rw [lastSet, List.foldl_cons, List.foldl_cons, ← h.1, hx', if_neg hx1, hp', if_pos rfl, build_ival _ _ _ (by simp)]
            exact this
    · simp only [hu, hx1, if_false, List.cons_append, List.nil_append, Bool.false_eq_true] at h
      cases pre with
      | nil =>
        simp only [List.nil_append, List.cons.injEq] at h
        exact absurd (h.1 ▸ hi) hx1
      | cons y pre =>
        simp only [List.cons_append, List.cons.injEq] at h
        have := ih _ hxs pre i post h.2 hi
        rw [lastSet, List.foldl_cons, ← h.1, if_neg hx1]
        exact this

/-- **C57 (partial).** When the stream has full usages and no UsagePage items, as compiled
descriptors, the optimized stream never sets the usage page already in force.  Missing, and false of
the code: streams with UsagePage items (`C57_explicit_page_repeats`). -/
theorem C57_no_redundant_page_partial (reg : Registry) (xs pre post : List Item) (i : Item)
    (hx : ∀ i ∈ xs, i.cls ≠ .usagePage) (h : optimize reg xs = pre ++ i :: post) (hi : i.cls = .usagePage) :
    lastSet .usagePage none pre ≠ some i.ival := by
  rw [optimize_eq] at h
  let P : SItem → Bool := fun k => k.1 == .usagePage
  have hP : ∀ k : SItem, k.1 ≠ .usagePage → P k = false := fun k hk => by simpa [P] using hk
  have hloc : ∀ k : SItem, k.1.kind = .loc → P k = false := by
    intro k hk; apply hP; intro e; rw [e] at hk; simp [Cls.kind] at hk
  have hnil : ∀ ys : List Item, (∀ i ∈ ys, i.cls ≠ .usagePage) ↔ view P ys = [] := by
    intro ys
    constructor
    · intro hy
      exact view_all_false P ys (fun i hi => hP _ (hy i hi))
    · intro hy i hi e
      have : i.key ∈ view P ys := by
        unfold view
        rw [List.mem_filter]
        exact ⟨List.mem_map.mpr ⟨i, hi, rfl⟩, by simp [P, Item.key, e]⟩
      rw [hy] at this
      simp at this
  refine usagePage_lastSet reg none _ ?_ pre i post h hi
  rw [hnil, rm_view P hloc reg _ local_usage, rm_view P hloc reg _ local_desig, rm_view P hloc reg _ local_str, ← hnil]
  apply keeps_gm
  rw [hnil, pm_view P (fun k h => hP k (by rcases h with h | h <;> rw [h] <;> simp)),
    mm_view P (fun k h => hP k (by
      rcases h with h | h
      · intro e; rw [e] at h; simp [Cls.isData] at h
      · rw [h]; simp)), du_view P hloc, ← hnil]
  exact hx

/-- Left out of C57, and false: a page given explicitly after the pass has written it. -/
theorem C57_explicit_page_repeats :
    keys (optimize [] [⟨.usage, .int 0x10002⟩, ⟨.collection, .int 1⟩, ⟨.usagePage, .int 1⟩, ⟨.endCollection, .int 0⟩])
    = [(.usagePage, 1), (.usage, 2), (.collection, 1), (.usagePage, 1), (.endCollection, 0)] := by
  decide +kernel

/-- The hypotheses are met by a stream whose optimized form has pages and globals. -/
example : (∀ i ∈ mergeSample, i.cls ≠ .usagePage) ∧
    (keys (optimize [] mergeSample)).any (fun k => k.1 == .usagePage) = true ∧
    (keys (optimize [] mergeSample)).any (fun k => k.1 == .logMax) = true := by decide +kernel

end Hrdc
