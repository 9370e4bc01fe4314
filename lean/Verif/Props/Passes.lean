import Verif.Proofs.Hid
/-!
# C18, C19, C26, C28: global merging, collection structure, pass selection
-/
namespace Hrdc
open Spec

/-! ## C28 -/

/-- C28.  `Optimizer.new(stream, min, max)` runs exactly the passes whose precedence lies strictly
between `min` and `max`, highest precedence first, each on the complete output of the previous one,
and hands the result to `stream`. -/
theorem C28_pass_selection (reg : Registry) (min max : Int) :
    ∃ l : List Optimizer.PassId,
      (∀ p, p ∈ l ↔ min < Optimizer.precedence p ∧ Optimizer.precedence p < max) ∧
      l.Pairwise (fun p q => Optimizer.precedence q < Optimizer.precedence p) ∧
      ∀ (stream : Pass) (xs : List Item),
        (Optimizer.new reg min max stream).run xs
          = stream.run (l.foldl (fun ys p => (Optimizer.pass reg p).run ys) xs) := by
  have hs : Optimizer.sortPasses Optimizer.registry = [.usagePage, .usageMerge, .designatorMerge,
      .stringMerge, .globalMerge, .physicalMerge, .mainMerge, .designatorUniq] := by decide +kernel
  let sel : Optimizer.PassId → Bool := fun p =>
    decide (min < Optimizer.precedence p ∧ Optimizer.precedence p < max)
  refine ⟨((Optimizer.sortPasses Optimizer.registry).reverse).filter sel, ?_, ?_, ?_⟩
  · intro p
    rw [hs]
    simp only [List.mem_filter, sel, decide_eq_true_eq]
    constructor
    · exact fun h => h.2
    · intro h; exact ⟨by cases p <;> simp, h⟩
  · rw [hs]
    apply List.Pairwise.filter
    decide +kernel
  · intro stream xs
    unfold Optimizer.new
    generalize Optimizer.sortPasses Optimizer.registry = l
    induction l generalizing stream xs with
    | nil => simp
    | cons p l ih =>
      simp only [List.foldl_cons, List.reverse_cons, List.filter_append, List.foldl_append]
      by_cases hp : min < Optimizer.precedence p ∧ Optimizer.precedence p < max
      · rw [if_pos hp, ih, Pass.wrap_run]
        simp [sel, hp]
      · rw [if_neg hp, ih]
        simp [sel, hp]

/-- The stages of the optimizer and their precedences, the order in which a stream meets them. -/
def stages (reg : Registry) : List (Int × Pass) :=
  [(70, Optimizer.designatorUniq), (60, Optimizer.mainMerge reg), (50, Optimizer.physicalMerge),
    (40, Optimizer.globalMerge), (35, Optimizer.rangeMerge reg Optimizer.strTags),
    (30, Optimizer.rangeMerge reg Optimizer.desigTags), (20, Optimizer.rangeMerge reg Optimizer.usageTags),
    (10, Optimizer.usagePage reg)]

/-- C28, which stage has which precedence.  `Optimizer.new(stream, min, max)` runs those of `stages` whose precedence lies
strictly between `min` and `max`, in that order, and hands the result to `stream`. -/
theorem C28_stages (reg : Registry) (min max : Int) (stream : Pass) (xs : List Item) :
    (Optimizer.new reg min max stream).run xs
      = stream.run (((stages reg).filter (fun s => decide (min < s.1 ∧ s.1 < max))).foldl (fun ys s => s.2.run ys) xs) := by
  have hs : Optimizer.sortPasses Optimizer.registry = [.usagePage, .usageMerge, .designatorMerge,
      .stringMerge, .globalMerge, .physicalMerge, .mainMerge, .designatorUniq] := by decide +kernel
  have hst : stages reg = ((Optimizer.sortPasses Optimizer.registry).map
      (fun p => (Optimizer.precedence p, Optimizer.pass reg p))).reverse := by rw [hs]; rfl
  rw [hst]
  unfold Optimizer.new
  generalize Optimizer.sortPasses Optimizer.registry = l
  induction l generalizing stream xs with
  | nil => simp
  | cons p l ih =>
    simp only [List.foldl_cons, List.map_cons, List.reverse_cons, List.filter_append, List.foldl_append]
    by_cases hp : min < Optimizer.precedence p ∧ Optimizer.precedence p < max
    · rw [if_pos hp, ih, Pass.wrap_run]
      simp [hp]
    · rw [if_neg hp, ih]
      simp [hp]

example : (stages []).length = 8 ∧ ((stages []).filter (fun s => decide (25 < s.1 ∧ s.1 < 65))).length = 5 := by
  decide +kernel

/-- C28, the default bounds.  A command that optimizes runs all the stages. -/
theorem C28_default (reg : Registry) (xs : List Item) :
    Optimizer.optimize reg xs = (stages reg).foldl (fun ys s => s.2.run ys) xs := by
  unfold Optimizer.optimize
  rw [C28_stages, Pass.sink_run]
  rfl

/-- C28, streaming.  Items pushed one by one through nested stages come out as if each stage had
processed the whole output of the one around it. -/
theorem C28_streaming (p q : Pass) (xs : List Item) : (p.wrap q).run xs = q.run (p.run xs) :=
  Pass.wrap_run p q xs

/-- The default optimizer as a composition. -/
theorem optimize_eq (reg : Registry) (xs : List Item) :
    Optimizer.optimize reg xs = (Optimizer.usagePage reg).run
      ((Optimizer.rangeMerge reg Optimizer.usageTags).run
      ((Optimizer.rangeMerge reg Optimizer.desigTags).run
      ((Optimizer.rangeMerge reg Optimizer.strTags).run
      (Optimizer.globalMerge.run
      (Optimizer.physicalMerge.run
      ((Optimizer.mainMerge reg).run
      (Optimizer.designatorUniq.run xs))))))) := by
  have hs : Optimizer.sortPasses Optimizer.registry = [.usagePage, .usageMerge, .designatorMerge,
      .stringMerge, .globalMerge, .physicalMerge, .mainMerge, .designatorUniq] := by decide +kernel
  unfold Optimizer.optimize Optimizer.new
  rw [hs]
  simp [Optimizer.precedence, Pass.wrap_run, Optimizer.pass]

/-- `min = 25, max = 65` keeps five passes. -/
example (reg : Registry) (xs : List Item) :
    (Optimizer.new reg 25 65 Pass.sink).run xs =
      (Optimizer.rangeMerge reg Optimizer.desigTags).run
      ((Optimizer.rangeMerge reg Optimizer.strTags).run
      (Optimizer.globalMerge.run
      (Optimizer.physicalMerge.run ((Optimizer.mainMerge reg).run xs)))) := by
  have hs : Optimizer.sortPasses Optimizer.registry = [.usagePage, .usageMerge, .designatorMerge,
      .stringMerge, .globalMerge, .physicalMerge, .mainMerge, .designatorUniq] := by decide +kernel
  unfold Optimizer.new
  rw [hs]
  simp [Optimizer.precedence, Pass.wrap_run, Optimizer.pass]

/-! ## C18 -/

/-- No Push and no Pop item. -/
def NoPushPop (xs : List Item) : Prop := ∀ i ∈ xs, i.cls ≠ .push ∧ i.cls ≠ .pop

instance (xs : List Item) : Decidable (NoPushPop xs) := by unfold NoPushPop; infer_instance

theorem NoPushPop.cons {x : Item} {xs : List Item} :
    NoPushPop (x :: xs) ↔ (x.cls ≠ .push ∧ x.cls ≠ .pop) ∧ NoPushPop xs := by
  simp [NoPushPop]

/-- Setting a global, for every tag but Push and Pop. -/
theorem step_global (rule : PageRule) (h : Host) (i : Item) (hk : i.cls.kind = .global)
    (h1 : i.cls ≠ .push) (h2 : i.cls ≠ .pop) :
    h.step rule i.key = { h with g := fun c => if c = i.cls then i.ival else h.g c } := by
  obtain ⟨c, v⟩ := i
  cases c <;> first | rfl | simp_all [Cls.kind]

/-- Local and main items leave the globals alone. -/
theorem step_local_g (rule : PageRule) (h : Host) (i : Item) (hk : i.cls.kind ≠ .global) :
    (h.step rule i.key).g = h.g := by
  obtain ⟨c, v⟩ := i
  cases c <;> first | rfl | simp_all [Cls.kind]

/-- The item sets its tag to the value recorded for it. -/
def Redundant (st : Cls → Option Item) (x : Item) : Prop :=
  (∃ j, st x.cls = some j ∧ j.pyEq x = true) ∧ x.cls ≠ .push ∧ x.cls ≠ .pop

theorem gm_drop {st : Cls → Option Item} {x : Item} (hk : x.cls.kind = .global)
    (h : Redundant st x) (xs : List Item) : Optimizer.globalMerge.runFrom st (x :: xs)
      = Optimizer.globalMerge.runFrom (fun c => if c = x.cls then some x else st c) xs := by
  obtain ⟨⟨j, hj, he⟩, h1, h2⟩ := h
  rw [Pass.runFrom_cons]
  simp [Optimizer.globalMerge, hk, hj, he, h1, h2]

theorem gm_keep {st : Cls → Option Item} {x : Item} (hk : x.cls.kind = .global)
    (h : ¬ Redundant st x) (xs : List Item) : Optimizer.globalMerge.runFrom st (x :: xs)
      = x :: Optimizer.globalMerge.runFrom (fun c => if c = x.cls then some x else st c) xs := by
  rw [Pass.runFrom_cons]
  cases hj : st x.cls with
  | none => simp [Optimizer.globalMerge, hk, hj]
  | some j =>
    have : ¬ (j.pyEq x = true ∧ x.cls ≠ .push ∧ x.cls ≠ .pop) := fun hh => h ⟨⟨j, hj, hh.1⟩, hh.2⟩
    by_cases he : j.pyEq x = true
    · have hor : x.cls = .push ∨ x.cls = .pop := by
        by_cases h1 : x.cls = .push
        · exact Or.inl h1
        · by_cases h2 : x.cls = .pop
          · exact Or.inr h2
          · exact absurd ⟨he, h1, h2⟩ this
      simp [Optimizer.globalMerge, hk, hj, hor]
    · simp [Optimizer.globalMerge, hk, hj, he]

theorem gm_other {st : Cls → Option Item} {x : Item} (hk : ¬ x.cls.kind = .global)
    (xs : List Item) : Optimizer.globalMerge.runFrom st (x :: xs)
      = x :: Optimizer.globalMerge.runFrom st xs := by
  rw [Pass.runFrom_cons]
  simp [Optimizer.globalMerge, hk]

theorem globalMerge_recs (rule : PageRule) (st : Cls → Option Item) (h : Host) (xs : List Item)
    (hst : ∀ c j, st c = some j → j.cls = c ∧ j.ival = h.g c) (hp : NoPushPop xs) :
    recs rule h (keys (Optimizer.globalMerge.runFrom st xs)) = recs rule h (keys xs) := by
  induction xs generalizing st h with
  | nil => rfl
  | cons x xs ih =>
    rw [NoPushPop.cons] at hp
    by_cases hk : x.cls.kind = .global
    · have hstep := step_global rule h x hk hp.1.1 hp.1.2
      have hnm : x.key.1.kind ≠ .main := by simp [hk]
      have hst' : ∀ c j, (fun c => if c = x.cls then some x else st c) c = some j →
          j.cls = c ∧ j.ival = (h.step rule x.key).g c := by
        intro c j
        rw [hstep]
        by_cases hc : c = x.cls
        · simp only [hc, if_pos]
          intro h; cases h; simp
        · simp only [hc, if_false]
          intro h'; exact hst c j h'
      by_cases hs : Redundant st x
      · rw [gm_drop hk hs]
        obtain ⟨⟨j, hj, hje⟩, -⟩ := hs
        have hval : x.ival = h.g x.cls := by
          have := (hst _ _ hj).2
          simp [Item.pyEq] at hje
          omega
        have hid : h.step rule x.key = h := by
          rw [hstep, hval]
          cases h with
          | mk g stack u s d =>
            simp only [Host.mk.injEq, and_true]
            funext c
            split
            · next h => rw [h]
            · rfl
        rw [keys_cons, recs_cons, if_neg hnm, List.nil_append, hid]
        rw [hid] at hst'
        exact ih _ h hst' hp.2
      · rw [gm_keep hk hs, keys_cons, keys_cons, recs_cons, recs_cons, ih _ _ hst' hp.2]
    · rw [gm_other hk, keys_cons, keys_cons, recs_cons, recs_cons,
        ih st _ (by rw [step_local_g rule h x hk]; exact hst) hp.2]

theorem globalInit_ok (c : Cls) (j : Item) (hj : Optimizer.globalInit c = some j) :
    j.cls = c ∧ j.ival = 0 := by
  cases c <;> simp [Optimizer.globalInit] at hj <;> subst hj <;> simp [Item.ival, PyVal.toInt]

/-- C18.  Global merging leaves the HID meaning of every stream without Push/Pop unchanged, for
both page rules; in fact every main item keeps its whole context. -/
theorem C18_global_merge_meaning_partial (rule : PageRule) (xs : List Item) (hp : NoPushPop xs) :
    meaning rule (keys (Optimizer.globalMerge.run xs)) = meaning rule (keys xs) := by
  unfold meaning eventsFrom
  have := globalMerge_recs rule Optimizer.globalInit {} xs (fun c j hj => globalInit_ok c j hj) hp
  rw [show Optimizer.globalMerge.run xs = Optimizer.globalMerge.runFrom Optimizer.globalInit xs
    from rfl, this]

/-- What `_partial` leaves out is false: with Push/Pop a needed item is dropped.  ReportSize 8, Push,
ReportSize 16, Pop, ReportSize 16: the last one is taken for redundant. -/
theorem C18_push_pop_breaks :
    ∃ xs : List Item, meaning .atMain (keys (Optimizer.globalMerge.run xs))
      ≠ meaning .atMain (keys xs) := by
  refine ⟨[⟨.reportCount, .int 1⟩, ⟨.reportSize, .int 8⟩, ⟨.push, .int 0⟩, ⟨.reportSize, .int 16⟩,
    ⟨.pop, .int 0⟩, ⟨.reportSize, .int 16⟩, ⟨.input, .int 2⟩], ?_⟩
  decide +kernel

/-- A stream with something to merge. -/
example : NoPushPop [⟨.reportSize, .int 8⟩, ⟨.reportSize, .int 8⟩, ⟨.input, .int 2⟩] ∧
    Optimizer.globalMerge.run [⟨.reportSize, .int 8⟩, ⟨.reportSize, .int 8⟩, ⟨.input, .int 2⟩]
      = [⟨.reportSize, .int 8⟩, ⟨.input, .int 2⟩] := by decide +kernel

/-! ## C19 -/

/-- Value last given to global `c` by a stream read from the left, `v0` before it. -/
def lastSet (c : Cls) (v0 : Option Int) (xs : List Item) : Option Int :=
  xs.foldl (fun v i => if i.cls = c then some i.ival else v) v0

/-- HID default known to the pass. -/
def hidDefault : Cls → Option Int
  | .unit | .unitExp | .physMin | .physMax => some 0
  | _ => none

theorem globalMerge_lastSet (st : Cls → Option Item) (xs : List Item)
    (hst : ∀ c j, st c = some j → j.cls = c) :
    ∀ pre i post, Optimizer.globalMerge.runFrom st xs = pre ++ i :: post →
      i.cls.kind = .global → i.cls ≠ .push → i.cls ≠ .pop →
      lastSet i.cls ((st i.cls).map Item.ival) pre ≠ some i.ival := by
  induction xs generalizing st with
  | nil => intro pre i post h; simp [Pass.runFrom, Optimizer.globalMerge] at h
  | cons x xs ih =>
    intro pre i post h hk h1 h2
    by_cases hx : x.cls.kind = .global
    · have hst' : ∀ c j, (fun c => if c = x.cls then some x else st c) c = some j → j.cls = c := by
        intro c j
        by_cases hc : c = x.cls
        · simp only [hc, if_true]; intro h; cases h; rfl
        · simp only [hc, if_false]; exact hst c j
      by_cases hr : Redundant st x
      · rw [gm_drop hx hr] at h
        have := ih _ hst' pre i post h hk h1 h2
        -- the dropped item carried the value already in force
        have hsame : (st x.cls).map Item.ival = some x.ival := by
          obtain ⟨⟨j, hj, he⟩, -⟩ := hr
          simp [Item.pyEq] at he
          simp [hj, he.2]
        by_cases hi : i.cls = x.cls
        · rw [hi, hsame]; rw [hi] at this; simpa using this
        · simpa [hi] using this
      · rw [gm_keep hx hr] at h
        cases pre with
        | nil =>
          simp only [List.nil_append, List.cons.injEq] at h
          obtain ⟨rfl, _⟩ := h
          simp only [lastSet, List.foldl_nil]
          intro hs
          apply hr
          cases hj : st x.cls with
          | none => simp [hj] at hs
          | some j =>
            simp only [hj, Option.map_some, Option.some.injEq] at hs
            have hjc := hst _ _ hj
            exact ⟨⟨j, hj, by simp [Item.pyEq, hjc, hs]⟩, h1, h2⟩
        | cons y pre =>
          simp only [List.cons_append, List.cons.injEq] at h
          obtain ⟨rfl, h⟩ := h
          have := ih _ hst' pre i post h hk h1 h2
          simp only [lastSet, List.foldl_cons]
          by_cases hi : i.cls = x.cls
          · simp only [hi, if_true] at this ⊢
            simpa [lastSet] using this
          · have hi' : ¬ x.cls = i.cls := fun h => hi h.symm
            simpa [lastSet, hi, hi'] using this
    · rw [gm_other hx] at h
      cases pre with
      | nil =>
        simp only [List.nil_append, List.cons.injEq] at h
        exact absurd (h.1 ▸ hk) hx
      | cons y pre =>
        simp only [List.cons_append, List.cons.injEq] at h
        obtain ⟨rfl, h⟩ := h
        have hne : ¬ x.cls = i.cls := fun h => hx (h ▸ hk)
        have := ih st hst pre i post h hk h1 h2
        simpa [lastSet, hne] using this

/-- C19.  In the output of global merging no global item (Push/Pop aside) repeats the value its tag
already has: the value last set in the output, or the default of Unit, UnitExponent and the physical
bounds.  No hypothesis on the stream. -/
theorem C19_no_redundant_global (xs pre post : List Item) (i : Item)
    (h : Optimizer.globalMerge.run xs = pre ++ i :: post) (hk : i.cls.kind = .global)
    (h1 : i.cls ≠ .push) (h2 : i.cls ≠ .pop) :
    lastSet i.cls (hidDefault i.cls) pre ≠ some i.ival := by
  have := globalMerge_lastSet Optimizer.globalInit xs (fun c j hj => (globalInit_ok c j hj).1)
    pre i post h hk h1 h2
  have hd : (Optimizer.globalInit i.cls).map Item.ival = hidDefault i.cls := by
    cases i.cls <;> rfl
  rwa [hd] at this

/-- A stream without redundant globals goes through unchanged. -/
theorem globalMerge_fixed (st : Cls → Option Item) (ys : List Item)
    (h : ∀ pre i post, ys = pre ++ i :: post → i.cls.kind = .global → i.cls ≠ .push →
      i.cls ≠ .pop → lastSet i.cls ((st i.cls).map Item.ival) pre ≠ some i.ival) :
    Optimizer.globalMerge.runFrom st ys = ys := by
  induction ys generalizing st with
  | nil => rfl
  | cons x xs ih =>
    by_cases hx : x.cls.kind = .global
    · have hr : ¬ Redundant st x := by
        rintro ⟨⟨j, hj, he⟩, h1, h2⟩
        have := h [] x xs rfl hx h1 h2
        simp [Item.pyEq] at he
        simp [lastSet, hj, he.2] at this
      rw [gm_keep hx hr, ih]
      intro pre i post hy hk h1 h2
      have := h (x :: pre) i post (by rw [hy]; rfl) hk h1 h2
      simp only [lastSet, List.foldl_cons] at this ⊢
      by_cases hi : i.cls = x.cls
      · simp only [hi, if_true] at this ⊢; simpa using this
      · have hi' : ¬ x.cls = i.cls := fun h => hi h.symm
        simpa [hi, hi'] using this
    · rw [gm_other hx, ih]
      intro pre i post hy hk h1 h2
      have := h (x :: pre) i post (by rw [hy]; rfl) hk h1 h2
      have hne : ¬ x.cls = i.cls := fun h => hx (h ▸ hk)
      simpa [lastSet, hne] using this

/-- C19.  Running the pass twice gives what running it once gives, for every stream. -/
theorem C19_idempotent (xs : List Item) :
    Optimizer.globalMerge.run (Optimizer.globalMerge.run xs) = Optimizer.globalMerge.run xs := by
  apply globalMerge_fixed
  intro pre i post h hk h1 h2
  have := C19_no_redundant_global xs pre post i h hk h1 h2
  have hd : (Optimizer.globalInit i.cls).map Item.ival = hidDefault i.cls := by
    cases i.cls <;> rfl
  show lastSet i.cls ((Optimizer.globalInit i.cls).map Item.ival) pre ≠ some i.ival
  rwa [hd]

/-- The output is a subsequence of the input: nothing is invented or reordered. -/
theorem C19_sublist (xs : List Item) : (Optimizer.globalMerge.run xs).Sublist xs := by
  have : ∀ st : Cls → Option Item, (Optimizer.globalMerge.runFrom st xs).Sublist xs := by
    intro st
    induction xs generalizing st with
    | nil => exact List.Sublist.refl _
    | cons x xs ih =>
      by_cases hx : x.cls.kind = .global
      · by_cases hr : Redundant st x
        · rw [gm_drop hx hr]; exact (ih _).cons _
        · rw [gm_keep hx hr]; exact (ih _).cons_cons _
      · rw [gm_other hx]; exact (ih _).cons_cons _
  exact this _

end Hrdc
