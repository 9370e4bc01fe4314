import Verif.Proofs.Bits
import Verif.Proofs.Made
import Verif.Model.Converter
import Verif.Props.Streams
/-!
# C20, C25, C26, C27: main merging, the whole optimizer
-/
namespace Hrdc
open Spec Optimizer

/-! ## Rules agree on long usages -/

/-- A host all of whose usages are complete sees the same records under both page rules. -/
theorem recs_long (xs : List Item) (hl : LongUsages xs) (h : Host)
    (hu : h.usages.All (fun v => 65536 ≤ v)) :
    recs .atMain h (keys xs) = recs .atUsage h (keys xs) := by
  induction xs generalizing h with
  | nil => rfl
  | cons x xs ih =>
    have hl' : LongUsages xs := fun i hi => hl i (by simp [hi])
    have hstep : h.step .atMain x.key = h.step .atUsage x.key ∧
        (h.step .atUsage x.key).usages.All (fun v => 65536 ≤ v) := by
      by_cases hx : usageLike x.cls = true
      · have hv := hl x (by simp) hx
        have e1 := declare_long .atUsage (h.g .usagePage) _ hv
        have e2 := declare_long .atMain (h.g .usagePage) _ hv
        have a1 := Decl.all_one hu hv
        have a2 := Decl.all_setLo hu hv
        have a3 := Decl.all_setHi hu hv
        obtain ⟨c, v⟩ := x
        cases c <;> simp [usageLike] at hx <;>
          simp_all [Host.step, Item.key]
      · obtain ⟨c, v⟩ := x
        cases c <;> first
          | exact absurd rfl hx
          | exact ⟨rfl, hu⟩
          | (refine ⟨rfl, ?_⟩; simp [Host.step, Item.key, Decl.All]; done)
          | (refine ⟨rfl, ?_⟩; simp only [Host.step, Item.key]; split <;> exact hu)
    rw [keys_cons, recs_cons, recs_cons, hstep.1, ih hl' _ hstep.2]
    congr 1
    split
    · have : h.usages.values (PageRule.atMain.consume (h.g .usagePage))
          = h.usages.values (PageRule.atUsage.consume (h.g .usagePage)) := by
        apply Decl.values_congr
        intro r hr
        have := hu.1 r hr
        simp only [PageRule.consume, full]
        rw [if_neg (by omega), if_neg (by omega)]
        exact ⟨rfl, rfl⟩
      simp only [Host.main, this]
    · rfl

/-- Nor does the rule matter while the page is 0. -/
theorem recs_zero (xs : List Item) (hl : PagelessUsages xs) (h : Host) (hz : PageZero h) :
    recs .atMain h (keys xs) = recs .atUsage h (keys xs) := by
  induction xs generalizing h with
  | nil => rfl
  | cons x xs ih =>
    have hl' : PagelessUsages xs := fun i hi => hl i (by simp [hi])
    have hstep : h.step .atMain x.key = h.step .atUsage x.key := by
      have e1 := fun v => declare_zero .atUsage v
      have e2 := fun v => declare_zero .atMain v
      obtain ⟨c, v⟩ := x
      cases c <;> simp [Host.step, Item.key, hz.1, e1, e2]
    have hz' := pageZero_step .atUsage h x.key hz (hl x (by simp)).2
    rw [keys_cons, recs_cons, recs_cons, hstep, ih hl' _ hz']
    congr 1
    split
    · have e : PageRule.atMain.consume 0 = PageRule.atUsage.consume 0 := by
        rw [consume_zero, consume_zero]
      simp only [Host.main, hz.1, e]
    · rfl

theorem recs_full (xs : List Item) (hl : FullUsages xs) :
    recs .atMain {} (keys xs) = recs .atUsage {} (keys xs) := by
  rcases hl with hl | hl
  · exact recs_long xs hl {} (by simp [Decl.All])
  · exact recs_zero xs hl {} ⟨rfl, by simp⟩

theorem meaning_full (rule rule' : PageRule) (xs : List Item) (hl : FullUsages xs) :
    meaning rule (keys xs) = meaning rule' (keys xs) := by
  have := recs_full xs hl
  cases rule <;> cases rule' <;> simp [meaning, eventsFrom, this]

/-! ## C20 -/

/-- C20.  Merging consecutive data items leaves the meaning unchanged, for streams without Push/Pop
where: items that get merged have corresponding index lists (`mergeSafe`), no range is left open at
a data item, and the last main item is not a data item (it is an EndCollection in every balanced
descriptor).  Usages are completed where they are declared. -/
theorem C20_main_merge_meaning_partial (reg : Registry) (xs : List Item) (hp : NoPushPop xs)
    (hsafe : mergeSafe (recs .atUsage {} (keys xs)) = true)
    (hcl : rangesClosed .atUsage {} (keys xs) = true) (htr : trailing true xs = true) :
    meaning .atUsage (keys ((mainMerge reg).run xs)) = meaning .atUsage (keys xs) :=
  mainMerge_run_events reg xs hp hsafe hcl htr

/-- C20 for both page rules when usages are complete, as in compiled descriptors. -/
theorem C20_main_merge_meaning_full_partial (reg : Registry) (rule : PageRule) (xs : List Item)
    (hp : NoPushPop xs) (hl : FullUsages xs)
    (hsafe : mergeSafe (recs rule {} (keys xs)) = true)
    (hcl : rangesClosed .atUsage {} (keys xs) = true) (htr : trailing true xs = true) :
    meaning rule (keys ((mainMerge reg).run xs)) = meaning rule (keys xs) := by
  obtain ⟨m, hm, ht⟩ := tame_full hp hl
  have hl2 : FullUsages ((mainMerge reg).run xs) := (full_tame hm (tame_mm m reg xs ht)).2
  have hr := recs_full xs hl
  rw [meaning_full rule .atUsage _ hl2, meaning_full rule .atUsage _ hl]
  apply mainMerge_run_events reg xs hp _ hcl htr
  cases rule
  · exact hsafe
  · rw [← hr]; exact hsafe

/-- Two buttons with their usages, a padding field and a second report, in a collection: the
buttons merge. -/
def mergeSample : List Item :=
  [⟨.usage, .int 0x10002⟩, ⟨.collection, .int 1⟩,
   ⟨.usage, .int 0x90001⟩, ⟨.logMin, .int 0⟩, ⟨.logMax, .int 1⟩, ⟨.reportSize, .int 1⟩,
   ⟨.reportCount, .int 1⟩, ⟨.input, .int 2⟩,
   ⟨.usage, .int 0x90002⟩, ⟨.logMin, .int 0⟩, ⟨.logMax, .int 1⟩, ⟨.reportSize, .int 1⟩,
   ⟨.reportCount, .int 1⟩, ⟨.input, .int 2⟩,
   ⟨.reportSize, .int 6⟩, ⟨.reportCount, .int 1⟩, ⟨.input, .int 3⟩,
   ⟨.endCollection, .int 0⟩]

example : NoPushPop mergeSample ∧ LongUsages mergeSample ∧
    mergeSafe (recs .atUsage {} (keys mergeSample)) = true ∧
    rangesClosed .atUsage {} (keys mergeSample) = true ∧ trailing true mergeSample = true ∧
    physSafe .zero (fun _ => none) mergeSample = true ∧
    (keys ((mainMerge []).run mergeSample)).filter (fun k => k.1 == .input || k.1 == .reportCount)
      = [(.reportCount, 2), (.input, 2), (.reportCount, 1), (.input, 3)] := by decide +kernel

/-- Left out of C20, and false: two one-element arrays of different choices become one array of two
elements, each choosing from all four usages. -/
theorem C20_arrays_break (rule : PageRule) :
    let xs : List Item :=
      [⟨.logMin, .int 0⟩, ⟨.logMax, .int 1⟩, ⟨.reportSize, .int 1⟩, ⟨.reportCount, .int 1⟩,
       ⟨.usage, .int 0x90001⟩, ⟨.usage, .int 0x90002⟩, ⟨.input, .int 0⟩,
       ⟨.usage, .int 0x90003⟩, ⟨.usage, .int 0x90004⟩, ⟨.input, .int 0⟩, ⟨.endCollection, .int 0⟩]
    meaning rule (keys ((mainMerge []).run xs)) ≠ meaning rule (keys xs) := by
  cases rule <;> decide +kernel

/-- Left out of C20, and false: the string of the second of two merged fields goes to the first. -/
theorem C20_strings_break (rule : PageRule) :
    let xs : List Item :=
      [⟨.logMin, .int 0⟩, ⟨.logMax, .int 1⟩, ⟨.reportSize, .int 1⟩, ⟨.reportCount, .int 1⟩,
       ⟨.usage, .int 0x90001⟩, ⟨.input, .int 2⟩,
       ⟨.usage, .int 0x90002⟩, ⟨.strIndex, .int 4⟩, ⟨.input, .int 2⟩, ⟨.endCollection, .int 0⟩]
    meaning rule (keys ((mainMerge []).run xs)) ≠ meaning rule (keys xs) := by
  cases rule <;> decide +kernel

/-- Left out of C20, and false: data items at the very end of the stream are sent on with the wrong
report count. -/
theorem C20_trailing_breaks (rule : PageRule) :
    let xs : List Item :=
      [⟨.reportSize, .int 8⟩, ⟨.reportCount, .int 1⟩, ⟨.input, .int 2⟩, ⟨.input, .int 2⟩,
       ⟨.output, .int 2⟩]
    meaning rule (keys ((mainMerge []).run xs)) ≠ meaning rule (keys xs) := by
  cases rule <;> decide +kernel

/-- Left out of C20, and false: Push and Pop are not followed. -/
theorem C20_push_pop_breaks (rule : PageRule) :
    let xs : List Item :=
      [⟨.reportSize, .int 8⟩, ⟨.reportCount, .int 1⟩, ⟨.push, .int 0⟩, ⟨.reportCount, .int 2⟩,
       ⟨.pop, .int 0⟩, ⟨.input, .int 2⟩, ⟨.endCollection, .int 0⟩]
    meaning rule (keys ((mainMerge []).run xs)) ≠ meaning rule (keys xs) := by
  cases rule <;> decide +kernel

/-! ## Stages of the optimizer -/

/-- A pass, run when its precedence is selected. -/
def stage (reg : Registry) (min max : Int) (p : PassId) (xs : List Item) : List Item :=
  if min < precedence p ∧ precedence p < max then (pass reg p).run xs else xs

theorem new_run (reg : Registry) (min max : Int) (xs : List Item) :
    (new reg min max Pass.sink).run xs = stage reg min max .usagePage (stage reg min max .usageMerge
      (stage reg min max .designatorMerge (stage reg min max .stringMerge
      (stage reg min max .globalMerge (stage reg min max .physicalMerge
      (stage reg min max .mainMerge (stage reg min max .designatorUniq xs))))))) := by
  have hs : sortPasses registry = [.usagePage, .usageMerge, .designatorMerge,
      .stringMerge, .globalMerge, .physicalMerge, .mainMerge, .designatorUniq] := by decide +kernel
  have hw : ∀ (p : PassId) (s : Pass) (ys : List Item),
      (if min < precedence p ∧ precedence p < max then (pass reg p).wrap s else s).run ys
        = s.run (stage reg min max p ys) := by
    intro p s ys
    unfold stage
    split
    · rw [Pass.wrap_run]
    · rfl
  unfold new
  rw [hs]
  simp only [List.foldl_cons, List.foldl_nil, hw, Pass.sink_run]

/-- Something every pass keeps is kept by the optimizer. -/
theorem stage_keeps (reg : Registry) (min max : Int) (p : PassId) {α : Type} (f : List Item → α)
    (h : ∀ ys, f ((pass reg p).run ys) = f ys) (xs : List Item) :
    f (stage reg min max p xs) = f xs := by
  unfold stage; split
  · exact h xs
  · rfl

theorem stage_pres (reg : Registry) (min max : Int) (p : PassId) (P : List Item → Prop)
    (h : ∀ ys, P ys → P ((pass reg p).run ys)) {xs : List Item} (hx : P xs) :
    P (stage reg min max p xs) := by
  unfold stage; split
  · exact h xs hx
  · exact hx

/-! ## C26 -/

/-- The Collection and EndCollection items of a stream. -/
def Spec.collections (ks : List SItem) : List SItem :=
  ks.filter (fun k => k.1 == .collection || k.1 == .endCollection)

/-- C26.  Whatever passes are selected and whatever the stream, the sequence of Collection (with
kind) and EndCollection items is unchanged. -/
theorem C26_collections_kept (reg : Registry) (min max : Int) (xs : List Item) :
    collections (keys ((new reg min max Pass.sink).run xs)) = collections (keys xs) := by
  let P : SItem → Bool := fun k => k.1 == .collection || k.1 == .endCollection
  have hP : ∀ k : SItem, k.1.kind = .loc ∨ k.1.kind = .global ∨ k.1.isData = true → P k = false := by
    intro k hk
    obtain ⟨c, v⟩ := k
    cases c <;> first | rfl | (simp [Cls.kind, Cls.isData] at hk)
  have hg : ∀ c : Cls, c = .physMin ∨ c = .physMax ∨ c = .usagePage ∨ c = .reportCount →
      c.kind = .global := by
    intro c hc; rcases hc with rfl | rfl | rfl | rfl <;> rfl
  have hall : ∀ p ys, view P ((pass reg p).run ys) = view P ys := by
    intro p ys
    have hloc : ∀ k : SItem, k.1.kind = .loc → P k = false := fun k h => hP k (Or.inl h)
    have hglob : ∀ k : SItem, k.1.kind = .global → P k = false := fun k h => hP k (Or.inr (Or.inl h))
    cases p with
    | designatorUniq => exact du_view P hloc ys
    | globalMerge => exact gm_view P hglob ys
    | mainMerge => exact mm_view P (fun k h => by
        rcases h with h | h
        · exact hP k (Or.inr (Or.inr h))
        · exact hglob k (hg _ (by simp [h]))) reg ys
    | physicalMerge => exact pm_view P (fun k h => hglob k (hg _ (by
        rcases h with h | h <;> simp [h]))) ys
    | designatorMerge => exact rm_view P hloc reg _ local_desig ys
    | stringMerge => exact rm_view P hloc reg _ local_str ys
    | usageMerge => exact rm_view P hloc reg _ local_usage ys
    | usagePage => exact up_view P (fun k h => by
        rcases h with h | h
        · exact hloc k h
        · exact hglob k (hg _ (by simp [h]))) reg ys
  show view P _ = view P _
  rw [new_run]
  simp only [stage_keeps reg min max _ (view P) (hall _)]

/-! ## C27 -/

/-- Report counts are not negative; true of every item the constructor makes. -/
def CountsOK (xs : List Item) : Prop := ∀ i ∈ xs, i.cls = .reportCount → 0 ≤ i.ival

instance (xs : List Item) : Decidable (CountsOK xs) := by unfold CountsOK; infer_instance

theorem trailing_view (b : Bool) (xs ys : List Item)
    (h : view (fun k => k.1.kind == .main) xs = view (fun k => k.1.kind == .main) ys) :
    trailing b xs = trailing b ys := by
  have key : ∀ (zs : List Item) b, trailing b zs
      = (view (fun k => k.1.kind == .main) zs).foldl (fun _ k => !k.1.isData) b := by
    intro zs
    induction zs with
    | nil => intro b; rfl
    | cons z zs ih =>
      intro b
      rw [view_cons]
      by_cases hk : z.cls.kind = .main
      · simp [trailing, hk, ih]
      · simp [trailing, hk, ih]
  rw [key, key, h]

/-- C27.  Whatever passes are selected, every report keeps its size, for every stream without
Push/Pop whose last main item is not a data item.  No condition on locals, arrays, ranges. -/
theorem C27_report_sizes_kept_partial (reg : Registry) (min max : Int) (rule : PageRule)
    (way : Cls) (id : Int) (xs : List Item) (hp : NoPushPop xs) (hc : CountsOK xs)
    (htr : trailing true xs = true) :
    reportBits way id (meaning rule (keys ((new reg min max Pass.sink).run xs)))
      = reportBits way id (meaning rule (keys xs)) := by
  have hloc : ∀ k : SItem, k.1.kind = .loc → coreItem k = false := core_local
  have hupc : ∀ k : SItem, k.1.kind = .loc ∨ k.1 = .usagePage → coreItem k = false := by
    intro k hk
    rcases hk with h | h
    · exact hloc k h
    · obtain ⟨c, v⟩ := k; simp only at h; subst h; rfl
  have hphc : ∀ k : SItem, k.1 = .physMin ∨ k.1 = .physMax → coreItem k = false := by
    intro k hk
    obtain ⟨c, v⟩ := k; simp only at hk
    rcases hk with rfl | rfl <;> rfl
  -- what each pass keeps
  let Q : List Item → Prop := fun ys => NoPushPop ys ∧
    reportBits way id (meaning rule (keys ys)) = reportBits way id (meaning rule (keys xs))
  have htame : ∀ {ys zs : List Item}, (∀ i ∈ zs, Tame .any i) → NoPushPop zs :=
    fun h => (tame_any _).1 h
  have hview : ∀ (p : PassId), (∀ ys, NoPushPop ys → NoPushPop ((pass reg p).run ys)) →
      (∀ ys, view coreItem ((pass reg p).run ys) = view coreItem ys) →
      ∀ ys, Q ys → Q ((pass reg p).run ys) := by
    intro p h1 h2 ys hy
    refine ⟨h1 ys hy.1, ?_⟩
    rw [← hy.2]
    exact bits_of_view rule rule way id _ _ (h1 ys hy.1) hy.1 (h2 ys)
  rw [new_run]
  suffices h : Q _ from h.2
  apply stage_pres reg min max .usagePage Q (hview _ (fun ys h => tame_up reg ys h)
    (fun ys => up_view coreItem hupc reg ys))
  apply stage_pres reg min max .usageMerge Q (hview _
    (fun ys h => (tame_any _).1 (tame_rm .any reg _ uniform_usage ys ((tame_any _).2 h)))
    (fun ys => rm_view coreItem hloc reg _ local_usage ys))
  apply stage_pres reg min max .designatorMerge Q (hview _
    (fun ys h => (tame_any _).1 (tame_rm .any reg _ uniform_desig ys ((tame_any _).2 h)))
    (fun ys => rm_view coreItem hloc reg _ local_desig ys))
  apply stage_pres reg min max .stringMerge Q (hview _
    (fun ys h => (tame_any _).1 (tame_rm .any reg _ uniform_str ys ((tame_any _).2 h)))
    (fun ys => rm_view coreItem hloc reg _ local_str ys))
  apply stage_pres reg min max .globalMerge Q (fun ys hy =>
    ⟨(tame_any _).1 (tame_gm .any ys ((tame_any _).2 hy.1)),
      (congrArg _ (C18_global_merge_meaning_partial rule ys hy.1)).trans hy.2⟩)
  apply stage_pres reg min max .physicalMerge Q (hview _
    (fun ys h => (tame_any _).1 (tame_pm .any ys ((tame_any _).2 h)))
    (fun ys => pm_view coreItem hphc ys))
  -- main merging needs the two other conditions
  have h1 : Q (stage reg min max .designatorUniq xs) ∧
      CountsOK (stage reg min max .designatorUniq xs) ∧
      trailing true (stage reg min max .designatorUniq xs) = true := by
    refine ⟨stage_pres reg min max .designatorUniq Q (hview _
      (fun ys h => (tame_any _).1 (tame_du .any ys ((tame_any _).2 h)))
      (fun ys => du_view coreItem hloc ys)) ⟨hp, rfl⟩, ?_, ?_⟩
    · exact stage_pres reg min max .designatorUniq CountsOK
        (fun ys h => keeps_du (fun i => i.cls = .reportCount → 0 ≤ i.ival) ys h) hc
    · refine Eq.trans ?_ htr
      exact stage_keeps reg min max .designatorUniq (trailing true) (fun ys =>
        trailing_view true _ _ (du_view _ (by
          intro k hk; simp [hk]) ys)) xs
  obtain ⟨hQ, hC, hT⟩ := h1
  unfold stage
  split
  · exact ⟨(tame_any _).1 (tame_mm .any reg _ ((tame_any _).2 hQ.1)),
      (mm_bits reg rule way id _ hQ.1 hC hT).trans hQ.2⟩
  · exact hQ

example : NoPushPop mergeSample ∧ CountsOK mergeSample ∧ trailing true mergeSample = true ∧
    reportBits .input 0 (meaning .atMain (keys mergeSample)) = 8 ∧
    keys (optimize [] mergeSample) ≠ keys mergeSample := by decide +kernel

/-- Left out of C27, and false: with a data item at the very end a report gets longer. -/
theorem C27_trailing_breaks :
    let xs : List Item :=
      [⟨.reportSize, .int 8⟩, ⟨.reportCount, .int 1⟩, ⟨.input, .int 2⟩, ⟨.input, .int 2⟩,
       ⟨.output, .int 2⟩]
    reportBits .output 0 (meaning .atMain (keys xs)) = 8 ∧
    reportBits .output 0 (meaning .atMain (keys (optimize [] xs))) = 16 := by decide +kernel

/-- Left out of C27, and false: Push/Pop. -/
theorem C27_push_pop_breaks :
    let xs : List Item := [⟨.reportCount, .int 1⟩, ⟨.reportSize, .int 8⟩, ⟨.push, .int 0⟩,
      ⟨.reportSize, .int 16⟩, ⟨.pop, .int 0⟩, ⟨.reportSize, .int 16⟩, ⟨.input, .int 2⟩,
      ⟨.endCollection, .int 0⟩]
    reportBits .input 0 (meaning .atMain (keys xs)) = 16 ∧
    reportBits .input 0 (meaning .atMain (keys (optimize [] xs))) = 8 := by decide +kernel

/-! ## C25 -/

/-- Streams on which the whole optimizer is proved to keep the meaning. -/
structure OptSafe (xs : List Item) : Prop where
  noPushPop : NoPushPop xs
  full : FullUsages xs
  noDesig0 : ∀ i ∈ xs, isDesig0 i = false
  merge : mergeSafe (recs .atUsage {} (keys xs)) = true
  closed : rangesClosed .atUsage {} (keys xs) = true
  phys : physSafe .zero (fun _ => none) xs = true
  trail : trailing true xs = true

/-- Whatever passes are selected, the meaning of a safe stream is kept. -/
theorem optimizer_meaning (reg : Registry) (min max : Int) (xs : List Item) (h : OptSafe xs) :
    meaning .atUsage (keys ((new reg min max Pass.sink).run xs)) = meaning .atUsage (keys xs) := by
  obtain ⟨m, hm, hx⟩ := tame_full h.noPushPop h.full
  -- designators
  have h1 : ∃ ys, stage reg min max .designatorUniq xs = ys ∧ (∀ i ∈ ys, Tame m i) ∧
      mergeSafe (recs .atUsage {} (keys ys)) = true ∧ rangesClosed .atUsage {} (keys ys) = true ∧
      physSafe .zero (fun _ => none) ys = true ∧ trailing true ys = true ∧
      meaning .atUsage (keys ys) = meaning .atUsage (keys xs) := by
    unfold stage
    split
    · obtain ⟨tail, ht, he⟩ := du_eq xs h.noDesig0
      refine ⟨_, rfl, tame_du m xs hx, ?_, ?_, ?_, ?_, ?_⟩
      · have := h.merge
        rw [he, recs_tail _ _ _ _ ht] at this
        exact this
      · have := h.closed
        rw [he, keys_append] at this
        exact rangesClosed_prefix _ _ _ _ this
      · have := h.phys
        rw [he] at this
        exact physSafe_prefix _ _ _ _ this
      · have := h.trail
        rw [he, trailing_tail _ _ _ ht] at this
        exact this
      · conv => rhs; rw [he]
        exact (eventsFrom_tail _ _ _ _ ht).symm
    · exact ⟨_, rfl, hx, h.merge, h.closed, h.phys, h.trail, rfl⟩
  obtain ⟨y1, e1, t1, m1, c1, p1, r1, q1⟩ := h1
  have np1 := (full_tame hm t1).1
  -- main merging
  have h2 : ∃ ys, stage reg min max .mainMerge y1 = ys ∧ (∀ i ∈ ys, Tame m i) ∧
      physSafe .zero (fun _ => none) ys = true ∧
      meaning .atUsage (keys ys) = meaning .atUsage (keys xs) := by
    unfold stage
    split
    · exact ⟨_, rfl, tame_mm m reg y1 t1, physSafe_mm reg y1 r1 p1,
        (mainMerge_run_events reg y1 np1 m1 c1 r1).trans q1⟩
    · exact ⟨_, rfl, t1, p1, q1⟩
  obtain ⟨y2, e2, t2, p2, q2⟩ := h2
  -- the rest
  let Q : List Item → Prop := fun ys => (∀ i ∈ ys, Tame m i) ∧
    meaning .atUsage (keys ys) = meaning .atUsage (keys xs)
  have h3 : Q (stage reg min max .physicalMerge y2) := by
    unfold stage
    split
    · exact ⟨tame_pm m y2 t2, (C21_physical_merge_meaning_partial .atUsage y2
        (full_tame hm t2).1 p2).trans q2⟩
    · exact ⟨t2, q2⟩
  have h4 := stage_pres reg min max .globalMerge Q (fun ys hy => ⟨tame_gm m ys hy.1,
    (C18_global_merge_meaning_partial .atUsage ys (full_tame hm hy.1).1).trans hy.2⟩) h3
  have h5 := stage_pres reg min max .stringMerge Q (fun ys hy =>
    ⟨tame_rm m reg _ uniform_str ys hy.1,
      (C22_string_merge_meaning reg .atUsage ys).trans hy.2⟩) h4
  have h6 := stage_pres reg min max .designatorMerge Q (fun ys hy =>
    ⟨tame_rm m reg _ uniform_desig ys hy.1,
      (C22_designator_merge_meaning reg .atUsage ys).trans hy.2⟩) h5
  have h7 := stage_pres reg min max .usageMerge Q (fun ys hy =>
    ⟨tame_rm m reg _ uniform_usage ys hy.1,
      (C22_usage_merge_meaning_partial reg .atUsage ys (full_tame hm hy.1).2).trans hy.2⟩) h6
  rw [new_run, e1, e2]
  unfold stage at h7 ⊢
  split
  · have ht := full_tame hm h7.1
    exact (C23_usage_page_meaning_partial reg _ ht.2 ht.1).trans h7.2
  · exact h7.2

/-- Items the optimizer sends on can be made by the constructors when its input can. -/
theorem optimizer_made (reg : Registry) (min max : Int) (xs : List Item) (h : ∀ i ∈ xs, i.Made) :
    ∀ i ∈ (new reg min max Pass.sink).run xs, i.Made := by
  let Q : List Item → Prop := fun ys => ∀ i ∈ ys, i.Made
  have hall : ∀ p ys, Q ys → Q ((pass reg p).run ys) := by
    intro p ys hy
    cases p with
    | designatorUniq => exact keeps_du _ ys hy
    | globalMerge => exact keeps_gm _ ys hy
    | mainMerge => exact made_mm reg ys hy
    | physicalMerge => exact keeps_pm _ ys hy
    | designatorMerge => exact made_rm reg _ local_desig ys hy
    | stringMerge => exact made_rm reg _ local_str ys hy
    | usageMerge => exact made_rm reg _ local_usage ys hy
    | usagePage => exact made_up reg ys hy
  rw [new_run]
  have hs := fun p {ys} hy => stage_pres reg min max p Q (hall p) (xs := ys) hy
  exact hs _ (hs _ (hs _ (hs _ (hs _ (hs _ (hs _ (hs _ h)))))))

theorem optimize_made (reg : Registry) (xs : List Item) (h : ∀ i ∈ xs, i.Made) :
    ∀ i ∈ optimize reg xs, i.Made := optimizer_made reg 0 100 xs h

/-- C25.  `converter -O` on a binary descriptor: the output decodes, and a host that completes
usages where they are declared reads the same meaning from it, when the items of the descriptor
are `OptSafe`.  Left out, and false: see the theorems below. -/
theorem C25_converter_meaning_partial (reg : Registry) (uni : Parser.Uni) (b : List UInt8)
    (l : List Item) (hl : Parser.blobParse reg b = (l, none)) (hs : OptSafe l) (b' : List UInt8)
    (hc : Converter.optimized .binary .binary reg uni (.bytes b) = .ok (.bytes b')) :
    ∃ ks ks', readAll b = some ks ∧ readAll b' = some ks' ∧
      meaning .atUsage ks' = meaning .atUsage ks := by
  have hr := ((C08_parse_iff_hid reg b (l.map Item.key)).mp (by rw [hl]; simp)).1
  have hm := (parsed_encodable reg b l hl).1
  simp only [Converter.optimized, Formatter.deliver, hl, Formatter.render] at hc
  cases hb : Formatter.binary (optimize reg l) with
  | error e => rw [hb] at hc; simp [Except.map] at hc
  | ok b2 =>
    rw [hb] at hc
    simp [Except.map] at hc
    subst hc
    exact ⟨_, _, hr, readAll_binary (optimize_made reg l hm) hb, optimizer_meaning reg 0 100 l hs⟩

/-- The bytes of a descriptor to optimize: a mouse's two buttons with 32-bit usages. -/
def optBytes : List UInt8 :=
  [0x0b, 0x02, 0, 1, 0, 0xa1, 0x01, 0x15, 0, 0x25, 1, 0x75, 1, 0x95, 1,
   0x0b, 0x01, 0, 9, 0, 0x81, 2, 0x0b, 0x02, 0, 9, 0, 0x81, 2, 0x75, 6, 0x81, 3, 0xc0]

theorem optSafe_iff (xs : List Item) : OptSafe xs ↔ (NoPushPop xs ∧ FullUsages xs ∧
    (∀ i ∈ xs, isDesig0 i = false) ∧ mergeSafe (recs .atUsage {} (keys xs)) = true ∧
    rangesClosed .atUsage {} (keys xs) = true ∧ physSafe .zero (fun _ => none) xs = true ∧
    trailing true xs = true) :=
  ⟨fun h => ⟨h.1, h.2, h.3, h.4, h.5, h.6, h.7⟩, fun ⟨a, b, c, d, e, f, g⟩ => ⟨a, b, c, d, e, f, g⟩⟩

instance (xs : List Item) : Decidable (OptSafe xs) := decidable_of_iff _ (optSafe_iff xs).symm

example : (Parser.blobParse [] optBytes).2 = none ∧ OptSafe (Parser.blobParse [] optBytes).1 ∧
    Converter.optimized .binary .binary [] ⟨fun _ => false, fun _ => false⟩ (.bytes optBytes)
      = .ok (.bytes [0x05, 1, 0x09, 2, 0xa1, 1, 0x15, 0, 0x25, 1, 0x75, 1, 0x95, 2, 0x05, 9, 0x09, 1,
          0x09, 2, 0x81, 2, 0x75, 6, 0x95, 1, 0x81, 3, 0xc0]) := by
  decide +kernel

/-- C25.  Nothing is written when the input cannot be read, in any formats: the error of the reader is
raised.  A binary descriptor cannot be read when no HID host can read it. -/
theorem C25_unreadable (reg : Registry) (uni : Parser.Uni) :
    (∀ f g d e, (Formatter.deliver f reg uni d).2 = some e → Converter.optimized f g reg uni d = .error e) ∧
    (∀ g b, readAll b = none → ∃ e, Converter.optimized .binary g reg uni (.bytes b) = .error e) := by
  have herr : ∀ f g d e, (Formatter.deliver f reg uni d).2 = some e → Converter.optimized f g reg uni d = .error e := by
    intro f g d e h
    obtain ⟨l, hl⟩ : ∃ l, Formatter.deliver f reg uni d = (l, some e) := ⟨_, by rw [← h]⟩
    simp only [Converter.optimized, hl]
  refine ⟨herr, fun g b hb => ?_⟩
  cases hp : (Parser.blobParse reg b).2 with
  | some e => exact ⟨e, herr .binary g (.bytes b) e hp⟩
  | none =>
    have := ((C08_parse_iff_hid reg b _).mp ⟨hp, rfl⟩).1
    rw [hb] at this
    simp at this

example : readAll [0x05, 0x01, 0x09] = none := by decide +kernel

/-- C25 is false in general, even on the simplest usual descriptor: UsagePage(Desktop),
Usage(Keyboard), Collection(Application), EndCollection.  The optimized descriptor declares usage 6
of page 0. -/
theorem C25_short_usages_break (uni : Parser.Uni) :
    Converter.optimized .binary .binary [] uni (.bytes [0x05, 1, 0x09, 6, 0xa1, 1, 0xc0])
      = .ok (.bytes [0x05, 1, 0x05, 0, 0x09, 6, 0xa1, 1, 0xc0]) ∧
    ∀ rule, (readAll [0x05, 1, 0x05, 0, 0x09, 6, 0xa1, 1, 0xc0]).map (meaning rule)
      ≠ (readAll [0x05, 1, 0x09, 6, 0xa1, 1, 0xc0]).map (meaning rule) := by
  refine ⟨?_, ?_⟩
  · rw [Converter.optimized, Formatter.deliver]; decide +kernel
  · intro rule; cases rule <;> decide +kernel

/-! ### Hosts that complete usages at the main item -/

/-- No UsagePage, Push or Pop item stands between a usage and the main item that consumes it;
`pending`: a usage was met since the last main item. -/
def pageSteady (pending : Bool) : List SItem → Bool
  | [] => true
  | i :: r =>
    if i.1.kind = .main then pageSteady false r
    else if usageLike i.1 then pageSteady true r
    else if i.1 = .usagePage ∨ i.1 = .pop then !pending && pageSteady pending r
    else pageSteady pending r

/-- Hosts of the two rules reading the same steady stream. -/
def SteadyRel (pending : Bool) (a b : Host) : Prop :=
  a.g = b.g ∧ a.stack = b.stack ∧ a.strings = b.strings ∧ a.desigs = b.desigs ∧
  b.usages = a.usages.mapD (full (a.g .usagePage)) ∧ (pending = false → a.usages = {})

theorem steady_events (ks : List SItem) (pending : Bool) (a b : Host) (hr : SteadyRel pending a b)
    (hs : pageSteady pending ks = true) : eventsFrom .atMain a ks = eventsFrom .atUsage b ks := by
  induction ks generalizing pending a b with
  | nil => rfl
  | cons k ks ih =>
    obtain ⟨ga, sa, ua, ta, da⟩ := a
    obtain ⟨gb, sb, ub, tb, db⟩ := b
    obtain ⟨h1, h2, h3, h4, h5, h6⟩ := hr
    simp only at h1 h2 h3 h4 h5 h6
    subst h1 h2 h3 h4 h5
    rw [eventsFrom_cons, eventsFrom_cons]
    by_cases hm : k.1.kind = .main
    · simp only [pageSteady, hm, if_true] at hs
      have hmain : Host.main .atMain ⟨ga, sa, ua, ta, da⟩ k
          = Host.main .atUsage ⟨ga, sa, ua.mapD (full (ga .usagePage)), ta, da⟩ k := by
        simp only [Host.main, MainRec.mk.injEq, true_and, and_true]
        rw [Decl.mapD_values]
        rfl
      simp only [hm, if_true, hmain]
      congr 1
      apply ih false _ _ _ hs
      obtain ⟨c, v⟩ := k
      cases c <;> first
        | exact ⟨rfl, rfl, rfl, rfl, rfl, fun _ => rfl⟩
        | (simp [Cls.kind] at hm; done)
    · simp only [hm, if_false, List.nil_append]
      by_cases hu : usageLike k.1 = true
      · simp only [pageSteady, hm, if_false, hu, if_true] at hs
        apply ih true _ _ _ hs
        obtain ⟨c, v⟩ := k
        cases c <;> simp [usageLike] at hu
        · exact ⟨rfl, rfl, rfl, rfl, (Decl.mapD_one _ _ _).symm, by simp⟩
        · exact ⟨rfl, rfl, rfl, rfl, (Decl.mapD_setLo _ _ _).symm, by simp⟩
        · exact ⟨rfl, rfl, rfl, rfl, (Decl.mapD_setHi _ _ _).symm, by simp⟩
      · simp only [pageSteady, hm, if_false, hu, Bool.false_eq_true] at hs
        by_cases hp : k.1 = .usagePage ∨ k.1 = .pop
        · rw [if_pos hp, Bool.and_eq_true] at hs
          have hpd : pending = false := by simpa using hs.1
          have := h6 hpd
          subst this
          apply ih pending _ _ _ hs.2
          obtain ⟨c, v⟩ := k
          rcases hp with hp | hp
          · simp only at hp; subst hp
            exact ⟨rfl, rfl, rfl, rfl, rfl, fun _ => rfl⟩
          · simp only at hp; subst hp
            cases sa with
            | nil => exact ⟨rfl, rfl, rfl, rfl, rfl, fun _ => rfl⟩
            | cons g r => exact ⟨rfl, rfl, rfl, rfl, rfl, fun _ => rfl⟩
        · rw [if_neg hp] at hs
          apply ih pending _ _ _ hs
          obtain ⟨c, v⟩ := k
          cases c <;> first
            | exact ⟨rfl, rfl, rfl, rfl, rfl, h6⟩
            | (simp [Cls.kind] at hm; done)
            | (simp [usageLike] at hu; done)
            | (simp at hp; done)

/-- Both sorts of hosts read a steady stream alike. -/
theorem meaning_steady (rule rule' : PageRule) (ks : List SItem) (hs : pageSteady false ks = true) :
    meaning rule ks = meaning rule' ks := by
  have := steady_events ks false {} {} ⟨rfl, rfl, rfl, rfl, rfl, fun _ => rfl⟩ hs
  cases rule <;> cases rule' <;> simp [meaning, this]

/-- C25 for hosts that complete usages at the main item: the meaning is kept whenever no UsagePage
item of the output stands between a usage and its main item. -/
theorem C25_optimizer_meaning_partial (reg : Registry) (min max : Int) (rule : PageRule)
    (xs : List Item) (h : OptSafe xs)
    (hs : rule = .atUsage ∨ pageSteady false (keys ((new reg min max Pass.sink).run xs)) = true) :
    meaning rule (keys ((new reg min max Pass.sink).run xs)) = meaning rule (keys xs) := by
  rcases hs with rfl | hs
  · exact optimizer_meaning reg min max xs h
  · rw [meaning_steady rule .atUsage _ hs, meaning_full rule .atUsage xs h.full]
    exact optimizer_meaning reg min max xs h

example : OptSafe mergeSample ∧
    pageSteady false (keys ((new [] 0 100 Pass.sink).run mergeSample)) = true := by decide +kernel

end Hrdc
