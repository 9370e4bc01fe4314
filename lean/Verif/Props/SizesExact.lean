import Verif.Props.Merging
/-!
# C27: what optimizing does to report sizes, exactly
-/
namespace Hrdc
open Spec Optimizer

/-- Fields of a group still open at the end of the stream have a report count of 1 each. -/
theorem runs_ones (xs : List SItem) : ∀ (h : Host) (s : Pend), (∀ r ∈ s.group, r.g .reportCount = 1) →
    ∀ r ∈ (runs h s xs).2.group, r.g .reportCount = 1 := by
  induction xs with
  | nil => intro h s hs; exact hs
  | cons x xs ih =>
    intro h s hs
    have hf : ∀ t : Pend, ∀ r ∈ t.flush.group, r.g .reportCount = 1 := fun t r hr => by simp [Pend.flush] at hr
    have ha : ∀ t : Pend, (∀ r ∈ t.group, r.g .reportCount = 1) → (h.main .atUsage x).g .reportCount = 1 →
        ∀ r ∈ (t.add (h.main .atUsage x)).group, r.g .reportCount = 1 := by
      intro t ht h1 r hr
      simp only [Pend.add, List.mem_append, List.mem_singleton] at hr
      rcases hr with hr | rfl
      · exact ht r hr
      · exact h1
    rw [runs]
    by_cases hd : x.1.isData = true
    · simp only [hd, if_true]
      by_cases h1 : (h.main .atUsage x).g .reportCount = 1
      · simp only [h1, if_true]
        split
        · exact ih _ _ (ha s hs h1)
        · exact ih _ _ (ha _ (hf s) h1)
      · simp only [h1, if_false]
        exact ih _ _ (hf _)
    · have hd' : x.1.isData = false := by simpa using hd
      simp only [hd', Bool.false_eq_true, if_false]
      split
      · exact ih _ _ (hf _)
      · split
        · exact ih _ _ (hf _)
        · split
          · exact ih _ { s with after := some x.2 } hs
          · exact ih _ _ hs

theorem bits_flatMap {α : Type} (way : Cls) (id : Int) (f : α → List Event) (l : List α) :
    reportBits way id (l.flatMap f) = (l.map fun a => reportBits way id (f a)).sum := by
  induction l with
  | nil => rfl
  | cons a l ih => rw [List.flatMap_cons, reportBits_append, ih, List.map_cons, List.sum_cons]

/-- A group that is written takes the bits of its members. -/
theorem joined_bits (way : Cls) (id : Int) {h : Host} {g : List MainRec} (hm : Members h g) :
    reportBits way id (joined (total g) g) = reportBits way id (g.flatMap MainRec.events) := by
  obtain ⟨c, v, hd, hg⟩ := hm
  have key : ∀ l : List MainRec, (∀ r ∈ l, r ∈ g) → 0 ≤ total l ∧ reportBits way id (l.flatMap MainRec.events) =
      if c = way ∧ h.g .reportID = id then (h.g .reportSize).toNat * (total l).toNat else 0 := by
    intro l hl
    induction l with
    | nil => refine ⟨by simp [total], ?_⟩; simp [reportBits, total]
    | cons a l ih =>
      obtain ⟨i1, i2⟩ := ih fun r hr => hl r (by simp [hr])
      obtain ⟨a1, a2, a3, a4⟩ := hg a (hl a (by simp))
      rw [totalRec_cons]
      refine ⟨by omega, ?_⟩
      rw [List.flatMap_cons, reportBits_append, i2, rec_bits, a1, a4 .reportSize (by simp [groupTags]),
        a4 .reportID (by simp [groupTags]), Int.toNat_add a3 i1]
      simp only [hd, true_and]
      split
      · rw [Nat.mul_add]
      · rfl
  rw [(key g fun _ h => h).2]
  cases g with
  | nil => simp [joined, total, reportBits]
  | cons a t =>
    obtain ⟨a1, a2, a3, a4⟩ := hg a (by simp)
    rw [joined, rec_bits]
    simp only [a1, hd, true_and, if_true]
    have e1 : (Cls.reportSize = Cls.reportCount) = False := by simp
    have e2 : (Cls.reportID = Cls.reportCount) = False := by simp
    simp only [e1, e2, if_false, a4 .reportSize (by simp [groupTags]), a4 .reportID (by simp [groupTags])]

/-- Bits of a group that is open at the end. -/
theorem close_bits (way : Cls) (id : Int) {h : Host} {s : Pend} (hm : Members h s.group) :
    reportBits way id s.close = (s.group.map fun r =>
      if r.cls = way ∧ r.g .reportID = id then (r.g .reportSize).toNat * (s.before.getD s.written).toNat else 0).sum := by
  obtain ⟨c, v, hd, hg⟩ := hm
  have e1 : (Cls.reportSize = Cls.reportCount) = False := by simp
  have e2 : (Cls.reportID = Cls.reportCount) = False := by simp
  unfold Pend.close
  rw [reportBits_append, bits_flatMap]
  cases hs : s.group with
  | nil => rfl
  | cons a t =>
    rw [hs] at hg
    rw [List.drop_succ_cons, List.drop_zero, List.map_cons, List.sum_cons]
    congr 1
    · rw [joined, rec_bits]
      simp only [(hg a (by simp)).1, hd, true_and, if_true, e1, e2, if_false]
    · congr 1
      apply List.map_congr_left
      intro r hr
      rw [plainRec, rec_bits]
      simp only [(hg r (by simp [hr])).1, hd, true_and, if_true, e1, e2, if_false]

/-- Bits of the group as they were. -/
theorem open_bits (way : Cls) (id : Int) {h : Host} {s : Pend} (hm : Members h s.group)
    (h1 : ∀ r ∈ s.group, r.g .reportCount = 1) :
    reportBits way id (s.group.flatMap MainRec.events) = (s.group.map fun r =>
      if r.cls = way ∧ r.g .reportID = id then (r.g .reportSize).toNat else 0).sum := by
  obtain ⟨c, v, hd, hg⟩ := hm
  rw [bits_flatMap]
  congr 1
  apply List.map_congr_left
  intro r hr
  rw [rec_bits, h1 r hr, (hg r hr).1]
  simp [hd]

/-- The fields that are still to be written at the end of a stream, with the report count that is in force then: the
last ReportCount among them, or else the last one written.  Local items play no part. -/
def openFields (ks : List SItem) : Pend := (runs {} {} (ks.filter fun k => k.1.kind != .loc)).2

/-- `MainMerge` and report sizes. -/
theorem mm_bits_exact (reg : Registry) (rule : PageRule) (way : Cls) (id : Int) (xs : List Item)
    (hp : NoPushPop xs) (hc : CountsOK xs) :
    reportBits way id (meaning rule (keys ((mainMerge reg).run xs))) +
        ((openFields (keys xs)).group.map fun r =>
          if r.cls = way ∧ r.g .reportID = id then (r.g .reportSize).toNat else 0).sum =
      reportBits way id (meaning rule (keys xs)) +
        ((openFields (keys xs)).group.map fun r => if r.cls = way ∧ r.g .reportID = id then
          (r.g .reportSize).toNat * ((openFields (keys xs)).before.getD (openFields (keys xs)).written).toNat else 0).sum := by
  have hmem : ∀ i ∈ strip xs, i ∈ xs ∧ i.cls.kind ≠ .loc := by
    intro i hi
    have := List.mem_filter.1 hi
    exact ⟨this.1, by simpa using this.2⟩
  have hps : NoPushPop (strip xs) := fun i hi => hp i (hmem i hi).1
  have hcs : CountsPos (strip xs) := fun i hi => hc i (hmem i hi).1
  have hpr : NoPushPop ((mainMerge reg).run xs) := (tame_any _).1 (tame_mm .any reg xs ((tame_any _).2 hp))
  have hprs : NoPushPop (strip ((mainMerge reg).run xs)) := fun i hi => hpr i (List.mem_filter.1 hi).1
  have hbare := recs_bare .atUsage (strip xs) (fun i hi => (hmem i hi).2) hps
    (fun i hi => hc i (hmem i hi).1) {} rfl rfl rfl (Int.le_refl 0)
  have hrun : (mainMerge reg).run (strip xs) = strip ((mainMerge reg).run xs) := mm_strip reg xs {} (by simp)
  have hks : keys (strip xs) = (keys xs).filter fun k => k.1.kind != .loc := by
    unfold keys strip
    rw [List.filter_map]
    rfl
  have hof : openFields (keys xs) = (runs {} {} (keys (strip xs))).2 := by rw [openFields, hks]
  rw [bits_of_view rule .atUsage way id _ (strip ((mainMerge reg).run xs)) hpr hprs
    (view_strip coreItem core_local _).symm, ← hrun, mm_run_exact reg _ hbare.1 hps,
    bits_of_view rule .atUsage way id xs (strip xs) hp hps (view_strip coreItem core_local _).symm, mergedEvents, hof]
  have hev := runs_events (keys (strip xs)) {} {}
  simp only [List.flatMap_nil, List.nil_append] at hev
  obtain ⟨m1, h', m2⟩ := runs_members (strip xs) {} {} hps hcs (by decide) ⟨.input, 0, rfl, by simp⟩
  have ones := runs_ones (keys (strip xs)) {} {} (by simp)
  rw [meaning, hev, reportBits_append, reportBits_append, close_bits way id m2, open_bits way id m2 ones, bits_flatMap,
    bits_flatMap]
  have : ((runs {} {} (keys (strip xs))).1.map fun g => reportBits way id (joined (total g) g)) =
      (runs {} {} (keys (strip xs))).1.map fun g => reportBits way id (g.flatMap MainRec.events) := by
    apply List.map_congr_left
    intro g hg
    rcases m1 g hg with ⟨h', hm⟩ | ⟨r, rfl⟩
    · exact joined_bits way id hm
    · rw [joined_single]; simp
  rw [this]
  omega

theorem openFields_members (xs : List Item) (hp : NoPushPop xs) (hc : CountsOK xs) :
    ∃ h, Members h (openFields (keys xs)).group := by
  have hmem : ∀ i ∈ strip xs, i ∈ xs := fun i hi => (List.mem_filter.1 hi).1
  have hks : keys (strip xs) = (keys xs).filter fun k => k.1.kind != .loc := by
    unfold keys strip
    rw [List.filter_map]
    rfl
  rw [openFields, ← hks]
  exact (runs_members (strip xs) {} {} (fun i hi => hp i (hmem i hi)) (fun i hi => hc i (hmem i hi)) (by decide)
    ⟨.input, 0, rfl, by simp⟩).2

/-- C27, exactly.  Whatever passes are selected, every report of a stream without Push/Pop has the size it had, except
that, with main merging, the fields still to be written at the end (`openFields`) get the report count in force then, in
place of 1. -/
theorem C27_exact (reg : Registry) (min max : Int) (rule : PageRule) (way : Cls) (id : Int) (xs : List Item)
    (hp : NoPushPop xs) (hc : CountsOK xs) :
    (¬ (min < 60 ∧ 60 < max) → reportBits way id (meaning rule (keys ((new reg min max Pass.sink).run xs)))
      = reportBits way id (meaning rule (keys xs))) ∧
    (min < 60 ∧ 60 < max → reportBits way id (meaning rule (keys ((new reg min max Pass.sink).run xs))) +
        ((openFields (keys xs)).group.map fun r =>
          if r.cls = way ∧ r.g .reportID = id then (r.g .reportSize).toNat else 0).sum =
      reportBits way id (meaning rule (keys xs)) +
        ((openFields (keys xs)).group.map fun r => if r.cls = way ∧ r.g .reportID = id then
          (r.g .reportSize).toNat * ((openFields (keys xs)).before.getD (openFields (keys xs)).written).toNat else 0).sum) := by
  have hloc : ∀ k : SItem, k.1.kind = .loc → coreItem k = false := core_local
  have hupc : ∀ k : SItem, k.1.kind = .loc ∨ k.1 = .usagePage → coreItem k = false := by
    intro k hk
    rcases hk with h | h
    · exact hloc k h
    · obtain ⟨c, v⟩ := k; simp only at h; subst h; rfl
  have hphc : ∀ k : SItem, k.1 = .physMin ∨ k.1 = .physMax → coreItem k = false := by
    intro k hk
    obtain ⟨c, v⟩ := k; simp only at hk
    rcases hk with rfl | rfl <;> rfl
  let Q : Nat → List Item → Prop := fun n ys => NoPushPop ys ∧ reportBits way id (meaning rule (keys ys)) = n
  have hview : ∀ (n : Nat) (p : PassId), (∀ ys, NoPushPop ys → NoPushPop ((pass reg p).run ys)) →
      (∀ ys, view coreItem ((pass reg p).run ys) = view coreItem ys) →
      ∀ ys, Q n ys → Q n ((pass reg p).run ys) := by
    intro n p h1 h2 ys hy
    refine ⟨h1 ys hy.1, ?_⟩
    rw [← hy.2]
    exact bits_of_view rule rule way id _ _ (h1 ys hy.1) hy.1 (h2 ys)
  -- the passes after main merging
  have hlater : ∀ (n : Nat) (ys : List Item), Q n ys → reportBits way id (meaning rule (keys
      (stage reg min max .usagePage (stage reg min max .usageMerge (stage reg min max .designatorMerge
      (stage reg min max .stringMerge (stage reg min max .globalMerge (stage reg min max .physicalMerge ys)))))))) = n := by
    intro n ys hy
    suffices h : Q n _ from h.2
    apply stage_pres reg min max .usagePage (Q n) (hview n _ (fun ys h => tame_up reg ys h)
      (fun ys => up_view coreItem hupc reg ys))
    apply stage_pres reg min max .usageMerge (Q n) (hview n _
      (fun ys h => (tame_any _).1 (tame_rm .any reg _ uniform_usage ys ((tame_any _).2 h)))
      (fun ys => rm_view coreItem hloc reg _ local_usage ys))
    apply stage_pres reg min max .designatorMerge (Q n) (hview n _
      (fun ys h => (tame_any _).1 (tame_rm .any reg _ uniform_desig ys ((tame_any _).2 h)))
      (fun ys => rm_view coreItem hloc reg _ local_desig ys))
    apply stage_pres reg min max .stringMerge (Q n) (hview n _
      (fun ys h => (tame_any _).1 (tame_rm .any reg _ uniform_str ys ((tame_any _).2 h)))
      (fun ys => rm_view coreItem hloc reg _ local_str ys))
    apply stage_pres reg min max .globalMerge (Q n) (fun ys hy =>
      ⟨(tame_any _).1 (tame_gm .any ys ((tame_any _).2 hy.1)),
        (congrArg _ (C18_global_merge_meaning_partial rule ys hy.1)).trans hy.2⟩)
    exact stage_pres reg min max .physicalMerge (Q n) (hview n _
      (fun ys h => (tame_any _).1 (tame_pm .any ys ((tame_any _).2 h)))
      (fun ys => pm_view coreItem hphc ys)) hy
  -- the pass before
  have hfirst : Q (reportBits way id (meaning rule (keys xs))) (stage reg min max .designatorUniq xs) :=
    stage_pres reg min max .designatorUniq _ (hview _ _
      (fun ys h => (tame_any _).1 (tame_du .any ys ((tame_any _).2 h)))
      (fun ys => du_view coreItem hloc ys)) ⟨hp, rfl⟩
  have hcfirst : CountsOK (stage reg min max .designatorUniq xs) :=
    stage_pres reg min max .designatorUniq CountsOK
      (fun ys h => keeps_du (fun i => i.cls = .reportCount → 0 ≤ i.ival) ys h) hc
  have hofirst : openFields (keys (stage reg min max .designatorUniq xs)) = openFields (keys xs) := by
    unfold openFields
    exact congrArg (fun l => (runs {} {} l).2) (stage_keeps reg min max .designatorUniq
      (view fun k => k.1.kind != .loc) (fun ys => du_view _ (by intro k hk; simp [hk]) ys) xs)
  rw [new_run]
  refine ⟨fun h => ?_, fun h => ?_⟩
  · have : stage reg min max .mainMerge (stage reg min max .designatorUniq xs) = stage reg min max .designatorUniq xs := by
      rw [stage]; exact if_neg h
    rw [this]
    exact hlater _ _ hfirst
  · have : stage reg min max .mainMerge (stage reg min max .designatorUniq xs) =
        (mainMerge reg).run (stage reg min max .designatorUniq xs) := by
      rw [stage]; exact if_pos h
    rw [this, hlater _ _ ⟨(tame_any _).1 (tame_mm .any reg _ ((tame_any _).2 hfirst.1)), rfl⟩]
    have := mm_bits_exact reg rule way id _ hfirst.1 hcfirst
    rw [hofirst, hfirst.2] at this
    exact this

/-- C27.  Every report keeps its size exactly when main merging is not selected or the fields still to be written at the
end are empty or have a report count of 1 there too. -/
theorem C27_iff (reg : Registry) (min max : Int) (rule : PageRule) (xs : List Item) (hp : NoPushPop xs) (hc : CountsOK xs) :
    (∀ way id, reportBits way id (meaning rule (keys ((new reg min max Pass.sink).run xs)))
      = reportBits way id (meaning rule (keys xs))) ↔
    (min < 60 → 60 < max → ∀ r ∈ (openFields (keys xs)).group,
      r.g .reportSize ≤ 0 ∨ (openFields (keys xs)).before.getD (openFields (keys xs)).written = 1) := by
  generalize hn : (openFields (keys xs)).before.getD (openFields (keys xs)).written = n
  refine ⟨fun h h1 h2 r hr => ?_, fun h way id => ?_⟩
  · have he := (C27_exact reg min max rule r.cls (r.g .reportID) xs hp hc).2 ⟨h1, h2⟩
    rw [h, hn] at he
    have he' := Nat.add_left_cancel he
    obtain ⟨H, c, v, -, hg⟩ := openFields_members xs hp hc
    have hconst : ∀ (k : MainRec → Nat) (m : Nat), (∀ q ∈ (openFields (keys xs)).group, k q = m) →
        ((openFields (keys xs)).group.map k).sum = (openFields (keys xs)).group.length * m := by
      intro k m hk
      rw [← sum_replicate, ← List.map_const', List.map_congr_left hk]
    have same : ∀ q ∈ (openFields (keys xs)).group, q.cls = r.cls ∧ q.g .reportID = r.g .reportID ∧
        q.g .reportSize = r.g .reportSize := by
      intro q hq
      refine ⟨(hg q hq).1.trans (hg r hr).1.symm, ?_, ?_⟩
      · rw [(hg q hq).2.2.2 .reportID (by simp [groupTags]), (hg r hr).2.2.2 .reportID (by simp [groupTags])]
      · rw [(hg q hq).2.2.2 .reportSize (by simp [groupTags]), (hg r hr).2.2.2 .reportSize (by simp [groupTags])]
    rw [hconst _ (r.g .reportSize).toNat (fun q hq => by rw [if_pos ⟨(same q hq).1, (same q hq).2.1⟩, (same q hq).2.2]),
      hconst _ ((r.g .reportSize).toNat * n.toNat)
        (fun q hq => by rw [if_pos ⟨(same q hq).1, (same q hq).2.1⟩, (same q hq).2.2])] at he'
    have hpos : 0 < (openFields (keys xs)).group.length := List.length_pos_of_mem hr
    have he2 := Nat.eq_of_mul_eq_mul_left hpos he'
    by_cases hz : (r.g .reportSize).toNat = 0
    · exact Or.inl (by omega)
    · right
      have : (r.g .reportSize).toNat * 1 = (r.g .reportSize).toNat * n.toNat := by rw [Nat.mul_one]; exact he2
      have := Nat.eq_of_mul_eq_mul_left (Nat.pos_of_ne_zero hz) this
      omega
  · by_cases hs : min < 60 ∧ 60 < max
    · have he := (C27_exact reg min max rule way id xs hp hc).2 hs
      rw [hn] at he
      have : ((openFields (keys xs)).group.map fun r => if r.cls = way ∧ r.g .reportID = id then
          (r.g .reportSize).toNat else 0) = (openFields (keys xs)).group.map fun r =>
          if r.cls = way ∧ r.g .reportID = id then (r.g .reportSize).toNat * n.toNat else 0 := by
        apply List.map_congr_left
        intro r hr
        split
        · rcases h hs.1 hs.2 r hr with h | h
          · rw [show (r.g .reportSize).toNat = 0 by omega]; simp
          · rw [h]; simp
        · rfl
      rw [this] at he
      exact Nat.add_right_cancel he
    · exact (C27_exact reg min max rule way id xs hp hc).1 hs

/-! ## Cases -/

/-- Two fields merged before an Output item at the very end, with the report count 2 of the merged ones. -/
def leftOpen : List Item :=
  [⟨.reportSize, .int 8⟩, ⟨.reportCount, .int 1⟩, ⟨.input, .int 2⟩, ⟨.input, .int 2⟩, ⟨.output, .int 2⟩]

example : NoPushPop leftOpen ∧ CountsOK leftOpen ∧ (openFields (keys leftOpen)).group.length = 1 ∧
    (openFields (keys leftOpen)).before.getD (openFields (keys leftOpen)).written = 2 ∧
    ¬ ∀ way id, reportBits way id (meaning .atMain (keys ((new [] 0 100 Pass.sink).run leftOpen)))
      = reportBits way id (meaning .atMain (keys leftOpen)) := by
  refine ⟨by decide +kernel, by decide +kernel, by decide +kernel, by decide +kernel, ?_⟩
  rw [C27_iff [] 0 100 .atMain leftOpen (by decide +kernel) (by decide +kernel)]
  intro h
  exact absurd (h (by decide) (by decide)) (by decide +kernel)

/-- Fields at the very end that keep their size: nothing was merged before. -/
example : let xs := leftOpen.take 4
    (openFields (keys xs)).group.length = 2 ∧ ∀ way id,
    reportBits way id (meaning .atMain (keys ((new [] 0 100 Pass.sink).run xs)))
      = reportBits way id (meaning .atMain (keys xs)) :=
  ⟨by decide +kernel, (C27_iff [] 0 100 .atMain (leftOpen.take 4) (by decide +kernel) (by decide +kernel)).2
    (fun _ _ => by decide +kernel)⟩

end Hrdc
