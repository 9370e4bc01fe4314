import Verif.Props.Counted
import Verif.Props.Compile3
import Verif.Proofs.Read
import Verif.Spec.Frame
import Verif.Props.Data
/-!
# C81: optimizing keeps the fields, whatever their usages
-/
namespace Hrdc
open Spec Optimizer Streamer

/-- Globals that are part of a frame. -/
def frameTags : List Cls := [.reportSize, .reportCount, .reportID, .logMin, .logMax, .unit, .unitExp]

/-- Items that determine the frame. -/
def frameItem (k : SItem) : Bool := k.1.kind == .main || frameTags.contains k.1

def SameFrame (a b : Host) : Prop := ∀ t ∈ frameTags, a.g t = b.g t

theorem frame_rec {r s : MainRec} (hc : r.cls = s.cls) (hv : r.val = s.val) (hg : ∀ t ∈ frameTags, r.g t = s.g t) :
    frames r.events = frames s.events := by
  have h1 := hg .reportSize (by decide)
  have h2 := hg .reportCount (by decide)
  have h3 := hg .reportID (by decide)
  have h4 := hg .logMin (by decide)
  have h5 := hg .logMax (by decide)
  have h6 := hg .unit (by decide)
  have h7 := hg .unitExp (by decide)
  have hk : r.isConst = s.isConst := by simp [MainRec.isConst, hv]
  unfold MainRec.events frames
  rw [← hc]
  cases r.cls <;> first
    | rfl
    | (simp only [hk, h1, h2, h3]
       split
       · simp
       · simp only [List.map_map]
         apply List.map_congr_left
         intro k _
         simp [Event.frame, MainRec.attrs, h1, h4, h5, h6, h7, hv])
    | simp [Event.frame, hv]

theorem sameFrame_step (rule rule' : PageRule) {a b : Host} (h : SameFrame a b) (k : SItem)
    (h1 : k.1 ≠ .push) (h2 : k.1 ≠ .pop) : SameFrame (a.step rule k) (b.step rule' k) := by
  obtain ⟨c, v⟩ := k
  intro t ht
  have := h t ht
  cases c <;> simp_all [Host.step]

theorem sameFrame_skip (rule : PageRule) {a b : Host} (h : SameFrame a b) (k : SItem)
    (h1 : k.1 ≠ .push) (h2 : k.1 ≠ .pop) (hc : frameItem k = false) : SameFrame (a.step rule k) b := by
  obtain ⟨c, v⟩ := k
  intro t ht
  have := h t ht
  have hne : t ≠ c := by
    rintro rfl
    simp only [frameItem, Bool.or_eq_false_iff] at hc
    have := hc.2
    simp [ht] at this
  cases c <;> simp_all [Host.step, frameItem, Cls.kind]

/-- Frames depend on nothing but the items of the frame. -/
theorem frames_core (rule rule' : PageRule) (xs : List Item) (a b : Host) (hab : SameFrame a b) (hp : NoPushPop xs) :
    frames (eventsFrom rule a (keys xs)) = frames (eventsFrom rule' b (view frameItem xs)) := by
  induction xs generalizing a b with
  | nil => rfl
  | cons x xs ih =>
    rw [NoPushPop.cons] at hp
    rw [keys_cons, view_cons]
    by_cases hc : frameItem x.key = true
    · rw [if_pos hc, List.cons_append, List.nil_append, eventsFrom_cons, eventsFrom_cons]
      have := ih _ _ (sameFrame_step rule rule' hab x.key hp.1.1 hp.1.2) hp.2
      unfold frames at this ⊢
      rw [List.map_append, List.map_append, this]
      congr 1
      split
      · exact frame_rec rfl rfl (fun t ht => hab t ht)
      · rfl
    · have hc' : frameItem x.key = false := by simpa using hc
      have hm : x.key.1.kind ≠ .main := by
        intro h; simp only [frameItem, h] at hc'; simp at hc'
      rw [if_neg hc, List.nil_append, eventsFrom_cons_of_not_main _ _ _ _ hm]
      exact ih _ _ (sameFrame_skip rule hab x.key hp.1.1 hp.1.2 hc') hp.2

theorem frames_of_view (rule rule' : PageRule) (xs ys : List Item)
    (hx : NoPushPop xs) (hy : NoPushPop ys) (h : view frameItem xs = view frameItem ys) :
    frames (meaning rule (keys xs)) = frames (meaning rule' (keys ys)) := by
  unfold meaning
  rw [frames_core rule rule' xs {} {} (fun _ _ => rfl) hx, h, ← frames_core rule' rule' ys {} {} (fun _ _ => rfl) hy]

theorem frame_local (k : SItem) (h : k.1.kind = .loc) : frameItem k = false := by
  obtain ⟨c, v⟩ := k
  cases c <;> first | rfl | (simp [Cls.kind] at h)

/-- `MainMerge` keeps frames. -/
theorem mm_frames (reg : Registry) (rule : PageRule) (xs : List Item)
    (hp : NoPushPop xs) (hc : CountsOK xs) (htr : trailing true xs = true) :
    frames (meaning rule (keys ((mainMerge reg).run xs))) = frames (meaning rule (keys xs)) := by
  have hmem : ∀ i ∈ strip xs, i ∈ xs ∧ i.cls.kind ≠ .loc := by
    intro i hi
    have := List.mem_filter.1 hi
    exact ⟨this.1, by simpa using this.2⟩
  have hps : NoPushPop (strip xs) := fun i hi => hp i (hmem i hi).1
  have hpr : NoPushPop ((mainMerge reg).run xs) :=
    (tame_any _).1 (tame_mm .any reg xs ((tame_any _).2 hp))
  have hprs : NoPushPop (strip ((mainMerge reg).run xs)) :=
    fun i hi => hpr i (List.mem_filter.1 hi).1
  have hbare := recs_bare .atUsage (strip xs) (fun i hi => (hmem i hi).2) hps
    (fun i hi => hc i (hmem i hi).1) {} rfl rfl rfl (Int.le_refl 0)
  have hrun : (mainMerge reg).run (strip xs) = strip ((mainMerge reg).run xs) :=
    mm_strip reg xs {} (by simp)
  have hev := mainMerge_run_events reg (strip xs) hps (mergeSafe_bare _ hbare.2) hbare.1
    (by rw [trailing_strip]; exact htr)
  rw [frames_of_view rule .atUsage _ (strip ((mainMerge reg).run xs)) hpr hprs
    (view_strip frameItem frame_local _).symm, ← hrun, hev,
    frames_of_view .atUsage rule (strip xs) xs hps hp (view_strip frameItem frame_local _)]

/-- **C81 (partial).** Whatever passes are selected, the collections and the fields of a stream without Push/Pop whose
last main item is not a data item stay: the same fields in the same order, each with its direction, flags, report, size,
logical bounds, unit and exponent.  No condition on usages, strings, designators, arrays, ranges, physical bounds.
Missing, and false of the code: Push/Pop (`C81_push_pop_breaks`) and data items at the very end
(`C81_trailing_breaks`). -/
theorem C81_frames_partial (reg : Registry) (min max : Int) (rule : PageRule) (xs : List Item)
    (hp : NoPushPop xs) (hc : CountsOK xs) (htr : trailing true xs = true) :
    frames (meaning rule (keys ((new reg min max Pass.sink).run xs))) = frames (meaning rule (keys xs)) := by
  have hloc : ∀ k : SItem, k.1.kind = .loc → frameItem k = false := frame_local
  have hupc : ∀ k : SItem, k.1.kind = .loc ∨ k.1 = .usagePage → frameItem k = false := by
    intro k hk
    rcases hk with h | h
    · exact hloc k h
    · obtain ⟨c, v⟩ := k; simp only at h; subst h; rfl
  have hphc : ∀ k : SItem, k.1 = .physMin ∨ k.1 = .physMax → frameItem k = false := by
    intro k hk
    obtain ⟨c, v⟩ := k; simp only at hk
    rcases hk with rfl | rfl <;> rfl
  let Q : List Item → Prop := fun ys => NoPushPop ys ∧
    frames (meaning rule (keys ys)) = frames (meaning rule (keys xs))
  have hview : ∀ (p : PassId), (∀ ys, NoPushPop ys → NoPushPop ((pass reg p).run ys)) →
      (∀ ys, view frameItem ((pass reg p).run ys) = view frameItem ys) →
      ∀ ys, Q ys → Q ((pass reg p).run ys) := by
    intro p h1 h2 ys hy
    refine ⟨h1 ys hy.1, ?_⟩
    rw [← hy.2]
    exact frames_of_view rule rule _ _ (h1 ys hy.1) hy.1 (h2 ys)
  rw [new_run]
  suffices h : Q _ from h.2
  apply stage_pres reg min max .usagePage Q (hview _ (fun ys h => tame_up reg ys h)
    (fun ys => up_view frameItem hupc reg ys))
  apply stage_pres reg min max .usageMerge Q (hview _
    (fun ys h => (tame_any _).1 (tame_rm .any reg _ uniform_usage ys ((tame_any _).2 h)))
    (fun ys => rm_view frameItem hloc reg _ local_usage ys))
  apply stage_pres reg min max .designatorMerge Q (hview _
    (fun ys h => (tame_any _).1 (tame_rm .any reg _ uniform_desig ys ((tame_any _).2 h)))
    (fun ys => rm_view frameItem hloc reg _ local_desig ys))
  apply stage_pres reg min max .stringMerge Q (hview _
    (fun ys h => (tame_any _).1 (tame_rm .any reg _ uniform_str ys ((tame_any _).2 h)))
    (fun ys => rm_view frameItem hloc reg _ local_str ys))
  apply stage_pres reg min max .globalMerge Q (fun ys hy =>
    ⟨(tame_any _).1 (tame_gm .any ys ((tame_any _).2 hy.1)),
      (congrArg _ (C18_global_merge_meaning_partial rule ys hy.1)).trans hy.2⟩)
  apply stage_pres reg min max .physicalMerge Q (hview _
    (fun ys h => (tame_any _).1 (tame_pm .any ys ((tame_any _).2 h)))
    (fun ys => pm_view frameItem hphc ys))
  have h1 : Q (stage reg min max .designatorUniq xs) ∧
      CountsOK (stage reg min max .designatorUniq xs) ∧
      trailing true (stage reg min max .designatorUniq xs) = true := by
    refine ⟨stage_pres reg min max .designatorUniq Q (hview _
      (fun ys h => (tame_any _).1 (tame_du .any ys ((tame_any _).2 h)))
      (fun ys => du_view frameItem hloc ys)) ⟨hp, rfl⟩, ?_, ?_⟩
    · exact stage_pres reg min max .designatorUniq CountsOK
        (fun ys h => keeps_du (fun i => i.cls = .reportCount → 0 ≤ i.ival) ys h) hc
    · refine Eq.trans ?_ htr
      exact stage_keeps reg min max .designatorUniq (trailing true) (fun ys =>
        trailing_view true _ _ (du_view _ (by
          intro k hk; simp [hk]) ys)) xs
  obtain ⟨hQ, hC, hT⟩ := h1
  unfold stage
  split
  · exact ⟨(tame_any _).1 (tame_mm .any reg _ ((tame_any _).2 hQ.1)),
      (mm_frames reg rule _ hQ.1 hC hT).trans hQ.2⟩
  · exact hQ

/-- **C81 (partial).** `converter -O` from any format to bytes: the bytes decode, and hosts of both sorts find the
collections and fields of the input in them. -/
theorem C81_converter_partial (f : Formatter.Fmt) (reg : Registry) (uni : Parser.Uni) (d : Formatter.Doc) (l : List Item)
    (hl : Formatter.deliver f reg uni d = (l, none)) (b' : List UInt8)
    (hc : Converter.optimized f .binary reg uni d = .ok (.bytes b'))
    (hp : NoPushPop l) (htr : trailing true l = true) :
    ∃ ks', readAll b' = some ks' ∧ ∀ rule, frames (meaning rule ks') = frames (meaning rule (keys l)) := by
  have hm : ∀ i ∈ l, i.Made := by
    have := deliver_read f reg uni d
    rw [hl] at this
    exact fun i hi => (this i hi).2
  simp only [Converter.optimized, hl, Formatter.render] at hc
  cases hb : Formatter.binary (optimize reg l) with
  | error e => rw [hb] at hc; simp [Except.map] at hc
  | ok b2 =>
    rw [hb] at hc
    simp [Except.map] at hc
    subst hc
    exact ⟨_, readAll_binary (optimize_made reg l hm) hb, fun rule =>
      C81_frames_partial reg 0 100 rule l hp (fun i hi h => made_count (hm i hi) h) htr⟩

/-! ## Exactly -/

theorem frames_append (a b : List Event) : frames (a ++ b) = frames a ++ frames b := by simp [frames]

/-- How many events a data item with report count 1 makes. -/
def perField (r : MainRec) : Nat := if r.isConst then (r.g .reportSize).toNat else 1

/-- The event a data item makes, without names. -/
def fieldFrame (r : MainRec) : Event :=
  if r.isConst then .padBit r.cls (r.g .reportID)
  else (Event.control r.cls r.val (r.g .reportID) r.attrs []).frame

theorem frames_data {r : MainRec} (hd : r.cls.isData = true) :
    frames r.events = List.replicate (perField r * (r.g .reportCount).toNat) (fieldFrame r) := by
  rw [events_data hd]
  unfold frames perField fieldFrame
  split
  · simp [Event.frame]
  · rw [List.map_map, Nat.one_mul]
    apply List.ext_getElem
    · simp
    · intro n h1 h2
      simp [Event.frame]

/-- Members of a group look alike. -/
theorem members_alike {h : Host} {g : List MainRec} (hm : Members h g) {r s : MainRec} (hr : r ∈ g) (hs : s ∈ g) :
    r.cls = s.cls ∧ r.val = s.val ∧ (∀ t ∈ frameTags, t ≠ .reportCount → r.g t = s.g t) := by
  obtain ⟨c, v, -, hg⟩ := hm
  refine ⟨(hg r hr).1.trans (hg s hs).1.symm, (hg r hr).2.1.trans (hg s hs).2.1.symm, fun t ht hne => ?_⟩
  have htg : t ∈ groupTags := by
    simp only [frameTags, List.mem_cons, List.not_mem_nil, or_false] at ht
    simp only [groupTags, List.mem_cons, List.not_mem_nil, or_false]
    rcases ht with rfl | rfl | rfl | rfl | rfl | rfl | rfl <;> simp_all
  rw [(hg r hr).2.2.2 t htg, (hg s hs).2.2.2 t htg]

theorem alike_field {r s : MainRec} (h : r.cls = s.cls ∧ r.val = s.val ∧ (∀ t ∈ frameTags, t ≠ .reportCount → r.g t = s.g t)) :
    perField r = perField s ∧ fieldFrame r = fieldFrame s := by
  obtain ⟨hc, hv, hg⟩ := h
  have h1 := hg .reportSize (by decide) (by decide)
  have h3 := hg .reportID (by decide) (by decide)
  have h4 := hg .logMin (by decide) (by decide)
  have h5 := hg .logMax (by decide) (by decide)
  have h6 := hg .unit (by decide) (by decide)
  have h7 := hg .unitExp (by decide) (by decide)
  have hk : r.isConst = s.isConst := by simp [MainRec.isConst, hv]
  simp [perField, fieldFrame, hk, h1, h3, h4, h5, h6, h7, hc, hv, Event.frame, MainRec.attrs]

theorem frames_flatMap {α : Type} (f : α → List Event) (l : List α) :
    frames (l.flatMap f) = l.flatMap fun a => frames (f a) := by
  simp [frames, List.map_flatMap]

theorem flatMap_replicate {α β : Type} (l : List α) (f : α → Nat) (g : α → β) (e : β) (h : ∀ a ∈ l, g a = e) :
    (l.flatMap fun a => List.replicate (f a) (g a)) = List.replicate (l.map f).sum e := by
  induction l with
  | nil => rfl
  | cons a l ih =>
    rw [List.flatMap_cons, ih (fun b hb => h b (by simp [hb])), h a (by simp), List.map_cons, List.sum_cons,
      List.replicate_append_replicate]

theorem flatMap_same {α β : Type} {l : List α} {f g : α → List β} (h : ∀ a ∈ l, f a = g a) : l.flatMap f = l.flatMap g := by
  induction l with
  | nil => rfl
  | cons a l ih => rw [List.flatMap_cons, List.flatMap_cons, h a (by simp), ih fun b hb => h b (by simp [hb])]

/-- A group that is written has the frame of its members. -/
theorem joined_frames {h : Host} {g : List MainRec} (hm : Members h g) :
    frames (joined (total g) g) = frames (g.flatMap MainRec.events) := by
  cases hg : g with
  | nil => rfl
  | cons a t =>
    have ha : a ∈ g := by simp [hg]
    obtain ⟨c, v, hd, hall⟩ := hm
    have hm : Members h g := ⟨c, v, hd, hall⟩
    have key : ∀ l : List MainRec, (∀ r ∈ l, r ∈ g) → 0 ≤ total l ∧
        frames (l.flatMap MainRec.events) = List.replicate (perField a * (total l).toNat) (fieldFrame a) := by
      intro l hl
      induction l with
      | nil => exact ⟨by simp [total], by simp [frames, total]⟩
      | cons b l ih =>
        obtain ⟨i1, i2⟩ := ih fun r hr => hl r (by simp [hr])
        have hb := hl b (by simp)
        obtain ⟨b1, b2, b3, b4⟩ := hall b hb
        rw [totalRec_cons]
        refine ⟨by omega, ?_⟩
        obtain ⟨e1, e2⟩ := alike_field (members_alike hm hb ha)
        rw [List.flatMap_cons, frames_append, i2, frames_data (by rw [b1]; exact hd), e1, e2, Int.toNat_add b3 i1,
          Nat.mul_add, List.replicate_append_replicate]
    rw [← hg, (key g fun _ h => h).2]
    generalize hn : total g = n
    rw [hg, joined]
    rw [frames_data (by rw [(hall a ha).1]; exact hd)]
    rfl

/-- The group open at the end, as it is written: each of its items with the report count in force. -/
theorem close_frames {h : Host} {s : Pend} (hm : Members h s.group) (a : MainRec) (ha : a ∈ s.group) :
    frames s.close = List.replicate (s.group.length * (perField a * (s.before.getD s.written).toNat)) (fieldFrame a) := by
  obtain ⟨c, v, hd, hall⟩ := id hm
  generalize hn : s.before.getD s.written = n
  have hp : ∀ r ∈ s.group, frames (plainRec n r) = List.replicate (perField a * n.toNat) (fieldFrame a) := by
    intro r hr
    obtain ⟨e1, e2⟩ := alike_field (members_alike hm hr ha)
    rw [plainRec, frames_data (by show r.cls.isData = true; rw [(hall r hr).1]; exact hd), ← e1, ← e2]
    rfl
  unfold Pend.close
  rw [hn]
  cases hs : s.group with
  | nil => rw [hs] at ha; simp at ha
  | cons b t =>
    have hj : frames (joined n (b :: t)) = frames (plainRec n b) := by
      rw [joined, plainRec]
      exact frame_rec rfl rfl (fun _ _ => rfl)
    rw [frames_append, hj, hp b (by simp [hs]), List.drop_succ_cons, List.drop_zero, frames_flatMap]
    have : (t.flatMap fun r => frames (plainRec n r)) = t.flatMap fun _ => List.replicate (perField a * n.toNat) (fieldFrame a) := by
      refine flatMap_same fun r hr => ?_
      exact hp r (by simp [hs, hr])
    rw [this, flatMap_replicate t (fun _ => perField a * n.toNat) (fun _ => fieldFrame a) (fieldFrame a) (fun _ _ => rfl),
      List.map_const', sum_replicate, List.replicate_append_replicate, List.length_cons, Nat.add_mul, Nat.one_mul,
      Nat.add_comm]

/-- The group open at the end, as it was. -/
theorem open_frames {h : Host} {s : Pend} (hm : Members h s.group) (h1 : ∀ r ∈ s.group, r.g .reportCount = 1)
    (a : MainRec) (ha : a ∈ s.group) :
    frames (s.group.flatMap MainRec.events) = List.replicate (s.group.length * perField a) (fieldFrame a) := by
  obtain ⟨c, v, hd, hall⟩ := id hm
  rw [frames_flatMap]
  have : (s.group.flatMap fun r => frames r.events) = s.group.flatMap fun _ => List.replicate (perField a) (fieldFrame a) := by
    refine flatMap_same fun r hr => ?_
    obtain ⟨e1, e2⟩ := alike_field (members_alike hm hr ha)
    rw [frames_data (by rw [(hall r hr).1]; exact hd), h1 r hr, e1, e2]
    simp
  rw [this, flatMap_replicate s.group (fun _ => perField a) (fun _ => fieldFrame a) (fieldFrame a) (fun _ _ => rfl),
    List.map_const', sum_replicate]

/-- `MainMerge` and frames. -/
theorem mm_frames_exact (reg : Registry) (rule : PageRule) (xs : List Item) (hp : NoPushPop xs) (hc : CountsOK xs) :
    ∃ f, frames (meaning rule (keys xs)) = f ++ frames ((openFields (keys xs)).group.flatMap MainRec.events) ∧
      frames (meaning rule (keys ((mainMerge reg).run xs))) = f ++ frames (openFields (keys xs)).close := by
  have hmem : ∀ i ∈ strip xs, i ∈ xs ∧ i.cls.kind ≠ .loc := by
    intro i hi
    have := List.mem_filter.1 hi
    exact ⟨this.1, by simpa using this.2⟩
  have hps : NoPushPop (strip xs) := fun i hi => hp i (hmem i hi).1
  have hcs : CountsPos (strip xs) := fun i hi => hc i (hmem i hi).1
  have hpr : NoPushPop ((mainMerge reg).run xs) := (tame_any _).1 (tame_mm .any reg xs ((tame_any _).2 hp))
  have hprs : NoPushPop (strip ((mainMerge reg).run xs)) := fun i hi => hpr i (List.mem_filter.1 hi).1
  have hbare := recs_bare .atUsage (strip xs) (fun i hi => (hmem i hi).2) hps
    (fun i hi => hc i (hmem i hi).1) {} rfl rfl rfl (Int.le_refl 0)
  have hrun : (mainMerge reg).run (strip xs) = strip ((mainMerge reg).run xs) := mm_strip reg xs {} (by simp)
  have hks : keys (strip xs) = (keys xs).filter fun k => k.1.kind != .loc := by
    unfold keys strip
    rw [List.filter_map]
    rfl
  have hof : openFields (keys xs) = (runs {} {} (keys (strip xs))).2 := by rw [openFields, hks]
  rw [frames_of_view rule .atUsage _ (strip ((mainMerge reg).run xs)) hpr hprs
    (view_strip frameItem frame_local _).symm, ← hrun, mm_run_exact reg _ hbare.1 hps,
    frames_of_view rule .atUsage xs (strip xs) hp hps (view_strip frameItem frame_local _).symm, mergedEvents, hof]
  have hev := runs_events (keys (strip xs)) {} {}
  simp only [List.flatMap_nil, List.nil_append] at hev
  obtain ⟨m1, h', m2⟩ := runs_members (strip xs) {} {} hps hcs (by decide) ⟨.input, 0, rfl, by simp⟩
  rw [meaning, hev, frames_append, frames_append]
  refine ⟨_, rfl, ?_⟩
  congr 1
  rw [frames_flatMap, frames_flatMap]
  refine flatMap_same fun g hg => ?_
  rcases m1 g hg with ⟨h', hm⟩ | ⟨r, rfl⟩
  · exact joined_frames hm
  · rw [joined_single]; simp

/-- The passes other than main merging keep frames. -/
theorem frames_others (reg : Registry) (min max : Int) (rule : PageRule) (xs : List Item) (hp : NoPushPop xs) :
    NoPushPop (stage reg min max .designatorUniq xs) ∧
    frames (meaning rule (keys (stage reg min max .designatorUniq xs))) = frames (meaning rule (keys xs)) ∧
    frames (meaning rule (keys (stage reg min max .usagePage (stage reg min max .usageMerge
      (stage reg min max .designatorMerge (stage reg min max .stringMerge (stage reg min max .globalMerge
      (stage reg min max .physicalMerge xs)))))))) = frames (meaning rule (keys xs)) := by
  have hloc : ∀ k : SItem, k.1.kind = .loc → frameItem k = false := frame_local
  have hupc : ∀ k : SItem, k.1.kind = .loc ∨ k.1 = .usagePage → frameItem k = false := by
    intro k hk
    rcases hk with h | h
    · exact hloc k h
    · obtain ⟨c, v⟩ := k; simp only at h; subst h; rfl
  have hphc : ∀ k : SItem, k.1 = .physMin ∨ k.1 = .physMax → frameItem k = false := by
    intro k hk
    obtain ⟨c, v⟩ := k; simp only at hk
    rcases hk with rfl | rfl <;> rfl
  let Q : List Item → Prop := fun ys => NoPushPop ys ∧
    frames (meaning rule (keys ys)) = frames (meaning rule (keys xs))
  have hview : ∀ (p : PassId), (∀ ys, NoPushPop ys → NoPushPop ((pass reg p).run ys)) →
      (∀ ys, view frameItem ((pass reg p).run ys) = view frameItem ys) →
      ∀ ys, Q ys → Q ((pass reg p).run ys) := by
    intro p h1 h2 ys hy
    refine ⟨h1 ys hy.1, ?_⟩
    rw [← hy.2]
    exact frames_of_view rule rule _ _ (h1 ys hy.1) hy.1 (h2 ys)
  have h0 : Q xs := ⟨hp, rfl⟩
  have hd : Q (stage reg min max .designatorUniq xs) := stage_pres reg min max .designatorUniq Q (hview _
    (fun ys h => (tame_any _).1 (tame_du .any ys ((tame_any _).2 h))) (fun ys => du_view frameItem hloc ys)) h0
  refine ⟨hd.1, hd.2, ?_⟩
  suffices h : Q _ from h.2
  apply stage_pres reg min max .usagePage Q (hview _ (fun ys h => tame_up reg ys h)
    (fun ys => up_view frameItem hupc reg ys))
  apply stage_pres reg min max .usageMerge Q (hview _
    (fun ys h => (tame_any _).1 (tame_rm .any reg _ uniform_usage ys ((tame_any _).2 h)))
    (fun ys => rm_view frameItem hloc reg _ local_usage ys))
  apply stage_pres reg min max .designatorMerge Q (hview _
    (fun ys h => (tame_any _).1 (tame_rm .any reg _ uniform_desig ys ((tame_any _).2 h)))
    (fun ys => rm_view frameItem hloc reg _ local_desig ys))
  apply stage_pres reg min max .stringMerge Q (hview _
    (fun ys h => (tame_any _).1 (tame_rm .any reg _ uniform_str ys ((tame_any _).2 h)))
    (fun ys => rm_view frameItem hloc reg _ local_str ys))
  apply stage_pres reg min max .globalMerge Q (fun ys hy =>
    ⟨(tame_any _).1 (tame_gm .any ys ((tame_any _).2 hy.1)),
      (congrArg _ (C18_global_merge_meaning_partial rule ys hy.1)).trans hy.2⟩)
  exact stage_pres reg min max .physicalMerge Q (hview _
    (fun ys h => (tame_any _).1 (tame_pm .any ys ((tame_any _).2 h)))
    (fun ys => pm_view frameItem hphc ys)) h0

/-- Removing designators leaves the open fields alone. -/
theorem openFields_du (reg : Registry) (min max : Int) (xs : List Item) :
    openFields (keys (stage reg min max .designatorUniq xs)) = openFields (keys xs) := by
  refine stage_keeps reg min max .designatorUniq (fun ys => openFields (keys ys)) (fun ys => ?_) xs
  unfold openFields
  have := du_view (fun k => k.1.kind != .loc) (fun k hk => by simp [hk]) ys
  unfold view at this
  exact congrArg (fun l => (runs {} {} l).2) this

/-- **C81.** Exactly when collections and fields stay as they are, for streams without Push/Pop: when main merging is
not selected, or the fields still to be written at the end take no bits or have a report count of 1 there too. -/
theorem C81_iff (reg : Registry) (min max : Int) (rule : PageRule) (xs : List Item) (hp : NoPushPop xs) (hc : CountsOK xs) :
    frames (meaning rule (keys ((new reg min max Pass.sink).run xs))) = frames (meaning rule (keys xs)) ↔
    (min < 60 → 60 < max → ∀ r ∈ (openFields (keys xs)).group, (r.isConst = true ∧ r.g .reportSize ≤ 0) ∨
      (openFields (keys xs)).before.getD (openFields (keys xs)).written = 1) := by
  rw [new_run]
  obtain ⟨d1, d2, -⟩ := frames_others reg min max rule xs hp
  have dc : CountsOK (stage reg min max .designatorUniq xs) := stage_pres reg min max .designatorUniq CountsOK
    (fun ys h => keeps_du (fun i => i.cls = .reportCount → 0 ≤ i.ival) ys h) hc
  have dn : NoPushPop (stage reg min max .mainMerge (stage reg min max .designatorUniq xs)) :=
    stage_pres reg min max .mainMerge NoPushPop
      (fun ys h => (tame_any _).1 (tame_mm .any reg ys ((tame_any _).2 h))) d1
  rw [(frames_others reg min max rule _ dn).2.2]
  by_cases hs : min < 60 ∧ 60 < max
  · have hst : stage reg min max .mainMerge (stage reg min max .designatorUniq xs) =
        (mainMerge reg).run (stage reg min max .designatorUniq xs) := by
      rw [stage]; exact if_pos hs
    obtain ⟨f, e1, e2⟩ := mm_frames_exact reg rule _ d1 dc
    rw [openFields_du] at e1 e2
    rw [hst, e2, ← d2, e1, List.append_cancel_left_eq]
    obtain ⟨h', hm⟩ := openFields_members xs hp hc
    have ones : ∀ r ∈ (openFields (keys xs)).group, r.g .reportCount = 1 := by
      unfold openFields
      exact runs_ones _ {} {} (by simp)
    generalize openFields (keys xs) = s at hm ones
    cases hg : s.group with
    | nil =>
      refine ⟨fun _ _ _ => by simp, fun _ => ?_⟩
      simp [Pend.close, hg, joined]
    | cons a t =>
      have ha : a ∈ s.group := by simp [hg]
      have hl : 0 < s.group.length := by simp [hg]
      rw [← hg, close_frames hm a ha, open_frames hm ones a ha]
      have hcond : (∀ r ∈ s.group, (r.isConst = true ∧ r.g .reportSize ≤ 0) ∨ s.before.getD s.written = 1) ↔
          perField a * (s.before.getD s.written).toNat = perField a := by
        have hz : ∀ r, perField r = 0 ↔ r.isConst = true ∧ r.g .reportSize ≤ 0 := by
          intro r
          unfold perField
          split
          · next h => simp only [h, true_and]; omega
          · next h => simp [h]
        constructor
        · intro h
          rcases h a ha with h | h
          · rw [(hz a).2 h]; simp
          · rw [h]; simp
        · intro h r hr
          rw [← hz, (alike_field (members_alike hm hr ha)).1]
          by_cases h0 : perField a = 0
          · exact Or.inl h0
          · right
            have := Nat.eq_of_mul_eq_mul_left (Nat.pos_of_ne_zero h0) (h.trans (Nat.mul_one _).symm)
            omega
      constructor
      · intro h _ _
        rw [hcond]
        have := congrArg List.length h
        simp only [List.length_replicate] at this
        exact Nat.eq_of_mul_eq_mul_left hl this
      · intro h
        rw [hcond.1 (h hs.1 hs.2)]
  · have hst : stage reg min max .mainMerge (stage reg min max .designatorUniq xs) = stage reg min max .designatorUniq xs := by
      rw [stage]; exact if_neg hs
    rw [hst, d2]
    exact ⟨fun _ h1 h2 => absurd ⟨h1, h2⟩ hs, fun _ => rfl⟩

/-- **C81, compiled descriptors.** The optimized items of any tree that compiles have the frame of the items that are not
optimized, whatever passes are selected.  No condition. -/
theorem C81_compile (reg : Registry) (min max : Int) (rule : PageRule) (n : Node) (items : List Item)
    (h : compile reg n = .ok items) :
    frames (meaning rule (keys ((new reg min max Pass.sink).run items))) = frames (meaning rule (keys items)) :=
  (C81_iff reg min max rule items (compiled_base h).1 (fun i hi h' => made_count (compile_made h i hi) h')).2
    (fun _ _ _ hr => .inr (compiled_open h (compiled_base h).1 (List.ne_nil_of_mem hr)))

/-- **C81 (partial).** Compiling with the default optimization: hosts of both sorts find the collections and the fields
of the tree, for every tree of C29: whatever its strings, arrays, pages and physical bounds, all of which may be changed
(C30). -/
theorem C81_compiled_partial (reg : Registry) (n : Node) (b : List UInt8)
    (h : Compiler.main reg .binary true n = .ok (.bytes b)) (hm : TreeMade n)
    (hn : NoNamedCollection n) (hk : KindsOK n) (hr : ReportsLast n) (a : Nat) (hf : CountsFit a n) :
    ∃ ks, readAll b = some ks ∧ ∀ rule, frames (meaning rule ks) = frames (treeMeaning n) := by
  obtain ⟨items, hi, hks⟩ := compile_bytes h
  refine ⟨_, hks, fun rule => ?_⟩
  rw [← C29_compile_meaning_partial reg rule n items hi hm hn hk hr a hf]
  exact C81_compile reg 0 100 rule n items hi

/-! ## The numbers in reports -/

theorem frames_report (w : Way) (id : Int) (es : List Event) : frames (reportOf w id es) = reportOf w id (frames es) := by
  unfold frames reportOf
  rw [List.filter_map]
  congr 2
  funext e
  cases e <;> rfl

theorem readNumbers_frames (es : List Event) : ∀ bs, readNumbers (frames es) bs = readNumbers es bs := by
  induction es with
  | nil => intro bs; rfl
  | cons e es ih =>
    intro bs
    have ih' : ∀ bs, readNumbers (es.map Event.frame) bs = readNumbers es bs := ih
    cases e <;> simp [frames, Event.frame, readNumbers, ih']

/-- Descriptors with the same frame have the same numbers in every report. -/
theorem numbers_of_frames {a b : List Event} (h : frames a = frames b) (w : Way) (id : Int) (bs : List Bool) :
    readNumbers (reportOf w id a) bs = readNumbers (reportOf w id b) bs := by
  rw [← readNumbers_frames, frames_report, h, ← frames_report, readNumbers_frames]

/-- **C81 (partial).** A host that has the optimized descriptor finds the same numbers in every report, whatever its
bits, as one that has the original. -/
theorem C81_numbers_partial (reg : Registry) (min max : Int) (rule : PageRule) (xs : List Item) (hp : NoPushPop xs)
    (hc : CountsOK xs) (htr : trailing true xs = true) (w : Way) (id : Int) (bs : List Bool) :
    readNumbers (reportOf w id (meaning rule (keys ((new reg min max Pass.sink).run xs)))) bs =
      readNumbers (reportOf w id (meaning rule (keys xs))) bs :=
  numbers_of_frames (C81_frames_partial reg min max rule xs hp hc htr) w id bs

/-- The numbers are those of C80: what a host reads, without what it is told about it. -/
theorem readReport_numbers (es : List Event) : ∀ (bs : List Bool),
    (readNumbers es bs).map Prod.snd = (readReport es bs).map Prod.snd ∧
    (∀ p q, readNumbers es bs = some p → readReport es bs = some q → p.1.length = q.1.length ∧
      ∀ (k : Nat) u x, q.1[k]? = some (.value u x) → p.1[k]? = some x) := by
  induction es with
  | nil => intro bs; simp [readNumbers, readReport]
  | cons e es ih =>
    intro bs
    cases e with
    | enter k s => exact ih bs
    | leave => exact ih bs
    | padBit w r =>
      rw [readNumbers, readReport]
      split
      · simp
      · exact ih _
    | control w f r a s =>
      rw [readNumbers, readReport]
      split
      · simp
      · obtain ⟨i1, i2⟩ := ih (bs.drop a.size.toNat)
        refine ⟨by rw [Option.map_map, Option.map_map]; exact i1, ?_⟩
        intro p q hp hq
        obtain ⟨p', hp', rfl⟩ := Option.map_eq_some_iff.1 hp
        obtain ⟨q', hq', rfl⟩ := Option.map_eq_some_iff.1 hq
        obtain ⟨j1, j2⟩ := i2 p' q' hp' hq'
        refine ⟨by simp [j1], ?_⟩
        intro k u x hk
        cases k with
        | succ k => exact j2 k u x (by simpa using hk)
        | zero =>
          simp only [List.getElem?_cons_zero, Option.some.injEq] at hk ⊢
          split at hk
          · simp at hk; exact hk.2
          · simp at hk

theorem numbers_pads (c : Cls) (id : Int) (r : List Event) (bs t : List Bool) :
    readNumbers (List.replicate bs.length (.padBit c id) ++ r) (bs ++ t) = readNumbers r t := by
  induction bs with
  | nil => rfl
  | cons b bs ih =>
    rw [List.length_cons, List.replicate_succ, List.cons_append, readNumbers]
    simp only [List.cons_append, List.length_cons, List.drop_succ_cons, List.drop_zero]
    rw [if_neg (by omega)]
    exact ih

theorem numbers_fields (v : Value) (id : Int) (what : Nat → List Selector) (r : List Event)
    (ks : List Nat) (xs : List Int) (t : List Bool) (hl : xs.length = ks.length)
    (hx : ∀ x ∈ xs, if v.logicalMin.getD 0 < 0 then -2 ^ v.size.toNat ≤ 2 * x ∧ 2 * x < 2 ^ v.size.toNat
        else 0 ≤ x ∧ x < 2 ^ v.size.toNat) :
    readNumbers ((ks.map fun k => Event.control v.way.cls v.flags.toInt id (exactAttrs v) (what k)) ++ r)
      (xs.flatMap (lowBits v.size.toNat) ++ t) = (readNumbers r t).map (fun p => (xs ++ p.1, p.2)) := by
  induction xs generalizing ks with
  | nil =>
    cases ks with
    | nil => simp
    | cons => simp at hl
  | cons x xs ih =>
    cases ks with
    | nil => simp at hl
    | cons k ks =>
      rw [List.forall_mem_cons] at hx
      have IH := ih ks (by simpa using hl) hx.2
      obtain ⟨e1, e2⟩ := exactAttrs_own v
      rw [List.map_cons, List.cons_append, readNumbers, e1, e2, List.flatMap_cons, List.append_assoc]
      have hlen := lowBits_length v.size.toNat x
      rw [if_neg (by rw [List.length_append, hlen]; omega)]
      have ht : (lowBits v.size.toNat x ++ (xs.flatMap (lowBits v.size.toNat) ++ t)).take v.size.toNat
          = lowBits v.size.toNat x := by
        rw [List.take_append_of_le_length (by omega), List.take_of_length_le (by omega)]
      have hd : (lowBits v.size.toNat x ++ (xs.flatMap (lowBits v.size.toNat) ++ t)).drop v.size.toNat
          = xs.flatMap (lowBits v.size.toNat) ++ t := by
        rw [List.drop_append_of_le_length (by omega), List.drop_eq_nil_of_le (by omega), List.nil_append]
      rw [ht, hd, IH, field_number hx.1]
      cases readNumbers r t <;> simp

theorem numbers_leaf (junk : Nat → Bool) (id c : Int) (off : Nat) (l : Leaf) (xs : List Int) (P t : List Bool)
    (r : List Event) (hp : P.length = (padBefore c l).toNat) (hh : holds (l, xs)) :
    readNumbers (reportOf l.way id (exactLeaf id c l) ++ r) (P ++ elementBits junk off xs l ++ t) =
      (readNumbers r t).map (fun p => (numbersIn (l, xs) ++ p.1, p.2)) := by
  rw [report_leaf, ← hp, List.append_assoc, List.append_assoc, numbers_pads]
  cases l with
  | align w b => simp [leafIn, elementBits, numbersIn]
  | padding w b => simp [leafIn, elementBits, numbersIn]
  | value v =>
    simp only [leafIn, elementBits, numbersIn]
    by_cases h : bitSet v.flags.toInt 0 = true
    · rw [if_pos h, if_pos h, if_pos h]
      have := numbers_pads v.way.cls id r ((List.range (v.size.toNat * v.count.toNat)).map fun k => junk (off + k)) t
      rw [List.length_map, List.length_range] at this
      rw [this]
      simp
    · rw [if_neg h, if_neg h, if_neg h]
      obtain ⟨hl, hx⟩ := hh.resolve_left h
      unfold exactFields
      exact numbers_fields v id _ r _ xs t (by simpa using hl) hx

/-- Elements laid out by the compiler are where the device puts them. -/
theorem numbers_laid (junk : Nat → Bool) (w : Way) (id : Int) (A : Nat) (t : List Bool) (data : List (Leaf × List Int)) :
    ∀ (off : Nat) (c : Int), (A : Int) ∣ off - c → (∀ d ∈ data, d.1.way = w ∧ LeafFit A d.1 ∧ holds d ∧
      (∀ v, d.1 = .value v → 0 ≤ v.size ∧ 0 ≤ v.count) ∧ ∀ w s, d.1 = .padding w s → 0 ≤ s) →
    readNumbers (laidIn w id c (data.map Prod.fst)) (fillReport junk off data ++ t) = some (data.flatMap numbersIn, t) := by
  induction data with
  | nil => intro off c _ _; rfl
  | cons d data ih =>
    intro off c hd h
    obtain ⟨l, xs⟩ := d
    rw [List.forall_mem_cons] at h
    obtain ⟨⟨h1, h2, h4, h5, h6⟩, hrest⟩ := h
    simp only at h1 h2 h5 h6
    subst h1
    obtain ⟨hpad, hnext⟩ := laid_step A off c l hd h2 h5 h6
    rw [List.map_cons, laidIn, fillReport]
    have := ih _ _ hnext hrest
    rw [List.append_assoc]
    rw [numbers_leaf junk id c _ l xs _ _ _ (by simp [hpad]) h4, this]
    simp

/-- **C80 (partial).** With the default optimization too, whatever it does to the names of fields (C30): a host that has
only the bytes of the compiled descriptor reads the numbers a device has put in a report, of which it has filled
in the elements as the tree says, takes exactly the bits filled, and nothing of the padding.  Unlike
`C80_bytes_partial` there is no condition on strings, arrays, pages or physical bounds, and nothing about usages. -/
theorem C80_numbers_partial (reg : Registry) (rule : PageRule) (opt : Bool) (w : Way) (id : Int) (n : Node)
    (b : List UInt8) (h : Compiler.main reg .binary opt n = .ok (.bytes b)) (hr : ReportsLast n)
    (A : Nat) (data : List (Leaf × List Int)) (hd : data.map Prod.fst = elementsOf w id 0 n)
    (hh : ∀ d ∈ data, holds d) (hf : ∀ d ∈ data, LeafFit A d.1) (junk : Nat → Bool) (t : List Bool) :
    ∃ ks, readAll b = some ks ∧
      readNumbers (reportOf w id (meaning rule ks)) (fillReport junk 0 data ++ t) = some (data.flatMap numbersIn, t) := by
  obtain ⟨items, h1, h2⟩ := compile_bytes h
  refine ⟨_, h2, ?_⟩
  have hfr : frames (meaning rule (keys (if opt then optimize reg items else items))) = frames (meaning rule (keys items)) := by
    cases opt
    · rfl
    · exact C81_compile reg 0 100 rule n items h1
  rw [numbers_of_frames hfr, compile_report rule w id h1 hr, ← hd]
  refine numbers_laid junk w id A t data 0 0 (by simp) fun d hd' => ?_
  have hm : d.1 ∈ elementsOf w id 0 n := by rw [← hd]; exact List.mem_map_of_mem hd'
  obtain ⟨m1, m2⟩ := elementsOf_mem hm
  obtain ⟨m3, m4⟩ := sane_leaf _ _ _ _ (compile_exact rule h1).2 m2
  exact ⟨m1, hf d hd', hh d hd', m3, m4⟩

theorem elementsEntered_mem (w : Way) (id : Int) (ts : List Tok) : ∀ (cur : Int) (l : Leaf),
    l ∈ elementsEntered w id cur ts → l.way = w ∧ Tok.leaf l ∈ ts := by
  induction ts with
  | nil => intro cur l h; simp [elementsEntered] at h
  | cons t ts ih =>
    intro cur l h
    cases t with
    | report i => exact ⟨(ih _ l h).1, List.mem_cons_of_mem _ (ih _ l h).2⟩
    | endReport => exact ⟨(ih _ l h).1, List.mem_cons_of_mem _ (ih _ l h).2⟩
    | enter k u => exact ⟨(ih _ l h).1, List.mem_cons_of_mem _ (ih _ l h).2⟩
    | leave => exact ⟨(ih _ l h).1, List.mem_cons_of_mem _ (ih _ l h).2⟩
    | leaf m =>
      rw [elementsEntered, List.mem_append] at h
      rcases h with h | h
      · split at h
        · rename_i hm
          simp only [List.mem_singleton] at h
          subst h
          exact ⟨hm.1, by simp⟩
        · simp at h
      · exact ⟨(ih _ l h).1, List.mem_cons_of_mem _ (ih _ l h).2⟩

/-- **C80 (partial).** What the code does with elements after the end of a `Report`: a device that puts them in the report
entered last is understood by the host, the numbers with the usages of their values when these are not changed by
optimizing, and the numbers in any case.  Missing: `Report(0)` after another report, and as in
`C80_bytes_partial` and `C80_numbers_partial`. -/
theorem C80_entered_partial (reg : Registry) (rule : PageRule) (opt : Bool) (w : Way) (id : Int) (n : Node)
    (b : List UInt8) (h : Compiler.main reg .binary opt n = .ok (.bytes b)) (hz : NoZeroReport n)
    (A : Nat) (data : List (Leaf × List Int)) (hd : data.map Prod.fst = elementsEntered w id 0 (tokens n))
    (hh : ∀ d ∈ data, holds d) (hf : ∀ d ∈ data, LeafFit A d.1) (junk : Nat → Bool) (t : List Bool) :
    ∃ ks, readAll b = some ks ∧
      readNumbers (reportOf w id (meaning rule ks)) (fillReport junk 0 data ++ t) = some (data.flatMap numbersIn, t) ∧
      ((opt = true → OptTree n ∧ (rule = .atUsage ∨ pagesFit none 0 (tokens n) = true)) →
        (∀ d ∈ data, PlainArray d.1) →
        readReport (reportOf w id (meaning rule ks)) (fillReport junk 0 data ++ t) = some (data.flatMap saidBy, t)) := by
  obtain ⟨items, h1, h2⟩ := compile_bytes h
  obtain ⟨hex, hsane⟩ := compile_exact rule h1
  have hlaid : reportOf w id (meaning rule (keys items)) = laidIn w id 0 (data.map Prod.fst) := by
    rw [hex, entered_report w id (tokens n) _ 0 0 [] hz, hd]
  have hall : ∀ d ∈ data, d.1.way = w ∧ LeafFit A d.1 ∧ holds d ∧
      (∀ v, d.1 = .value v → 0 ≤ v.size ∧ 0 ≤ v.count) ∧ ∀ w s, d.1 = .padding w s → 0 ≤ s := by
    intro d hd'
    have hm : d.1 ∈ elementsEntered w id 0 (tokens n) := by rw [← hd]; exact List.mem_map_of_mem hd'
    obtain ⟨m1, m2⟩ := elementsEntered_mem w id _ _ _ hm
    obtain ⟨m3, m4⟩ := sane_leaf _ _ _ _ hsane m2
    exact ⟨m1, hf d hd', hh d hd', m3, m4⟩
  refine ⟨_, h2, ?_, fun ho ha => ?_⟩
  · have hfr : frames (meaning rule (keys (if opt then optimize reg items else items))) =
        frames (meaning rule (keys items)) := by
      cases opt
      · rfl
      · exact C81_compile reg 0 100 rule n items h1
    rw [numbers_of_frames hfr, hlaid]
    exact numbers_laid junk w id A t data 0 0 (by simp) hall
  · obtain ⟨ks, items', e1, e2, e3⟩ := bytes_meaning h ho
    rw [h2] at e1
    rw [h1] at e2
    cases e1; cases e2
    rw [e3, hlaid]
    refine read_laid junk w id A t data 0 0 (by simp) fun d hd' => ?_
    obtain ⟨p1, p2, p3, p4, p5⟩ := hall d hd'
    exact ⟨p1, p2, ha d hd', p3, p4, p5⟩

/-! ## Cases -/

/-- The descriptor of `C80_after_report_breaks`, with the second button where the code puts it. -/
example :
    let n := app [.report 1 [.value (mk (button 1))], .value (mk (button 2))]
    (Compiler.main [] .binary true n).toOption.isSome ∧ NoZeroReport n ∧
    (elementsEntered .input 1 0 (tokens n)).length = 2 ∧ (elementsOf .input 1 0 n).length = 1 ∧
    (∀ d ∈ (elementsEntered .input 1 0 (tokens n)).zip [[1], [0]], holds d) ∧
    OptTree n := by
  refine ⟨by decide +kernel, ?_, by decide +kernel, by decide +kernel, by decide +kernel, by decide +kernel⟩
  unfold NoZeroReport
  decide +kernel


/-- Values after the last collection: `C81_compile` has no condition on trees. -/
example : (compile [] (.top [app [.value (mk (button 1))], .value (mk (button 2)), .value (mk (button 3))])).toOption.isSome ∧
    endsClosed true (tokens (.top [app [.value (mk (button 1))], .value (mk (button 2)), .value (mk (button 3))])) = false := by
  decide +kernel

/-- A descriptor as people write it: pages, 16-bit usages, strings on one of two merged fields, arrays of different
choices, physical bounds set and reset.  Optimizing changes nearly every name in it. -/
def usualSample : List Item :=
  [⟨.usagePage, .int 1⟩, ⟨.usage, .int 2⟩, ⟨.collection, .int 1⟩, ⟨.reportID, .int 3⟩,
   ⟨.usagePage, .int 9⟩, ⟨.logMin, .int 0⟩, ⟨.logMax, .int 1⟩, ⟨.reportSize, .int 1⟩, ⟨.reportCount, .int 1⟩,
   ⟨.usage, .int 1⟩, ⟨.input, .int 2⟩, ⟨.usage, .int 2⟩, ⟨.strIndex, .int 4⟩, ⟨.input, .int 2⟩,
   ⟨.reportSize, .int 6⟩, ⟨.input, .int 3⟩,
   ⟨.reportSize, .int 8⟩, ⟨.physMin, .int 5⟩, ⟨.physMax, .int 7⟩, ⟨.usageMin, .int 3⟩, ⟨.usageMax, .int 5⟩, ⟨.input, .int 0⟩,
   ⟨.physMin, .int 0⟩, ⟨.physMax, .int 1⟩, ⟨.usageMin, .int 6⟩, ⟨.usageMax, .int 9⟩, ⟨.input, .int 0⟩,
   ⟨.endCollection, .int 0⟩]

example : NoPushPop usualSample ∧ CountsOK usualSample ∧ trailing true usualSample = true ∧
    (frames (meaning .atUsage (keys usualSample))).length = 12 ∧
    meaning .atUsage (keys (optimize [] usualSample)) ≠ meaning .atUsage (keys usualSample) ∧
    meaning .atMain (keys (optimize [] usualSample)) ≠ meaning .atMain (keys usualSample) := by decide +kernel

/-- Frames tell descriptors apart. -/
example : frames (meaning .atUsage (keys usualSample)) ≠
    frames (meaning .atUsage (keys (usualSample.filter fun i => i.cls != .reportID))) := by decide +kernel

/-- Left out of C81, and false: with a data item at the very end a field appears. -/
theorem C81_trailing_breaks (rule : PageRule) :
    frames (meaning rule (keys (optimize [] leftOpen))) ≠ frames (meaning rule (keys leftOpen)) := by
  cases rule <;> decide +kernel

/-- Left out of C81, and false: Push/Pop. -/
theorem C81_push_pop_breaks (rule : PageRule) :
    let xs : List Item := [⟨.reportCount, .int 1⟩, ⟨.reportSize, .int 8⟩, ⟨.push, .int 0⟩,
      ⟨.reportSize, .int 16⟩, ⟨.pop, .int 0⟩, ⟨.reportSize, .int 16⟩, ⟨.input, .int 2⟩,
      ⟨.endCollection, .int 0⟩]
    frames (meaning rule (keys (optimize [] xs))) ≠ frames (meaning rule (keys xs)) := by
  cases rule <;> decide +kernel

/-- A tree that optimizing does not leave as it is (C30): strings, arrays and physical bounds. -/
def renamedTree : Node :=
  app [.value (mk (button 1)), .value (mk { button 2 with string := 5 }), .value (mk keyArray), .value (mk keyArray),
    .value (mk { axis 0x10030 with physicalMin := some (-5), physicalMax := some 5 }),
    .value (mk { axis 0x10031 with logicalMin := some 0, logicalMax := some 0 })]

theorem renamed_leaves {v : Value} (h : Leaf.value v ∈ leaves renamedTree) :
    v = mk (button 1) ∨ v = mk { button 2 with string := 5 } ∨ v = mk keyArray ∨
      v = mk { axis 0x10030 with physicalMin := some (-5), physicalMax := some 5 } ∨
      v = mk { axis 0x10031 with logicalMin := some 0, logicalMax := some 0 } := by
  simp [leaves, renamedTree, app, tokens, tokensL] at h
  exact h

/-- It meets the conditions of `C81_compiled_partial`, and is not one of C30. -/
example : (Compiler.main [] .binary true renamedTree).toOption.isSome ∧ TreeMade renamedTree ∧
    NoNamedCollection renamedTree ∧ KindsOK renamedTree ∧ ReportsLast renamedTree ∧ CountsFit 0 renamedTree ∧
    ¬ OptTree renamedTree ∧ OptBreaks .atUsage renamedTree = true := by
  refine ⟨by decide +kernel, ?_, ?_, ?_, by decide +kernel, countsFit_single ?_, by decide +kernel, by decide +kernel⟩
  · intro v hv
    rcases renamed_leaves hv with rfl | rfl | rfl | rfl | rfl <;> exact mk_made (by decide +kernel)
  · intro v hv
    rcases renamed_leaves hv with rfl | rfl | rfl | rfl | rfl <;> decide +kernel
  · intro k u h
    simp [renamedTree, app, tokens, tokensL] at h
    rw [h.1]; decide
  · intro v hv
    rcases renamed_leaves hv with rfl | rfl | rfl | rfl | rfl <;> decide +kernel

/-- Numbers for its elements: the conditions of `C80_numbers_partial` hold, though the names are not kept. -/
def renamedData : List (Leaf × List Int) := (elementsOf .input 0 0 renamedTree).zip [[1], [0], [1], [2], [-5], [0]]

example : renamedData.map Prod.fst = elementsOf .input 0 0 renamedTree ∧ renamedData.length = 6 ∧
    (∀ d ∈ renamedData, holds d) ∧ (∀ d ∈ renamedData, LeafFit 0 d.1) ∧
    renamedData.flatMap numbersIn = [1, 0, 1, 2, -5, 0] := by
  refine ⟨rfl, rfl, by decide +kernel, by decide +kernel, by decide +kernel⟩

end Hrdc
