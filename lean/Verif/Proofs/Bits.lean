import Verif.Proofs.Views
/-!
# Report sizes through the passes
-/
namespace Hrdc
open Spec Optimizer

/-- Items that determine report sizes. -/
def coreItem (k : SItem) : Bool :=
  k.1.kind == .main || k.1 == .reportSize || k.1 == .reportCount || k.1 == .reportID

/-- Host states that agree on report size, count and ID. -/
def SameSizes (a b : Host) : Prop :=
  a.g .reportSize = b.g .reportSize ∧ a.g .reportCount = b.g .reportCount ∧
    a.g .reportID = b.g .reportID

theorem sum_replicate (n k : Nat) : (List.replicate n k).sum = n * k := by
  induction n with
  | zero => simp
  | succ n ih => rw [List.replicate_succ, List.sum_cons, ih, Nat.add_mul]; omega

/-- Bits a main item adds to a report. -/
theorem rec_bits (way : Cls) (id : Int) (r : MainRec) : reportBits way id r.events =
    if r.cls.isData = true ∧ r.cls = way ∧ r.g .reportID = id then
      (r.g .reportSize).toNat * (r.g .reportCount).toNat else 0 := by
  by_cases hd : r.cls.isData = true
  · rw [events_data hd]
    unfold reportBits
    split
    · rw [List.map_replicate, sum_replicate]
      simp only [Event.bits, hd, true_and]
      split <;> simp
    · rw [List.map_map]
      have : (List.range (r.g .reportCount).toNat).map (Event.bits way id ∘ fun k =>
          Event.control r.cls r.val (r.g .reportID) r.attrs (r.what k))
          = List.replicate (r.g .reportCount).toNat
            (if r.cls = way ∧ r.g .reportID = id then (r.g .reportSize).toNat else 0) := by
        apply List.ext_getElem
        · simp
        · intro n h1 h2
          simp [Event.bits, MainRec.attrs]
      rw [this, sum_replicate]
      simp only [hd, true_and]
      split
      · rw [Nat.mul_comm]
      · simp
  · simp only [hd, Bool.false_eq_true, false_and, if_false]
    unfold MainRec.events
    cases hc : r.cls <;> first | rfl | (rw [hc] at hd; simp [Cls.isData] at hd)

theorem reportBits_append (way : Cls) (id : Int) (a b : List Event) :
    reportBits way id (a ++ b) = reportBits way id a + reportBits way id b := by
  simp [reportBits]

theorem sameSizes_step (rule rule' : PageRule) {a b : Host} (h : SameSizes a b) (k : SItem)
    (h1 : k.1 ≠ .push) (h2 : k.1 ≠ .pop) : SameSizes (a.step rule k) (b.step rule' k) := by
  obtain ⟨c, v⟩ := k
  obtain ⟨e1, e2, e3⟩ := h
  cases c <;> simp_all [SameSizes, Host.step]

theorem sameSizes_skip (rule : PageRule) {a b : Host} (h : SameSizes a b) (k : SItem)
    (h1 : k.1 ≠ .push) (h2 : k.1 ≠ .pop) (hc : coreItem k = false) :
    SameSizes (a.step rule k) b := by
  obtain ⟨c, v⟩ := k
  obtain ⟨e1, e2, e3⟩ := h
  cases c <;> simp_all [SameSizes, Host.step, coreItem, Cls.kind]

/-- Report sizes depend on nothing but the core items. -/
theorem bits_core (rule rule' : PageRule) (way : Cls) (id : Int) (xs : List Item) (a b : Host)
    (hab : SameSizes a b) (hp : NoPushPop xs) :
    reportBits way id (eventsFrom rule a (keys xs))
      = reportBits way id (eventsFrom rule' b (view coreItem xs)) := by
  induction xs generalizing a b with
  | nil => rfl
  | cons x xs ih =>
    rw [NoPushPop.cons] at hp
    rw [keys_cons, view_cons]
    by_cases hc : coreItem x.key = true
    · rw [if_pos hc, List.cons_append, List.nil_append, eventsFrom_cons, eventsFrom_cons,
        reportBits_append, reportBits_append,
        ih _ _ (sameSizes_step rule rule' hab x.key hp.1.1 hp.1.2) hp.2]
      congr 1
      split
      · rw [rec_bits, rec_bits]
        obtain ⟨e1, e2, e3⟩ := hab
        simp only [Host.main, e1, e2, e3]
        rfl
      · rfl
    · have hc' : coreItem x.key = false := by simpa using hc
      have hm : x.key.1.kind ≠ .main := by
        intro h; simp only [coreItem, h] at hc'; simp at hc'
      rw [if_neg hc, List.nil_append, eventsFrom_cons_of_not_main _ _ _ _ hm]
      exact ih _ _ (sameSizes_skip rule hab x.key hp.1.1 hp.1.2 hc') hp.2

/-- Streams with the same core items have the same report sizes. -/
theorem bits_of_view (rule rule' : PageRule) (way : Cls) (id : Int) (xs ys : List Item)
    (hx : NoPushPop xs) (hy : NoPushPop ys) (h : view coreItem xs = view coreItem ys) :
    reportBits way id (meaning rule (keys xs)) = reportBits way id (meaning rule' (keys ys)) := by
  unfold meaning
  rw [bits_core rule rule' way id xs {} {} ⟨rfl, rfl, rfl⟩ hx, h,
    ← bits_core rule' rule' way id ys {} {} ⟨rfl, rfl, rfl⟩ hy]

/-! ## `MainMerge` without local items -/

/-- A stream without its local items. -/
def strip (xs : List Item) : List Item := xs.filter (fun i => i.cls.kind != .loc)

/-- The state after the stream without its local items. -/
def MMState.strip (st : MMState) : MMState :=
  { st with before := Hrdc.strip st.before, after := Hrdc.strip st.after }

theorem strip_append (xs ys : List Item) : strip (xs ++ ys) = strip xs ++ strip ys := by
  simp [strip]
theorem strip_local (x : Item) (h : x.cls.kind = .loc) : strip [x] = [] := by simp [strip, h]
theorem strip_other (x : Item) (h : x.cls.kind ≠ .loc) : strip [x] = [x] := by simp [strip, h]

theorem strip_filter (q : Item → Bool) (xs : List Item) : strip (xs.filter q) = (strip xs).filter q := by
  simp only [strip, List.filter_filter]
  congr 1
  funext i
  exact Bool.and_comm _ _

theorem flush_strip (reg : Registry) (st : MMState) (hm : ∀ i ∈ st.mains, i.cls.isData = true) :
    (MMState.strip st).flush reg = (MMState.strip (st.flush reg).1, strip (st.flush reg).2) := by
  unfold MMState.flush MMState.strip
  simp only [Prod.mk.injEq]
  refine ⟨rfl, ?_⟩
  rw [strip_append, strip_filter]
  congr 1
  cases hms : st.mains with
  | nil => rfl
  | cons m ms =>
    have : m.cls.kind = .main := isData_kind (hm m (by simp [hms]))
    have h2 : (build reg .reportCount (.int st.beforeCount)).cls.kind = .global := by
      rw [build_cls]; rfl
    simp [strip, h2, this]

theorem mm_strip (reg : Registry) (xs : List Item) (st : MMState)
    (hm : ∀ i ∈ st.mains, i.cls.isData = true) :
    (mainMerge reg).runFrom (MMState.strip st) (strip xs) = strip ((mainMerge reg).runFrom st xs) := by
  induction xs generalizing st with
  | nil =>
    rw [show strip [] = [] from rfl, Pass.runFrom_nil, Pass.runFrom_nil]
    show strip st.before ++ st.mains ++ strip st.after = strip (st.before ++ st.mains ++ st.after)
    rw [strip_append, strip_append]
    congr 2
    unfold strip
    rw [List.filter_eq_self.2]
    intro i hi
    rw [isData_kind (hm i hi)]
    rfl
  | cons x xs ih =>
    by_cases hk : x.cls.kind = .loc
    · rw [show x :: xs = [x] ++ xs from rfl, strip_append, strip_local x hk]
      show _ = strip ((mainMerge reg).runFrom st (x :: xs))
      rw [Pass.runFrom_cons]
      simp only [hk, List.nil_append]
      have := ih (MMState.push st x) hm
      rw [show MMState.strip (MMState.push st x) = MMState.strip st by
        simp [MMState.strip, MMState.push, strip, hk]] at this
      exact this
    · rw [show x :: xs = [x] ++ xs from rfl, strip_append, strip_other x hk]
      show (mainMerge reg).runFrom (MMState.strip st) (x :: strip xs)
        = strip ((mainMerge reg).runFrom st (x :: xs))
      rw [Pass.runFrom_cons, Pass.runFrom_cons, strip_append]
      have hstep : (mainMerge reg).step (MMState.strip st) x
          = (MMState.strip ((mainMerge reg).step st x).1, strip ((mainMerge reg).step st x).2) ∧
          ∀ i ∈ ((mainMerge reg).step st x).1.mains, i.cls.isData = true := by
        have hpush : MMState.push (MMState.strip st) x = MMState.strip (MMState.push st x) := by
          simp [MMState.push, MMState.strip, strip_append, strip_other x hk]
        by_cases hd : x.cls.isData = true
        · have htake : ∀ q, MMState.take (MMState.strip q) x = MMState.strip (MMState.take q x) := by
            intro q
            simp [MMState.take, MMState.strip, strip_append, strip]
          have hfin : ∀ q o, (∀ i ∈ q.mains, i.cls.isData = true) →
              (if (MMState.strip q).afterCount ≠ 1 then
                (((MMState.take (MMState.strip q) x).flush reg).1,
                  strip o ++ ((MMState.take (MMState.strip q) x).flush reg).2)
                else (MMState.take (MMState.strip q) x, strip o))
              = (MMState.strip (if q.afterCount ≠ 1 then
                  (((MMState.take q x).flush reg).1, o ++ ((MMState.take q x).flush reg).2)
                  else (MMState.take q x, o)).1,
                strip (if q.afterCount ≠ 1 then
                  (((MMState.take q x).flush reg).1, o ++ ((MMState.take q x).flush reg).2)
                  else (MMState.take q x, o)).2) := by
            intro q o hq
            have hq' : ∀ i ∈ (MMState.take q x).mains, i.cls.isData = true := by
              intro i hi
              simp only [MMState.take, List.mem_append, List.mem_singleton] at hi
              rcases hi with hi | rfl
              · exact hq i hi
              · exact hd
            rw [htake, flush_strip reg _ hq']
            show (if q.afterCount ≠ 1 then _ else _) = _
            by_cases hc : q.afterCount ≠ 1
            · rw [if_pos hc, if_pos hc, strip_append]
            · rw [if_neg hc, if_neg hc]
          obtain ⟨q, o, hqo, hs1⟩ := mm_step_data reg st x hd
          obtain ⟨q', o', hqo', hs2⟩ := mm_step_data reg (MMState.strip st) x hd
          have hq : q' = MMState.strip q ∧ o' = strip o ∧ ∀ i ∈ q.mains, i.cls.isData = true := by
            rcases hqo with ⟨rfl, rfl, ha⟩ | ⟨rfl, rfl, m, ms, hb, hb'⟩
            · rcases hqo' with ⟨rfl, rfl, -⟩ | ⟨-, -, m, ms, hb, hb'⟩
              · exact ⟨rfl, rfl, hm⟩
              · rw [ha m ms hb] at hb'; exact absurd hb' (by decide)
            · rcases hqo' with ⟨-, -, ha⟩ | ⟨rfl, rfl, -⟩
              · rw [ha m ms hb] at hb'; exact absurd hb' (by decide)
              · rw [flush_strip reg st hm]
                exact ⟨rfl, rfl, by simp [MMState.flush]⟩
          obtain ⟨rfl, rfl, hq⟩ := hq
          rw [hs1, hs2]
          refine ⟨hfin q o hq, ?_⟩
          split
          · simp [MMState.flush]
          · intro i hi
            simp only [MMState.take, List.mem_append, List.mem_singleton] at hi
            rcases hi with hi | rfl
            · exact hq i hi
            · exact hd
        · have hd' : x.cls.isData = false := by simpa using hd
          by_cases hf : (x.cls.kind = .main ∧ x.cls.isData = false) ∨
              (x.cls.kind = .global ∧ watched x.cls = true ∧ st.props x.cls ≠ x.ival)
          · obtain ⟨props, h1, h2⟩ := mm_step_flush reg st x hf
            obtain ⟨props', h1', h2'⟩ := mm_step_flush reg (MMState.strip st) x hf
            have hpp : props' = props := by funext c; rw [h2, h2']; rfl
            rw [h1, h1', hpp, hpush]
            refine ⟨?_, by simp [MMState.flush]⟩
            exact flush_strip reg { MMState.push st x with props := props } hm
          · have hkm : x.cls.kind ≠ .main := fun h => hf (Or.inl ⟨h, hd'⟩)
            have hkg : x.cls.kind = .global := by
              cases h : x.cls.kind with
              | main => exact absurd h hkm
              | loc => exact absurd h hk
              | global => rfl
            have hw : ¬ (watched x.cls = true ∧ st.props x.cls ≠ x.ival) :=
              fun h => hf (Or.inr ⟨hkg, h⟩)
            by_cases hrc : x.cls = .reportCount
            · rw [mm_step_rc reg st x hrc, mm_step_rc reg (MMState.strip st) x hrc]
              refine ⟨?_, hm⟩
              simp [MMState.pushRC, MMState.strip, strip_append, strip_other x hk, MMState.push]
              rfl
            · rw [mm_step_quiet reg st x hkm hw hrc, mm_step_quiet reg (MMState.strip st) x hkm hw hrc,
                hpush]
              exact ⟨rfl, hm⟩
      rw [hstep.1, ih _ hstep.2]

/-- Records of a stream without local items. -/
theorem recs_bare (rule : PageRule) (xs : List Item) (hx : ∀ i ∈ xs, i.cls.kind ≠ .loc)
    (hp : NoPushPop xs) (hc : ∀ i ∈ xs, i.cls = .reportCount → 0 ≤ i.ival) (h : Host)
    (h1 : h.usages = {}) (h2 : h.strings = {}) (h3 : h.desigs = {}) (h4 : 0 ≤ h.g .reportCount) :
    rangesClosed rule h (keys xs) = true ∧ ∀ r ∈ recs rule h (keys xs),
      r.usages = [] ∧ r.strings = [] ∧ r.desigs = [] ∧ 0 ≤ r.g .reportCount := by
  induction xs generalizing h with
  | nil => exact ⟨rfl, by simp⟩
  | cons x xs ih =>
    rw [NoPushPop.cons] at hp
    have hx0 := hx x (by simp)
    have hc0 := hc x (by simp)
    have hstep : (h.step rule x.key).usages = {} ∧ (h.step rule x.key).strings = {} ∧
        (h.step rule x.key).desigs = {} ∧ 0 ≤ (h.step rule x.key).g .reportCount := by
      obtain ⟨c, v⟩ := x
      cases c <;> first
        | (simp [Cls.kind] at hx0; done)
        | (exact absurd rfl hp.1.1)
        | (exact absurd rfl hp.1.2)
        | (simp_all [Host.step, Item.key])
    obtain ⟨i1, i2⟩ := ih (fun i hi => hx i (by simp [hi])) hp.2 (fun i hi => hc i (by simp [hi])) _
      hstep.1 hstep.2.1 hstep.2.2.1 hstep.2.2.2
    constructor
    · rw [keys_cons]
      simp only [rangesClosed, h1, h2, h3, i1, Bool.and_true]
      simp [Decl.closed]
    · intro r hr
      rw [keys_cons, recs_cons] at hr
      rcases List.mem_append.1 hr with hr | hr
      · split at hr
        · simp only [List.mem_singleton] at hr
          subst hr
          simp [Host.main, h1, h2, h3, Decl.values, h4]
        · simp at hr
      · exact i2 r hr

theorem mergeSafe_bare (rs : List MainRec) (h : ∀ r ∈ rs, r.usages = [] ∧ r.strings = [] ∧
    r.desigs = [] ∧ 0 ≤ r.g .reportCount) : mergeSafe rs = true := by
  induction rs with
  | nil => rfl
  | cons a rs ih =>
    cases rs with
    | nil => rfl
    | cons b rs =>
      simp only [mergeSafe, Bool.and_eq_true, decide_eq_true_eq]
      refine ⟨?_, ih (fun r hr => h r (by simp [hr]))⟩
      intro _
      obtain ⟨a1, a2, a3, a4⟩ := h a (by simp)
      obtain ⟨b1, b2, b3, b4⟩ := h b (by simp)
      refine ⟨b4, ?_⟩
      cases a.isConst <;> cases a.isVar <;> simp [Joinable, a1, a2, a3, b1, b2, b3]

theorem view_strip (P : SItem → Bool) (hP : ∀ k, k.1.kind = .loc → P k = false) (xs : List Item) :
    view P (strip xs) = view P xs :=
  view_filter P _ xs (fun i hi => hP i.key (by simpa using hi))

theorem trailing_strip (b : Bool) (xs : List Item) : trailing b (strip xs) = trailing b xs := by
  induction xs generalizing b with
  | nil => rfl
  | cons x xs ih =>
    by_cases hk : x.cls.kind = .loc
    · have : strip (x :: xs) = strip xs := by simp [strip, hk]
      rw [this, ih]
      simp [trailing, hk]
    · have : strip (x :: xs) = x :: strip xs := by simp [strip, hk]
      rw [this]
      simp only [trailing, ih]

theorem core_local (k : SItem) (h : k.1.kind = .loc) : coreItem k = false := by
  obtain ⟨c, v⟩ := k
  cases c <;> first | rfl | (simp [Cls.kind] at h)

/-- `MainMerge` keeps report sizes. -/
theorem mm_bits (reg : Registry) (rule : PageRule) (way : Cls) (id : Int) (xs : List Item)
    (hp : NoPushPop xs) (hc : ∀ i ∈ xs, i.cls = .reportCount → 0 ≤ i.ival)
    (htr : trailing true xs = true) :
    reportBits way id (meaning rule (keys ((mainMerge reg).run xs)))
      = reportBits way id (meaning rule (keys xs)) := by
  have hmem : ∀ i ∈ strip xs, i ∈ xs ∧ i.cls.kind ≠ .loc := by
    intro i hi
    have := List.mem_filter.1 hi
    exact ⟨this.1, by simpa using this.2⟩
  have hps : NoPushPop (strip xs) := fun i hi => hp i (hmem i hi).1
  have hpr : NoPushPop ((mainMerge reg).run xs) :=
    (tame_any _).1 (tame_mm .any reg xs ((tame_any _).2 hp))
  have hprs : NoPushPop (strip ((mainMerge reg).run xs)) :=
    fun i hi => hpr i (List.mem_filter.1 hi).1
  have hbare := recs_bare .atUsage (strip xs) (fun i hi => (hmem i hi).2) hps
    (fun i hi => hc i (hmem i hi).1) {} rfl rfl rfl (Int.le_refl 0)
  have hrun : (mainMerge reg).run (strip xs) = strip ((mainMerge reg).run xs) :=
    mm_strip reg xs {} (by simp)
  have hev := mainMerge_run_events reg (strip xs) hps (mergeSafe_bare _ hbare.2) hbare.1
    (by rw [trailing_strip]; exact htr)
  rw [bits_of_view rule .atUsage way id _ (strip ((mainMerge reg).run xs)) hpr hprs
    (view_strip coreItem core_local _).symm, ← hrun, hev,
    bits_of_view .atUsage rule way id (strip xs) xs hps hp (view_strip coreItem core_local _)]

end Hrdc
