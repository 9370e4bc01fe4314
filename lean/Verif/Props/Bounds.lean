import Verif.Spec.Merge
import Verif.Props.Passes4
/-!
# C21: what removing physical bounds does, exactly
-/
namespace Hrdc
open Spec Optimizer

theorem physKept_recs (rule : PageRule) (xs : List SItem) : ∀ (h : Host) (lo hi : Int) (s : Cls → Option Int),
    (physKept rule h lo hi s xs).map (·.1) = recs rule h xs := by
  induction xs with
  | nil => intros; rfl
  | cons x xs ih =>
    intro h lo hi s
    rw [physKept, recs]
    by_cases hm : x.1.kind = .main
    · simp only [hm, if_true]
      split <;> simp [ih]
    · simp only [hm, if_false]
      split <;> simp [ih]

theorem main_withPhys (rule : PageRule) {a b : Host} (h : PhysEq a b) (i : SItem) :
    b.main rule i = (a.main rule i).withPhys (b.g .physMin) (b.g .physMax) := by
  obtain ⟨h1, h2, h3, h4⟩ := h
  have hu := h1 .usagePage (by decide) (by decide)
  unfold Host.main MainRec.withPhys
  simp only [h2, h3, h4, hu]
  congr 1
  funext c
  by_cases h5 : c = .physMin
  · simp [h5]
  · by_cases h6 : c = .physMax
    · simp [h6]
    · simp [h5, h6, h1 c h5 h6]

theorem rangeTag_iff (c : Cls) : (c.kind = .global ∧ rangeTag c = true) ↔ c ∈ [Cls.logMin, .logMax, .physMin, .physMax] := by
  cases c <;> simp [Cls.kind, rangeTag]

theorem recs_quiet (rule : PageRule) (xs : List Item) (hx : ∀ i ∈ xs, Quiet i) (h : Host) (ys : List SItem) :
    recs rule h (keys xs ++ ys) = recs rule (h.after rule (keys xs)) ys := by
  induction xs generalizing h with
  | nil => rfl
  | cons x xs ih =>
    have := (hx x (by simp)).1
    rw [keys_cons, List.cons_append, recs, after_cons, ih (fun i hi => hx i (by simp [hi]))]
    simp [this]

theorem physicalMerge_recs (rule : PageRule) (xs : List Item) (pend : List Item)
    (a b : Host) (hq : ∀ i ∈ pend, Quiet i) (hp : NoPushPop xs) (he : PhysEq a b) :
    recs rule b (keys (Optimizer.physicalMerge.runFrom
        ⟨fun c => (bounds (fun _ => none) pend c).getD 0, pend⟩ xs))
      = (physKept rule (a.after rule (keys pend)) (b.g .physMin) (b.g .physMax) (bounds (fun _ => none) pend)
          (keys xs)).map (fun p => p.1.withPhys p.2.1 p.2.2) := by
  induction xs generalizing pend a b with
  | nil =>
    rw [Pass.runFrom_nil]
    show recs rule b (keys pend) = _
    have := recs_quiet rule pend hq b []
    rw [List.append_nil] at this
    rw [this]
    rfl
  | cons x xs ih =>
    rw [NoPushPop.cons] at hp
    rw [Pass.runFrom_cons]
    by_cases hm : x.cls.kind = .main
    · simp only [hm, if_true]
      have hgb := fun c hc => after_bounds rule pend hq b b (fun _ => none) c hc rfl
      have step : ∀ out : List Item, (∀ i ∈ out, Quiet i) →
          PhysEq (a.after rule (keys pend)) (b.after rule (keys out)) →
          recs rule b (keys ((out ++ [x]) ++ Optimizer.physicalMerge.runFrom {} xs)) =
          ((a.after rule (keys pend)).main rule x.key).withPhys ((b.after rule (keys out)).g .physMin)
              ((b.after rule (keys out)).g .physMax) ::
            (physKept rule ((a.after rule (keys pend)).step rule x.key) ((b.after rule (keys out)).g .physMin)
              ((b.after rule (keys out)).g .physMax) (fun _ => none) (keys xs)).map
              (fun p => p.1.withPhys p.2.1 p.2.2) := by
        intro out hqo hpe
        rw [keys_append, keys_append, List.append_assoc, recs_quiet rule out hqo, keys_cons]
        show recs rule _ (x.key :: _) = _
        rw [recs]
        simp only [key_fst, hm, if_true]
        rw [main_withPhys rule hpe]
        have hg1 : ∀ h : Host, (h.step rule x.key).g = h.g := fun h =>
          step_local_g rule h x (by rw [hm]; decide)
        have := ih [] _ _ (by simp) hp.2 (physEq_step_main rule hpe x hm)
        rw [hg1] at this
        show _ :: _ = _ :: _
        congr 1
      by_cases hdrop : (bounds (fun _ => none) pend .physMin).getD 0
            = (bounds (fun _ => none) pend .logMin).getD 0 ∧
          (bounds (fun _ => none) pend .physMax).getD 0
            = (bounds (fun _ => none) pend .logMax).getD 0
      · rw [if_pos hdrop, keys_cons, physKept]
        simp only [key_fst, hm, if_true]
        rw [if_pos hdrop]
        rw [step _ (fun i hi => hq i (List.mem_filter.1 hi).1) (physEq_filter rule pend hq he),
          filter_phys rule pend hq b .physMin (Or.inl rfl), filter_phys rule pend hq b .physMax (Or.inr rfl)]
        rfl
      · rw [if_neg hdrop, keys_cons, physKept]
        simp only [key_fst, hm, if_true]
        rw [if_neg hdrop]
        rw [step _ hq (physEq_after rule pend hq he), hgb .physMin rfl, hgb .physMax rfl]
        rfl
    · simp only [hm, if_false, List.nil_append]
      have hq' : ∀ i ∈ pend ++ [x], Quiet i := by
        intro i hi
        rcases List.mem_append.1 hi with hi | hi
        · exact hq i hi
        · simp at hi; subst hi; exact ⟨hm, hp.1.1, hp.1.2⟩
      have := ih (pend ++ [x]) a b hq' hp.2 he
      rw [keys_append, after_append] at this
      rw [keys_cons, physKept]
      have hmk : ¬ x.key.1.kind = .main := hm
      rw [if_neg hmk]
      have hb := bounds_append (fun _ => none) pend [x]
      by_cases hr : x.key.1 ∈ [Cls.logMin, .logMax, .physMin, .physMax]
      · have hr' := (rangeTag_iff x.cls).2 hr
        rw [if_pos hr]
        have hb2 : bounds (fun _ => none) (pend ++ [x]) = fun c => if c = x.cls then some x.ival else bounds (fun _ => none) pend c := by
          rw [hb]; simp only [bounds, List.foldl_cons, List.foldl_nil, hr', and_self, if_true]
        rw [hb2] at this
        simp only [hr', and_self, if_true]
        refine Eq.trans ?_ this
        congr 4
        funext c; simp only; split <;> simp
      · have hr' : ¬ (x.cls.kind = .global ∧ rangeTag x.cls = true) := fun h => hr ((rangeTag_iff x.cls).1 h)
        rw [if_neg hr]
        have hb2 : bounds (fun _ => none) (pend ++ [x]) = bounds (fun _ => none) pend := by
          rw [hb]; simp only [bounds, List.foldl_cons, List.foldl_nil, hr', if_false]
        rw [hb2] at this
        simp only [hr', if_false]
        exact this

/-- C21.  What the pass makes of any stream without Push and Pop: the same main items with the same indices, values and
globals but for the physical bounds, which are those of `physKept`. -/
theorem C21_exact (rule : PageRule) (xs : List Item) (hp : NoPushPop xs) :
    recs rule {} (keys (physicalMerge.run xs)) =
      (physKept rule {} 0 0 (fun _ => none) (keys xs)).map (fun p => p.1.withPhys p.2.1 p.2.2) ∧
    recs rule {} (keys xs) = (physKept rule {} 0 0 (fun _ => none) (keys xs)).map (·.1) :=
  ⟨physicalMerge_recs rule xs [] {} {} (by simp) hp ⟨fun _ _ _ => rfl, rfl, rfl, rfl⟩, (physKept_recs rule _ _ _ _ _).symm⟩

theorem withPhys_events (r : MainRec) (lo hi : Int) : (r.withPhys lo hi).events = r.events ↔ r.bounded lo hi := by
  have hat : (r.withPhys lo hi).attrs = { r.attrs with physMin := if lo = 0 ∧ hi = 0 then r.g .logMin else lo, physMax := if lo = 0 ∧ hi = 0 then r.g .logMax else hi } := by
    simp [MainRec.withPhys, MainRec.attrs]
  have hw : (r.withPhys lo hi).what = r.what := rfl
  have hsel : (r.withPhys lo hi).selector = r.selector := rfl
  have hk : (r.withPhys lo hi).isConst = r.isConst := rfl
  have h1 : (r.withPhys lo hi).g .reportSize = r.g .reportSize := by simp [MainRec.withPhys]
  have h2 : (r.withPhys lo hi).g .reportCount = r.g .reportCount := by simp [MainRec.withPhys]
  have h3 : (r.withPhys lo hi).g .reportID = r.g .reportID := by simp [MainRec.withPhys]
  have hc : (r.withPhys lo hi).cls = r.cls := rfl
  have hv : (r.withPhys lo hi).val = r.val := rfl
  unfold MainRec.bounded
  have hdata : r.cls.isData = true → ((r.withPhys lo hi).events = r.events ↔
      (r.isConst = false → 0 < r.g .reportCount →
        (if lo = 0 ∧ hi = 0 then (r.g .logMin, r.g .logMax) else (lo, hi)) = (r.attrs.physMin, r.attrs.physMax))) := by
    intro hd
    have hcl : r.cls = .input ∨ r.cls = .output ∨ r.cls = .feature := by
      cases hcc : r.cls <;> simp_all [Cls.isData]
    have hev : ∀ q : MainRec, q.cls = r.cls → q.events = if q.isConst then
        List.replicate ((q.g .reportSize).toNat * (q.g .reportCount).toNat) (.padBit q.cls (q.g .reportID))
      else (List.range (q.g .reportCount).toNat).map (fun k =>
        .control q.cls q.val (q.g .reportID) q.attrs (q.what k)) := by
      intro q hq
      rcases hcl with h | h | h <;> rw [h] at hq <;> simp only [MainRec.events, hq]
    rw [hev _ hc, hev r rfl, hc, hv, hk, h1, h2, h3, hw]
    cases hcon : r.isConst with
    | true => simp
    | false =>
      simp only [Bool.false_eq_true, if_false, true_implies]
      constructor
      · intro h hpos
        have h0 := congrArg (fun l => l[0]?) h
        have hr : 0 < (r.g .reportCount).toNat := by omega
        simp only [List.getElem?_map, List.getElem?_range hr, Option.map_some, Option.some.injEq, Event.control.injEq, true_and, and_true] at h0
        rw [hat] at h0
        have e1 := congrArg Attrs.physMin h0
        have e2 := congrArg Attrs.physMax h0
        simp only at e1 e2
        rw [← e1, ← e2]
        split <;> rfl
      · intro h
        by_cases hpos : 0 < r.g .reportCount
        · have h := h hpos
          have ha : (r.withPhys lo hi).attrs = r.attrs := by
            rw [hat]
            have e1 := congrArg Prod.fst h
            have e2 := congrArg Prod.snd h
            simp only at e1 e2
            generalize r.attrs = t at *
            obtain ⟨⟩ := t
            simp only at e1 e2 ⊢
            by_cases hz : lo = 0 ∧ hi = 0
            · simp only [if_pos hz] at *; simp [← e1, ← e2]
            · simp only [if_neg hz] at *; simp [← e1, ← e2]
          rw [ha]
        · have : (r.g .reportCount).toNat = 0 := by omega
          rw [this]; rfl
  by_cases hd : r.cls.isData = true
  · rw [hdata hd]
    simp [hd]
  · simp only [hd, false_implies, iff_true, Bool.false_eq_true]
    simp only [MainRec.events, hc, hv, hsel]
    cases hcc : r.cls <;> simp_all [Cls.isData]

theorem withPhys_len (r : MainRec) (lo hi : Int) : (r.withPhys lo hi).events.length = r.events.length := by
  unfold MainRec.events
  have hk : (r.withPhys lo hi).isConst = r.isConst := rfl
  have h1 : (r.withPhys lo hi).g .reportSize = r.g .reportSize := by simp [MainRec.withPhys]
  have h2 : (r.withPhys lo hi).g .reportCount = r.g .reportCount := by simp [MainRec.withPhys]
  have hc : (r.withPhys lo hi).cls = r.cls := rfl
  rw [hk, h1, h2, hc]
  cases r.cls <;> simp <;> split <;> simp

/-- C21.  The meaning is kept exactly when every field has the bounds it had. -/
theorem C21_iff (rule : PageRule) (xs : List Item) (hp : NoPushPop xs) :
    meaning rule (keys (physicalMerge.run xs)) = meaning rule (keys xs) ↔
      ∀ p ∈ physKept rule {} 0 0 (fun _ => none) (keys xs), p.1.bounded p.2.1 p.2.2 := by
  obtain ⟨h1, h2⟩ := C21_exact rule xs hp
  unfold meaning eventsFrom
  rw [h1, h2]
  generalize physKept rule {} 0 0 (fun _ => none) (keys xs) = l
  induction l with
  | nil => simp
  | cons p l ih =>
    simp only [List.map_cons, List.flatMap_cons, List.forall_mem_cons]
    rw [← ih, ← withPhys_events]
    constructor
    · intro h
      exact List.append_inj h (withPhys_len _ _ _)
    · rintro ⟨e1, e2⟩
      rw [e1, e2]

/-- Three fields: bounds equal to the logical ones are removed, others kept, then logical ones again are removed. -/
def keptSample : List Item :=
  [⟨.reportSize, .int 8⟩, ⟨.reportCount, .int 1⟩,
   ⟨.logMin, .int 0⟩, ⟨.logMax, .int 7⟩, ⟨.physMin, .int 0⟩, ⟨.physMax, .int 7⟩, ⟨.input, .int 2⟩,
   ⟨.logMin, .int 0⟩, ⟨.logMax, .int 7⟩, ⟨.physMin, .int (-90)⟩, ⟨.physMax, .int 90⟩, ⟨.input, .int 2⟩,
   ⟨.logMin, .int 0⟩, ⟨.logMax, .int 7⟩, ⟨.physMin, .int 0⟩, ⟨.physMax, .int 7⟩, ⟨.input, .int 2⟩]

example : NoPushPop keptSample ∧ (physKept .atUsage {} 0 0 (fun _ => none) (keys keptSample)).map (·.2) =
    [(0, 0), (-90, 90), (-90, 90)] ∧
    (physKept .atUsage {} 0 0 (fun _ => none) (keys keptSample)).map (fun p => (p.1.attrs.physMin, p.1.attrs.physMax)) =
    [(0, 7), (-90, 90), (0, 7)] := by decide +kernel

end Hrdc
