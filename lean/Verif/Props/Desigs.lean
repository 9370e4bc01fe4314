import Verif.Spec.Merge
import Verif.Props.Bounds
import Verif.Props.Passes3
/-!
# C24: what removing designators does, exactly
-/
namespace Hrdc
open Spec Optimizer

/-- Values of the single designator indices. -/
def indexVals (xs : List Item) : List Int := (xs.filter (fun i => i.cls == .desigIndex)).map Item.ival

/-- Effect of a local item on the designators declared. -/
def Spec.Decl.desigStep (d : Decl) (i : Item) : Decl :=
  if i.cls = .desigIndex then d.one i.ival
  else if i.cls = .desigMin then d.setLo i.ival
  else if i.cls = .desigMax then d.setHi i.ival
  else d

/-- Effect of local items, single indices left out. -/
def Spec.Decl.desigLess (d : Decl) (xs : List Item) : Decl :=
  (xs.filter (fun i => i.cls != .desigIndex)).foldl Decl.desigStep d

theorem after_desigs (rule : PageRule) (xs : List Item) (hl : ∀ i ∈ xs, i.cls.kind = .loc) (h : Host) :
    (h.after rule (keys xs)).desigs = xs.foldl Decl.desigStep h.desigs := by
  induction xs generalizing h with
  | nil => rfl
  | cons x xs ih =>
    rw [keys_cons, after_cons, ih (fun i hi => hl i (by simp [hi]))]
    simp only [List.foldl_cons]
    congr 1
    have := hl x (by simp)
    obtain ⟨c, v⟩ := x
    cases c <;> simp_all [Host.step, Decl.desigStep, Item.key, Cls.kind]

/-- Host states that agree on everything but the designators. -/
def NoDesigEq (a b : Host) : Prop := a.g = b.g ∧ a.stack = b.stack ∧ a.usages = b.usages ∧ a.strings = b.strings

theorem noDesigEq_step (rule : PageRule) {a b : Host} (h : NoDesigEq a b) (i : SItem) :
    NoDesigEq (a.step rule i) (b.step rule i) := by
  obtain ⟨ga, sa, ua, ta, da⟩ := a
  obtain ⟨gb, sb, ub, tb, db⟩ := b
  obtain ⟨h1, h2, h3, h4⟩ := h
  simp only at h1 h2 h3 h4
  subst h1 h2 h3 h4
  obtain ⟨c, v⟩ := i
  cases c <;> simp [NoDesigEq, Host.step] <;> cases sa <;> simp

theorem noDesigEq_after (rule : PageRule) (xs : List SItem) {a b : Host} (h : NoDesigEq a b) :
    NoDesigEq (a.after rule xs) (b.after rule xs) := by
  induction xs generalizing a b with
  | nil => exact h
  | cons x xs ih => exact ih (noDesigEq_step rule h x)

theorem noDesigEq_drop (rule : PageRule) {a b : Host} (h : NoDesigEq a b) (v : Int) :
    NoDesigEq (a.step rule (.desigIndex, v)) b := h

theorem main_withDesigs (rule : PageRule) {a b : Host} (h : NoDesigEq a b) (i : SItem) :
    b.main rule i = (a.main rule i).withDesigs (b.desigs.values id) := by
  obtain ⟨h1, h2, h3, h4⟩ := h
  simp [Host.main, MainRec.withDesigs, h1, h3, h4]

theorem desigKept_recs (rule : PageRule) (xs : List SItem) : ∀ (h : Host) (all less : Decl) (seen : List Int),
    (desigKept rule h all less seen xs).map (·.1) = recs rule h xs := by
  induction xs with
  | nil => intros; rfl
  | cons x xs ih =>
    intro h all less seen
    rw [desigKept, recs]
    simp only
    split
    · next h1 => rw [ih, h1]; rfl
    split
    · next h1 => rw [ih, h1]; rfl
    split
    · next h1 => rw [ih, h1]; rfl
    split
    · next h1 => rw [ih, h1]; rfl
    split
    · simp [ih]
    · simp [ih]

/-- State of the pass once it has received the local items `pend` since the last other item. -/
def duState (pend : List Item) : DUState :=
  { pending := pend
    toFilter := match indexVals pend with
      | [] => none
      | v :: r => if v = 0 ∧ r = [] then some (some (pend.findIdx (fun i => i.cls == .desigIndex))) else some none }

theorem indexVals_append (xs ys : List Item) : indexVals (xs ++ ys) = indexVals xs ++ indexVals ys := by
  simp [indexVals]

theorem erase_index (pend ys : List Item) {v : Int} (h : indexVals pend = [v]) :
    (pend ++ ys).eraseIdx (pend.findIdx (fun i => i.cls == .desigIndex)) = pend.filter (fun i => i.cls != .desigIndex) ++ ys := by
  induction pend with
  | nil => simp [indexVals] at h
  | cons x l ih =>
    by_cases hx : x.cls = .desigIndex
    · have hl : l.filter (fun i => i.cls == .desigIndex) = [] := by
        simp only [indexVals, List.filter_cons, hx, beq_self_eq_true, if_true, List.map_cons, List.cons.injEq, List.map_eq_nil_iff] at h
        exact h.2
      have hl' : l.filter (fun i => i.cls != .desigIndex) = l := by
        rw [List.filter_eq_self]
        intro i hi
        have := List.filter_eq_nil_iff.1 hl i hi
        simpa using this
      simp [List.findIdx_cons, hx, hl']
    · have hi : indexVals l = [v] := by simpa [indexVals, List.filter_cons, hx] using h
      have hb : (x.cls == Cls.desigIndex) = false := by simpa using hx
      have := ih hi
      simp only [List.cons_append, List.findIdx_cons, hb, cond_false, List.eraseIdx_cons_succ, this, List.filter_cons, bne, Bool.not_false, if_true]

theorem findIdx_left (pend : List Item) (x : Item) {v : Int} {r : List Int} (h : indexVals pend = v :: r) :
    (pend ++ [x]).findIdx (fun i => i.cls == .desigIndex) = pend.findIdx (fun i => i.cls == .desigIndex) := by
  have : ∃ y ∈ pend, y.cls = .desigIndex := by
    have hv : v ∈ indexVals pend := by rw [h]; simp
    obtain ⟨y, hy, -⟩ := List.mem_map.1 hv
    exact ⟨y, (List.mem_filter.1 hy).1, by simpa using (List.mem_filter.1 hy).2⟩
  rw [List.findIdx_append]
  rw [if_pos (List.findIdx_lt_length.2 (by obtain ⟨y, h1, h2⟩ := this; exact ⟨y, h1, by simp [h2]⟩))]

theorem findIdx_none (pend : List Item) (x : Item) (h : indexVals pend = []) (hx : x.cls = .desigIndex) :
    (pend ++ [x]).findIdx (fun i => i.cls == .desigIndex) = pend.length := by
  have hn : ¬ pend.findIdx (fun i => i.cls == .desigIndex) < pend.length := by
    rw [List.findIdx_lt_length]
    rintro ⟨y, hy, hc⟩
    have : pend.filter (fun i => i.cls == .desigIndex) = [] := by simpa [indexVals] using h
    exact absurd hc (by simpa using List.filter_eq_nil_iff.1 this y hy)
  rw [List.findIdx_append, if_neg hn]
  simp [hx]

theorem duState_step (pend : List Item) (x : Item) (hx : x.cls.kind = .loc) :
    designatorUniq.step (duState pend) x = (duState (pend ++ [x]), []) := by
  by_cases hd : x.cls = .desigIndex
  · have hv : indexVals (pend ++ [x]) = indexVals pend ++ [x.ival] := by
      rw [indexVals_append]; simp [indexVals, hd]
    cases hi : indexVals pend with
    | nil =>
      rw [hi] at hv
      by_cases h0 : x.ival = 0
      · simp [duState, hi, hv, hx, hd, h0, Cls.kind, findIdx_none pend x hi hd]
      · simp [duState, hi, hv, hx, hd, h0, Cls.kind]
    | cons v r =>
      rw [hi] at hv
      have hf : ((duState pend).toFilter = none) = False := by
        simp only [duState, hi]
        split <;> simp
      simp only [hx, if_true, hd, hf, false_and, if_false]
      simp [duState, hv, Cls.kind]
  · have hv : indexVals (pend ++ [x]) = indexVals pend := by
      rw [indexVals_append]; simp [indexVals, hd]
    cases hi : indexVals pend with
    | nil => rw [hi] at hv; simp [duState, hi, hv, hx, hd]
    | cons v r => rw [hi] at hv; simp [duState, hi, hv, hx, hd, findIdx_left pend x hi]

/-- What is sent on of the local items before an item of another kind. -/
def duOut (pend : List Item) : List Item :=
  if indexVals pend = [0] then pend.filter (fun i => i.cls != .desigIndex) else pend

theorem duState_other (pend : List Item) (x : Item) (hx : x.cls.kind ≠ .loc) :
    designatorUniq.step (duState pend) x = (duState [], duOut pend ++ [x]) := by
  have h0 : duState [] = {} := rfl
  simp only [hx, if_false, h0, Prod.mk.injEq, true_and]
  unfold duOut
  cases hi : indexVals pend with
  | nil => simp [duState, hi]
  | cons v r =>
    by_cases hv : v = 0 ∧ r = []
    · obtain ⟨rfl, rfl⟩ := hv
      simp only [duState, hi, and_self, if_true]
      exact erase_index pend [x] hi
    · have hne : ¬ (v :: r = [0]) := by simpa using hv
      simp [duState, hi, hv, hne]

theorem recs_loc (rule : PageRule) (xs : List Item) (hx : ∀ i ∈ xs, i.cls.kind = .loc) (h : Host) (ys : List SItem) :
    recs rule h (keys xs ++ ys) = recs rule (h.after rule (keys xs)) ys := by
  induction xs generalizing h with
  | nil => rfl
  | cons x xs ih =>
    have := hx x (by simp)
    rw [keys_cons, List.cons_append, recs, after_cons, ih (fun i hi => hx i (by simp [hi]))]
    simp [this]

theorem noDesigEq_filter (rule : PageRule) (xs : List Item) {a b : Host} (h : NoDesigEq a b) :
    NoDesigEq (a.after rule (keys xs)) (b.after rule (keys (xs.filter (fun i => i.cls != .desigIndex)))) := by
  induction xs generalizing a b with
  | nil => exact h
  | cons x xs ih =>
    by_cases hx : x.cls = .desigIndex
    · have e : (x :: xs).filter (fun i => i.cls != .desigIndex) = xs.filter (fun i => i.cls != .desigIndex) := by simp [hx]
      rw [e, keys_cons, after_cons]
      refine ih ?_
      have : x.key = (.desigIndex, x.ival) := by simp [Item.key, hx]
      rw [this]
      exact h
    · have e : (x :: xs).filter (fun i => i.cls != .desigIndex) = x :: xs.filter (fun i => i.cls != .desigIndex) := by simp [hx]
      rw [e, keys_cons, keys_cons, after_cons, after_cons]
      exact ih (noDesigEq_step rule h x.key)

theorem designatorUniq_recs (rule : PageRule) (xs : List Item) (pend : List Item) (a b : Host)
    (hl : ∀ i ∈ pend, i.cls.kind = .loc) (he : NoDesigEq a b) :
    recs rule b (keys (designatorUniq.runFrom (duState pend) xs)) =
      (desigKept rule (a.after rule (keys pend)) (pend.foldl Decl.desigStep b.desigs) (b.desigs.desigLess pend)
        (indexVals pend) (keys xs)).map (fun p => p.1.withDesigs p.2) := by
  induction xs generalizing pend a b with
  | nil => rfl
  | cons x xs ih =>
    rw [Pass.runFrom_cons]
    by_cases hk : x.cls.kind = .loc
    · rw [duState_step pend x hk, List.nil_append]
      have := ih (pend ++ [x]) a b (by
        intro i hi
        rcases List.mem_append.1 hi with hi | hi
        · exact hl i hi
        · simp at hi; subst hi; exact hk) he
      conv => rhs; rw [keys_cons, desigKept]
      rw [this, keys_append, after_append]
      simp only [List.foldl_append, List.foldl_cons, List.foldl_nil, Decl.desigLess, List.filter_append, indexVals_append]
      have hs : (a.after rule (keys pend)).after rule (keys [x]) = (a.after rule (keys pend)).step rule x.key := rfl
      rw [hs]
      by_cases h1 : x.cls = .desigIndex
      · have h1' : x.key.1 = .desigIndex := h1
        rw [if_pos h1']
        simp [h1, Decl.desigStep, indexVals]
      have h1' : ¬ x.key.1 = .desigIndex := h1
      rw [if_neg h1']
      have hiv : indexVals [x] = [] := by simp [indexVals, h1]
      have hf : [x].filter (fun i => i.cls != .desigIndex) = [x] := by simp [h1]
      rw [hiv, hf, List.append_nil]
      by_cases h2 : x.cls = .desigMin
      · have h2' : x.key.1 = .desigMin := h2
        rw [if_pos h2']
        simp [h2, Decl.desigStep]
      have h2' : ¬ x.key.1 = .desigMin := h2
      rw [if_neg h2']
      by_cases h3 : x.cls = .desigMax
      · have h3' : x.key.1 = .desigMax := h3
        rw [if_pos h3']
        simp [h3, Decl.desigStep]
      have h3' : ¬ x.key.1 = .desigMax := h3
      rw [if_neg h3']
      have hk' : x.key.1.kind = .loc := hk
      rw [if_pos hk']
      simp [Decl.desigStep, h1, h2, h3]
    · rw [duState_other pend x hk]
      have h1' : ¬ x.key.1 = .desigIndex := by intro e; apply hk; have : x.cls = .desigIndex := e; rw [this]; rfl
      have h2' : ¬ x.key.1 = .desigMin := by intro e; apply hk; have : x.cls = .desigMin := e; rw [this]; rfl
      have h3' : ¬ x.key.1 = .desigMax := by intro e; apply hk; have : x.cls = .desigMax := e; rw [this]; rfl
      have hk' : ¬ x.key.1.kind = .loc := hk
      rw [keys_cons, desigKept]
      simp only
      rw [if_neg h1', if_neg h2', if_neg h3', if_neg hk']
      have hlo : ∀ i ∈ duOut pend, i.cls.kind = .loc := by
        unfold duOut
        split
        · intro i hi; exact hl i (List.mem_filter.1 hi).1
        · exact hl
      have heo : NoDesigEq (a.after rule (keys pend)) (b.after rule (keys (duOut pend))) := by
        unfold duOut
        split
        · exact noDesigEq_filter rule pend he
        · exact noDesigEq_after rule _ he
      have hdo : (b.after rule (keys (duOut pend))).desigs =
          if indexVals pend = [0] then b.desigs.desigLess pend else pend.foldl Decl.desigStep b.desigs := by
        rw [after_desigs rule _ hlo]
        unfold duOut
        split <;> rfl
      rw [← hdo, List.append_assoc, keys_append, recs_loc rule _ hlo, List.singleton_append, keys_cons, recs]
      have hst := ih [] ((a.after rule (keys pend)).step rule x.key) ((b.after rule (keys (duOut pend))).step rule x.key)
        (by simp) (noDesigEq_step rule heo x.key)
      have e1 : indexVals [] = [] := rfl
      have e2 : ∀ d : Decl, d.desigLess [] = d := fun _ => rfl
      have e3 : ∀ h : Host, h.after rule (keys []) = h := fun _ => rfl
      rw [hst, e1, e2, e3, List.foldl_nil]
      by_cases hm : x.key.1.kind = .main
      · rw [if_pos hm, if_pos hm]
        have hc : ((b.after rule (keys (duOut pend))).step rule x.key).desigs = {} := by
          generalize b.after rule (keys (duOut pend)) = hb
          obtain ⟨c, v⟩ := x
          cases c <;> simp_all [Host.step, Item.key, Cls.kind]
        rw [hc, main_withDesigs rule heo]
        rfl
      · rw [if_neg hm, if_neg hm]
        have hc : ((b.after rule (keys (duOut pend))).step rule x.key).desigs = (b.after rule (keys (duOut pend))).desigs := by
          generalize b.after rule (keys (duOut pend)) = hb
          obtain ⟨c, v⟩ := x
          cases c <;> simp_all [Host.step, Item.key, Cls.kind] <;> (split <;> rfl)
        rw [hc]
        rfl

/-- **C24.** What the pass makes of any stream: the same main items with the same values, globals, usages and strings;
their designators are those of `desigKept`. -/
theorem C24_exact (rule : PageRule) (xs : List Item) :
    recs rule {} (keys (designatorUniq.run xs)) =
      (desigKept rule {} {} {} [] (keys xs)).map (fun p => p.1.withDesigs p.2) ∧
    recs rule {} (keys xs) = (desigKept rule {} {} {} [] (keys xs)).map (·.1) :=
  ⟨designatorUniq_recs rule xs [] {} {} (by simp) ⟨rfl, rfl, rfl, rfl⟩, (desigKept_recs rule _ _ _ _ _).symm⟩

theorem withDesigs_events (r : MainRec) (ds : List Int) : (r.withDesigs ds).events = r.events ↔ r.sameDesigs ds := by
  have hk : (r.withDesigs ds).isConst = r.isConst := rfl
  have hg : (r.withDesigs ds).g = r.g := rfl
  have hc : (r.withDesigs ds).cls = r.cls := rfl
  have hv : (r.withDesigs ds).val = r.val := rfl
  have ha : (r.withDesigs ds).attrs = r.attrs := rfl
  have hsel : ∀ k, (r.withDesigs ds).selector k = r.selector k ↔ (pick ds k).getD 0 = (pick r.desigs k).getD 0 := by
    intro k
    simp [MainRec.selector, MainRec.withDesigs]
  unfold MainRec.sameDesigs
  by_cases hd : r.cls.isData = true
  · have hcl : r.cls = .input ∨ r.cls = .output ∨ r.cls = .feature := by
      cases hcc : r.cls <;> simp_all [Cls.isData]
    have hnc : r.cls ≠ .collection := by rcases hcl with h | h | h <;> rw [h] <;> decide
    have hev : ∀ q : MainRec, q.cls = r.cls → q.events = if q.isConst then
        List.replicate ((q.g .reportSize).toNat * (q.g .reportCount).toNat) (.padBit q.cls (q.g .reportID))
      else (List.range (q.g .reportCount).toNat).map (fun k =>
        .control q.cls q.val (q.g .reportID) q.attrs (q.what k)) := by
      intro q hq
      rcases hcl with h | h | h <;> rw [h] at hq <;> simp only [MainRec.events, hq]
    rw [hev _ hc, hev r rfl, hc, hv, hk, hg, ha]
    cases hcon : r.isConst with
    | true => simp [hnc]
    | false =>
      simp only [Bool.false_eq_true, if_false, hnc, false_and, false_or, hd, true_and]
      have hmap : (List.map (fun k => Event.control r.cls r.val (r.g .reportID) r.attrs ((r.withDesigs ds).what k))
            (List.range (r.g .reportCount).toNat) =
          List.map (fun k => Event.control r.cls r.val (r.g .reportID) r.attrs (r.what k))
            (List.range (r.g .reportCount).toNat)) ↔
          ∀ k, k < (r.g .reportCount).toNat → (r.withDesigs ds).what k = r.what k := by
        rw [List.map_inj_left]
        simp
      rw [hmap]
      have hw : ∀ q : MainRec, ∀ k, q.what k = if q.isVar then [q.selector k] else (List.range q.usages.length).map q.selector :=
        fun _ _ => rfl
      have hvar : (r.withDesigs ds).isVar = r.isVar := rfl
      have hus : (r.withDesigs ds).usages = r.usages := rfl
      cases hvr : r.isVar with
      | true =>
        simp only [hw, hvar, hvr, if_true, List.cons.injEq, and_true, hsel]
        constructor
        · rintro h k ⟨h1, h2⟩
          exact h k (by omega)
        · intro h k hk
          exact h k ⟨by omega, by omega⟩
      | false =>
        simp only [hw, hvar, hvr, Bool.false_eq_true, if_false, hus]
        constructor
        · rintro h k ⟨h1, h2⟩
          have := h 0 (by omega)
          rw [List.map_inj_left] at this
          exact (hsel k).1 (this k (by simpa using h2))
        · intro h k hk
          rw [List.map_inj_left]
          intro j hj
          exact (hsel j).2 (h j ⟨by omega, by simpa using hj⟩)
  · simp only [MainRec.events, hc, hv]
    cases hcc : r.cls <;> simp_all [Cls.isData]

theorem withDesigs_len (r : MainRec) (ds : List Int) : (r.withDesigs ds).events.length = r.events.length := by
  have hk : (r.withDesigs ds).isConst = r.isConst := rfl
  have hg : (r.withDesigs ds).g = r.g := rfl
  have hc : (r.withDesigs ds).cls = r.cls := rfl
  unfold MainRec.events
  rw [hk, hg, hc]
  cases r.cls <;> simp <;> split <;> simp

/-- **C24.** The meaning is kept exactly when every usage that is read keeps its designator. -/
theorem C24_iff (rule : PageRule) (xs : List Item) :
    meaning rule (keys (designatorUniq.run xs)) = meaning rule (keys xs) ↔
      ∀ p ∈ desigKept rule {} {} {} [] (keys xs), p.1.sameDesigs p.2 := by
  obtain ⟨h1, h2⟩ := C24_exact rule xs
  unfold meaning eventsFrom
  rw [h1, h2]
  generalize desigKept rule {} {} {} [] (keys xs) = l
  induction l with
  | nil => simp
  | cons p l ih =>
    simp only [List.map_cons, List.flatMap_cons, List.forall_mem_cons]
    rw [← ih, ← withDesigs_events]
    constructor
    · intro h
      exact List.append_inj h (withDesigs_len _ _)
    · rintro ⟨e1, e2⟩
      rw [e1, e2]

/-- A button whose designator 0 is removed, and a pair of fields whose designator 0 stands apart from the other one and is
removed too, which gives both fields designator 5. -/
def desigSample : List Item :=
  [⟨.reportSize, .int 8⟩, ⟨.reportCount, .int 1⟩, ⟨.desigIndex, .int 0⟩, ⟨.input, .int 2⟩,
   ⟨.desigIndex, .int 0⟩, ⟨.reportCount, .int 2⟩, ⟨.desigIndex, .int 5⟩, ⟨.input, .int 2⟩]

example : (desigKept .atMain {} {} {} [] (keys desigSample)).map (fun p => (p.1.desigs, p.2)) = [([0], []), ([0, 5], [5])] ∧
    keys (designatorUniq.run desigSample) = [(.reportSize, 8), (.reportCount, 1), (.input, 2), (.reportCount, 2),
      (.desigIndex, 5), (.input, 2)] := by decide +kernel

/-- The first of the two meets the condition, the second does not. -/
example (r : MainRec) (hr : r.desigs = [0]) : r.sameDesigs [] := by
  intro k _
  rw [hr, pick_zero]
  rfl

example (r : MainRec) (hr : r.desigs = [0, 5]) (h1 : r.cls = .input) (h2 : r.val = 2) (h3 : r.g .reportCount = 2) :
    ¬ r.sameDesigs [5] := by
  intro h
  have := h 0 (Or.inr ⟨by rw [h1]; rfl, by rw [MainRec.isConst, h2]; rfl, by omega, by
    rw [MainRec.isVar, h2]; simp [h3]⟩)
  rw [hr] at this
  revert this
  decide

end Hrdc
