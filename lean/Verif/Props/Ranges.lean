import Verif.Spec.Merge
import Verif.Props.Passes2
/-!
# C22: what merging usages into ranges does, exactly
-/
namespace Hrdc
open Spec Optimizer

theorem inSequence_iff (us : List Int) : inSequence us = true ↔ ∃ a, Consec a us := by
  have back : ∀ (l : List Int) (a : Int), l = (List.range l.length).map (fun (k : Nat) => a + (k : Int)) → Consec a l := by
    intro l
    induction l with
    | nil => intros; trivial
    | cons x l ih =>
      intro a h
      simp only [List.length_cons, List.range_succ_eq_map, List.map_cons, List.map_map, List.cons.injEq] at h
      refine ⟨by simpa using h.1, ih (a + 1) ?_⟩
      refine h.2.trans (List.map_congr_left fun k _ => ?_)
      simp; omega
  unfold inSequence
  rw [decide_eq_true_iff]
  constructor
  · intro h
    refine ⟨us.headD 0, back us _ ?_⟩
    have e : (us.headD 0 + us.length - 1 - us.headD 0 + 1).toNat = us.length := by omega
    rw [upTo, e] at h
    exact h
  · rintro ⟨a, h⟩
    cases us with
    | nil => rfl
    | cons u l =>
      have hu : u = a := h.1
      have := consec_eq _ _ h
      rw [upTo, show ((u :: l).headD 0) = a from hu, show (a + ((u :: l).length : Int) - 1 - a + 1).toNat = (u :: l).length by omega]
      exact this

/-- Usages of a list of items. -/
def usageVals (xs : List Item) : List Int := (lookups usageTags xs).map Item.ival

/-- No usage range. -/
def PlainUsages (xs : List Item) : Prop := ∀ i ∈ xs, i.cls ≠ .usageMin ∧ i.cls ≠ .usageMax

/-- State of the pass, from the items received since the last main item. -/
structure UInv (st : RMState) (ms seg : List Item) : Prop where
  pending : st.pending = ms ++ seg
  ms_main : ∀ i ∈ ms, i.cls.kind = .main
  seg_main : ∀ i ∈ seg, i.cls.kind ≠ .main
  status : (st.merging = true ∧ PlainUsages seg ∧
      ((usageVals seg = [] ∧ st.minValue = none ∧ st.maxValue = none) ∨
       ∃ lo hi, st.minValue = some lo ∧ st.maxValue = some hi ∧ lo.truthy = true ∧ hi.truthy = true ∧
         Consec lo.toInt (usageVals seg) ∧ hi.toInt + 1 = lo.toInt + (usageVals seg).length ∧ usageVals seg ≠ [])) ∨
    (st.merging = false ∧ ¬ (PlainUsages seg ∧ ∃ a, Consec a (usageVals seg)))

theorem usageVals_snoc (seg : List Item) (x : Item) :
    usageVals (seg ++ [x]) = if x.cls = .usage then usageVals seg ++ [x.ival] else usageVals seg := by
  by_cases h : x.cls = .usage <;> simp [usageVals, lookups, usageTags, h]

theorem plain_snoc (seg : List Item) (x : Item) :
    PlainUsages (seg ++ [x]) ↔ PlainUsages seg ∧ x.cls ≠ .usageMin ∧ x.cls ≠ .usageMax := by
  constructor
  · intro h
    exact ⟨fun i hi => h i (by simp [hi]), h x (by simp)⟩
  · rintro ⟨h1, h2⟩ i hi
    rcases List.mem_append.1 hi with hi | hi
    · exact h1 i hi
    · simp at hi; subst hi; exact h2

theorem consec_init {a : Int} {l : List Int} {x : Int} (h : Consec a (l ++ [x])) : Consec a l :=
  ((consec_append a l x).1 h).1

theorem consec_unique {a b : Int} {l : List Int} (h1 : Consec a l) (h2 : Consec b l) (hl : l ≠ []) : a = b := by
  cases l with
  | nil => exact absurd rfl hl
  | cons x l => rw [← h1.1, ← h2.1]

theorem uInv_step (reg : Registry) {st : RMState} {ms seg : List Item} (I : UInv st ms seg) (x : Item)
    (hx : x.cls.kind ≠ .main) (ht : x.cls = .usage → x.val.truthy = true) :
    UInv ((rangeMerge reg usageTags).step st x).1 ms (seg ++ [x]) ∧ ((rangeMerge reg usageTags).step st x).2 = [] := by
  have hseg : ∀ i ∈ seg ++ [x], i.cls.kind ≠ .main := by
    intro i hi
    rcases List.mem_append.1 hi with hi | hi
    · exact I.seg_main i hi
    · simp at hi; subst hi; exact hx
  have hp : st.pending ++ [x] = ms ++ (seg ++ [x]) := by rw [I.pending, List.append_assoc]
  simp only [hx, if_false, and_true]
  rcases I.status with ⟨hm, hpl, hl⟩ | ⟨hm, hn⟩
  · by_cases h1 : x.cls = .usageMin ∨ x.cls = .usageMax
    · have hk : x.cls.kind = .loc := by rcases h1 with h | h <;> rw [h] <;> rfl
      have e : st.note usageTags x = { st with merging := false } := by
        unfold RMState.note
        rw [if_pos ⟨hm, hk⟩, if_pos (show x.cls = usageTags.min ∨ x.cls = usageTags.max from h1)]
      rw [e]
      refine ⟨hp, I.ms_main, hseg, Or.inr ⟨rfl, ?_⟩⟩
      rintro ⟨hp', -⟩
      rcases h1 with h | h
      · exact (hp' x (by simp)).1 h
      · exact (hp' x (by simp)).2 h
    · have hpl' : PlainUsages (seg ++ [x]) := (plain_snoc seg x).2 ⟨hpl, fun h => h1 (Or.inl h), fun h => h1 (Or.inr h)⟩
      by_cases h2 : x.cls = .usage
      · have hk : x.cls.kind = .loc := by rw [h2]; rfl
        have hv : usageVals (seg ++ [x]) = usageVals seg ++ [x.ival] := by rw [usageVals_snoc, if_pos h2]
        have hn1 : ¬ (x.cls = usageTags.min ∨ x.cls = usageTags.max) := h1
        have hl1 : x.cls = usageTags.lookup := h2
        rcases hl with ⟨hl0, hl1', hl2⟩ | ⟨lo, hi, hl1', hl2, tlo, thi, hc, hlen, hne⟩
        · have e : st.note usageTags x = { st with maxValue := some x.val, minValue := some x.val } := by
            unfold RMState.note; rw [if_pos ⟨hm, hk⟩, if_neg hn1, if_pos hl1]; simp [hl2]
          rw [e]
          refine ⟨hp, I.ms_main, hseg, Or.inl ⟨hm, hpl', Or.inr ⟨x.val, x.val, rfl, rfl, ht h2, ht h2, ?_, ?_, ?_⟩⟩⟩
          · rw [hv, hl0]; simp [Consec, Item.ival]
          · rw [hv, hl0]; simp
          · rw [hv]; simp
        · by_cases h3 : x.ival = hi.toInt + 1
          · have e : st.note usageTags x = { st with maxValue := some x.val } := by
              unfold RMState.note; rw [if_pos ⟨hm, hk⟩, if_neg hn1, if_pos hl1]; simp [hl2, h3]
            rw [e]
            refine ⟨hp, I.ms_main, hseg, Or.inl ⟨hm, hpl', Or.inr ⟨lo, x.val, hl1', rfl, tlo, ht h2, ?_, ?_, ?_⟩⟩⟩
            · rw [hv, consec_append]
              exact ⟨hc, by omega⟩
            · rw [hv]
              have : x.val.toInt = x.ival := rfl
              simp only [List.length_append, List.length_cons, List.length_nil]; omega
            · rw [hv]; simp
          · have e : st.note usageTags x = { st with merging := false } := by
              unfold RMState.note; rw [if_pos ⟨hm, hk⟩, if_neg hn1, if_pos hl1]; simp [hl2, h3]
            rw [e]
            refine ⟨hp, I.ms_main, hseg, Or.inr ⟨rfl, ?_⟩⟩
            rintro ⟨-, a, ha⟩
            rw [hv, consec_append] at ha
            have := consec_unique ha.1 hc hne
            apply h3
            omega
      · have hv : usageVals (seg ++ [x]) = usageVals seg := by rw [usageVals_snoc, if_neg h2]
        have e : st.note usageTags x = st := by
          unfold RMState.note
          split
          · rw [if_neg (show ¬ (x.cls = usageTags.min ∨ x.cls = usageTags.max) from h1),
              if_neg (show ¬ x.cls = usageTags.lookup from h2)]
          · rfl
        rw [e]
        refine ⟨hp, I.ms_main, hseg, Or.inl ⟨hm, hpl', ?_⟩⟩
        rw [hv]
        exact hl
  · have e : st.note usageTags x = st := by
      unfold RMState.note
      rw [if_neg (by rw [hm]; simp)]
    rw [e]
    refine ⟨hp, I.ms_main, hseg, Or.inr ⟨hm, ?_⟩⟩
    rintro ⟨h1, a, h2⟩
    apply hn
    refine ⟨((plain_snoc seg x).1 h1).1, a, ?_⟩
    rw [usageVals_snoc] at h2
    split at h2
    · exact consec_init h2
    · exact h2

/-- Host without its usages. -/
theorem after_notRange (rule : PageRule) (seg : List Item) (hs : ∀ i ∈ seg, i.cls.kind ≠ .main) (h : Host) (d : Decl) :
    ({ h with usages := d } : Host).after rule (keys (seg.filter (notRange usageTags)))
      = { h.after rule (keys seg) with usages := d } := by
  induction seg generalizing h with
  | nil => rfl
  | cons x seg ih =>
    have hx := hs x (by simp)
    have ih' := ih (fun i hi => hs i (by simp [hi]))
    by_cases hu : x.cls = .usage ∨ x.cls = .usageMin ∨ x.cls = .usageMax
    · have hn : notRange usageTags x = false := by
        rcases hu with h | h | h <;> simp [notRange, usageTags, h, Cls.kind]
      rw [List.filter_cons, hn]
      simp only [Bool.false_eq_true, if_false]
      rw [keys_cons, after_cons, ← ih' (h.step rule x.key)]
      congr 1
      obtain ⟨c, v⟩ := x
      rcases hu with h | h | h <;> simp only at h <;> subst h <;> rfl
    · have hn : notRange usageTags x = true := by
        simp only [not_or] at hu
        simp [notRange, usageTags, hu]
      rw [List.filter_cons, hn]
      simp only [if_true]
      rw [keys_cons, keys_cons, after_cons, after_cons, ← ih' (h.step rule x.key)]
      congr 1
      obtain ⟨c, v⟩ := x
      obtain ⟨g, st, u, s, de⟩ := h
      cases c <;> simp_all [Host.step, Item.key, Cls.kind] <;> cases st <;> rfl

theorem mergedItems_after (reg : Registry) (rule : PageRule) (h : Host) (lo hi : PyVal) (L : List Int)
    (hc : Consec lo.toInt L) (hhi : hi.toInt + 1 = lo.toInt + L.length) (hne : L ≠ []) (hu : h.usages = {}) :
    ∃ d, h.after rule (keys (if lo.eqv hi then [build reg .usage lo]
         else if hi.toInt - lo.toInt > 1 then [build reg .usageMin lo, build reg .usageMax hi]
         else [build reg .usage lo, build reg .usage hi])) = { h with usages := d } ∧
      d.values (rule.consume (h.g .usagePage)) = rangeUsages (h.g .usagePage) L := by
  have hL := consec_eq _ _ hc
  have hlen : 0 < L.length := by cases L with
    | nil => exact absurd rfl hne
    | cons => simp
  have hhd : L.headD 0 = lo.toInt := by
    cases L with
    | nil => exact absurd rfl hne
    | cons x l => exact hc.1
  have hdc : ∀ p v, rule.consume p (rule.declare p v) = full p v := by intro p v; cases rule <;> rfl
  unfold rangeUsages
  by_cases h1 : lo.toInt = hi.toInt
  · rw [if_pos (by simp [PyVal.eqv, h1])]
    refine ⟨h.usages.one (rule.declare (h.g .usagePage) lo.toInt), by simp only [keys_cons, keys_nil, after_cons, after_nil, build_key _ _ _ (show Cls.usage ≠ .collection by decide), Host.step], ?_⟩
    have hl1 : L.length = 1 := by omega
    rw [if_pos (by omega), hL, hl1, hu]
    simp [Decl.one, Decl.values, hdc, upTo_self]
  · rw [if_neg (by simp [PyVal.eqv, h1])]
    by_cases h2 : hi.toInt - lo.toInt > 1
    · rw [if_pos h2]
      refine ⟨⟨[(rule.declare (h.g .usagePage) lo.toInt, rule.declare (h.g .usagePage) hi.toInt)], none, none⟩, by simp [keys_cons, keys_nil, after_cons, after_nil, build_key _ _ _ (show Cls.usageMin ≠ .collection by decide), build_key _ _ _ (show Cls.usageMax ≠ .collection by decide), Host.step, hu, Decl.setLo, Decl.setHi], ?_⟩
      rw [if_neg (by omega), hhd]
      simp [Decl.values, hdc]
      congr 2
      omega
    · rw [if_neg h2]
      refine ⟨(h.usages.one (rule.declare (h.g .usagePage) lo.toInt)).one (rule.declare (h.g .usagePage) hi.toInt), by simp only [keys_cons, keys_nil, after_cons, after_nil, build_key _ _ _ (show Cls.usage ≠ .collection by decide), Host.step], ?_⟩
      have hl2 : L.length = 2 := by omega
      rw [if_pos (by omega), hL, hl2, hu]
      simp [Decl.one, Decl.values, hdc, upTo_self, List.range_succ]
      congr 1
      omega

/-- What is sent on when a main item comes. -/
theorem uOut (reg : Registry) (rule : PageRule) {st : RMState} {ms seg : List Item} (I : UInv st ms seg) (h : Host)
    (hu : (h.after rule (keys ms)).usages = {}) (plain : Bool) (hp : plain = true ↔ PlainUsages seg) :
    recs rule h (keys (st.out reg usageTags)) = recs rule h (keys ms) ∧
    ∃ d, h.after rule (keys (st.out reg usageTags)) = { h.after rule (keys (ms ++ seg)) with usages := d } ∧
      d.values (rule.consume ((h.after rule (keys (ms ++ seg))).g .usagePage)) =
        if plain && inSequence (usageVals seg) then
          rangeUsages ((h.after rule (keys (ms ++ seg))).g .usagePage) (usageVals seg)
        else (h.after rule (keys (ms ++ seg))).usages.values (rule.consume ((h.after rule (keys (ms ++ seg))).g .usagePage)) := by
  have hsegm : ∀ i ∈ keys seg, i.1.kind ≠ .main := by
    intro i hi
    obtain ⟨j, hj, rfl⟩ := mem_keys.1 hi
    exact I.seg_main j hj
  have hkeep : st.out reg usageTags = ms ++ seg →
      recs rule h (keys (st.out reg usageTags)) = recs rule h (keys ms) := by
    intro e
    rw [e, keys_append, recs_append, recs_no_main _ _ _ hsegm, List.append_nil]
  rcases I.status with ⟨hm, hpl, hl⟩ | ⟨hm, hn⟩
  · rcases hl with ⟨hl0, hl1, hl2⟩ | ⟨lo, hi, hl1, hl2, tlo, thi, hc, hlen, hne⟩
    · have e : st.out reg usageTags = ms ++ seg := by
        unfold RMState.out
        rw [hl1, ← I.pending]
      refine ⟨hkeep e, ?_⟩
      rw [e]
      refine ⟨(h.after rule (keys (ms ++ seg))).usages, rfl, ?_⟩
      have : (h.after rule (keys (ms ++ seg))).usages = {} := by
        have hf : seg.filter (notRange usageTags) = seg := by
          rw [List.filter_eq_self]
          intro i hi
          have h3 := hpl i hi
          have h4 : i.cls ≠ .usage := by
            intro hc
            have : i.ival ∈ usageVals seg := List.mem_map.2 ⟨i, List.mem_filter.2 ⟨hi, by simp [usageTags, hc]⟩, rfl⟩
            rw [hl0] at this
            simp at this
          simp [notRange, usageTags, h3, h4]
        have := after_notRange rule seg I.seg_main (h.after rule (keys ms)) {}
        rw [hf, ← hu] at this
        rw [keys_append, after_append]
        exact (congrArg Host.usages this).trans hu
      rw [this, hl0]
      split <;> rfl
    · have e : st.out reg usageTags = (ms ++ seg.filter (notRange usageTags)) ++
          (if lo.eqv hi then [build reg .usage lo]
         else if hi.toInt - lo.toInt > 1 then [build reg .usageMin lo, build reg .usageMax hi]
         else [build reg .usage lo, build reg .usage hi]) := by
        have hfms : ms.filter (notRange usageTags) = ms := by
          rw [List.filter_eq_self]
          intro i hi
          simp [notRange, I.ms_main i hi]
        unfold RMState.out
        rw [hl1, hl2]
        simp only [tlo, thi, hm, and_self, if_true]
        rw [I.pending, List.filter_append, hfms]
        rfl
      have hcs : (plain && inSequence (usageVals seg)) = true := by
        rw [Bool.and_eq_true, hp, inSequence_iff]
        exact ⟨hpl, _, hc⟩
      have hfa := after_notRange rule seg I.seg_main (h.after rule (keys ms)) {}
      have hself : ({ h.after rule (keys ms) with usages := {} } : Host) = h.after rule (keys ms) := by
        rw [← hu]
      rw [hself] at hfa
      obtain ⟨d, hd1, hd2⟩ := mergedItems_after reg rule
        { (h.after rule (keys ms)).after rule (keys seg) with usages := {} } lo hi (usageVals seg) hc hlen hne rfl
      constructor
      · rw [e, keys_append, keys_append, recs_append, recs_append, recs_no_main _ _ (keys (seg.filter _)) (by
          intro i hi
          obtain ⟨j, hj, rfl⟩ := mem_keys.1 hi
          exact I.seg_main j (List.mem_filter.1 hj).1), List.append_nil]
        conv => rhs; rw [← List.append_nil (recs rule h (keys ms))]
        congr 1
        apply recs_no_main
        intro i hi
        obtain ⟨j, hj, rfl⟩ := mem_keys.1 hi
        repeat' split at hj
        all_goals
          simp only [List.mem_cons, List.not_mem_nil, or_false] at hj
          rcases hj with rfl | rfl <;> simp [build_cls, Cls.kind]
      · refine ⟨d, ?_, ?_⟩
        · rw [e, keys_append, after_append, keys_append, after_append, hfa, hd1, keys_append, after_append]
        · rw [hcs, if_pos rfl, keys_append, after_append]
          exact hd2
  · have e : st.out reg usageTags = ms ++ seg := by
      unfold RMState.out
      rw [← I.pending]
      split
      · rw [if_neg (by rw [hm]; simp)]
      · rfl
    refine ⟨hkeep e, ?_⟩
    rw [e]
    refine ⟨(h.after rule (keys (ms ++ seg))).usages, rfl, ?_⟩
    have hcs : ¬ (plain && inSequence (usageVals seg)) = true := by
      rw [Bool.and_eq_true, hp, inSequence_iff]
      exact hn
    rw [if_neg hcs]

theorem usageMerge_recs (reg : Registry) (rule : PageRule) (xs : List Item)
    (ht : ∀ i ∈ xs, i.cls = .usage → i.val.truthy = true) {st : RMState} {ms seg : List Item} (I : UInv st ms seg)
    (h : Host) (hu : (h.after rule (keys ms)).usages = {}) (plain : Bool) (hp : plain = true ↔ PlainUsages seg) :
    recs rule h (keys ((rangeMerge reg usageTags).runFrom st xs)) = recs rule h (keys ms) ++
      (usageKept rule (h.after rule (keys (ms ++ seg))) (usageVals seg) plain (keys xs)).map (fun p => p.1.withUsages p.2) := by
  induction xs generalizing st ms seg h plain with
  | nil =>
    rw [Pass.runFrom_nil]
    simpa [usageKept, keys] using (uOut reg rule I h hu plain hp).1
  | cons x xs ih =>
    have ht' := fun i (hi : i ∈ xs) => ht i (by simp [hi])
    rw [Pass.runFrom_cons, keys_cons, usageKept]
    by_cases hx : x.cls.kind = .main
    · have hs : (rangeMerge reg usageTags).step st x = ({ pending := [x] }, st.out reg usageTags) := by
        simp [hx, RMState.note]
      have hx' : x.key.1.kind = .main := hx
      have n1 : ¬ x.key.1 = .usage := by intro e; rw [e] at hx'; simp [Cls.kind] at hx'
      have n2 : ¬ (x.key.1 = .usageMin ∨ x.key.1 = .usageMax) := by
        rintro (e | e) <;> rw [e] at hx' <;> simp [Cls.kind] at hx'
      rw [if_neg n1, if_neg n2, if_pos hx', hs]
      obtain ⟨h1, d, h2, h3⟩ := uOut reg rule I h hu plain hp
      have I' : UInv { pending := [x] } [x] [] :=
        ⟨rfl, by simpa using hx, by simp, Or.inl ⟨rfl, fun i hi => by simp at hi, Or.inl ⟨rfl, rfl, rfl⟩⟩⟩
      have hst : ∀ (k : Host) (d : Decl), ({ k with usages := d } : Host).step rule x.key = k.step rule x.key := by
        intro k d
        obtain ⟨c, v⟩ := x
        cases c <;> simp_all [Host.step, Item.key, Cls.kind]
      have hf : ((h.after rule (keys (st.out reg usageTags))).after rule (keys [x])).usages = {} := by
        rw [keys_cons, after_cons, keys_nil, after_nil]
        obtain ⟨c, v⟩ := x
        cases c <;> simp_all [Host.step, Item.key, Cls.kind]
      have := ih ht' I' (h.after rule (keys (st.out reg usageTags))) hf true (by simp [PlainUsages])
      have e0 : usageVals [] = [] := rfl
      rw [keys_append, recs_append, this, h1, List.append_nil, keys_cons, keys_nil, after_cons, after_nil, h2, hst, e0]
      rw [recs, if_pos hx', recs, List.append_nil, List.map_cons]
      congr 2
      simp only [Host.main, MainRec.withUsages, MainRec.mk.injEq, true_and, and_true]
      rw [h3]
      rfl
    · have hx' : ¬ x.key.1.kind = .main := hx
      obtain ⟨I', ho⟩ := uInv_step reg I x hx (ht x (by simp))
      rw [ho, List.nil_append]
      have hh : h.after rule (keys (ms ++ (seg ++ [x]))) = (h.after rule (keys (ms ++ seg))).step rule x.key := by
        rw [← List.append_assoc, keys_append, after_append]
        rfl
      by_cases h1 : x.cls = .usage
      · have h1' : x.key.1 = .usage := h1
        rw [ih ht' I' h hu plain (by rw [hp, plain_snoc, h1]; simp), hh, usageVals_snoc, if_pos h1, if_pos h1']
        rfl
      · have h1' : ¬ x.key.1 = .usage := h1
        by_cases h2 : x.cls = .usageMin ∨ x.cls = .usageMax
        · have h2' : x.key.1 = .usageMin ∨ x.key.1 = .usageMax := h2
          rw [ih ht' I' h hu false (by
            simp only [Bool.false_eq_true, false_iff, plain_snoc]
            rintro ⟨-, e1, e2⟩
            rcases h2 with h | h
            · exact e1 h
            · exact e2 h), hh, usageVals_snoc, if_neg h1, if_neg h1', if_pos h2']
        · have h2' : ¬ (x.key.1 = .usageMin ∨ x.key.1 = .usageMax) := h2
          rw [ih ht' I' h hu plain (by
            rw [hp, plain_snoc]
            simp only [not_or] at h2
            simp [h2]), hh, usageVals_snoc, if_neg h1, if_neg h1', if_neg h2', if_neg hx']

theorem usageKept_recs (rule : PageRule) (xs : List SItem) : ∀ (h : Host) (us : List Int) (plain : Bool),
    (usageKept rule h us plain xs).map (·.1) = recs rule h xs := by
  induction xs with
  | nil => intros; rfl
  | cons x xs ih =>
    intro h us plain
    rw [usageKept, recs]
    split
    · next h1 => rw [ih, h1]; rfl
    split
    · next h1 => rw [ih]; rcases h1 with h1 | h1 <;> rw [h1] <;> rfl
    split
    · simp [ih]
    · simp [ih]

/-- **C22.** What merging usages makes of any stream of items made by the code: the same main items with the same values,
globals, strings and designators; their usages are those of `usageKept`. -/
theorem C22_usage_exact (reg : Registry) (rule : PageRule) (xs : List Item)
    (ht : ∀ i ∈ xs, i.cls = .usage → i.val.truthy = true) :
    recs rule {} (keys ((rangeMerge reg usageTags).run xs)) =
      (usageKept rule {} [] true (keys xs)).map (fun p => p.1.withUsages p.2) ∧
    recs rule {} (keys xs) = (usageKept rule {} [] true (keys xs)).map (·.1) := by
  refine ⟨?_, (usageKept_recs rule _ _ _ _).symm⟩
  have I : UInv ({} : RMState) [] [] :=
    ⟨rfl, by simp, by simp, Or.inl ⟨rfl, fun i hi => by simp at hi, Or.inl ⟨rfl, rfl, rfl⟩⟩⟩
  exact usageMerge_recs reg rule xs ht I {} rfl true (by simp [PlainUsages])

theorem made_usage {i : Item} (h : i.Made) (hc : i.cls = .usage) : i.val.truthy = true := by
  obtain ⟨reg, v, h⟩ := h
  rw [hc] at h
  simp only [Item.new] at h
  unfold Item.baseInit at h
  split at h <;> simp at h
  rw [← h]
  rfl

theorem withUsages_events (r : MainRec) (us : List Int) : (r.withUsages us).events = r.events ↔ r.sameUsages us := by
  have hk : (r.withUsages us).isConst = r.isConst := rfl
  have hg : (r.withUsages us).g = r.g := rfl
  have hc : (r.withUsages us).cls = r.cls := rfl
  have hv : (r.withUsages us).val = r.val := rfl
  have ha : (r.withUsages us).attrs = r.attrs := rfl
  have hsel : ∀ k, (r.withUsages us).selector k = r.selector k ↔ pick us k = pick r.usages k := by
    intro k
    simp [MainRec.selector, MainRec.withUsages]
  unfold MainRec.sameUsages
  by_cases hd : r.cls.isData = true
  · have hcl : r.cls = .input ∨ r.cls = .output ∨ r.cls = .feature := by
      cases hcc : r.cls <;> simp_all [Cls.isData]
    have hnc : r.cls ≠ .collection := by rcases hcl with h | h | h <;> rw [h] <;> decide
    have hev : ∀ q : MainRec, q.cls = r.cls → q.events = if q.isConst then
        List.replicate ((q.g .reportSize).toNat * (q.g .reportCount).toNat) (.padBit q.cls (q.g .reportID))
      else (List.range (q.g .reportCount).toNat).map (fun k =>
        .control q.cls q.val (q.g .reportID) q.attrs (q.what k)) := by
      intro q hq
      rcases hcl with h | h | h <;> rw [h] at hq <;> simp only [MainRec.events, hq]
    rw [hev _ hc, hev r rfl, hc, hv, hk, hg, ha]
    cases hcon : r.isConst with
    | true => simp [hnc]
    | false =>
      simp only [Bool.false_eq_true, if_false, hnc, hd, true_implies, false_implies, true_and]
      have hmap : (List.map (fun k => Event.control r.cls r.val (r.g .reportID) r.attrs ((r.withUsages us).what k))
            (List.range (r.g .reportCount).toNat) =
          List.map (fun k => Event.control r.cls r.val (r.g .reportID) r.attrs (r.what k))
            (List.range (r.g .reportCount).toNat)) ↔
          ∀ k, k < (r.g .reportCount).toNat → (r.withUsages us).what k = r.what k := by
        rw [List.map_inj_left]
        simp
      rw [hmap]
      have hw : ∀ q : MainRec, ∀ k, q.what k = if q.isVar then [q.selector k] else (List.range q.usages.length).map q.selector :=
        fun _ _ => rfl
      have hvar : (r.withUsages us).isVar = r.isVar := rfl
      have hus : (r.withUsages us).usages = us := rfl
      cases hvr : r.isVar with
      | true =>
        simp only [hw, hvar, hvr, if_true, List.cons.injEq, and_true, hsel]
        constructor
        · intro h _ k hk
          exact h k (by omega)
        · intro h k hk
          exact h (by omega) k (by omega)
      | false =>
        simp only [hw, hvar, hvr, Bool.false_eq_true, if_false, hus]
        constructor
        · intro h h0
          have := h 0 (by omega)
          have hl : us.length = r.usages.length := by
            have := congrArg List.length this
            simpa using this
          rw [hl, List.map_inj_left] at this
          apply List.ext_getElem hl
          intro n h1 h2
          have e := (hsel n).1 (this n (by simpa using h2))
          simpa [pick, h1, h2] using e
        · intro h k hk
          have e := h (by omega)
          subst e
          rfl
  · simp only [MainRec.events, hc, hv]
    cases hcc : r.cls <;> simp_all [Cls.isData]

theorem withUsages_len (r : MainRec) (us : List Int) : (r.withUsages us).events.length = r.events.length := by
  have hk : (r.withUsages us).isConst = r.isConst := rfl
  have hg : (r.withUsages us).g = r.g := rfl
  have hc : (r.withUsages us).cls = r.cls := rfl
  unfold MainRec.events
  rw [hk, hg, hc]
  cases r.cls <;> simp <;> split <;> simp

/-- **C22.** The meaning of a stream of items made by the code is kept, by merging usages, exactly when every usage that
is read is the same. -/
theorem C22_usage_iff (reg : Registry) (rule : PageRule) (xs : List Item) (hm : ∀ i ∈ xs, i.Made) :
    meaning rule (keys ((rangeMerge reg usageTags).run xs)) = meaning rule (keys xs) ↔
      ∀ p ∈ usageKept rule {} [] true (keys xs), p.1.sameUsages p.2 := by
  obtain ⟨h1, h2⟩ := C22_usage_exact reg rule xs (fun i hi hc => made_usage (hm i hi) hc)
  unfold meaning eventsFrom
  rw [h1, h2]
  generalize usageKept rule {} [] true (keys xs) = l
  induction l with
  | nil => simp
  | cons p l ih =>
    simp only [List.map_cons, List.flatMap_cons, List.forall_mem_cons]
    rw [← ih, ← withUsages_events]
    constructor
    · intro h
      exact List.append_inj h (withUsages_len _ _)
    · rintro ⟨e1, e2⟩
      rw [e1, e2]

theorem rangeUsages_map (page : Int) (us : List Int) (hc : inSequence us = true) (hx : ∀ u ∈ us, u ≠ 65535) :
    rangeUsages page us = us.map (full page) := by
  unfold rangeUsages
  split
  · rfl
  · rename_i hl
    obtain ⟨a, ha⟩ := (inSequence_iff us).1 hc
    have e := consec_eq _ _ ha
    have hh : us.headD 0 = a := by
      cases us with
      | nil => simp at hl
      | cons u l => exact ha.1
    rw [hh]
    conv => rhs; rw [e, List.map_map]
    have hmem : ∀ k : Nat, k < us.length → a + k ≠ 65535 := by
      intro k hk
      apply hx
      rw [e]
      exact List.mem_map.2 ⟨k, by simpa using hk, rfl⟩
    have hside : a + us.length - 1 < 65536 ∨ 65536 ≤ a := by
      by_cases h1 : 65536 ≤ a
      · exact Or.inr h1
      · left
        by_cases h2 : a + us.length - 1 < 65536
        · exact h2
        · exfalso
          exact hmem (65535 - a).toNat (by omega) (by omega)
    have hf : ∀ k : Nat, k < us.length → full page (a + k) = full page a + k := by
      intro k hk
      unfold full
      rcases hside with h | h
      · rw [if_pos (by omega), if_pos (by omega)]; omega
      · rw [if_neg (by omega), if_neg (by omega)]
    have hlast : full page (a + us.length - 1) = full page a + ((us.length - 1 : Nat) : Int) := by
      rw [← hf (us.length - 1) (by omega)]
      congr 1
      omega
    rw [hlast, upTo_succ, show us.length - 1 + 1 = us.length by omega]
    apply List.map_congr_left
    intro k hk
    exact (hf k (by simpa using hk)).symm

/-- Host states of the two sorts after the same items. -/
structure TwoHosts (a m : Host) (us : List Int) (plain : Bool) : Prop where
  g : a.g = m.g
  stack : a.stack = m.stack
  strings : a.strings = m.strings
  desigs : a.desigs = m.desigs
  declared : plain = true → m.usages = ⟨us.map (fun u => (u, u)), none, none⟩

theorem twoHosts_step {a m : Host} {us : List Int} {plain : Bool} (H : TwoHosts a m us plain) (x : SItem) :
    TwoHosts (a.step .atUsage x) (m.step .atMain x)
      (if x.1.kind = .main then [] else if x.1 = .usage then us ++ [x.2] else us)
      (if x.1.kind = .main then true else if x.1 = .usageMin ∨ x.1 = .usageMax then false else plain) := by
  obtain ⟨ga, sa, ua, ta, da⟩ := a
  obtain ⟨gm, sm, um, tm, dm⟩ := m
  obtain ⟨h1, h2, h3, h4, h5⟩ := H
  simp only at h1 h2 h3 h4 h5
  subst h1 h2 h3 h4
  obtain ⟨c, v⟩ := x
  cases c <;> constructor <;> simp_all [Host.step, Cls.kind, Decl.one, PageRule.declare] <;>
    first | done | (cases sa <;> simp_all) | skip

theorem usageKept_steady (xs : List SItem) : ∀ (a m : Host) (us : List Int) (plain : Bool), TwoHosts a m us plain →
    (∀ x ∈ xs, x.1 = .usage → x.2 ≠ 65535) → (∀ u ∈ us, u ≠ 65535) →
    (∀ p ∈ usageKept .atMain m us plain xs, p.2 = p.1.usages) ∧
    (recs .atUsage a xs = recs .atMain m xs → ∀ p ∈ usageKept .atUsage a us plain xs, p.2 = p.1.usages) := by
  induction xs with
  | nil => intros; simp [usageKept]
  | cons x xs ih =>
    intro a m us plain H hx hu
    have H' := twoHosts_step H x
    have hx' := fun y (hy : y ∈ xs) => hx y (by simp [hy])
    have ih' := ih _ _ _ _ H' hx' (by
      intro u hu'
      by_cases hk : x.1.kind = .main
      · simp [hk] at hu'
      · by_cases hc : x.1 = .usage
        · rw [if_neg hk, if_pos hc] at hu'
          rcases List.mem_append.1 hu' with h | h
          · exact hu u h
          · simp at h; subst h; exact hx x (by simp) hc
        · rw [if_neg hk, if_neg hc] at hu'
          exact hu u hu')
    rw [usageKept, usageKept, recs, recs]
    by_cases h1 : x.1 = .usage
    · have hk : ¬ x.1.kind = .main := by rw [h1]; decide
      have h2 : ¬ (x.1 = .usageMin ∨ x.1 = .usageMax) := by rw [h1]; decide
      rw [if_neg hk, if_pos h1, if_neg hk, if_neg h2] at ih'
      rw [if_pos h1, if_pos h1, if_neg hk, if_neg hk, List.nil_append, List.nil_append]
      exact ih'
    · by_cases h2 : x.1 = .usageMin ∨ x.1 = .usageMax
      · have hk : ¬ x.1.kind = .main := by rcases h2 with h | h <;> rw [h] <;> decide
        rw [if_neg hk, if_neg h1, if_neg hk, if_pos h2] at ih'
        rw [if_neg h1, if_neg h1, if_pos h2, if_pos h2, if_neg hk, if_neg hk, List.nil_append, List.nil_append]
        exact ih'
      · by_cases hk : x.1.kind = .main
        · rw [if_pos hk, if_pos hk] at ih'
          rw [if_neg h1, if_neg h1, if_neg h2, if_neg h2, if_pos hk, if_pos hk, if_pos hk, if_pos hk]
          have hm : (plain && inSequence us) = true →
              rangeUsages (m.g .usagePage) us = (m.main .atMain x).usages := by
            intro hc
            rw [Bool.and_eq_true] at hc
            rw [rangeUsages_map _ _ hc.2 hu]
            simp only [Host.main, H.declared hc.1, Decl.values, PageRule.consume, List.flatMap_map]
            simp only [upTo_self]
            exact List.map_eq_flatMap
          constructor
          · intro p hp
            rcases List.mem_cons.1 hp with rfl | hp
            · by_cases hc : (plain && inSequence us) = true
              · simp only [hc, if_true]
                exact hm hc
              · simp only [hc, if_false]
                rfl
            · exact ih'.1 p hp
          · intro he p hp
            rw [List.singleton_append, List.singleton_append, List.cons.injEq] at he
            rcases List.mem_cons.1 hp with rfl | hp
            · by_cases hc : (plain && inSequence us) = true
              · simp only [hc, if_true]
                rw [H.g, hm hc, he.1]
              · simp only [hc, if_false]
                rfl
            · exact ih'.2 he.2 p hp
        · rw [if_neg hk, if_neg h1, if_neg hk, if_neg h2] at ih'
          rw [if_neg h1, if_neg h1, if_neg h2, if_neg h2, if_neg hk, if_neg hk, if_neg hk, if_neg hk, List.nil_append, List.nil_append]
          exact ih'

theorem sameUsages_self (r : MainRec) : r.sameUsages r.usages := by
  refine ⟨fun _ => rfl, fun _ _ _ => ?_⟩
  split
  · exact fun _ _ => rfl
  · rfl

/-- **C22 (partial).** Merging usages keeps the meaning of every stream without usage 65535 for hosts that complete usages
at the main item, and, when both sorts of hosts read the stream alike, for the others too: 16-bit usages on any page.
Missing, false of the code: `C22_usage_page_change_breaks`, `C22_usage_crossing_breaks`. -/
theorem C22_usage_short_partial (reg : Registry) (xs : List Item) (hm : ∀ i ∈ xs, i.Made)
    (hx : ∀ i ∈ xs, i.cls = .usage → i.ival ≠ 65535) :
    meaning .atMain (keys ((rangeMerge reg usageTags).run xs)) = meaning .atMain (keys xs) ∧
    (recs .atUsage {} (keys xs) = recs .atMain {} (keys xs) →
      meaning .atUsage (keys ((rangeMerge reg usageTags).run xs)) = meaning .atUsage (keys xs)) := by
  have h := usageKept_steady (keys xs) {} {} [] true ⟨rfl, rfl, rfl, rfl, fun _ => rfl⟩ (by
    intro y hy hc
    obtain ⟨i, hi, rfl⟩ := mem_keys.1 hy
    exact hx i hi hc) (by simp)
  constructor
  · rw [C22_usage_iff reg .atMain xs hm]
    intro p hp
    rw [h.1 p hp]
    exact sameUsages_self _
  · intro he
    rw [C22_usage_iff reg .atUsage xs hm]
    intro p hp
    rw [h.2 he p hp]
    exact sameUsages_self _

/-- Usages 65534, 65535 of the page in force and 65536, which carries its own page, are made into one range. -/
theorem C22_usage_crossing_breaks (rule : PageRule) :
    meaning rule (keys ((rangeMerge [] usageTags).run [⟨.usagePage, .int 9⟩, ⟨.usage, .usage ⟨[], 65534, []⟩⟩,
        ⟨.usage, .usage ⟨[], 65535, []⟩⟩, ⟨.usage, .usage ⟨[], 65536, []⟩⟩, ⟨.reportCount, .int 3⟩, ⟨.input, .int 2⟩]))
      ≠ meaning rule (keys [⟨.usagePage, .int 9⟩, ⟨.usage, .usage ⟨[], 65534, []⟩⟩,
        ⟨.usage, .usage ⟨[], 65535, []⟩⟩, ⟨.usage, .usage ⟨[], 65536, []⟩⟩, ⟨.reportCount, .int 3⟩, ⟨.input, .int 2⟩]) := by
  cases rule <;> decide +kernel

/-- Buttons of page 9, given as 16-bit usages. -/
def rangeSample : List Item :=
  [⟨.usagePage, .int 9⟩, ⟨.usage, .usage ⟨[], 1, []⟩⟩, ⟨.usage, .usage ⟨[], 2, []⟩⟩, ⟨.usage, .usage ⟨[], 3, []⟩⟩,
   ⟨.reportCount, .int 3⟩, ⟨.input, .named [] 2⟩]

example : (∀ i ∈ rangeSample, i.Made) ∧ (∀ i ∈ rangeSample, i.cls = .usage → i.ival ≠ 65535) ∧ ¬ FullUsages rangeSample ∧
    keys ((rangeMerge [] usageTags).run rangeSample) =
      [(.usagePage, 9), (.reportCount, 3), (.usageMin, 1), (.usageMax, 3), (.input, 2)] := by
  refine ⟨?_, by decide +kernel, by decide +kernel, by decide +kernel⟩
  intro i hi
  simp only [rangeSample, List.mem_cons, List.not_mem_nil, or_false] at hi
  rcases hi with rfl | rfl | rfl | rfl | rfl | rfl
  · exact ⟨[], .int 9, rfl⟩
  · exact ⟨[], .usage ⟨[], 1, []⟩, rfl⟩
  · exact ⟨[], .usage ⟨[], 2, []⟩, rfl⟩
  · exact ⟨[], .usage ⟨[], 3, []⟩, rfl⟩
  · exact ⟨[], .int 3, rfl⟩
  · exact ⟨[], .named [] 2, rfl⟩

example : recs .atUsage {} (keys rangeSample) = recs .atMain {} (keys rangeSample) := by
  simp [rangeSample, keys, recs, Item.key, Item.ival, PyVal.toInt, Cls.kind, Host.step, Host.main, Decl.one, Decl.values,
    PageRule.declare, PageRule.consume, full]

end Hrdc
