import Verif.Proofs.Neighbours
import Verif.Props.Success
import Verif.Props.Fits
/-!
# Optimizing what was decompiled
-/
namespace Hrdc
open Spec Optimizer MR Extractor Streamer

/-- The value of a token is one the extractor makes. -/
def TokValueOK (t : Tok) : Prop := ∀ v, t = .leaf (.value v) → ValueOK (fun c => c = 1) v

theorem valueOK_wrapped {v : Value} (h : ValueOK (fun c => c = 1) v) : constFlag v.flags = false ∧ wrapped v = false := by
  obtain ⟨-, -, -, h4, h5, -⟩ := h
  refine ⟨h4, ?_⟩
  unfold wrapped
  by_cases he : arrayUsages v.namedArray = []
  · simp [he]
  · simp [h5 he, usageOf]

theorem constRec_shape (h : Host) (hcl : Clean h) (w : Way) (s : Int) (X : List SItem) :
    ∃ r h', recs .atUsage h ([(.reportCount, 1), (.reportSize, s), (w.cls, 3)] ++ X) = r :: recs .atUsage h' X ∧
      Clean h' ∧ RecShape r := by
  obtain ⟨r, h', e, a1, a2, a3, a4⟩ := const_rec h hcl w 1 s 3 (by decide) X
  obtain ⟨r2, h2, e', b1, b2, b3, b4⟩ := const_recP h hcl w 1 s 3 (by decide) X
  have hr : r = r2 := by rw [e] at e'; exact (List.cons.inj e').1
  subst hr
  refine ⟨r, h', e, a1, ?_⟩
  by_cases hd : r.cls.isData = true
  · exact Or.inr (Or.inl ⟨hd, a3, b4, by rw [a4]; decide⟩)
  · exact Or.inl ⟨by simpa using hd, by rw [b4]; decide⟩

theorem indices_short (i : Int) : (indices i).length ≤ 1 ∧ ∀ x ∈ indices i, x ≠ 0 := by
  unfold indices
  split
  · simp
  · rename_i h; simp [h]

theorem value_shape {id : Int} {v : Value} {r : MainRec} (hv : ValueOK (fun c => c = 1) v) (h : RecOf id v r) : RecShape r := by
  obtain ⟨hm, -, -, h4, h5, h6⟩ := hv
  obtain ⟨r1, r2, r3, r4, r5, r6, -⟩ := h
  refine Or.inr (Or.inr ⟨by rw [r1]; exact way_data _, ?_, by rw [r6]; exact h6, ?_, ?_⟩)
  · rw [MainRec.isConst, r2]; rw [bitSet_zero] at h4; simpa using h4
  · intro hvar
    rw [r3]
    unfold fieldUsages
    split
    · cases usageOf v.usage <;> simp
    · rename_i hne
      exfalso
      obtain ⟨named, h1, h2, h3⟩ := hm.facts
      have hn : named = true := by
        rw [NamedArray.truth_eq h1]; simpa using hne
      have := (h2 hn).1
      rw [h5 hne] at this
      simp [usageGiven] at this
      rw [MainRec.isVar, r2, this] at hvar
      simp at hvar
  · rw [r4, r5]
    exact ⟨(indices_short _).1, (indices_short _).1, (indices_short _).2, (indices_short _).2⟩

theorem tree_shape (ts : List Tok) : ∀ (c : Count) (last : Int) (h : Host), Clean h → (∀ t ∈ ts, TokValueOK t) →
    ∀ r ∈ recs .atUsage h (treeKeys c last ts), RecShape r := by
  induction ts with
  | nil => intro c last h _ _ r hr; simp [treeKeys] at hr
  | cons t ts ih =>
    intro c last h hcl hm r hr
    have ih : ∀ (c : Count) (last : Int) (h : Host), Clean h → r ∈ recs .atUsage h (treeKeys c last ts) → RecShape r :=
      fun c last h hcl hr => ih c last h hcl (fun v hv => hm v (List.mem_cons_of_mem _ hv)) r hr
    cases t with
    | report i =>
      rw [treeKeys, recs_append] at hr
      by_cases hi : i = 0
      · simp only [hi, if_true, recs_nil, List.nil_append] at hr
        exact ih c 0 h hcl hr
      · simp only [hi, if_false] at hr
        rw [recs_no_main _ _ _ (by simp [Cls.kind]), List.nil_append] at hr
        refine ih c i _ ?_ hr
        exact ⟨hcl.1, hcl.2.1, hcl.2.2.1, by simpa [Host.step] using hcl.2.2.2⟩
    | endReport => exact ih c last h hcl hr
    | enter k u =>
      rw [treeKeys, recs_cons, if_neg (by simp [Cls.kind]), recs_cons, if_pos (by simp [Cls.kind])] at hr
      simp only [List.nil_append, List.singleton_append] at hr
      rcases List.mem_cons.1 hr with rfl | hr
      · refine Or.inl ⟨rfl, ?_⟩
        obtain ⟨g, stack, usages, strings, desigs⟩ := h
        obtain ⟨h1, h2, h3, h4⟩ := hcl
        simp only at h1
        subst h1
        simp [Host.main, Host.step, Decl.one, Decl.values, upTo, PageRule.declare, PageRule.consume]
      · refine ih _ _ _ ?_ hr
        exact ⟨rfl, rfl, rfl, hcl.2.2.2⟩
    | leave =>
      rw [treeKeys, recs_cons, if_pos (by simp [Cls.kind])] at hr
      simp only [List.singleton_append] at hr
      rcases List.mem_cons.1 hr with rfl | hr
      · refine Or.inl ⟨rfl, ?_⟩
        obtain ⟨g, stack, usages, strings, desigs⟩ := h
        obtain ⟨h1, h2, h3, h4⟩ := hcl
        simp only at h1
        subst h1
        simp [Host.main, Decl.values]
      · refine ih _ _ _ ?_ hr
        exact ⟨rfl, rfl, rfl, hcl.2.2.2⟩
    | leaf l =>
      rw [treeKeys, leafKeys, List.append_assoc] at hr
      have hpad : ∃ h', Clean h' ∧ (RecShape r ∨ r ∈ recs .atUsage h' (ownKeys l ++ treeKeys (c.add last l) last ts)) := by
        unfold padKeys at hr
        by_cases hp : padBefore (c l.way last) l = 0
        · rw [if_pos hp] at hr
          exact ⟨h, hcl, Or.inr hr⟩
        · rw [if_neg hp] at hr
          obtain ⟨q, h', e, h1, h3⟩ := constRec_shape h hcl l.way (padBefore (c l.way last) l)
            (ownKeys l ++ treeKeys (c.add last l) last ts)
          rw [e] at hr
          rcases List.mem_cons.1 hr with rfl | hr
          · exact ⟨h', h1, Or.inl h3⟩
          · exact ⟨h', h1, Or.inr hr⟩
      obtain ⟨h', hcl', hr | hr⟩ := hpad
      · exact hr
      · cases l with
        | align w b => exact ih _ last h' hcl' hr
        | padding w s => exact ih _ last h' hcl' hr
        | value v =>
          simp only [ownKeys] at hr
          have hv := hm _ (by simp) v rfl
          obtain ⟨hc, hw⟩ := valueOK_wrapped hv
          obtain ⟨q, hr0, hrec, g1, g2⟩ := plain_rec h' hcl' v hc hw
          rw [recs_append, hr0, List.singleton_append] at hr
          rcases List.mem_cons.1 hr with rfl | hr
          · exact value_shape hv hrec
          · exact ih _ last _ g1 hr

/-- A collection is entered or left last. -/
def evEnds (b : Bool) : List Event → Bool
  | [] => b
  | .enter _ _ :: r => evEnds true r
  | .leave :: r => evEnds true r
  | _ :: r => evEnds false r

theorem evEnds_append (b : Bool) (xs ys : List Event) : evEnds b (xs ++ ys) = evEnds (evEnds b xs) ys := by
  induction xs generalizing b with
  | nil => rfl
  | cons x xs ih => cases x <;> simp [evEnds, ih]

theorem evEnds_pad (b : Bool) (n : Nat) (w : Cls) (i : Int) (r : List Event) :
    evEnds b (List.replicate n (.padBit w i) ++ r) = evEnds (if n = 0 then b else false) r := by
  cases n with
  | zero => rfl
  | succ n =>
    rw [if_neg (by omega)]
    induction n generalizing b with
    | zero => rfl
    | succ n ih => rw [List.replicate_succ, List.cons_append, evEnds.eq_4 _ _ _ (by simp) (by simp)]; exact ih false

theorem made_bounds {v : Value} (h : v.Made) (ha : arrayUsages v.namedArray = []) (hc : constFlag v.flags = false) :
    ∃ lo hi p q, v.logicalMin = some lo ∧ v.logicalMax = some hi ∧ v.physicalMin = some p ∧ v.physicalMax = some q := by
  obtain ⟨a, hn⟩ := h
  unfold Value.new at hn
  cases ht : truthOpt a.namedArray with
  | error e => rw [ht] at hn; simp at hn
  | ok named =>
    rw [ht] at hn
    simp only at hn
    have hte := NamedArray.truth_eq ht
    split at hn
    · simp at hn
    · rename_i hlog
      cases named with
      | true =>
        exfalso
        have : arrayUsages a.namedArray = [] := by
          split at hn
          · split at hn
            · simp only [Except.ok.injEq] at hn; subst hn; exact ha
            · simp at hn
            · simp at hn
          · simp only [Except.ok.injEq] at hn; subst hn; exact ha
        rw [this] at hte; simp at hte
      | false =>
        cases hna : a.namedArray
        all_goals
          rw [hna] at hn
          simp only [Except.ok.injEq] at hn
          subst hn
          simp only at hc ⊢
          simp only [hc, Bool.false_eq_true, not_false_eq_true, and_true, not_or] at hlog
          obtain ⟨lo, e1⟩ := Option.ne_none_iff_exists'.1 hlog.2
          obtain ⟨hi, e2⟩ := Option.ne_none_iff_exists'.1 hlog.1
          rw [e1, e2]
          split
          · exact ⟨_, _, _, _, rfl, rfl, rfl, rfl⟩
          · exact ⟨_, _, _, _, rfl, rfl, rfl, rfl⟩

/-- The event of such a value. -/
theorem valueOK_event {v : Value} (h : ValueOK (fun c => c = 1) v) (id : Int) : ∃ f a s,
    valueEvents id v = [.control (tag v.way) f id a s] ∧
      ((a.physMin = a.logMin ∧ a.physMax = a.logMax) ↔ physOf v = (0, 0)) ∧
      a.logMin = v.logicalMin.getD 0 ∧ a.logMax = v.logicalMax.getD 0 ∧
      (physOf v = (0, 0) ∨ physOf v ≠ (v.logicalMin.getD 0, v.logicalMax.getD 0)) := by
  obtain ⟨hm, -, -, h4, h5, h6⟩ := h
  unfold valueEvents physOf
  by_cases hne : arrayUsages v.namedArray = []
  · obtain ⟨lo, hi, p, q, e1, e2, e3, e4⟩ := made_bounds hm hne h4
    obtain ⟨named, t1, -, t3⟩ := hm.facts
    have ht : named = false := by rw [NamedArray.truth_eq t1, hne]; rfl
    have t3 := t3 ht
    rw [hne]
    simp only [h4, h6, Bool.false_eq_true, if_false, ne_eq, not_true_eq_false, false_or]
    refine ⟨_, attrsOf v, _, rfl, ?_, rfl, rfl, ?_⟩
    · simp only [attrsOf, e1, e2, e3, e4, Option.getD_some, Option.some.injEq] at t3 ⊢
      split
      · simp_all
      · rename_i hx
        simp only [hx, false_iff, Prod.mk.injEq, false_or] at t3 ⊢
        exact t3
    · simp only [e1, e2, e3, e4, Option.getD_some, Option.some.injEq]
      split
      · exact Or.inl rfl
      · rename_i hx; right; simpa using hx
  · obtain ⟨named, t1, t2, -⟩ := hm.facts
    have ht : named = true := by rw [NamedArray.truth_eq t1]; simpa using hne
    obtain ⟨-, lo, e1, e2⟩ := t2 ht
    rw [if_pos (Or.inl hne), h5 hne, h6]
    refine ⟨0, arrayAttrs v (arrayUsages v.namedArray).length,
      (arrayUsages v.namedArray).map (fun u => selectorOf v (some u)), ?_, by simp [arrayAttrs, attrsOf], ?_, ?_, Or.inl rfl⟩
    · split
      · rename_i h; exact absurd h hne
      · rfl
    · rfl
    · simp only [arrayAttrs, e1, e2, Option.getD_some]; omega

theorem events_ends (ts : List Tok) : ∀ (ids : List Int) (b : Bool), (∀ t ∈ ts, TokOK t) → (∀ t ∈ ts, TokValueOK t) →
    endsClosed b ts = evEnds b ((inScope ids ts).flatMap bare) := by
  induction ts with
  | nil => intros; rfl
  | cons t ts ih =>
    intro ids b hk hv
    have ih := fun ids b => ih ids b (fun t ht => hk t (by simp [ht])) (fun t ht => hv t (by simp [ht]))
    cases t with
    | report i => exact ih _ _
    | endReport => exact ih _ _
    | enter k u => exact ih _ _
    | leave => exact ih _ _
    | leaf l =>
      cases l with
      | align w n => exact absurd (hk _ (List.mem_cons_self ..)) (by simp [TokUnder])
      | padding w s =>
        have h0 : 0 ≤ s := hk _ (List.mem_cons_self ..)
        rw [endsClosed, ih ids, inScope, List.flatMap_cons]
        show _ = evEnds b (List.replicate s.toNat _ ++ _)
        rw [evEnds_pad]
        congr 1
        by_cases hs : s = 0
        · simp [hs]
        · rw [if_neg hs, if_neg (by omega)]
      | value v =>
        have h0 := hv _ (List.mem_cons_self ..) v rfl
        obtain ⟨f, a, s, he, -⟩ := valueOK_event h0 (ids.headD 0)
        rw [endsClosed, ih ids, inScope, List.flatMap_cons, (valueOK_wrapped h0).2]
        show _ = evEnds b (valueEvents (ids.headD 0) v ++ _)
        rw [he]
        rfl

theorem bounds_pad (b : Bool) (n : Nat) (w : Cls) (i : Int) (r : List Event) :
    boundsBack b (List.replicate n (.padBit w i) ++ r) = boundsBack b r := by
  induction n with
  | zero => rfl
  | succ n ih => rw [List.replicate_succ, List.cons_append, boundsBack.eq_3 _ _ _ (by simp)]; exact ih

theorem events_bounds (ts : List Tok) : ∀ (ids : List Int) (b : Bool), (∀ t ∈ ts, TokOK t) → (∀ t ∈ ts, TokValueOK t) →
    physBack b ts = boundsBack b ((inScope ids ts).flatMap bare) := by
  induction ts with
  | nil => intros; rfl
  | cons t ts ih =>
    intro ids b hk hv
    have ih := fun ids b => ih ids b (fun t ht => hk t (by simp [ht])) (fun t ht => hv t (by simp [ht]))
    cases t with
    | report i => exact ih _ _
    | endReport => exact ih _ _
    | enter k u => exact ih _ _
    | leave => exact ih _ _
    | leaf l =>
      cases l with
      | align w n => exact absurd (hk _ (List.mem_cons_self ..)) (by simp [TokUnder])
      | padding w s =>
        rw [physBack, ih ids, inScope, List.flatMap_cons]
        show _ = boundsBack b (List.replicate s.toNat _ ++ _)
        rw [bounds_pad]
      | value v =>
        have h0 := hv _ (List.mem_cons_self ..) v rfl
        obtain ⟨f, a, s, he, h1, h2, h3, h4⟩ := valueOK_event h0 (ids.headD 0)
        obtain ⟨hc, hw⟩ := valueOK_wrapped h0
        rw [physBack, if_neg (by simp [hc]), if_neg (by simp [hw]), inScope, List.flatMap_cons]
        show _ = boundsBack b (valueEvents (ids.headD 0) v ++ _)
        rw [he, List.singleton_append, boundsBack, ih ids, ih ids]
        by_cases hp : physOf v = (0, 0)
        · rw [if_pos hp, if_pos (h1.2 hp), h2, h3]
        · rw [if_neg hp, if_neg (fun h => hp (h1.1 h)), if_neg (h4.resolve_left hp)]


theorem dataCount_append (xs ys : List SItem) : dataCount (xs ++ ys) = dataCount xs + dataCount ys := by
  induction xs with
  | nil => simp [dataCount]
  | cons x xs ih => rw [List.cons_append, dataCount, dataCount, ih]; omega

theorem dataCount_quiet (xs : List SItem) (h : ∀ k ∈ xs, k.1.isData = false) : dataCount xs = 0 := by
  induction xs with
  | nil => rfl
  | cons x xs ih => rw [dataCount, ih (fun k hk => h k (by simp [hk])), if_neg (by simp [h x (by simp)])]

theorem value_counts {v : Value} (h : ValueOK (fun c => c = 1) v) :
    dataCount (valKeys v) = 1 ∧ ∀ k ∈ valKeys v, k.1 = .reportCount → k.2 = 1 := by
  obtain ⟨hc, hw⟩ := valueOK_wrapped h
  have h6 : v.count = 1 := h.2.2.2.2.2
  rw [valKeys_plainValue v hc hw]
  have hpre : ∀ k ∈ preKeys v, k.1.isData = false ∧ (k.1 = .reportCount → k.2 = 1) := by
    intro i hi
    unfold preKeys at hi
    rw [ck_attrTail] at hi
    simp only [List.mem_append, List.mem_map, List.mem_cons, List.not_mem_nil, or_false] at hi
    rcases hi with ⟨u, -, rfl⟩ | (rfl | rfl) | ⟨u, -, rfl⟩ | (((rfl | rfl | rfl | rfl) | hi) | hi) | rfl | rfl
    all_goals first | (simp [Cls.isData]; done) | (rw [(mem_unless hi).1]; simp [Cls.isData]; done) | (simp [Cls.isData, h6])
  constructor
  · rw [dataCount_append, dataCount_quiet _ (fun k hk => (hpre k hk).1), dataCount, way_data]; rfl
  · intro k hk
    rcases List.mem_append.1 hk with hk | hk
    · exact (hpre k hk).2
    · simp only [List.mem_cons, List.not_mem_nil, or_false] at hk
      subst hk
      cases v.way <;> simp [Way.cls]

theorem tree_counts (ts : List Tok) : ∀ (c : Count) (last nz : Int), Sane c last ts → (∀ t ∈ ts, TokOK t) →
    (∀ t ∈ ts, TokValueOK t) →
    dataCount (treeKeys c last ts) ≤ (exact c last nz ts).length ∧ ∀ k ∈ treeKeys c last ts, k.1 = .reportCount → k.2 = 1 := by
  induction ts with
  | nil => intros; simp [treeKeys, dataCount]
  | cons t ts ih =>
    intro c last nz hs hk hv
    have ih := fun c last nz hs => ih c last nz hs (fun t ht => hk t (by simp [ht])) (fun t ht => hv t (by simp [ht]))
    cases t with
    | report i =>
      obtain ⟨h1, h2⟩ := ih c i (if i = 0 then nz else i) hs
      rw [treeKeys, exact, dataCount_append]
      constructor
      · rw [dataCount_quiet _ (by split <;> simp [Cls.isData])]; omega
      · intro k hk
        rcases List.mem_append.1 hk with hk | hk
        · split at hk <;> simp at hk; subst hk; simp
        · exact h2 k hk
    | endReport => exact ih c last nz hs
    | enter kk u =>
      obtain ⟨h1, h2⟩ := ih c last nz hs
      rw [treeKeys, exact, dataCount, dataCount, if_neg (by simp [Cls.isData]), if_neg (by simp [Cls.isData])]
      constructor
      · simp only [List.length_cons]; omega
      · intro k hk
        rcases List.mem_cons.1 hk with rfl | hk
        · simp
        · rcases List.mem_cons.1 hk with rfl | hk
          · simp
          · exact h2 k hk
    | leave =>
      obtain ⟨h1, h2⟩ := ih c last nz hs
      rw [treeKeys, exact, dataCount, if_neg (by simp [Cls.isData])]
      constructor
      · simp only [List.length_cons]; omega
      · intro k hk
        rcases List.mem_cons.1 hk with rfl | hk
        · simp
        · exact h2 k hk
    | leaf l =>
      obtain ⟨s1, s2, s3⟩ := hs
      obtain ⟨h1, h2⟩ := ih (c.add last l) last nz s3
      rw [treeKeys, exact, dataCount_append, leafKeys, dataCount_append, List.length_append, exactLeaf, List.length_append,
        List.length_replicate]
      have hpad : dataCount (padKeys l.way (padBefore (c l.way last) l)) ≤ (padBefore (c l.way last) l).toNat ∧
          ∀ k ∈ padKeys l.way (padBefore (c l.way last) l), k.1 = .reportCount → k.2 = 1 := by
        unfold padKeys
        split
        · simp [dataCount]
        · constructor
          · simp only [dataCount, way_data]; simp [Cls.isData]; omega
          · intro k hk
            simp only [List.mem_cons, List.not_mem_nil, or_false] at hk
            rcases hk with rfl | rfl | rfl
            · simp
            · simp
            · cases l.way <;> simp [Way.cls]
      have hown : dataCount (ownKeys l) ≤ (ownEvents nz l).length ∧ ∀ k ∈ ownKeys l, k.1 = .reportCount → k.2 = 1 := by
        cases l with
        | align w b => simp [ownKeys, dataCount]
        | padding w s => simp [ownKeys, dataCount]
        | value v =>
          have h0 := hv _ (List.mem_cons_self ..) v rfl
          obtain ⟨g1, g2⟩ := value_counts h0
          refine ⟨?_, g2⟩
          have h6 : v.count = 1 := h0.2.2.2.2.2
          rw [ownKeys, g1, ownEvents, exactEvents, if_neg (by simp [(valueOK_wrapped h0).1])]
          split
          · simp [exactFields, h6]
          · rename_i hne
            rw [h0.2.2.2.2.1 hne]
            simp [usageOf, exactFields, h6]
      refine ⟨by omega, ?_⟩
      intro k hk
      rcases List.mem_append.1 hk with hk | hk
      · rcases List.mem_append.1 hk with hk | hk
        · exact hpad.2 k hk
        · exact hown.2 k hk
      · exact h2 k hk

end Hrdc
