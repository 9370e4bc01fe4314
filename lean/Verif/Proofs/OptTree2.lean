import Verif.Proofs.OptTree
/-!
# Compiled trees are safe for the optimizer
-/
namespace Hrdc
open Spec
namespace Streamer

/-! ## Merging -/

theorem mergeOK_left {a b : MainRec} (h : a.cls.isData = false) : MergeOK a b := by
  intro hm; rw [hm.1] at h; simp at h

theorem mergeOK_right {a b : MainRec} (h : b.cls.isData = false) : MergeOK a b := by
  intro hm; rw [hm.2.1, hm.1] at h; simp at h

theorem mergeOK_const {a b : MainRec} (h : a.isConst = true) (hb : 0 ≤ b.g .reportCount) :
    MergeOK a b := fun _ => ⟨hb, Or.inl h⟩

theorem mergeOK_const_right {a b : MainRec} (h : b.isConst = true) (hb : 0 ≤ b.g .reportCount) :
    MergeOK a b := by
  intro hm
  refine ⟨hb, Or.inl ?_⟩
  unfold MainRec.isConst at h ⊢
  rw [← hm.2.2.1]; exact h

theorem merge_chain (lr : Option MainRec) (b : MainRec) (rest : List MainRec)
    (h1 : ∀ r, lr = some r → MergeOK r b) (h2 : mergeSafe ((some b).toList ++ rest) = true) :
    mergeSafe (lr.toList ++ (b :: rest)) = true := by
  cases lr with
  | none => exact h2
  | some a =>
    simp only [Option.toList_some, List.singleton_append, mergeSafe, Bool.and_eq_true, decide_eq_true_eq] at h2 ⊢
    exact ⟨h1 a rfl, h2⟩

/-- What the last main item may be when `prev` is the preceding value. -/
def LastOK (prev : Option (Value × Int)) (r : MainRec) : Prop :=
  r.cls.isData = false ∨ r.isConst = true ∨ ∃ v i, prev = some (v, i) ∧ RecOf i v r

theorem const_rec (h : Host) (hcl : Clean h) (w : Way) (n s x : Int) (hx : x % 2 = 1) (X : List SItem) :
    ∃ r h', recs .atUsage h ([(.reportCount, n), (.reportSize, s), (w.cls, x)] ++ X) = r :: recs .atUsage h' X ∧
      Clean h' ∧ h'.g .reportID = h.g .reportID ∧ r.isConst = true ∧ r.g .reportCount = n := by
  refine ⟨(h.after .atUsage [(.reportCount, n), (.reportSize, s)]).main .atUsage (w.cls, x),
    h.after .atUsage [(.reportCount, n), (.reportSize, s), (w.cls, x)], ?_, ?_, ?_, ?_, ?_⟩
  · rw [recs_append, recs_cons, recs_cons, recs_cons, if_neg (by simp [Cls.kind]), if_neg (by simp [Cls.kind]),
      if_pos (way_kind w)]
    rfl
  · simp only [after_cons, after_nil, way_step]
    exact ⟨rfl, rfl, rfl, by simpa [Host.step] using hcl.2.2.2⟩
  · simp only [after_cons, after_nil, way_step]; simp [Host.step]
  · simp [MainRec.isConst, Host.main, hx]
  · simp [Host.main, Host.step]

/-- Padding before a leaf. -/
theorem pad_merge (prev : Option (Value × Int)) (lr : Option MainRec) (h : Host) (w : Way) (p : Int)
    (X : List SItem) (hcl : Clean h) (hl : ∀ r, lr = some r → LastOK prev r)
    (hX : ∀ h' lr', Clean h' → h'.g .reportID = h.g .reportID →
      (∀ r, lr' = some r → (p = 0 ∧ LastOK prev r) ∨ r.isConst = true) →
      mergeSafe (lr'.toList ++ recs .atUsage h' X) = true) :
    mergeSafe (lr.toList ++ recs .atUsage h (padKeys w p ++ X)) = true := by
  unfold padKeys
  by_cases hp : p = 0
  · rw [if_pos hp]
    exact hX h lr hcl rfl (fun r hr => Or.inl ⟨hp, hl r hr⟩)
  · rw [if_neg hp]
    obtain ⟨r, h', hr, h1, h2, h3, h4⟩ := const_rec h hcl w 1 p 3 (by decide) X
    rw [hr]
    exact merge_chain _ _ _ (fun a _ => mergeOK_const_right h3 (by rw [h4]; decide))
      (hX h' (some r) h1 h2 (fun a ha => by simp at ha; subst ha; exact Or.inr h3))

theorem recOf_merge {i j : Int} {v w : Value} {a b : MainRec} (ha : RecOf i v a) (hb : RecOf j w b)
    (hcnt : 0 ≤ w.count) (hf : i = j → sameField v w → fitTogether v w) : MergeOK a b := by
  obtain ⟨a1, a2, a3, a4, a5, a6, a7⟩ := ha
  obtain ⟨b1, b2, b3, b4, b5, b6, b7⟩ := hb
  intro hm
  obtain ⟨-, m2, m3, m4, m5⟩ := hm
  refine ⟨by rw [b6]; exact hcnt, ?_⟩
  have hg : ∀ c ∈ fieldTags, fieldOf j w c = fieldOf i v c := fun c hc => by
    rw [← a7 c hc, ← b7 c hc]; exact m4 c hc
  have hid : i = j := (hg .reportID (by simp [fieldTags])).symm
  have hfit := hf hid ⟨way_inj (by rw [← a1, ← b1]; exact m2), by rw [← a2, ← b2]; exact m3,
    hg .reportSize (by simp [fieldTags]), hg .logMin (by simp [fieldTags]), hg .logMax (by simp [fieldTags]),
    Prod.ext (hg .physMin (by simp [fieldTags])) (hg .physMax (by simp [fieldTags])),
    hg .unit (by simp [fieldTags]), hg .unitExp (by simp [fieldTags]), by rw [← a6]; exact m5⟩
  have hidx : ∀ {x y : Int}, (x = 0 ↔ y = 0) → Joinable (indices x) (indices y) := by
    intro x y hxy
    unfold Joinable indices
    by_cases hx : x = 0
    · have hy := hxy.1 hx; simp [hx, hy]
    · have hy : ¬ y = 0 := fun hh => hx (hxy.2 hh)
      simp [hx, hy]
  rcases hfit with ⟨f1, f2, f3, f4⟩ | ⟨f1, f2, f3⟩
  · right; left
    refine ⟨?_, by rw [a3, b3]; exact f2, by rw [a4, b4]; exact hidx f3, by rw [a5, b5]; exact hidx f4⟩
    rw [bitSet_one] at f1
    unfold MainRec.isVar; rw [a2]; exact f1
  · right; right
    refine ⟨?_, by rw [a3]; exact f2, by rw [b3]; exact f3⟩
    rw [bitSet_one] at f1
    unfold MainRec.isVar; rw [a2]; exact f1

theorem lastOK_merge {prev : Option (Value × Int)} {r b : MainRec} {j : Int} {w : Value}
    (hl : LastOK prev r) (hb : RecOf j w b) (hcnt : 0 ≤ w.count)
    (hf : ∀ v i, prev = some (v, i) → i = j → sameField v w → fitTogether v w) : MergeOK r b := by
  rcases hl with h | h | ⟨v, i, hp, hr⟩
  · exact mergeOK_left h
  · exact mergeOK_const h (by rw [hb.2.2.2.2.2.1]; exact hcnt)
  · exact recOf_merge hr hb hcnt (hf v i hp)

/-- Items of a wrapped value before its data item, after its collection item. -/
theorem wrapped_rec (h : Host) (hcl : Clean h) (v : Value) (hw : wrapped v = true) (X : List SItem) :
    ∃ a b c h', recs .atUsage h (valKeys v ++ X) = a :: b :: c :: recs .atUsage h' X ∧
      a.cls.isData = false ∧ c.cls.isData = false ∧ Clean h' ∧ h'.g .reportID = h.g .reportID := by
  have hw' := hw
  simp only [wrapped, Bool.and_eq_true, Bool.not_eq_true', Option.isSome_iff_exists] at hw'
  obtain ⟨⟨hc, -⟩, u, hu⟩ := hw'
  obtain ⟨g, stack, usages, strings, desigs⟩ := h
  obtain ⟨h1, h2, h3, h4⟩ := hcl
  simp only at h1 h2 h3 h4
  subst h1 h2 h3
  have e : valKeys v = [(.usage, u), (.physMin, (physOf v).1), (.physMax, (physOf v).2), (.collection, 2)] ++
      ((arrayUsages v.namedArray).map (fun u => (Cls.usage, u)) ++ (ck (attrTail v) ++
        [(.reportCount, v.count), (.reportSize, v.size), (v.way.cls, v.flags.toInt), (.endCollection, 0)])) := by
    unfold valKeys fieldKeys
    rw [ck_attrTail]
    simp [hc, hw, hu]
  rw [e, List.append_assoc, List.append_assoc, List.append_assoc, recs_append]
  simp only [after_cons, after_nil, Host.step, recs_cons, recs_nil, List.append_nil]
  rw [recs_append, recs_no_main _ _ ((arrayUsages v.namedArray).map (fun u => (Cls.usage, u))) (by
    intro i hi; obtain ⟨u, -, rfl⟩ := List.mem_map.1 hi; simp [Cls.kind])]
  rw [usages_after _ _ _ (by simpa using h4), recs_append, recs_no_main _ _ (ck (attrTail v)) (by
    intro i hi
    rw [ck_attrTail] at hi
    simp only [List.mem_append, List.mem_cons, List.not_mem_nil, or_false] at hi
    rcases hi with ((rfl | rfl | rfl | rfl) | hi) | hi
    all_goals first | (simp [Cls.kind]; done) | (rw [(mem_unless hi).1]; simp [Cls.kind]))]
  rw [attrTail_after .atUsage _ v (arrayUsages v.namedArray) (physOf v).1 (physOf v).2 rfl rfl rfl
    (by simp) (by simp)]
  simp only [List.cons_append, List.nil_append, recs_cons, way_kind]
  refine ⟨_, _, _, _, rfl, rfl, rfl, ?_, ?_⟩
  · simp only [way_step]
    exact ⟨rfl, rfl, rfl, by simpa [Host.step, attrHost] using h4⟩
  · simp only [way_step]; simp [Host.step, attrHost]

theorem tree_merge (ts : List Tok) (c : Count) (last : Int) (h : Host) (prev : Option (Value × Int))
    (lr : Option MainRec) (hcl : Clean h) (hal : alikeFit prev (h.g .reportID) ts = true)
    (hcnt : ∀ v, Tok.leaf (.value v) ∈ ts → 0 ≤ v.count) (hl : ∀ r, lr = some r → LastOK prev r) :
    mergeSafe (lr.toList ++ recs .atUsage h (treeKeys c last ts)) = true := by
  induction ts generalizing c last h prev lr with
  | nil =>
    cases lr <;> rfl
  | cons t ts ih =>
    have hcnt' : ∀ v, Tok.leaf (.value v) ∈ ts → 0 ≤ v.count := fun v hv => hcnt v (by simp [hv])
    have hnone : ∀ {r : MainRec}, (r.cls.isData = false ∨ r.isConst = true) →
        ∀ a, some r = some a → LastOK none a := by
      intro r hr a ha
      simp at ha; subst ha
      rcases hr with hr | hr
      · exact Or.inl hr
      · exact Or.inr (Or.inl hr)
    cases t with
    | report i =>
      rw [treeKeys, recs_append]
      by_cases hi : i = 0
      · simp only [alikeFit, hi, if_true] at hal ⊢
        exact ih c 0 h prev lr hcl hal hcnt' hl
      · simp only [alikeFit, hi, if_false] at hal ⊢
        rw [recs_no_main _ _ _ (by simp [Cls.kind]), List.nil_append]
        refine ih c i _ prev lr ⟨hcl.1, hcl.2.1, hcl.2.2.1, ?_⟩ ?_ hcnt' hl
        · simpa [Host.step] using hcl.2.2.2
        · simpa [Host.step] using hal
    | endReport => exact ih c last h prev lr hcl hal hcnt' hl
    | enter k u =>
      rw [treeKeys, recs_cons, if_neg (by simp [Cls.kind]), recs_cons, if_pos (by simp [Cls.kind])]
      simp only [List.nil_append, List.singleton_append]
      refine merge_chain _ _ _ (fun r _ => mergeOK_right rfl) ?_
      refine ih c last _ none (some _) ⟨rfl, rfl, rfl, ?_⟩ ?_ hcnt' (hnone (Or.inl rfl))
      · exact hcl.2.2.2
      · exact hal
    | leave =>
      rw [treeKeys, recs_cons, if_pos (by simp [Cls.kind])]
      simp only [List.singleton_append]
      refine merge_chain _ _ _ (fun r _ => mergeOK_right rfl) ?_
      refine ih c last _ none (some _) ⟨rfl, rfl, rfl, ?_⟩ ?_ hcnt' (hnone (Or.inl rfl))
      · exact hcl.2.2.2
      · exact hal
    | leaf l =>
      rw [treeKeys, leafKeys, List.append_assoc]
      refine pad_merge prev lr h _ _ _ hcl hl ?_
      intro h' lr' hcl' hid' hl'
      cases l with
      | align w b =>
        simp only [ownKeys, List.nil_append]
        refine ih _ last h' prev lr' hcl' (by rw [hid']; exact hal) hcnt' ?_
        intro r hr
        rcases hl' r hr with ⟨-, hh⟩ | hh
        · exact hh
        · exact Or.inr (Or.inl hh)
      | padding w s =>
        simp only [ownKeys, List.nil_append]
        refine ih _ last h' (if s = 0 then prev else none) lr' hcl' (by rw [hid']; exact hal) hcnt' ?_
        intro r hr
        rcases hl' r hr with ⟨hs, hh⟩ | hh
        · have : s = 0 := hs
          rw [if_pos this]; exact hh
        · exact Or.inr (Or.inl hh)
      | value v =>
        simp only [ownKeys]
        have hl'' : ∀ r, lr' = some r → LastOK prev r := by
          intro r hr
          rcases hl' r hr with ⟨-, hh⟩ | hh
          · exact hh
          · exact Or.inr (Or.inl hh)
        have hv := hcnt v (by simp)
        rw [alikeFit] at hal
        by_cases hc : constFlag v.flags = true
        · rw [if_pos (Or.inl hc)] at hal
          have hk : valKeys v = [(.reportCount, v.count), (.reportSize, v.size), (v.way.cls, v.flags.toInt)] := by
            simp [valKeys, hc]
          have hodd : v.flags.toInt % 2 = 1 := by
            unfold constFlag at hc; rw [bitSet_zero] at hc; simpa using hc
          obtain ⟨r, h2, hr, g1, g2, g3, g4⟩ := const_rec h' hcl' v.way v.count v.size v.flags.toInt hodd
            (treeKeys (c.add last (.value v)) last ts)
          rw [hk, hr]
          refine merge_chain _ _ _ (fun a _ => mergeOK_const_right g3 (by rw [g4]; exact hv)) ?_
          exact ih _ last h2 none (some r) g1 (by rw [g2, hid']; exact hal) hcnt' (hnone (Or.inr g3))
        · by_cases hw : wrapped v = true
          · rw [if_pos (Or.inr hw)] at hal
            obtain ⟨a, b, e, h2, hr, g1, g2, g3, g4⟩ := wrapped_rec h' hcl' v hw
              (treeKeys (c.add last (.value v)) last ts)
            rw [hr]
            refine merge_chain _ _ _ (fun r _ => mergeOK_right g1) ?_
            refine merge_chain _ _ _ (fun r hr => ?_) ?_
            · simp at hr; subst hr; exact mergeOK_left g1
            refine merge_chain _ _ _ (fun r _ => mergeOK_right g2) ?_
            exact ih _ last h2 none (some e) g3 (by rw [g4, hid']; exact hal) hcnt' (hnone (Or.inl g2))
          · rw [if_neg (by simp [hc, hw]), Bool.and_eq_true] at hal
            obtain ⟨r, hr, hrec, g1, g2⟩ := plain_rec h' hcl' v (by simpa using hc) (by simpa using hw)
            rw [recs_append, hr, List.singleton_append]
            refine merge_chain _ _ _ (fun a ha => ?_) ?_
            · refine lastOK_merge (hl'' a ha) hrec hv ?_
              intro p i hp hi
              have := hal.1
              rw [hp] at this
              simp only [prevFits, decide_eq_true_eq] at this
              exact this (by rw [hi, hid'])
            · refine ih _ last _ (some (v, h.g .reportID)) (some r) g1 (by rw [g2, hid']; exact hal.2) hcnt' ?_
              intro a ha
              simp at ha; subst ha
              exact Or.inr (Or.inr ⟨v, _, rfl, by rw [← hid']; exact hrec⟩)

/-! ## Physical bounds -/

theorem physK_main (m : PhysMode) (s : Bounds) (c : Cls) (x : Int) (X : List SItem) (hc : c.kind = .main) :
    physSafeK m s ((c, x) :: X) = match physNext m s with
      | none => false
      | some m' => physSafeK m' (fun _ => none) X := by
  rw [physSafeK, if_pos hc]
  rfl

theorem physNext_none (m : PhysMode) : physNext m (fun _ => none) = some m := by
  cases m <;> rfl

theorem physK_pad (m : PhysMode) (w : Way) (n s x : Int) (X : List SItem) :
    physSafeK m (fun _ => none) ([(.reportCount, n), (.reportSize, s), (w.cls, x)] ++ X)
      = physSafeK m (fun _ => none) X := by
  rw [show [(Cls.reportCount, n), (Cls.reportSize, s), (w.cls, x)] ++ X =
    [(Cls.reportCount, n), (Cls.reportSize, s)] ++ ((w.cls, x) :: X) from rfl,
    physK_skip _ _ _ _ (by simp [Cls.kind, Optimizer.rangeTag]), physK_main _ _ _ _ _ (way_kind w),
    physNext_none]

theorem physK_padKeys (m : PhysMode) (w : Way) (p : Int) (X : List SItem) :
    physSafeK m (fun _ => none) (padKeys w p ++ X) = physSafeK m (fun _ => none) X := by
  unfold padKeys
  split
  · rfl
  · exact physK_pad m w 1 p 3 X

theorem physK_tail (m : PhysMode) (s : Bounds) (v : Value) (X : List SItem) :
    physSafeK m s (fieldKeys v ++ X) =
      match physNext m (fun c => if c = .logMax then some (v.logicalMax.getD 0) else
          if c = .logMin then some (v.logicalMin.getD 0) else s c) with
      | none => false
      | some m' => physSafeK m' (fun _ => none) X := by
  have hus : ∀ (us : List Int) (m : PhysMode) (s : Bounds) (Y : List SItem),
      physSafeK m s (us.map (fun u => (Cls.usage, u)) ++ Y) = physSafeK m s Y := by
    intro us m s Y
    apply physK_skip
    intro i hi
    obtain ⟨u, -, rfl⟩ := List.mem_map.1 hi
    simp [Cls.kind, Optimizer.rangeTag]
  have hrest : ∀ i ∈ [(Cls.unit, v.unit.toInt), (.unitExp, v.unitExponent)] ++
      (if v.designator = 0 then [] else [(.desigIndex, v.designator)]) ++
      (if v.string = 0 then [] else [(.strIndex, v.string)]) ++
      [(.reportCount, v.count), (.reportSize, v.size)], i.1.kind ≠ .main ∧ Optimizer.rangeTag i.1 = false := by
    intro i hi
    simp only [List.mem_append, List.mem_cons, List.not_mem_nil, or_false] at hi
    rcases hi with (((rfl | rfl) | hi) | hi) | rfl | rfl
    all_goals first | (simp [Cls.kind, Optimizer.rangeTag]; done) |
      (rw [(mem_unless hi).1]; simp [Cls.kind, Optimizer.rangeTag])
  have e : fieldKeys v ++ X = (arrayUsages v.namedArray).map (fun u => (Cls.usage, u)) ++
      ((.logMin, v.logicalMin.getD 0) :: (.logMax, v.logicalMax.getD 0) ::
      (([(Cls.unit, v.unit.toInt), (.unitExp, v.unitExponent)] ++
      (if v.designator = 0 then [] else [(.desigIndex, v.designator)]) ++
      (if v.string = 0 then [] else [(.strIndex, v.string)]) ++
      [(.reportCount, v.count), (.reportSize, v.size)]) ++ ((v.way.cls, v.flags.toInt) :: X))) := by
    unfold fieldKeys; simp
  rw [e, hus, physSafeK, if_neg (by simp [Cls.kind]), if_pos (by simp [Cls.kind, Optimizer.rangeTag]), physSafeK,
    if_neg (by simp [Cls.kind]), if_pos (by simp [Cls.kind, Optimizer.rangeTag]), physK_skip _ _ _ _ hrest,
    physK_main _ _ _ _ _ (way_kind _)]

theorem physK_head (m : PhysMode) (us : List Int) (p q : Int) (X : List SItem) :
    physSafeK m (fun _ => none) (us.map (fun u => (Cls.usage, u)) ++ ((.physMin, p) :: (.physMax, q) :: X))
      = physSafeK m (fun c => if c = .physMax then some q else if c = .physMin then some p else none) X := by
  rw [physK_skip _ _ _ _ (by
    intro i hi
    obtain ⟨u, -, rfl⟩ := List.mem_map.1 hi
    simp [Cls.kind, Optimizer.rangeTag]), physSafeK, if_neg (by simp [Cls.kind]),
    if_pos (by simp [Cls.kind, Optimizer.rangeTag]), physSafeK, if_neg (by simp [Cls.kind]),
    if_pos (by simp [Cls.kind, Optimizer.rangeTag])]

theorem tree_phys (ts : List Tok) (c : Count) (last : Int) (m : PhysMode) (e : Bool)
    (hm : m = .explicit → e = true) (hp : physBack e ts = true) :
    physSafeK m (fun _ => none) (treeKeys c last ts) = true := by
  induction ts generalizing c last m e with
  | nil => rfl
  | cons t ts ih =>
    cases t with
    | report i =>
      rw [treeKeys]
      have := ih c i m e hm hp
      by_cases hi : i = 0
      · rw [if_pos hi]; exact this
      · rw [if_neg hi, physK_skip _ _ _ _ (by simp [Cls.kind, Optimizer.rangeTag])]; exact this
    | endReport => exact ih c last m e hm hp
    | enter k u =>
      rw [treeKeys]
      have := ih c last m e hm hp
      rw [physSafeK, if_neg (by simp [Cls.kind]), if_neg (by simp [Cls.kind]),
        physK_main _ _ _ _ _ rfl, physNext_none]
      exact this
    | leave =>
      rw [treeKeys, physK_main _ _ _ _ _ rfl, physNext_none]
      exact ih c last m e hm hp
    | leaf l =>
      rw [treeKeys, leafKeys, List.append_assoc, physK_padKeys]
      cases l with
      | align w b => exact ih _ last m e hm hp
      | padding w s => exact ih _ last m e hm hp
      | value v =>
        simp only [ownKeys]
        rw [physBack] at hp
        by_cases hc : constFlag v.flags = true
        · rw [if_pos hc] at hp
          rw [show valKeys v = [(.reportCount, v.count), (.reportSize, v.size), (v.way.cls, v.flags.toInt)] by
            simp [valKeys, hc], physK_pad]
          exact ih _ last m e hm hp
        · rw [if_neg hc] at hp
          by_cases hw : wrapped v = true
          · rw [if_pos hw, Bool.and_eq_true] at hp
            have hne : arrayUsages v.namedArray ≠ [] := by
              simp only [wrapped, Bool.and_eq_true, Bool.not_eq_true'] at hw
              intro h0; rw [h0] at hw; simp at hw
            have hph : physOf v = (0, 0) := by unfold physOf; rw [if_pos (Or.inl hne)]
            have hkk : valKeys v ++ treeKeys (c.add last (.value v)) last ts =
                (usageOf v.usage).toList.map (fun u => (Cls.usage, u)) ++ ((.physMin, 0) :: (.physMax, 0) ::
                  (.collection, 2) :: (fieldKeys v ++
                    ((.endCollection, 0) :: treeKeys (c.add last (.value v)) last ts))) := by
              unfold valKeys; simp [hc, hw, hph]
            rw [hkk, physK_head, physK_main _ _ _ _ _ rfl]
            have hme : m ≠ .explicit := by
              intro h0; have := hm h0; subst this; simp at hp
            have : physNext m (fun c => if c = Cls.physMax then some 0 else if c = .physMin then some 0 else none)
                = some .zero := by
              simp [physNext, hme]
            rw [this]
            simp only
            rw [physK_tail]
            simp only [physNext, reduceCtorEq, if_false, if_true, false_and]
            rw [physK_main _ _ _ _ _ rfl, physNext_none]
            exact ih _ last .zero false (by simp) hp.2
          · rw [if_neg hw] at hp
            have hkk : valKeys v ++ treeKeys (c.add last (.value v)) last ts =
                (usageOf v.usage).toList.map (fun u => (Cls.usage, u)) ++ ((.physMin, (physOf v).1) ::
                  (.physMax, (physOf v).2) :: (fieldKeys v ++ treeKeys (c.add last (.value v)) last ts)) := by
              unfold valKeys; simp [hc, hw]
            rw [hkk, physK_head, physK_tail]
            generalize physOf v = pq at hp ⊢
            obtain ⟨p, q⟩ := pq
            simp only [physNext, reduceCtorEq, if_false, if_true]
            by_cases h00 : p = 0 ∧ q = 0
            · obtain ⟨rfl, rfl⟩ := h00
              simp only [if_true, Bool.and_eq_true, Bool.not_eq_true', Bool.and_eq_false_iff,
                decide_eq_false_iff_not, and_self] at hp ⊢
              rw [if_neg]
              · exact ih _ last .zero false (by simp) hp.2
              · rintro ⟨a, b, h0⟩
                rcases hp.1 with h | h
                · rw [hm h0] at h; simp at h
                · exact h ⟨a, b⟩
            · rw [if_neg (by simpa [Prod.ext_iff] using h00)] at hp
              rw [if_neg h00]
              by_cases hlk : p = v.logicalMin.getD 0 ∧ q = v.logicalMax.getD 0
              · rw [if_pos (by simpa [Prod.ext_iff] using hlk), Bool.and_eq_true] at hp
                have hme : m ≠ .explicit := by
                  intro h0; have := hm h0; subst this; simp at hp
                simp only [hlk, and_self, if_true, hme, if_false]
                exact ih _ last .logical false (by simp) hp.2
              · rw [if_neg (by simpa [Prod.ext_iff] using hlk)] at hp
                simp only [hlk, if_false]
                exact ih _ last .explicit true (by simp) hp

/-! ## The end of the stream -/

theorem trailingK_mono (xs : List SItem) {a b : Bool} (hab : a = true → b = true)
    (h : trailingK a xs = true) : trailingK b xs = true := by
  induction xs generalizing a b with
  | nil => exact hab h
  | cons x xs ih =>
    rw [trailingK] at h ⊢
    refine ih ?_ h
    split
    · exact id
    · exact hab

theorem trailingK_pad (b : Bool) (w : Way) (p : Int) :
    trailingK b (padKeys w p) = if p = 0 then b else false := by
  unfold padKeys
  split
  · rfl
  · simp only [trailingK, way_kind, way_data]; rfl

theorem trailingK_last (b : Bool) (xs : List SItem) (c : Cls) (n : Int) (h : c.kind = .main) :
    trailingK b (xs ++ [(c, n)]) = !c.isData := by
  rw [trailingK_append, trailingK, trailingK, if_pos h]

theorem trailingK_value (b : Bool) (v : Value) : trailingK b (valKeys v) = wrapped v := by
  by_cases hc : constFlag v.flags = true
  · have : valKeys v = [(.reportCount, v.count), (.reportSize, v.size)] ++ [(v.way.cls, v.flags.toInt)] := by
      simp [valKeys, hc]
    rw [this, trailingK_last _ _ _ _ (way_kind _), way_data]
    simp [wrapped, hc]
  · by_cases hw : wrapped v = true
    · have : ∃ xs, valKeys v = xs ++ [(.endCollection, 0)] := by
        unfold valKeys; rw [if_neg hc, if_pos hw, if_pos hw]; exact ⟨_, rfl⟩
      obtain ⟨xs, hx⟩ := this
      rw [hx, trailingK_last _ _ _ _ rfl, hw]; rfl
    · rw [valKeys_plainValue v (by simpa using hc) (by simpa using hw), trailingK_last _ _ _ _ (way_kind _), way_data]
      simp [hw]

theorem tree_trailing (ts : List Tok) (c : Count) (last : Int) (b : Bool)
    (h : endsClosed b ts = true) : trailingK b (treeKeys c last ts) = true := by
  induction ts generalizing c last b with
  | nil => exact h
  | cons t ts ih =>
    cases t with
    | report i =>
      rw [treeKeys, trailingK_append]
      rw [trailingK_quiet b _ (by intro x hx; rw [(mem_unless hx).1]; simp [Cls.kind])]
      exact ih c i b h
    | endReport => exact ih c last b h
    | enter k u =>
      rw [treeKeys, trailingK, trailingK]
      exact ih c last true h
    | leave =>
      rw [treeKeys, trailingK]
      exact ih c last true h
    | leaf l =>
      rw [treeKeys, leafKeys, trailingK_append, trailingK_append, trailingK_pad]
      cases l with
      | align w a =>
        refine trailingK_mono _ ?_ (ih _ last false h)
        simp
      | padding w s => exact ih _ last _ h
      | value v =>
        rw [ownKeys, trailingK_value]
        exact ih _ last _ h

end Streamer
end Hrdc
