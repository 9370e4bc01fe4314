import Verif.Proofs.OptExtract2
/-!
# Optimized streams can be decompiled: ranges
-/
namespace Hrdc
open Spec Optimizer MR Extractor

/-! ## What passes keep -/

theorem keeps_flush (P : Item → Prop) (reg : Registry) (hP : ∀ v, P (build reg .reportCount v)) (st : MMState)
    (h : ∀ i ∈ st.before ++ st.mains ++ st.after, P i) :
    (∀ i ∈ (st.flush reg).1.before ++ (st.flush reg).1.mains ++ (st.flush reg).1.after, P i) ∧
    ∀ i ∈ (st.flush reg).2, P i := by
  constructor
  · intro i hi
    simp [MMState.flush] at hi
    exact h i (by simp [hi])
  · intro i hi
    simp only [MMState.flush, List.mem_append] at hi
    rcases hi with hi | hi
    · exact h i (by simp [(List.mem_filter.1 hi).1])
    · cases hm : st.mains with
      | nil => rw [hm] at hi; simp at hi
      | cons m ms =>
        rw [hm] at hi
        simp only [List.mem_cons, List.not_mem_nil, or_false] at hi
        rcases hi with rfl | rfl
        · exact hP _
        · exact h i (by simp [hm])

theorem keeps_mm (P : Item → Prop) (reg : Registry) (hP : ∀ v, P (build reg .reportCount v)) (xs : List Item) (hx : ∀ i ∈ xs, P i) :
    ∀ i ∈ (mainMerge reg).run xs, P i := by
  apply Pass.runFrom_all _ P
    (fun st : MMState => ∀ i ∈ st.before ++ st.mains ++ st.after, P i)
  · intro st x hst hx
    have hpush : ∀ i ∈ st.before ++ st.mains ++ (st.after ++ [x]), P i := by
      intro i hi
      rw [← List.append_assoc] at hi
      rcases List.mem_append.1 hi with hi | hi
      · exact hst i hi
      · simp at hi; subst hi; exact hx
    have htake : ∀ q : MMState, (∀ i ∈ q.before ++ q.mains ++ q.after, P i) →
        ∀ i ∈ (MMState.take q x).before ++ (MMState.take q x).mains ++ (MMState.take q x).after,
          P i := by
      intro q hq i hi
      simp only [MMState.take, List.append_nil, List.mem_append, List.mem_singleton] at hi
      rcases hi with (hi | hi) | hi | hi
      · exact hq i (by simp [hi])
      · exact hq i (by simp [hi])
      · exact hq i (by simp [hi])
      · subst hi; exact hx
    by_cases hd : x.cls.isData = true
    · obtain ⟨q, o, hqo, hst'⟩ := mm_step_data reg st x hd
      have hq : (∀ i ∈ q.before ++ q.mains ++ q.after, P i) ∧ ∀ i ∈ o, P i := by
        rcases hqo with ⟨rfl, rfl, -⟩ | ⟨rfl, rfl, -⟩
        · exact ⟨hst, by simp⟩
        · exact keeps_flush P reg hP st hst
      rw [hst']
      split
      · have := keeps_flush P reg hP _ (htake q hq.1)
        refine ⟨this.1, ?_⟩
        intro y hy
        rcases List.mem_append.1 hy with hy | hy
        · exact hq.2 y hy
        · exact this.2 y hy
      · exact ⟨htake q hq.1, hq.2⟩
    · cases hk : x.cls.kind with
      | loc => simp only [hk]; exact ⟨hpush, by simp⟩
      | global =>
        simp only [hk]
        split
        · exact keeps_flush P reg hP _ hpush
        · split <;> exact ⟨hpush, by simp⟩
      | main =>
        simp only [hk, hd, if_false, Bool.false_eq_true]
        exact keeps_flush P reg hP _ hpush
  · intro st h; exact h
  · intro i hi; simp at hi
  · exact hx

theorem keeps_rm (P : Item → Prop) (reg : Registry) (t : RangeTags)
    (hP : ∀ i, P i → i.cls = t.lookup → ∀ c ∈ [t.lookup, t.min, t.max], P (build reg c i.val))
    (xs : List Item) (hx : ∀ i ∈ xs, P i) : ∀ i ∈ (rangeMerge reg t).run xs, P i := by
  let L : Option PyVal → Prop := fun o => ∀ v, o = some v → ∀ c ∈ [t.lookup, t.min, t.max], P (build reg c v)
  let I : RMState → Prop := fun st => (∀ i ∈ st.pending, P i) ∧ L st.minValue ∧ L st.maxValue
  have hout : ∀ st : RMState, I st → ∀ y ∈ st.out reg t, P y := by
    intro st hst y hy
    unfold RMState.out at hy
    split at hy
    · next lo hi hlo hhi =>
      have blo := hst.2.1 lo hlo
      have bhi := hst.2.2 hi hhi
      split at hy
      · rcases List.mem_append.1 hy with hy | hy
        · exact hst.1 y (List.mem_filter.1 hy).1
        · split at hy
          · simp at hy; subst hy; exact blo _ (by simp)
          · split at hy
            · simp only [List.mem_cons, List.not_mem_nil, or_false] at hy
              rcases hy with rfl | rfl
              · exact blo _ (by simp)
              · exact bhi _ (by simp)
            · simp only [List.mem_cons, List.not_mem_nil, or_false] at hy
              rcases hy with rfl | rfl
              · exact blo _ (by simp)
              · exact bhi _ (by simp)
      · exact hst.1 y hy
    · exact hst.1 y hy
  have hnote : ∀ st x, I st → P x → L (RMState.note t st x).minValue ∧
      L (RMState.note t st x).maxValue ∧ (RMState.note t st x).pending = st.pending := by
    intro st x hst hx
    unfold RMState.note
    split
    · next hk =>
      split
      · exact ⟨hst.2.1, hst.2.2, rfl⟩
      · split
        · have hv : L (some x.val) := by
            intro v hv
            cases hv
            exact hP x hx ‹x.cls = t.lookup›
          split
          · exact ⟨hv, hv, rfl⟩
          · split
            · exact ⟨hst.2.1, hv, rfl⟩
            · exact ⟨hst.2.1, hst.2.2, rfl⟩
        · exact ⟨hst.2.1, hst.2.2, rfl⟩
    · exact ⟨hst.2.1, hst.2.2, rfl⟩
  apply Pass.runFrom_all _ P I
  · intro st x hst hx
    have hn := hnote st x hst hx
    by_cases hk : x.cls.kind = .main
    · simp only [hk, if_true]
      refine ⟨⟨by intro i hi; simp at hi; subst hi; exact hx, by intro v hv; simp at hv,
        by intro v hv; simp at hv⟩, hout _ ⟨by rw [hn.2.2]; exact hst.1, hn.1, hn.2.1⟩⟩
    · simp only [hk, if_false]
      refine ⟨⟨?_, hn.1, hn.2.1⟩, by simp⟩
      intro i hi
      rcases List.mem_append.1 hi with hi | hi
      · exact hst.1 i hi
      · simp at hi; subst hi; exact hx
  · exact hout
  · exact ⟨by intro i hi; simp at hi, by intro v hv; simp at hv, by intro v hv; simp at hv⟩
  · exact hx

theorem rm_view_tags (P : SItem → Bool) (reg : Registry) (t : RangeTags)
    (hP : ∀ k : SItem, k.1 ∈ [t.lookup, t.min, t.max] → P k = false) (xs : List Item) :
    view P ((rangeMerge reg t).run xs) = view P xs := by
  have hb : ∀ c ∈ [t.lookup, t.min, t.max], ∀ v, P (build reg c v).key = false := by
    intro c hc v
    apply hP
    rw [key_fst, build_cls]
    exact hc
  have hout : ∀ st : RMState, view P (st.out reg t) = view P st.pending := by
    intro st
    unfold RMState.out
    split
    · split
      · rw [view_append, view_filter P (notRange t) _ (by
          intro i hi
          apply hP
          simp [notRange] at hi
          have := hi.2; rw [key_fst]; simp only [List.mem_cons, List.not_mem_nil, or_false]; grind)]
        split
        · simp [view_cons, hb t.lookup (by simp)]
        · split
          · simp [view_cons, hb t.min (by simp), hb t.max (by simp)]
          · simp [view_cons, hb t.lookup (by simp)]
      · rfl
    · rfl
  have hnote : ∀ (st : RMState) x, (st.note t x).pending = st.pending := by
    intro st x
    unfold RMState.note
    split
    · split
      · rfl
      · split
        · split
          · rfl
          · split <;> rfl
        · rfl
    · rfl
  have := Pass.run_view (rangeMerge reg t) P (fun st : RMState => st.pending) (fun _ => True) (by
      intro st x _
      refine ⟨trivial, ?_⟩
      by_cases hk : x.cls.kind = .main
      · simp only [hk, if_true]
        rw [hout, hnote]
      · simp only [hk, if_false]; simp)
    (fun st _ => hout st) {} trivial xs
  rw [show (rangeMerge reg t).run xs = (rangeMerge reg t).runFrom {} xs from rfl, this]; rfl

theorem up_mem (reg : Registry) (xs : List Item) : ∀ (st : Option Int), ∀ i ∈ (usagePage reg).runFrom st xs,
    (usageLike i.cls = true → i.ival < 65536) ∧ (usageLike i.cls = false → i.cls ≠ .usagePage → i ∈ xs) := by
  induction xs with
  | nil => intro st i hi; simp [Pass.runFrom_nil] at hi
  | cons x xs ih =>
    intro st i hi
    rw [Pass.runFrom_cons] at hi
    rcases List.mem_append.1 hi with hi | hi
    · by_cases hu : usageLike x.cls = true
      · simp only [hu, if_true] at hi
        rcases List.mem_append.1 hi with hi | hi
        · split at hi
          · simp at hi
          · simp only [List.mem_singleton] at hi
            subst hi
            refine ⟨by rw [build_cls]; simp [usageLike], by rw [build_cls]; simp⟩
        · simp only [List.mem_singleton] at hi
          subst hi
          rw [build_cls]
          refine ⟨fun _ => ?_, by simp [hu]⟩
          have hcol : x.cls ≠ .collection := by intro h; rw [h] at hu; simp [usageLike] at hu
          rw [build_ival _ _ _ hcol, split_snd, lookup_value]
          omega
      · simp only [hu, if_false, Bool.false_eq_true] at hi
        have : i = x := by split at hi <;> simpa using hi
        subst this
        exact ⟨fun h => absurd h hu, fun _ _ => by simp⟩
    · obtain ⟨a, b⟩ := ih _ i hi
      exact ⟨a, fun h1 h2 => List.mem_cons_of_mem _ (b h1 h2)⟩

/-! ## Ranges between main items -/

/-- `oneRange` for small values. -/
def shape (c : Cls × Cls × Cls) (s lo hi : Bool) : List Cls → Bool
  | [] => true
  | i :: xs =>
    if i.kind = .main then shape c false false false xs
    else if i = c.1 then !(lo && hi) && shape c true lo hi xs
    else if i = c.2.1 then !(lo && hi) && !(s && hi) && shape c s true hi xs
    else if i = c.2.2 then !(lo && hi) && !(s && lo) && shape c s lo true xs
    else shape c s lo hi xs

theorem oneRange_shape (c : Cls × Cls × Cls) (xs : List SItem)
    (hx : ∀ i ∈ xs, i.1 = c.2.1 ∨ i.1 = c.2.2 → i.2 < 65536) : ∀ (s : Bool) (lo hi : Option Int),
    (∀ v, lo = some v → v < 65536) → (∀ v, hi = some v → v < 65536) →
    oneRange c s lo hi xs = shape c s lo.isSome hi.isSome (xs.map (·.1)) := by
  induction xs with
  | nil => intro s lo hi _ _; rfl
  | cons i xs ih =>
    intro s lo hi hlo hhi
    have ih := ih (fun j hj => hx j (List.mem_cons_of_mem _ hj))
    have hi0 := hx i (by simp)
    rw [List.map_cons, oneRange, shape]
    split
    · exact ih _ _ _ (by simp) (by simp)
    · split
      · rw [ih _ _ _ hlo hhi]
      · split
        · next h =>
          have hv := hi0 (Or.inl h)
          have : hi.all (sameSide i.2) = true := by
            cases hi with
            | none => rfl
            | some v => simp [sameSide, hv, hhi v rfl]
          rw [ih _ _ _ (by intro v h; cases h; exact hv) hhi, this]
          simp
        · split
          · next h =>
            have hv := hi0 (Or.inr h)
            have : lo.all (sameSide · i.2) = true := by
              cases lo with
              | none => rfl
              | some v => simp [sameSide, hv, hlo v rfl]
            rw [ih _ _ _ hlo (by intro v h; cases h; exact hv), this]
            simp
          · exact ih _ _ _ hlo hhi

/-- The classes that matter. -/
def relevant (c : Cls × Cls × Cls) (k : Cls) : Bool :=
  decide (k.kind = .main) || decide (k = c.1) || decide (k = c.2.1) || decide (k = c.2.2)

theorem shape_filter (c : Cls × Cls × Cls) (l : List Cls) : ∀ s lo hi,
    shape c s lo hi (l.filter (relevant c)) = shape c s lo hi l := by
  induction l with
  | nil => intro s lo hi; rfl
  | cons i l ih =>
    intro s lo hi
    by_cases hr : relevant c i = true
    · rw [List.filter_cons_of_pos hr, shape, shape]
      simp only [ih]
    · rw [List.filter_cons_of_neg hr, ih]
      simp only [relevant, Bool.or_eq_true, decide_eq_true_eq, not_or] at hr
      obtain ⟨⟨⟨h1, h2⟩, h3⟩, h4⟩ := hr
      rw [shape, if_neg h1, if_neg h2, if_neg h3, if_neg h4]

theorem shape_plain (c : Cls × Cls × Cls) (l rest : List Cls) (hl : ∀ k ∈ l, k.kind ≠ .main ∧ k ≠ c.2.1 ∧ k ≠ c.2.2)
    (hr : ∀ s, shape c s false false rest = true) : ∀ s, shape c s false false (l ++ rest) = true := by
  induction l with
  | nil => exact hr
  | cons i l ih =>
    intro s
    obtain ⟨h1, h2, h3⟩ := hl i (by simp)
    have ih := ih (fun k hk => hl k (List.mem_cons_of_mem _ hk))
    rw [List.cons_append, shape, if_neg h1, if_neg h2, if_neg h3]
    split <;> simp [ih]

theorem shape_range (c : Cls × Cls × Cls) (l rest : List Cls)
    (hl : ∀ k ∈ l, k.kind ≠ .main ∧ k ≠ c.1 ∧ k ≠ c.2.1 ∧ k ≠ c.2.2)
    (h1 : c.1 ≠ c.2.1) (h2 : c.1 ≠ c.2.2) (h3 : c.2.1 ≠ c.2.2) (k1 : c.2.1.kind ≠ .main) (k2 : c.2.2.kind ≠ .main)
    (hr : ∀ s lo hi, shape c s lo hi rest = true) : shape c false false false (l ++ c.2.1 :: c.2.2 :: rest) = true := by
  induction l with
  | nil =>
    rw [List.nil_append, shape, if_neg k1, if_neg h1.symm, if_pos rfl, shape, if_neg k2, if_neg h2.symm, if_neg h3.symm, if_pos rfl, hr]
    rfl
  | cons i l ih =>
    obtain ⟨a, b, d, e⟩ := hl i (by simp)
    rw [List.cons_append, shape, if_neg a, if_neg b, if_neg d, if_neg e]
    exact ih (fun k hk => hl k (List.mem_cons_of_mem _ hk))

/-- Tags of a range. -/
def trip (t : RangeTags) : Cls × Cls × Cls := (t.lookup, t.min, t.max)

def RangeTags.Apart (t : RangeTags) : Prop :=
  RangeTags.Local t ∧ t.lookup ≠ t.min ∧ t.lookup ≠ t.max ∧ t.min ≠ t.max

theorem apart_str : RangeTags.Apart strTags := ⟨local_str, by decide, by decide, by decide⟩
theorem apart_desig : RangeTags.Apart desigTags := ⟨local_desig, by decide, by decide, by decide⟩
theorem apart_usage : RangeTags.Apart usageTags := ⟨local_usage, by decide, by decide, by decide⟩

theorem note_pending3 (t : RangeTags) (st : RMState) (x : Item) : (st.note t x).pending = st.pending := by
  unfold RMState.note
  split
  · split
    · rfl
    · split
      · split
        · rfl
        · split <;> rfl
      · rfl
  · rfl

/-- What the pass sends on for one stretch between main items, followed by what begins with a main item. -/
theorem out_shape (reg : Registry) (t : RangeTags) (ht : RangeTags.Apart t) (st : RMState) (seg : List Item)
    (hseg : ∀ i ∈ seg, i.cls.kind ≠ .main ∧ i.cls ≠ t.min ∧ i.cls ≠ t.max) (rest : List Cls)
    (hr : ∀ s lo hi, shape (trip t) s lo hi rest = true) :
    (st.pending = seg → shape (trip t) false false false ((st.out reg t).map (·.cls) ++ rest) = true) ∧
    (∀ m, m.cls.kind = .main → st.pending = m :: seg →
      ∀ s lo hi, shape (trip t) s lo hi ((st.out reg t).map (·.cls) ++ rest) = true) := by
  obtain ⟨hloc, n1, n2, n3⟩ := ht
  have k1 : t.lookup.kind ≠ .main := by rw [hloc _ (by simp)]; simp
  have k2 : t.min.kind ≠ .main := by rw [hloc _ (by simp)]; simp
  have k3 : t.max.kind ≠ .main := by rw [hloc _ (by simp)]; simp
  have hplain : ∀ l : List Item, (∀ i ∈ l, i.cls.kind ≠ .main ∧ i.cls ≠ t.min ∧ i.cls ≠ t.max) →
      shape (trip t) false false false (l.map (·.cls) ++ rest) = true := by
    intro l hl
    apply shape_plain
    · intro k hk
      obtain ⟨i, hi, rfl⟩ := List.mem_map.1 hk
      exact hl i hi
    · intro s; exact hr _ _ _
  have key : ∃ seg', (∀ m, m.cls.kind = .main → st.pending = m :: seg → st.out reg t = m :: seg') ∧
      (st.pending = seg → st.out reg t = seg') ∧ shape (trip t) false false false (seg'.map (·.cls) ++ rest) = true := by
    unfold RMState.out
    cases hmin : st.minValue with
    | none => exact ⟨seg, fun m _ h => h, fun h => h, hplain seg hseg⟩
    | some lo =>
      cases hmax : st.maxValue with
      | none => exact ⟨seg, fun m _ h => h, fun h => h, hplain seg hseg⟩
      | some hi =>
        by_cases hc : lo.truthy ∧ hi.truthy ∧ st.merging
        · refine ⟨seg.filter (notRange t) ++ (if lo.eqv hi then [build reg t.lookup lo]
            else if hi.toInt - lo.toInt > 1 then [build reg t.min lo, build reg t.max hi]
            else [build reg t.lookup lo, build reg t.lookup hi]), ?_, ?_, ?_⟩
          · intro m hm h
            simp only [hc]
            rw [h, List.filter_cons_of_pos (by simp [notRange, hm])]
            rfl
          · intro h
            simp only [hc]
            rw [h]
            rfl
          · have hf : ∀ i ∈ seg.filter (notRange t), i.cls.kind ≠ .main ∧ i.cls ≠ t.min ∧ i.cls ≠ t.max :=
              fun i hi => hseg i (List.mem_filter.1 hi).1
            have hlook : ∀ v, (build reg t.lookup v).cls.kind ≠ .main ∧ (build reg t.lookup v).cls ≠ t.min ∧
                (build reg t.lookup v).cls ≠ t.max := fun v => by rw [build_cls]; exact ⟨k1, n1, n2⟩
            split
            · apply hplain
              intro i hi
              rcases List.mem_append.1 hi with hi | hi
              · exact hf i hi
              · simp at hi; subst hi; exact hlook _
            · split
              · rw [List.map_append, List.append_assoc]
                simp only [List.map_cons, List.map_nil, build_cls, List.cons_append, List.nil_append]
                apply shape_range (trip t) _ rest _ n1 n2 n3 k2 k3 hr
                intro k hk
                obtain ⟨i, hi, rfl⟩ := List.mem_map.1 hk
                refine ⟨(hf i hi).1, ?_, (hf i hi).2.1, (hf i hi).2.2⟩
                intro e
                have := (List.mem_filter.1 hi).2
                have e' : i.cls = t.lookup := e
                simp [notRange, e', hloc t.lookup (by simp)] at this
              · apply hplain
                intro i hi
                rcases List.mem_append.1 hi with hi | hi
                · exact hf i hi
                · simp at hi; rcases hi with rfl | rfl <;> exact hlook _
        · exact ⟨seg, fun m _ h => by simp only [hc, if_false]; exact h, fun h => by simp only [hc, if_false]; exact h, hplain seg hseg⟩
  obtain ⟨seg', a, b, d⟩ := key
  refine ⟨fun h => by rw [b h]; exact d, fun m hm h s lo hi => ?_⟩
  rw [a m hm h, List.map_cons, List.cons_append, shape, if_pos hm]
  exact d

theorem rm_shape (reg : Registry) (t : RangeTags) (ht : RangeTags.Apart t) (xs : List Item)
    (hx : ∀ i ∈ xs, i.cls ≠ t.min ∧ i.cls ≠ t.max) : ∀ (st : RMState) (seg : List Item),
    (∀ i ∈ seg, i.cls.kind ≠ .main ∧ i.cls ≠ t.min ∧ i.cls ≠ t.max) →
    (st.pending = seg → shape (trip t) false false false (((rangeMerge reg t).runFrom st xs).map (·.cls)) = true) ∧
    (∀ m, m.cls.kind = .main → st.pending = m :: seg →
      ∀ s lo hi, shape (trip t) s lo hi (((rangeMerge reg t).runFrom st xs).map (·.cls)) = true) := by
  induction xs with
  | nil =>
    intro st seg hseg
    have := out_shape reg t ht st seg hseg [] (fun _ _ _ => rfl)
    simpa [Pass.runFrom_nil] using this
  | cons x xs ih =>
    intro st seg hseg
    have ih := ih (fun i hi => hx i (List.mem_cons_of_mem _ hi))
    have hx0 := hx x (by simp)
    rw [Pass.runFrom_cons]
    by_cases hk : x.cls.kind = .main
    · have hrest := (ih { pending := [x] } [] (by simp)).2 x hk rfl
      have := out_shape reg t ht (st.note t x) seg hseg _ hrest
      simp only [hk, if_true, List.map_append]
      rw [note_pending3] at this
      exact this
    · simp only [hk, if_false, List.nil_append]
      have hseg' : ∀ i ∈ seg ++ [x], i.cls.kind ≠ .main ∧ i.cls ≠ t.min ∧ i.cls ≠ t.max := by
        intro i hi
        rcases List.mem_append.1 hi with hi | hi
        · exact hseg i hi
        · simp at hi; subst hi; exact ⟨hk, hx0⟩
      obtain ⟨a, b⟩ := ih { st.note t x with pending := st.pending ++ [x] } (seg ++ [x]) hseg'
      exact ⟨fun h => a (by simp [h]), fun m hm h => b m hm (by simp [h])⟩

theorem rm_run_shape (reg : Registry) (t : RangeTags) (ht : RangeTags.Apart t) (xs : List Item)
    (hx : ∀ i ∈ xs, i.cls ≠ t.min ∧ i.cls ≠ t.max) :
    shape (trip t) false false false (((rangeMerge reg t).run xs).map (·.cls)) = true :=
  (rm_shape reg t ht xs hx {} [] (by simp)).1 rfl

theorem shape_other (c : Cls × Cls × Cls) (xs ys : List Item)
    (h : view (fun k => relevant c k.1) xs = view (fun k => relevant c k.1) ys) :
    shape c false false false (xs.map (·.cls)) = shape c false false false (ys.map (·.cls)) := by
  have key : ∀ zs : List Item, (zs.map (·.cls)).filter (relevant c) = (view (fun k => relevant c k.1) zs).map (·.1) := by
    intro zs
    induction zs with
    | nil => rfl
    | cons z zs ih =>
      rw [view_cons, List.map_cons]
      by_cases hr : relevant c z.cls = true
      · rw [List.filter_cons_of_pos hr, ih]; simp [hr]
      · rw [List.filter_cons_of_neg hr, ih]; simp [hr]
  rw [← shape_filter, ← shape_filter c (ys.map (·.cls)), key, key, h]

theorem up_shape (reg : Registry) (c : Cls × Cls × Cls) (hc : relevant c .usagePage = false) (xs : List Item) :
    ∀ (st : Option Int), (((usagePage reg).runFrom st xs).map (·.cls)).filter (relevant c) = (xs.map (·.cls)).filter (relevant c) := by
  induction xs with
  | nil => intro st; rfl
  | cons x xs ih =>
    intro st
    rw [Pass.runFrom_cons, List.map_append, List.filter_append, ih, List.map_cons, List.filter_cons]
    by_cases hu : usageLike x.cls = true
    · simp only [hu, if_true]
      have : ∀ (p : Prop) [Decidable p] v, ((if p then [] else [build reg .usagePage v]).map (·.cls)).filter (relevant c) = [] := by
        intro p _ v; split <;> simp [build_cls, hc]
      rw [List.map_append, List.filter_append, this]
      simp only [List.map_cons, List.map_nil, build_cls, List.filter_cons, List.filter_nil, List.nil_append]
      split <;> rfl
    · simp only [hu, if_false, Bool.false_eq_true]
      split <;> (simp only [List.map_cons, List.map_nil, List.filter_cons, List.filter_nil]; split <;> rfl)

end Hrdc
