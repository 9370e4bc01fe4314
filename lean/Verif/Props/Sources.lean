import Verif.Props.Passes5
import Verif.Spec.Merge
/-!
# Property C75: optimizing invents nothing
-/
namespace Hrdc
open Spec Optimizer

/-- A stage that holds back some items and sends on the others in order, dropping some, as far as those of interest go. -/
theorem sub_run (p : Pass) (P : SItem → Bool) (held : p.σ → List SItem) (inv : p.σ → Prop)
    (hstep : ∀ st i, inv st → inv (p.step st i).1 ∧
      (view P (p.step st i).2 ++ held (p.step st i).1).Sublist (held st ++ view P [i]))
    (hfin : ∀ st, inv st → (view P (p.fin st)).Sublist (held st)) (xs : List Item) :
    ∀ st, inv st → (view P (p.runFrom st xs)).Sublist (held st ++ view P xs) := by
  induction xs with
  | nil => intro st hi; simpa [Pass.runFrom] using hfin st hi
  | cons x xs ih =>
    intro st hi
    obtain ⟨h1, h2⟩ := hstep st x hi
    have h3 := ih _ h1
    rw [Pass.runFrom, view_append]
    have e : view P (x :: xs) = view P [x] ++ view P xs := by rw [← view_append]; rfl
    rw [e, ← List.append_assoc]
    refine List.Sublist.trans ((List.Sublist.refl _).append h3) ?_
    rw [← List.append_assoc]
    exact h2.append (List.Sublist.refl _)

theorem view_sub (P : SItem → Bool) {xs ys : List Item} (h : xs.Sublist ys) : (view P xs).Sublist (view P ys) :=
  (h.map _).filter _

theorem view_none (P : SItem → Bool) {xs : List Item} (h : ∀ i ∈ xs, P i.key = false) : view P xs = [] := by
  unfold view
  rw [List.filter_eq_nil_iff]
  intro k hk
  obtain ⟨i, hi, rfl⟩ := List.mem_map.1 hk
  simp [h i hi]

/-- Kinds of items no stage makes: main items, Delimiter, and global items other than Report Count and Usage Page. -/
def given (k : SItem) : Bool :=
  match k.1 with
  | .reportCount | .usagePage | .usage | .usageMin | .usageMax | .desigIndex | .desigMin | .desigMax | .strIndex | .strMin
  | .strMax => false
  | _ => true

theorem sub_du (P : SItem → Bool) (xs : List Item) : (view P (designatorUniq.run xs)).Sublist (view P xs) := by
  have := sub_run designatorUniq P (fun st => view P st.pending) (fun _ => True) ?_ ?_ xs {} trivial
  · simpa [Pass.run] using this
  · intro st i _
    refine ⟨trivial, ?_⟩
    rw [← view_append P st.pending]
    show (view P (designatorUniq.step st i).2 ++ view P (designatorUniq.step st i).1.pending).Sublist _
    simp only [designatorUniq]
    split
    · split
      · split <;> simp
      · simp
    · simp only [view_nil, List.append_nil]
      apply view_sub
      split
      · exact List.eraseIdx_sublist _ _
      · exact List.Sublist.refl _
  · intro st _
    simp

theorem sub_pm (P : SItem → Bool) (xs : List Item) : (view P (physicalMerge.run xs)).Sublist (view P xs) := by
  have := sub_run physicalMerge P (fun st => view P st.pending) (fun _ => True) ?_ ?_ xs {} trivial
  · simpa [Pass.run] using this
  · intro st i _
    refine ⟨trivial, ?_⟩
    rw [← view_append P st.pending]
    show (view P (physicalMerge.step st i).2 ++ view P (physicalMerge.step st i).1.pending).Sublist _
    simp only [physicalMerge]
    split
    · simp only [view_nil, List.append_nil]
      apply view_sub
      split
      · exact List.filter_sublist.append (List.Sublist.refl _)
      · exact List.Sublist.refl _
    · simp
  · intro st _
    exact List.Sublist.refl _

theorem sub_gm (P : SItem → Bool) (xs : List Item) : (view P (globalMerge.run xs)).Sublist (view P xs) := by
  have := sub_run globalMerge P (fun _ => []) (fun _ => True) ?_ ?_ xs globalInit trivial
  · simpa [Pass.run] using this
  · intro st i _
    refine ⟨trivial, ?_⟩
    show (view P (globalMerge.step st i).2 ++ []).Sublist _
    simp only [List.append_nil, List.nil_append]
    apply view_sub
    split
    · dsimp only
      repeat' split
      all_goals first | exact List.Sublist.refl _ | exact List.nil_sublist _
    · exact List.Sublist.refl _
  · intro st _
    simp

theorem sub_rm (P : SItem → Bool) (reg : Registry) (t : RangeTags)
    (ht : ∀ v, P (t.lookup, v) = false ∧ P (t.min, v) = false ∧ P (t.max, v) = false) (xs : List Item) :
    (view P ((rangeMerge reg t).run xs)).Sublist (view P xs) := by
  have hb : ∀ c v, (c = t.lookup ∨ c = t.min ∨ c = t.max) → P (build reg c v).key = false := by
    intro c v hc
    have : (build reg c v).key = (c, (build reg c v).ival) := by simp [Item.key, build_cls]
    rw [this]
    rcases hc with rfl | rfl | rfl
    · exact (ht _).1
    · exact (ht _).2.1
    · exact (ht _).2.2
  have hout : ∀ st : RMState, (view P (st.out reg t)).Sublist (view P st.pending) := by
    intro st
    unfold RMState.out
    split
    · rename_i lo hi _ _
      split
      · rw [view_append]
        have : view P (if lo.eqv hi then [build reg t.lookup lo]
            else if hi.toInt - lo.toInt > 1 then [build reg t.min lo, build reg t.max hi]
            else [build reg t.lookup lo, build reg t.lookup hi]) = [] := by
          apply view_none
          intro i hi
          split at hi
          · simp only [List.mem_singleton] at hi; subst hi; exact hb _ _ (.inl rfl)
          · split at hi
            · simp only [List.mem_cons, List.not_mem_nil, or_false] at hi
              rcases hi with rfl | rfl
              · exact hb _ _ (.inr (.inl rfl))
              · exact hb _ _ (.inr (.inr rfl))
            · simp only [List.mem_cons, List.not_mem_nil, or_false] at hi
              rcases hi with rfl | rfl <;> exact hb _ _ (.inl rfl)
        rw [this, List.append_nil]
        exact view_sub P List.filter_sublist
      · exact List.Sublist.refl _
    · exact List.Sublist.refl _
  have hnote : ∀ (st : RMState) i, (st.note t i).pending = st.pending := by
    intro st i
    unfold RMState.note
    repeat' split
    all_goals rfl
  have := sub_run (rangeMerge reg t) P (fun st => view P st.pending) (fun _ => True) ?_ ?_ xs {} trivial
  · simpa [Pass.run] using this
  · intro st i _
    refine ⟨trivial, ?_⟩
    show (view P ((rangeMerge reg t).step st i).2 ++ view P ((rangeMerge reg t).step st i).1.pending).Sublist _
    simp only [rangeMerge]
    split
    · have h := hout (st.note t i)
      rw [hnote] at h
      exact h.append (List.Sublist.refl _)
    · simp
  · intro st _
    exact hout st

theorem sub_up (P : SItem → Bool) (reg : Registry) (hp : ∀ v, P (.usagePage, v) = false)
    (hu : ∀ c v, usageLike c = true → P (c, v) = false) (xs : List Item) :
    (view P ((usagePage reg).run xs)).Sublist (view P xs) := by
  have hb : ∀ c v, P (c, (build reg c v).ival) = false → P (build reg c v).key = false := by
    intro c v h
    have : (build reg c v).key = (c, (build reg c v).ival) := by simp [Item.key, build_cls]
    rw [this]; exact h
  have := sub_run (usagePage reg) P (fun _ => []) (fun _ => True) ?_ ?_ xs none trivial
  · simpa [Pass.run] using this
  · intro st i _
    refine ⟨trivial, ?_⟩
    show (view P ((usagePage reg).step st i).2 ++ []).Sublist _
    simp only [List.append_nil, List.nil_append, usagePage]
    split
    · rename_i hl
      dsimp only
      rw [view_none]
      · exact List.nil_sublist _
      · intro j hj
        simp only [List.mem_append, List.mem_singleton] at hj
        rcases hj with hj | rfl
        · split at hj
          · simp at hj
          · simp only [List.mem_singleton] at hj
            subst hj
            exact hb _ _ (hp _)
        · exact hb _ _ (hu _ _ hl)
    · split
      · exact List.Sublist.refl _
      · exact List.Sublist.refl _
  · intro st _
    simp

theorem sub_mm (P : SItem → Bool) (reg : Registry) (hc : ∀ v, P (.reportCount, v) = false)
    (hP : (∀ k : SItem, k.1.kind = .main → P k = false) ∨ (∀ k : SItem, k.1.kind ≠ .main → P k = false)) (xs : List Item) :
    (view P ((mainMerge reg).run xs)).Sublist (view P xs) := by
  have hb : ∀ v, P (build reg .reportCount v).key = false := by
    intro v
    have : (build reg .reportCount v).key = (.reportCount, (build reg .reportCount v).ival) := by simp [Item.key, build_cls]
    rw [this]; exact hc _
  let held : MMState → List SItem := fun st => view P st.before ++ view P st.mains ++ view P st.after
  let inv : MMState → Prop := fun st => (∀ i ∈ st.mains, i.cls.kind = .main) ∧ ∀ i ∈ st.after, i.cls.kind ≠ .main
  -- the items of `after` and of `mains` are not both of interest
  have hcomm : ∀ st : MMState, inv st → view P st.after ++ view P st.mains = view P st.mains ++ view P st.after := by
    intro st hi
    rcases hP with h | h
    · rw [view_none P (xs := st.mains) (fun i hm => h _ (hi.1 i hm))]; simp
    · rw [view_none P (xs := st.after) (fun i hm => h _ (hi.2 i hm))]; simp
  have hflush : ∀ st : MMState, (view P (st.flush reg).2 ++ held (st.flush reg).1).Sublist (held st) := by
    intro st
    simp only [MMState.flush, held, view_nil, List.append_nil, view_append]
    refine List.Sublist.append ?_ (List.Sublist.refl _)
    refine (view_sub P List.filter_sublist).append ?_
    cases st.mains with
    | nil => simp
    | cons m ms =>
      simp only [view_cons, hb, Bool.false_eq_true, if_false, List.nil_append, view_nil, List.append_nil]
      exact List.sublist_append_left _ _
  have hflushI : ∀ st : MMState, inv (st.flush reg).1 := by
    intro st
    simp [MMState.flush, inv]
  have := sub_run (mainMerge reg) P held inv ?_ ?_ xs {} (by simp [inv])
  · simpa [Pass.run, held] using this
  · intro st i hi
    have happ : ∀ st : MMState, held { st with after := st.after ++ [i] } = held st ++ view P [i] := by
      intro st; simp [held]
    show inv ((mainMerge reg).step st i).1 ∧
      (view P ((mainMerge reg).step st i).2 ++ held ((mainMerge reg).step st i).1).Sublist _
    simp only [mainMerge]
    cases hk : i.cls.kind with
    | loc =>
      refine ⟨⟨hi.1, ?_⟩, ?_⟩
      · intro j hj
        simp only [List.mem_append, List.mem_singleton] at hj
        rcases hj with hj | rfl
        · exact hi.2 j hj
        · rw [hk]; simp
      · simp only [view_nil, List.nil_append]
        rw [happ]
        exact List.Sublist.refl _
    | global =>
      have hi' : inv { st with after := st.after ++ [i] } := by
        refine ⟨hi.1, ?_⟩
        intro j hj
        simp only [List.mem_append, List.mem_singleton] at hj
        rcases hj with hj | rfl
        · exact hi.2 j hj
        · rw [hk]; simp
      dsimp only
      split
      · refine ⟨hflushI _, ?_⟩
        refine (hflush _).trans ?_
        rw [← happ]
        exact List.Sublist.refl _
      · split
        · refine ⟨hi', ?_⟩
          rw [← happ]
          simp [held]
        · refine ⟨hi', ?_⟩
          rw [← happ]
          simp [held]
    | main =>
      dsimp only
      split
      · -- a data item
        rename_i hd
        have key : ∀ q : MMState, inv q → inv (MMState.take q i) ∧ held (MMState.take q i) = held q ++ view P [i] := by
          intro q hi
          constructor
          · refine ⟨?_, by simp [MMState.take]⟩
            intro j hj
            simp only [MMState.take, List.mem_append, List.mem_singleton] at hj
            rcases hj with hj | rfl
            · exact hi.1 j hj
            · exact hk
          · have := hcomm q hi
            simp only [held, MMState.take, view_append, view_nil, List.append_nil, List.append_assoc]
            rw [← List.append_assoc (view P q.after), this]
            simp
        obtain ⟨q, o, hqo, hst'⟩ := mm_step_data reg st i hd
        have hq' : inv q ∧ (view P o ++ held q).Sublist (held st) := by
          rcases hqo with ⟨rfl, rfl, -⟩ | ⟨rfl, rfl, -⟩
          · exact ⟨hi, by simp⟩
          · exact ⟨hflushI st, hflush st⟩
        obtain ⟨k1, k2⟩ := key q hq'.1
        have goal : inv ((mainMerge reg).step st i).1 ∧
            (view P ((mainMerge reg).step st i).2 ++ held ((mainMerge reg).step st i).1).Sublist (held st ++ view P [i]) := by
          rw [hst']
          split
          · refine ⟨hflushI _, ?_⟩
            rw [view_append, List.append_assoc]
            refine ((List.Sublist.refl _).append (hflush _)).trans ?_
            rw [k2, ← List.append_assoc]
            exact hq'.2.append (List.Sublist.refl _)
          · refine ⟨k1, ?_⟩
            rw [k2, ← List.append_assoc]
            exact hq'.2.append (List.Sublist.refl _)
        simpa only [mainMerge, hk, hd, if_true] using goal
      · refine ⟨hflushI _, ?_⟩
        refine (hflush _).trans ?_
        rw [← happ]
        exact List.Sublist.refl _
  · intro st _
    simp [held]

/-- The stages drop and keep, they do not reorder and invent, as far as the items of interest go. -/
theorem sub_new (reg : Registry) (min max : Int) (P : SItem → Bool) (hg : ∀ k, given k = false → P k = false)
    (hP : (∀ k : SItem, k.1.kind = .main → P k = false) ∨ (∀ k : SItem, k.1.kind ≠ .main → P k = false)) (xs : List Item) :
    (view P ((new reg min max Pass.sink).run xs)).Sublist (view P xs) := by
  rw [C28_stages, Pass.sink_run]
  have hall : ∀ s ∈ stages reg, ∀ ys, (view P (s.2.run ys)).Sublist (view P ys) := by
    intro s hs ys
    simp only [stages, List.mem_cons, List.not_mem_nil, or_false] at hs
    have hr : ∀ t : RangeTags, t = strTags ∨ t = desigTags ∨ t = usageTags →
        ∀ v, P (t.lookup, v) = false ∧ P (t.min, v) = false ∧ P (t.max, v) = false := by
      rintro t (rfl | rfl | rfl) v <;> exact ⟨hg _ rfl, hg _ rfl, hg _ rfl⟩
    rcases hs with rfl | rfl | rfl | rfl | rfl | rfl | rfl | rfl
    · exact sub_du P ys
    · exact sub_mm P reg (fun v => hg _ rfl) hP ys
    · exact sub_pm P ys
    · exact sub_gm P ys
    · exact sub_rm P reg _ (hr _ (by simp)) ys
    · exact sub_rm P reg _ (hr _ (by simp)) ys
    · exact sub_rm P reg _ (hr _ (by simp)) ys
    · refine sub_up P reg (fun v => hg _ rfl) ?_ ys
      intro c v hc
      cases c <;> simp [usageLike] at hc <;> exact hg _ rfl
  have hsub : ∀ s ∈ (stages reg).filter (fun s => decide (min < s.1 ∧ s.1 < max)), s ∈ stages reg :=
    fun s hs => (List.mem_filter.1 hs).1
  generalize (stages reg).filter (fun s => decide (min < s.1 ∧ s.1 < max)) = l at hsub
  induction l generalizing xs with
  | nil => exact List.Sublist.refl _
  | cons s l ih =>
    simp only [List.foldl_cons]
    exact (ih (s.2.run xs) (fun t ht => hsub t (List.mem_cons_of_mem _ ht))).trans
      (hall s (hsub s (List.mem_cons_self ..)) xs)

/-- C75.  Optimizing invents nothing: with any selection of stages, the main items sent on (fields and collections) are items
of the original descriptor, in their order. -/
theorem C75_main (reg : Registry) (min max : Int) (xs : List Item) :
    ((keys ((new reg min max Pass.sink).run xs)).filter (fun k => k.1.kind == .main)).Sublist
      ((keys xs).filter (fun k => k.1.kind == .main)) := by
  refine sub_new reg min max (fun k => k.1.kind == .main) ?_ (.inr ?_) xs
  · rintro ⟨c, v⟩ h
    cases c <;> first | rfl | cases h
  · intro k h
    simpa using h

/-- C75.  So are the global items, Push and Pop included, except for Report Counts, which are added up, and Usage Pages,
which are introduced; and so are Delimiters. -/
theorem C75_globals (reg : Registry) (min max : Int) (xs : List Item) :
    ((keys ((new reg min max Pass.sink).run xs)).filter
        (fun k => (k.1.kind == .global && k.1 != .reportCount && k.1 != .usagePage) || k.1 == .delimiter)).Sublist
      ((keys xs).filter
        (fun k => (k.1.kind == .global && k.1 != .reportCount && k.1 != .usagePage) || k.1 == .delimiter)) := by
  refine sub_new reg min max
    (fun k => (k.1.kind == .global && k.1 != .reportCount && k.1 != .usagePage) || k.1 == .delimiter) ?_ (.inl ?_) xs
  · rintro ⟨c, v⟩ h
    cases c <;> first | rfl | cases h
  · rintro ⟨c, v⟩ h
    cases c <;> first | rfl | cases h

/-- `RangeMerge` makes items out of the values of the lookup items it saw. -/
theorem from_rm (A : SItem → Prop) (reg : Registry) (t : RangeTags) (hn : t.lookup ≠ .collection ∧ t.min ≠ .collection ∧ t.max ≠ .collection)
    (hA : ∀ v, A (t.lookup, v) → A (t.min, v) ∧ A (t.max, v)) (xs : List Item) (hx : ∀ i ∈ xs, A i.key) :
    ∀ i ∈ (rangeMerge reg t).run xs, A i.key := by
  let L : Option PyVal → Prop := fun o => ∀ v, o = some v → A (t.lookup, v.toInt)
  let I : RMState → Prop := fun st => (∀ i ∈ st.pending, A i.key) ∧ L st.minValue ∧ L st.maxValue
  have hbuild : ∀ c ∈ [t.lookup, t.min, t.max], ∀ v : PyVal, A (t.lookup, v.toInt) → A (build reg c v).key := by
    intro c hc v hv
    simp only [List.mem_cons, List.not_mem_nil, or_false] at hc
    rcases hc with rfl | rfl | rfl
    · rw [build_key _ _ _ hn.1]; exact hv
    · rw [build_key _ _ _ hn.2.1]; exact (hA _ hv).1
    · rw [build_key _ _ _ hn.2.2]; exact (hA _ hv).2
  have hout : ∀ st : RMState, I st → ∀ y ∈ st.out reg t, A y.key := by
    intro st hst y hy
    unfold RMState.out at hy
    split at hy
    · next lo hi hlo hhi =>
      have blo := fun c hc => hbuild c hc lo (hst.2.1 lo hlo)
      have bhi := fun c hc => hbuild c hc hi (hst.2.2 hi hhi)
      split at hy
      · rcases List.mem_append.1 hy with hy | hy
        · exact hst.1 y (List.mem_filter.1 hy).1
        · split at hy
          · simp at hy; subst hy; exact blo _ (by simp)
          · split at hy
            · simp only [List.mem_cons, List.not_mem_nil, or_false] at hy
              rcases hy with rfl | rfl
              · exact blo _ (by simp)
              · exact bhi _ (by simp)
            · simp only [List.mem_cons, List.not_mem_nil, or_false] at hy
              rcases hy with rfl | rfl
              · exact blo _ (by simp)
              · exact bhi _ (by simp)
      · exact hst.1 y hy
    · exact hst.1 y hy
  have hnote : ∀ st x, I st → A x.key → L (RMState.note t st x).minValue ∧
      L (RMState.note t st x).maxValue ∧ (RMState.note t st x).pending = st.pending := by
    intro st x hst hx
    unfold RMState.note
    split
    · split
      · exact ⟨hst.2.1, hst.2.2, rfl⟩
      · split
        · next hc =>
          have hv : L (some x.val) := by
            intro v hv
            cases hv
            rw [← hc]
            exact hx
          split
          · exact ⟨hv, hv, rfl⟩
          · split
            · exact ⟨hst.2.1, hv, rfl⟩
            · exact ⟨hst.2.1, hst.2.2, rfl⟩
        · exact ⟨hst.2.1, hst.2.2, rfl⟩
    · exact ⟨hst.2.1, hst.2.2, rfl⟩
  apply Pass.runFrom_all _ (fun i => A i.key) I
  · intro st x hst hx
    have hn := hnote st x hst hx
    by_cases hk : x.cls.kind = .main
    · simp only [hk, if_true]
      refine ⟨⟨by intro i hi; simp at hi; subst hi; exact hx, by intro v hv; simp at hv,
        by intro v hv; simp at hv⟩, hout _ ⟨by rw [hn.2.2]; exact hst.1, hn.1, hn.2.1⟩⟩
    · simp only [hk, if_false]
      refine ⟨⟨?_, hn.1, hn.2.1⟩, by simp⟩
      intro i hi
      rcases List.mem_append.1 hi with hi | hi
      · exact hst.1 i hi
      · simp at hi; subst hi; exact hx
  · exact hout
  · exact ⟨by intro i hi; simp at hi, by intro v hv; simp at hv, by intro v hv; simp at hv⟩
  · exact hx

theorem from_view {P : SItem → Bool} {xs ys : List Item} (h : (view P ys).Sublist (view P xs)) (A : SItem → Prop)
    (hA : ∀ k, P k = false → A k) (hx : ∀ i ∈ xs, A i.key) : ∀ i ∈ ys, A i.key := by
  intro i hi
  by_cases hp : P i.key = true
  · have h1 : i.key ∈ view P ys := List.mem_filter.2 ⟨List.mem_map.2 ⟨i, hi, rfl⟩, hp⟩
    obtain ⟨j, hj, e⟩ := List.mem_map.1 (List.mem_filter.1 (h.subset h1)).1
    rw [← e]
    exact hx j hj
  · exact hA _ (by simpa using hp)

/-- C75.  The strings and designators an optimized descriptor refers to are among those of the original: each index is an
index of the original, and the ends of each range are ends of a range or indices of the original. -/
theorem C75_indices (reg : Registry) (min max : Int) (xs : List Item) :
    ∀ k ∈ keys ((new reg min max Pass.sink).run xs), comesFrom (keys xs) k := by
  suffices h : ∀ i ∈ (new reg min max Pass.sink).run xs, comesFrom (keys xs) i.key by
    intro k hk
    obtain ⟨i, hi, rfl⟩ := List.mem_map.1 hk
    exact h i hi
  have h0 : ∀ i ∈ xs, comesFrom (keys xs) i.key := by
    intro i hi
    have : i.key ∈ keys xs := List.mem_map.2 ⟨i, hi, rfl⟩
    unfold comesFrom
    split
    · exact .inl this
    · exact .inl this
    · exact .inl this
    · exact .inl this
    · exact this
    · exact this
    · trivial
  generalize keys xs = ks at h0
  rw [C28_stages, Pass.sink_run]
  have hall : ∀ s ∈ stages reg, ∀ ys : List Item, (∀ i ∈ ys, comesFrom ks i.key) → ∀ i ∈ s.2.run ys, comesFrom ks i.key := by
    intro s hs ys hy
    simp only [stages, List.mem_cons, List.not_mem_nil, or_false] at hs
    let P : SItem → Bool := fun k => k.1.kind == .loc && !usageLike k.1
    have hPA : ∀ k, P k = false → comesFrom ks k := by
      rintro ⟨c, v⟩ h
      cases c <;> first | trivial | cases h
    rcases hs with rfl | rfl | rfl | rfl | rfl | rfl | rfl | rfl
    · exact from_view (sub_du P ys) _ hPA hy
    · refine from_view (sub_mm P reg (fun _ => rfl) (.inl ?_) ys) _ hPA hy
      rintro ⟨c, v⟩ h
      cases c <;> first | rfl | cases h
    · exact from_view (sub_pm P ys) _ hPA hy
    · exact from_view (sub_gm P ys) _ hPA hy
    · exact from_rm _ reg strTags (by decide) (fun v h => ⟨.inr h, .inr h⟩) ys hy
    · exact from_rm _ reg desigTags (by decide) (fun v h => ⟨.inr h, .inr h⟩) ys hy
    · exact from_rm _ reg usageTags (by decide) (fun v h => ⟨trivial, trivial⟩) ys hy
    · refine from_view (sub_up P reg (fun _ => rfl) ?_ ys) _ hPA hy
      intro c v hc
      cases c <;> simp [usageLike] at hc <;> rfl
  have hsub : ∀ s ∈ (stages reg).filter (fun s => decide (min < s.1 ∧ s.1 < max)), s ∈ stages reg :=
    fun s hs => (List.mem_filter.1 hs).1
  generalize (stages reg).filter (fun s => decide (min < s.1 ∧ s.1 < max)) = l at hsub
  induction l generalizing xs with
  | nil => exact h0
  | cons s l ih =>
    simp only [List.foldl_cons]
    exact ih (s.2.run xs) (hall s (hsub s (List.mem_cons_self ..)) xs h0) (fun t ht => hsub t (List.mem_cons_of_mem _ ht))

/-- A descriptor with strings and a designator that the optimizer changes. -/
def sourceSample : List Item :=
  [⟨.usagePage, .int 1⟩, ⟨.usage, .int 0x10002⟩, ⟨.collection, .int 1⟩, ⟨.push, .int 0⟩, ⟨.logMin, .int 0⟩, ⟨.logMax, .int 1⟩,
   ⟨.reportSize, .int 1⟩, ⟨.reportCount, .int 1⟩, ⟨.usage, .int 0x10030⟩, ⟨.strIndex, .int 4⟩, ⟨.strIndex, .int 5⟩,
   ⟨.strIndex, .int 6⟩, ⟨.desigIndex, .int 0⟩, ⟨.input, .int 2⟩, ⟨.logMin, .int 0⟩, ⟨.reportCount, .int 1⟩, ⟨.usage, .int 0x10031⟩,
   ⟨.input, .int 2⟩, ⟨.pop, .int 0⟩, ⟨.endCollection, .int 0⟩]

example : keys (optimize [] sourceSample) =
    [(.usagePage, 1), (.usage, 2), (.collection, 1), (.push, 0), (.logMin, 0), (.logMax, 1), (.reportSize, 1),
     (.reportCount, 2), (.strMin, 4), (.strMax, 6), (.usage, 0x30), (.usage, 0x31), (.input, 2), (.pop, 0),
     (.endCollection, 0)] := by decide +kernel

end Hrdc
