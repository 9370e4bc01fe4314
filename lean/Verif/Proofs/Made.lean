import Verif.Proofs.Transport
/-!
# The passes send on items the constructors can make
-/
namespace Hrdc
open Spec Optimizer

theorem build_made (reg : Registry) (c : Cls) (v : PyVal) (h0 : 0 ≤ v.toInt)
    (hc : c.kind = .loc ∨ c = .usagePage ∨ c = .reportCount) : (build reg c v).Made :=
  ⟨reg, v, by rw [build_cls]; exact build_new reg c v h0 hc⟩

theorem made_local {i : Item} (h : i.Made) (hk : i.cls.kind = .loc) : 0 ≤ i.ival := by
  rcases h.nonneg with h | h
  · cases hc : i.cls <;> rw [hc] at h hk <;> simp [Cls.signed, Cls.kind] at h hk
  · exact h

theorem made_count {i : Item} (h : i.Made) (hc : i.cls = .reportCount) : 0 ≤ i.ival := by
  rcases h.nonneg with h | h
  · rw [hc] at h; simp [Cls.signed] at h
  · exact h

theorem made_up (reg : Registry) (xs : List Item) (hx : ∀ i ∈ xs, i.Made) :
    ∀ i ∈ (usagePage reg).run xs, i.Made := by
  apply Pass.runFrom_all _ Item.Made (fun _ => True)
  · intro st x _ hx
    refine ⟨trivial, ?_⟩
    by_cases hu : usageLike x.cls = true
    · have hl : x.cls.kind = .loc := by
        cases hx : x.cls <;> rw [hx] at hu <;> simp [usageLike] at hu <;> rfl
      have h0 := made_local hx hl
      have hsp : (Usage.split (Usage.lookup reg x.val)).1.toInt = x.ival / 65536 := by
        rw [split_fst, lookup_value]; rfl
      have hsu : (Usage.split (Usage.lookup reg x.val)).2.toInt = x.ival % 65536 := by
        rw [split_snd, lookup_value]; rfl
      simp only [hu, if_true]
      intro y hy
      rcases List.mem_append.1 hy with hy | hy
      · split at hy
        · simp at hy
        · simp at hy; subst hy
          exact build_made _ _ _ (by omega) (Or.inr (Or.inl rfl))
      · simp at hy; subst hy
        exact build_made _ _ _ (by omega) (Or.inl hl)
    · simp only [hu, if_false, Bool.false_eq_true]
      split
      · intro y hy; simp at hy; subst hy; exact hx
      · intro y hy; simp at hy; subst hy; exact hx
  · intro st _ y hy; simp at hy
  · trivial
  · exact hx

theorem made_rm (reg : Registry) (t : RangeTags) (ht : ∀ c ∈ [t.lookup, t.min, t.max], c.kind = .loc)
    (xs : List Item) (hx : ∀ i ∈ xs, i.Made) : ∀ i ∈ (rangeMerge reg t).run xs, i.Made := by
  let L : Option PyVal → Prop := fun o => ∀ v, o = some v → 0 ≤ v.toInt
  let I : RMState → Prop := fun st => (∀ i ∈ st.pending, i.Made) ∧ L st.minValue ∧ L st.maxValue
  have hbuild : ∀ c ∈ [t.lookup, t.min, t.max], ∀ v : PyVal, 0 ≤ v.toInt → (build reg c v).Made :=
    fun c hc v hv => build_made reg c v hv (Or.inl (ht c hc))
  have hout : ∀ st : RMState, I st → ∀ y ∈ st.out reg t, y.Made := by
    intro st hst y hy
    unfold RMState.out at hy
    split at hy
    · next lo hi hlo hhi =>
      have blo := fun c hc => hbuild c hc lo (hst.2.1 lo hlo)
      have bhi := fun c hc => hbuild c hc hi (hst.2.2 hi hhi)
      split at hy
      · rcases List.mem_append.1 hy with hy | hy
        · exact hst.1 y (List.mem_filter.1 hy).1
        · split at hy
          · simp at hy; subst hy; exact blo _ (by simp)
          · split at hy
            · simp only [List.mem_cons, List.not_mem_nil, or_false] at hy
              rcases hy with rfl | rfl
              · exact blo _ (by simp)
              · exact bhi _ (by simp)
            · simp only [List.mem_cons, List.not_mem_nil, or_false] at hy
              rcases hy with rfl | rfl
              · exact blo _ (by simp)
              · exact bhi _ (by simp)
      · exact hst.1 y hy
    · exact hst.1 y hy
  have hnote : ∀ st x, I st → x.Made → L (RMState.note t st x).minValue ∧
      L (RMState.note t st x).maxValue ∧ (RMState.note t st x).pending = st.pending := by
    intro st x hst hx
    unfold RMState.note
    split
    · next hk =>
      split
      · exact ⟨hst.2.1, hst.2.2, rfl⟩
      · split
        · have hv : L (some x.val) := by
            intro v hv
            cases hv
            exact made_local hx hk.2
          split
          · exact ⟨hv, hv, rfl⟩
          · split
            · exact ⟨hst.2.1, hv, rfl⟩
            · exact ⟨hst.2.1, hst.2.2, rfl⟩
        · exact ⟨hst.2.1, hst.2.2, rfl⟩
    · exact ⟨hst.2.1, hst.2.2, rfl⟩
  apply Pass.runFrom_all _ Item.Made I
  · intro st x hst hx
    have hn := hnote st x hst hx
    by_cases hk : x.cls.kind = .main
    · simp only [hk, if_true]
      refine ⟨⟨by intro i hi; simp at hi; subst hi; exact hx, by intro v hv; simp at hv,
        by intro v hv; simp at hv⟩, hout _ ⟨by rw [hn.2.2]; exact hst.1, hn.1, hn.2.1⟩⟩
    · simp only [hk, if_false]
      refine ⟨⟨?_, hn.1, hn.2.1⟩, by simp⟩
      intro i hi
      rcases List.mem_append.1 hi with hi | hi
      · exact hst.1 i hi
      · simp at hi; subst hi; exact hx
  · exact hout
  · exact ⟨by intro i hi; simp at hi, by intro v hv; simp at hv, by intro v hv; simp at hv⟩
  · exact hx

/-- What `MainMerge` holds back can be made, and its counts are not negative. -/
def MMMade (st : MMState) : Prop :=
  (∀ i ∈ st.before ++ st.mains ++ st.after, i.Made) ∧ 0 ≤ st.beforeCount ∧ 0 ≤ st.afterCount

theorem made_flush (reg : Registry) (st : MMState) (h : MMMade st) :
    MMMade (st.flush reg).1 ∧ ∀ i ∈ (st.flush reg).2, i.Made := by
  constructor
  · refine ⟨?_, by simp [MMState.flush], h.2.2⟩
    intro i hi
    simp [MMState.flush] at hi
    exact h.1 i (by simp [hi])
  · intro i hi
    simp only [MMState.flush, List.mem_append] at hi
    rcases hi with hi | hi
    · exact h.1 i (by simp [(List.mem_filter.1 hi).1])
    · cases hm : st.mains with
      | nil => rw [hm] at hi; simp at hi
      | cons m ms =>
        rw [hm] at hi
        simp only [List.mem_cons, List.not_mem_nil, or_false] at hi
        rcases hi with rfl | rfl
        · exact build_made _ _ _ h.2.1 (Or.inr (Or.inr rfl))
        · exact h.1 i (by simp [hm])

theorem made_mm (reg : Registry) (xs : List Item) (hx : ∀ i ∈ xs, i.Made) :
    ∀ i ∈ (mainMerge reg).run xs, i.Made := by
  apply Pass.runFrom_all _ Item.Made MMMade
  · intro st x hst hx
    have hpush : MMMade (MMState.push st x) := by
      refine ⟨?_, hst.2⟩
      intro i hi
      simp only [MMState.push] at hi
      rw [← List.append_assoc] at hi
      rcases List.mem_append.1 hi with hi | hi
      · exact hst.1 i hi
      · simp at hi; subst hi; exact hx
    have htake : ∀ q : MMState, MMMade q → MMMade (MMState.take q x) := by
      intro q hq
      refine ⟨?_, by simp only [MMState.take]; have := hq.2; omega, hq.2.2⟩
      intro i hi
      simp only [MMState.take, List.append_nil, List.mem_append, List.mem_singleton] at hi
      rcases hi with (hi | hi) | hi | hi
      · exact hq.1 i (by simp [hi])
      · exact hq.1 i (by simp [hi])
      · exact hq.1 i (by simp [hi])
      · subst hi; exact hx
    by_cases hd : x.cls.isData = true
    · obtain ⟨q, o, hqo, hst'⟩ := mm_step_data reg st x hd
      have hq : MMMade q ∧ ∀ i ∈ o, i.Made := by
        rcases hqo with ⟨rfl, rfl, -⟩ | ⟨rfl, rfl, -⟩
        · exact ⟨hst, by simp⟩
        · exact made_flush reg st hst
      rw [hst']
      split
      · have := made_flush reg _ (htake q hq.1)
        refine ⟨this.1, ?_⟩
        intro y hy
        rcases List.mem_append.1 hy with hy | hy
        · exact hq.2 y hy
        · exact this.2 y hy
      · exact ⟨htake q hq.1, hq.2⟩
    · cases hk : x.cls.kind with
      | loc => simp only [hk]; exact ⟨hpush, by simp⟩
      | global =>
        simp only [hk]
        split
        · exact made_flush reg _ hpush
        · split
          · next hc => exact ⟨⟨hpush.1, hpush.2.1, made_count hx hc⟩, by simp⟩
          · exact ⟨hpush, by simp⟩
      | main =>
        simp only [hk, hd, if_false, Bool.false_eq_true]
        exact made_flush reg _ hpush
  · intro st h; exact h.1
  · exact ⟨by simp, by simp, by simp⟩
  · exact hx

end Hrdc
