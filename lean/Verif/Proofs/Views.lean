import Verif.Proofs.Transport
/-!
# What the passes leave in place

`view P xs` is the sequence of items of `xs` that satisfy `P`, as the host sees them.
-/
namespace Hrdc
open Spec Optimizer

/-- The items satisfying `P`. -/
def view (P : SItem → Bool) (xs : List Item) : List SItem := (keys xs).filter P

@[simp] theorem view_nil (P : SItem → Bool) : view P [] = [] := rfl
@[simp] theorem view_append (P : SItem → Bool) (xs ys : List Item) :
    view P (xs ++ ys) = view P xs ++ view P ys := by simp [view]
theorem view_cons (P : SItem → Bool) (x : Item) (xs : List Item) :
    view P (x :: xs) = (if P x.key then [x.key] else []) ++ view P xs := by
  simp only [view, keys_cons, List.filter_cons]
  split <;> rfl

theorem view_all_false (P : SItem → Bool) (xs : List Item) (h : ∀ i ∈ xs, P i.key = false) :
    view P xs = [] := by
  induction xs with
  | nil => rfl
  | cons x xs ih =>
    rw [view_cons, h x (by simp), ih (fun i hi => h i (by simp [hi]))]; rfl

theorem view_filter (P : SItem → Bool) (q : Item → Bool) (xs : List Item)
    (h : ∀ i, q i = false → P i.key = false) : view P (xs.filter q) = view P xs := by
  induction xs with
  | nil => rfl
  | cons x xs ih =>
    cases hq : q x with
    | true => rw [List.filter_cons_of_pos hq, view_cons, view_cons, ih]
    | false =>
      rw [List.filter_cons_of_neg (by simp [hq]), view_cons, ih, h x hq]; rfl

/-- A pass whose every step keeps a view of what it has sent on and what it holds back. -/
theorem Pass.run_view (p : Pass) (P : SItem → Bool) (pend : p.σ → List Item) (I : p.σ → Prop)
    (hs : ∀ st x, I st → I (p.step st x).1 ∧
      view P (p.step st x).2 ++ view P (pend (p.step st x).1) = view P (pend st) ++ view P [x])
    (hf : ∀ st, I st → view P (p.fin st) = view P (pend st)) (st : p.σ) (h0 : I st)
    (xs : List Item) : view P (p.runFrom st xs) = view P (pend st) ++ view P xs := by
  induction xs generalizing st with
  | nil => rw [Pass.runFrom_nil, hf st h0]; simp
  | cons x xs ih =>
    obtain ⟨h1, h2⟩ := hs st x h0
    rw [Pass.runFrom_cons, view_append, ih _ h1, ← List.append_assoc, h2, List.append_assoc,
      ← view_append]
    rfl

theorem du_view (P : SItem → Bool) (hP : ∀ k, k.1.kind = .loc → P k = false) (xs : List Item) :
    view P (designatorUniq.run xs) = view P xs := by
  have := Pass.run_view designatorUniq P (fun st : DUState => st.pending)
    (fun st : DUState => (∀ i ∈ st.pending, i.cls.kind = .loc) ∧
      ∀ k, st.toFilter = some (some k) → k < st.pending.length) (by
      intro st x ⟨hst, hlen⟩
      have hloc : x.cls.kind = .loc → ∀ i ∈ st.pending ++ [x], i.cls.kind = .loc := by
        intro hk i hi
        rcases List.mem_append.1 hi with hi | hi
        · exact hst i hi
        · simp at hi; subst hi; exact hk
      by_cases hk : x.cls.kind = .loc
      · simp only [hk, if_true]
        split
        · split
          · exact ⟨⟨hloc hk, by simp⟩, by simp⟩
          · exact ⟨⟨hloc hk, by simp⟩, by simp⟩
        · exact ⟨⟨hloc hk, by intro k h; have := hlen k h; simp; omega⟩, by simp⟩
      · simp only [hk, if_false]
        refine ⟨by simp, ?_⟩
        have h0 : ∀ i ∈ st.pending, P i.key = false := fun i hi => hP i.key (hst i hi)
        rw [view_all_false P st.pending h0]
        split
        · next k hf =>
          have hkl := hlen k hf
          rw [List.eraseIdx_append_of_lt_length hkl, view_append,
            view_all_false P (st.pending.eraseIdx k)
              (fun i hi => h0 i (List.mem_of_mem_eraseIdx hi))]
          simp
        · rw [view_append, view_all_false P st.pending h0]; simp)
    (by
      intro st hst
      exact (view_all_false P st.pending (fun i hi => hP i.key (hst.1 i hi))).symm)
    {} (by simp) xs
  rw [show designatorUniq.run xs = designatorUniq.runFrom {} xs from rfl, this]; rfl

theorem pm_view (P : SItem → Bool) (hP : ∀ k, k.1 = .physMin ∨ k.1 = .physMax → P k = false)
    (xs : List Item) : view P (physicalMerge.run xs) = view P xs := by
  have := Pass.run_view physicalMerge P (fun st : PMState => st.pending) (fun _ => True) (by
      intro st x _
      refine ⟨trivial, ?_⟩
      by_cases hk : x.cls.kind = .main
      · simp only [hk, if_true]
        split
        · rw [view_append, view_filter P notPhys _ (by
            intro i hi
            apply hP
            simp [notPhys] at hi
            rcases Decidable.em (i.cls = .physMin) with h | h
            · exact Or.inl h
            · exact Or.inr (hi.2 h))]
          simp
        · simp
      · simp only [hk, if_false]; simp)
    (fun st _ => rfl) {} trivial xs
  rw [show physicalMerge.run xs = physicalMerge.runFrom {} xs from rfl, this]; rfl

theorem gm_view (P : SItem → Bool) (hP : ∀ k, k.1.kind = .global → P k = false)
    (xs : List Item) : view P (globalMerge.run xs) = view P xs := by
  have := Pass.run_view globalMerge P (fun _ => []) (fun _ => True) (by
      intro st x _
      refine ⟨trivial, ?_⟩
      by_cases hk : x.cls.kind = .global
      · have hx : P x.key = false := hP x.key hk
        simp only [hk, if_true]
        have : ∀ (c : Prop) [Decidable c], view P (if c then [x] else []) = [] := by
          intro c _; split <;> simp [view_cons, hx]
        rw [this]
        simp [view_cons, hx]
      · simp only [hk, if_false]; simp)
    (fun st _ => rfl) globalInit trivial xs
  rw [show globalMerge.run xs = globalMerge.runFrom globalInit xs from rfl, this]; rfl

/-- The tags of a range are local. -/
def RangeTags.Local (t : RangeTags) : Prop := ∀ c ∈ [t.lookup, t.min, t.max], c.kind = .loc

theorem rm_view (P : SItem → Bool) (hP : ∀ k, k.1.kind = .loc → P k = false) (reg : Registry)
    (t : RangeTags) (ht : RangeTags.Local t) (xs : List Item) :
    view P ((rangeMerge reg t).run xs) = view P xs := by
  have hb : ∀ c ∈ [t.lookup, t.min, t.max], ∀ v, P (build reg c v).key = false := by
    intro c hc v
    apply hP
    rw [key_fst, build_cls]
    exact ht c hc
  have hout : ∀ st : RMState, view P (st.out reg t) = view P st.pending := by
    intro st
    unfold RMState.out
    split
    · split
      · rw [view_append, view_filter P (notRange t) _ (by
          intro i hi
          apply hP
          simp [notRange] at hi
          exact hi.1)]
        split
        · simp [view_cons, hb t.lookup (by simp)]
        · split
          · simp [view_cons, hb t.min (by simp), hb t.max (by simp)]
          · simp [view_cons, hb t.lookup (by simp)]
      · rfl
    · rfl
  have hnote : ∀ (st : RMState) x, (st.note t x).pending = st.pending := by
    intro st x
    unfold RMState.note
    split
    · split
      · rfl
      · split
        · split
          · rfl
          · split <;> rfl
        · rfl
    · rfl
  have := Pass.run_view (rangeMerge reg t) P (fun st : RMState => st.pending) (fun _ => True) (by
      intro st x _
      refine ⟨trivial, ?_⟩
      by_cases hk : x.cls.kind = .main
      · simp only [hk, if_true]
        rw [hout, hnote]
      · simp only [hk, if_false]; simp)
    (fun st _ => hout st) {} trivial xs
  rw [show (rangeMerge reg t).run xs = (rangeMerge reg t).runFrom {} xs from rfl, this]; rfl

theorem local_str : RangeTags.Local strTags := by unfold RangeTags.Local; decide
theorem local_desig : RangeTags.Local desigTags := by unfold RangeTags.Local; decide
theorem local_usage : RangeTags.Local usageTags := by unfold RangeTags.Local; decide

theorem up_view (P : SItem → Bool) (hP : ∀ k, k.1.kind = .loc ∨ k.1 = .usagePage → P k = false)
    (reg : Registry) (xs : List Item) : view P ((usagePage reg).run xs) = view P xs := by
  have := Pass.run_view (usagePage reg) P (fun _ => []) (fun _ => True) (by
      intro st x _
      refine ⟨trivial, ?_⟩
      by_cases hu : usageLike x.cls = true
      · have hl : x.cls.kind = .loc := by
          cases hx : x.cls <;> rw [hx] at hu <;> simp [usageLike] at hu <;> rfl
        have h1 : P x.key = false := hP _ (Or.inl hl)
        have h2 : ∀ v, P (build reg x.cls v).key = false := fun v =>
          hP _ (Or.inl (by rw [key_fst, build_cls]; exact hl))
        have h3 : ∀ v, P (build reg .usagePage v).key = false := fun v =>
          hP _ (Or.inr (by rw [key_fst, build_cls]))
        simp only [hu, if_true]
        have : ∀ (c : Prop) [Decidable c] v, view P (if c then [] else [build reg .usagePage v]) = [] := by
          intro c _ v; split <;> simp [view_cons, h3]
        rw [view_append, this]
        simp [view_cons, h1, h2]
      · simp only [hu, if_false, Bool.false_eq_true]
        split <;> simp)
    (fun st _ => rfl) none trivial xs
  rw [show (usagePage reg).run xs = (usagePage reg).runFrom none xs from rfl, this]; rfl

/-- Everything `MainMerge` holds back. -/
def _root_.Hrdc.Optimizer.MMState.held (st : MMState) : List Item := st.before ++ st.mains ++ st.after

theorem mm_flush_view (P : SItem → Bool)
    (hP : ∀ k, k.1.isData = true ∨ k.1 = .reportCount → P k = false) (reg : Registry) (st : MMState)
    (hm : ∀ i ∈ st.mains, i.cls.isData = true) :
    (∀ i ∈ (st.flush reg).1.mains, i.cls.isData = true) ∧
    view P (st.flush reg).2 ++ view P (MMState.held (st.flush reg).1) = view P (MMState.held st) := by
  have hmv : view P st.mains = [] := view_all_false P _ (fun i hi => hP _ (Or.inl (hm i hi)))
  refine ⟨by simp [MMState.flush], ?_⟩
  simp only [MMState.flush, MMState.held, view_append, List.append_nil]
  rw [view_filter P notCount _ (by
    intro i hi
    apply hP
    right
    by_cases h : i.cls = .reportCount
    · exact h
    · rw [(notCount_iff i).2 h] at hi; exact absurd hi (by decide)), hmv]
  cases hms : st.mains with
  | nil => simp
  | cons m ms =>
    have h1 : P m.key = false := hP _ (Or.inl (hm m (by simp [hms])))
    have h2 : P (build reg .reportCount (.int st.beforeCount)).key = false :=
      hP _ (Or.inr (by rw [key_fst, build_cls]))
    simp [view_cons, h1, h2]

theorem mm_view (P : SItem → Bool)
    (hP : ∀ k, k.1.isData = true ∨ k.1 = .reportCount → P k = false) (reg : Registry)
    (xs : List Item) : view P ((mainMerge reg).run xs) = view P xs := by
  have := Pass.run_view (mainMerge reg) P MMState.held
    (fun st : MMState => ∀ i ∈ st.mains, i.cls.isData = true) (by
      intro st x hst
      have hpush : view P (MMState.held (MMState.push st x)) = view P (MMState.held st) ++ view P [x] := by
        simp [MMState.held, MMState.push]
      by_cases hd : x.cls.isData = true
      · obtain ⟨q, o, hqo, hst'⟩ := mm_step_data reg st x hd
        have hxv : view P [x] = [] := view_all_false P _ (by
          intro i hi; simp at hi; subst hi; exact hP _ (Or.inl hd))
        have hq : (∀ i ∈ q.mains, i.cls.isData = true) ∧
            view P o ++ view P (MMState.held q) = view P (MMState.held st) := by
          rcases hqo with ⟨rfl, rfl, -⟩ | ⟨rfl, rfl, -⟩
          · exact ⟨hst, by simp⟩
          · exact mm_flush_view P hP reg st hst
        have ht : (∀ i ∈ (MMState.take q x).mains, i.cls.isData = true) ∧
            view P (MMState.held (MMState.take q x)) = view P (MMState.held q) := by
          constructor
          · intro i hi
            simp only [MMState.take, List.mem_append, List.mem_singleton] at hi
            rcases hi with hi | rfl
            · exact hq.1 i hi
            · exact hd
          · have hmv : view P q.mains = [] :=
              view_all_false P _ (fun i hi => hP _ (Or.inl (hq.1 i hi)))
            simp [MMState.take, MMState.held, hmv, hxv]
        rw [hst', hxv, List.append_nil, ← hq.2, ← ht.2]
        split
        · have := mm_flush_view P hP reg _ ht.1
          refine ⟨this.1, ?_⟩
          rw [view_append, List.append_assoc, this.2]
        · exact ⟨ht.1, rfl⟩
      · cases hk : x.cls.kind with
        | loc => simp only [hk]; exact ⟨hst, by rw [← hpush]; rfl⟩
        | global =>
          simp only [hk]
          split
          · have := mm_flush_view P hP reg { MMState.push st x with
              props := fun c => if c = x.cls then x.ival else st.props c } hst
            refine ⟨this.1, ?_⟩
            rw [← hpush]; exact this.2
          · split
            · exact ⟨hst, by rw [← hpush]; rfl⟩
            · exact ⟨hst, by rw [← hpush]; rfl⟩
        | main =>
          simp only [hk, hd, if_false, Bool.false_eq_true]
          have := mm_flush_view P hP reg (MMState.push st x) hst
          refine ⟨this.1, ?_⟩
          rw [← hpush]; exact this.2)
    (fun st _ => rfl) {} (by simp) xs
  rw [show (mainMerge reg).run xs = (mainMerge reg).runFrom {} xs from rfl, this]; rfl

end Hrdc
