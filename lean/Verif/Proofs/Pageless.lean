import Verif.Props.OptExact
import Verif.Props.Pages
import Verif.Proofs.OnePage
import Verif.Spec.Pageless
/-!
# The optimizer and streams without their UsagePage items
-/
namespace Hrdc
open Spec Optimizer

/-- The items but UsagePage. -/
def unpage (xs : List Item) : List Item := xs.filter (fun i => i.cls != .usagePage)

theorem keys_unpage (xs : List Item) : keys (unpage xs) = unpaged (keys xs) := by
  unfold unpage unpaged keys
  rw [List.filter_map]
  rfl

theorem unpage_append (xs ys : List Item) : unpage (xs ++ ys) = unpage xs ++ unpage ys := by simp [unpage]

theorem unpage_keep {x : Item} (h : x.cls ≠ .usagePage) (xs : List Item) : unpage (x :: xs) = x :: unpage xs := by
  simp [unpage, h]

theorem unpage_drop {x : Item} (h : x.cls = .usagePage) (xs : List Item) : unpage (x :: xs) = unpage xs := by
  simp [unpage, h]

@[simp] theorem unpage_nil : unpage [] = [] := rfl

theorem unpage_self {xs : List Item} (h : ∀ i ∈ xs, i.cls ≠ .usagePage) : unpage xs = xs := by
  unfold unpage
  rw [List.filter_eq_self]
  intro i hi
  simpa using h i hi

theorem mem_unpage {i : Item} {xs : List Item} : i ∈ unpage xs ↔ i ∈ xs ∧ i.cls ≠ .usagePage := by
  simp [unpage]

/-- Passes that treat a stream without UsagePage items as they treat the stream. -/
theorem run_unpage (p : Pass) (f : p.σ → p.σ) (Inv : p.σ → Prop) (h0 : f p.init = p.init) (hi : Inv p.init)
    (hs : ∀ st x, Inv st → Inv (p.step st x).1)
    (hk : ∀ st x, Inv st → x.cls ≠ .usagePage → p.step (f st) x = (f (p.step st x).1, unpage (p.step st x).2))
    (hd : ∀ st x, Inv st → x.cls = .usagePage → f (p.step st x).1 = f st ∧ unpage (p.step st x).2 = [])
    (hf : ∀ st, Inv st → p.fin (f st) = unpage (p.fin st)) (xs : List Item) :
    p.run (unpage xs) = unpage (p.run xs) := by
  unfold Pass.run
  rw [← h0]
  conv => rhs; rw [h0]
  generalize p.init = st at hi
  clear h0
  induction xs generalizing st with
  | nil => exact hf st hi
  | cons x xs ih =>
    rw [Pass.runFrom_cons, unpage_append]
    by_cases hx : x.cls = .usagePage
    · rw [unpage_drop hx, (hd st x hi hx).2, List.nil_append, ← ih _ (hs st x hi), (hd st x hi hx).1]
    · rw [unpage_keep hx, Pass.runFrom_cons, hk st x hi hx, ih _ (hs st x hi)]

theorem unpage_gm (xs : List Item) : globalMerge.run (unpage xs) = unpage (globalMerge.run xs) := by
  refine run_unpage globalMerge (fun st c => if c = .usagePage then none else st c) (fun _ => True) ?_ trivial
    (fun _ _ _ => trivial) ?_ ?_ ?_ xs
  · funext c; cases c <;> rfl
  · intro st x _ hx
    simp only [if_neg hx]
    split
    · refine Prod.ext ?_ ?_
      · funext c
        by_cases h1 : c = x.cls
        · subst h1; simp [hx]
        · simp [h1]
      · have : ∀ (c : Prop) [Decidable c], (if c then [x] else []) = unpage (if c then [x] else []) := by
          intro c _
          split
          · rw [unpage_keep hx, unpage_nil]
          · rfl
        exact this _
    · rw [unpage_keep hx, unpage_nil]
  · intro st x _ hx
    have hk : x.cls.kind = .global := by rw [hx]; rfl
    simp only [if_pos hk]
    refine ⟨?_, ?_⟩
    · funext c
      by_cases h1 : c = .usagePage
      · simp [h1]
      · simp [hx, h1]
    · have : ∀ (c : Prop) [Decidable c], unpage (if c then [x] else []) = [] := by
        intro c _
        split
        · rw [unpage_drop hx, unpage_nil]
        · rfl
      exact this _
  · intro st _; rfl

theorem filter_unpage (p : Item → Bool) (xs : List Item) : (unpage xs).filter p = unpage (xs.filter p) := by
  simp [unpage, List.filter_filter, Bool.and_comm]

theorem unpage_pm (xs : List Item) : physicalMerge.run (unpage xs) = unpage (physicalMerge.run xs) := by
  refine run_unpage physicalMerge (fun st => { st with pending := unpage st.pending }) (fun _ => True) rfl trivial
    (fun _ _ _ => trivial) ?_ ?_ ?_ xs
  · intro st x _ hx
    simp only
    split
    · simp only [filter_unpage]
      split <;> simp [unpage_append, unpage_keep hx]
    · simp [unpage_append, unpage_keep hx]
  · intro st x _ hx
    have hk : ¬ x.cls.kind = .main := by rw [hx]; decide
    simp only [if_neg hk]
    simp [unpage_append, unpage_drop hx, hx, rangeTag]
  · intro st _; rfl

theorem rm_note_pending (t : RangeTags) (st : RMState) (i : Item) (l : List Item) :
    RMState.note t { st with pending := l } i = { st.note t i with pending := l } := by
  unfold RMState.note
  simp only
  split
  · split
    · rfl
    · split
      · split
        · rfl
        · split <;> rfl
      · rfl
  · rfl

theorem rm_note_keeps (t : RangeTags) (st : RMState) (i : Item) : (st.note t i).pending = st.pending := by
  unfold RMState.note
  split
  · split
    · rfl
    · split
      · split
        · rfl
        · split <;> rfl
      · rfl
  · rfl

theorem unpage_rm (reg : Registry) (t : RangeTags) (ht : t.lookup ≠ .usagePage ∧ t.min ≠ .usagePage ∧ t.max ≠ .usagePage)
    (xs : List Item) : (rangeMerge reg t).run (unpage xs) = unpage ((rangeMerge reg t).run xs) := by
  have hb : ∀ (c : Cls) (v : PyVal), c ≠ .usagePage → ∀ l, unpage (build reg c v :: l) = build reg c v :: unpage l :=
    fun c v hc l => unpage_keep (by rw [build_cls]; exact hc) l
  have hout : ∀ st : RMState, RMState.out reg t { st with pending := unpage st.pending } = unpage (st.out reg t) := by
    intro st
    unfold RMState.out
    simp only
    split
    · split
      · rw [filter_unpage, unpage_append]
        congr 1
        split
        · rw [hb _ _ ht.1, unpage_nil]
        · split
          · rw [hb _ _ ht.2.1, hb _ _ ht.2.2, unpage_nil]
          · rw [hb _ _ ht.1, hb _ _ ht.1, unpage_nil]
      · rfl
    · rfl
  refine run_unpage (rangeMerge reg t) (fun st => { st with pending := unpage st.pending }) (fun _ => True) rfl trivial
    (fun _ _ _ => trivial) ?_ ?_ ?_ xs
  · intro st x _ hx
    simp only
    split
    · simp only [unpage_keep hx, unpage_nil]
      congr 1
      have := hout (st.note t x)
      rw [rm_note_keeps] at this
      rw [← this, ← rm_note_pending]
    · simp only [rm_note_pending, unpage_append, unpage_keep hx, unpage_nil]
  · intro st x _ hx
    have hk : ¬ x.cls.kind = .main := by rw [hx]; decide
    have hn : st.note t x = st := by simp [RMState.note, hx, Cls.kind]
    simp only [if_neg hk, hn]
    simp [unpage_append, unpage_drop hx]
  · intro st _; exact hout st

/-- The data items held back are data items. -/
def Optimizer.MMState.Held (st : MMState) : Prop := ∀ i ∈ st.mains, i.cls.isData = true

/-- The state without UsagePage items. -/
def Optimizer.MMState.unpage (st : MMState) : MMState := { st with before := Hrdc.unpage st.before, after := Hrdc.unpage st.after }

theorem data_not_page {c : Cls} (h : c.isData = true) : c ≠ .usagePage := by rintro rfl; simp [Cls.isData] at h

theorem flush_unpage (reg : Registry) (st : MMState) (h : st.Held) :
    st.unpage.flush reg = ((st.flush reg).1.unpage, Hrdc.unpage (st.flush reg).2) := by
  unfold MMState.flush MMState.unpage
  simp only [filter_unpage, unpage_append]
  refine Prod.ext rfl ?_
  simp only
  congr 1
  cases hm : st.mains with
  | nil => rfl
  | cons m ms =>
    simp only
    rw [unpage_keep (by rw [build_cls]; decide), unpage_keep (data_not_page (h m (by simp [hm]))), unpage_nil]

/-- First half of the step of `mainMerge` for a data item. -/
def mmFirst (reg : Registry) (st : MMState) (x : Item) : MMState × List Item :=
  match st.mains with
  | m :: _ => if x.pyEq m then (st, []) else st.flush reg
  | [] => (st, [])

/-- The data item joins those held back. -/
def mmJoin (s : MMState) (x : Item) : MMState :=
  { s with
    before := s.before ++ s.after
    beforeCount := s.beforeCount + s.afterCount
    after := []
    mains := s.mains ++ [x] }

/-- Second half. -/
def mmSecond (reg : Registry) (q : MMState × List Item) (x : Item) : MMState × List Item :=
  if q.1.afterCount ≠ 1 then (((mmJoin q.1 x).flush reg).1, q.2 ++ ((mmJoin q.1 x).flush reg).2) else (mmJoin q.1 x, q.2)

theorem mm_halves (reg : Registry) (st : MMState) (x : Item) (hx : x.cls.isData = true) :
    (mainMerge reg).step st x = mmSecond reg (mmFirst reg st x) x := by
  have hk : x.cls.kind = .main := by cases hc : x.cls <;> rw [hc] at hx <;> simp [Cls.isData] at hx <;> rfl
  simp only
  rw [hk]
  simp only [if_pos hx]
  unfold mmFirst
  cases st.mains <;> rfl

theorem mmFirst_held (reg : Registry) (st : MMState) (x : Item) (h : st.Held) : (mmFirst reg st x).1.Held := by
  unfold mmFirst
  split
  · split
    · exact h
    · simp [MMState.flush, MMState.Held]
  · exact h

theorem mmJoin_held (s : MMState) (x : Item) (hx : x.cls.isData = true) (h : s.Held) : (mmJoin s x).Held := by
  intro i hi
  simp only [mmJoin, List.mem_append, List.mem_singleton] at hi
  rcases hi with hi | rfl
  · exact h i hi
  · exact hx

theorem mmFirst_unpage (reg : Registry) (st : MMState) (x : Item) (h : st.Held) :
    mmFirst reg st.unpage x = ((mmFirst reg st x).1.unpage, unpage (mmFirst reg st x).2) := by
  unfold mmFirst
  have : st.unpage.mains = st.mains := rfl
  rw [this]
  split
  · split
    · rfl
    · exact flush_unpage reg st h
  · rfl

theorem mmJoin_unpage (s : MMState) (x : Item) : mmJoin s.unpage x = (mmJoin s x).unpage := by
  simp [mmJoin, MMState.unpage, unpage_append]

theorem mmSecond_unpage (reg : Registry) (q : MMState × List Item) (x : Item) (hx : x.cls.isData = true) (h : q.1.Held) :
    mmSecond reg (q.1.unpage, unpage q.2) x = ((mmSecond reg q x).1.unpage, unpage (mmSecond reg q x).2) := by
  unfold mmSecond
  have : q.1.unpage.afterCount = q.1.afterCount := rfl
  simp only [this, mmJoin_unpage, flush_unpage reg _ (mmJoin_held q.1 x hx h)]
  split
  · simp [unpage_append]
  · rfl

theorem unpage_mm (reg : Registry) (xs : List Item) : (mainMerge reg).run (unpage xs) = unpage ((mainMerge reg).run xs) := by
  refine run_unpage (mainMerge reg) MMState.unpage MMState.Held rfl (by simp [MMState.Held]) ?_ ?_ ?_ ?_ xs
  · intro st x h
    have hf : ∀ s : MMState, (s.flush reg).1.Held := by intro s; simp [MMState.flush, MMState.Held]
    by_cases hd : x.cls.isData = true
    · rw [mm_halves reg st x hd]
      unfold mmSecond
      split
      · exact hf _
      · exact mmJoin_held _ x hd (mmFirst_held reg st x h)
    · simp only [hd]
      split
      · exact h
      · split
        · exact hf _
        · split <;> exact h
      · exact hf _
  · intro st x h hx
    by_cases hd : x.cls.isData = true
    · rw [mm_halves reg _ x hd, mm_halves reg _ x hd, mmFirst_unpage reg st x h]
      exact mmSecond_unpage reg _ x hd (mmFirst_held reg st x h)
    · have hp1 : unpage [x] = [x] := by rw [unpage_keep hx, unpage_nil]
      have hpush : ∀ s : MMState, ({ s.unpage with after := s.unpage.after ++ [x] } : MMState)
          = MMState.unpage { s with after := s.after ++ [x] } := by
        intro s; simp [MMState.unpage, unpage_append, hp1]
      simp only [hd]
      split
      · rw [hpush]; simp
      · have hsame : st.unpage.props = st.props := rfl
        simp only [hsame]
        split
        · have := flush_unpage reg { st with
            after := st.after ++ [x]
            props := fun c => if c = x.cls then x.ival else st.props c } h
          rw [← this]
          simp [MMState.unpage, unpage_append, hp1]
        · split
          · simp [MMState.unpage, unpage_append, hp1]
          · simp [MMState.unpage, unpage_append, hp1]
      · rw [hpush]
        exact flush_unpage reg { st with after := st.after ++ [x] } h
  · intro st x h hx
    have hk : x.cls.kind = .global := by rw [hx]; rfl
    simp [hx, Cls.kind, watched, MMState.unpage, unpage_append, unpage_drop]
  · intro st h
    show unpage st.before ++ st.mains ++ unpage st.after = unpage (st.before ++ st.mains ++ st.after)
    rw [unpage_append, unpage_append, unpage_self (xs := st.mains) (fun i hi => data_not_page (h i hi))]

/-! ## Hosts -/

/-- Usages as written, for hosts that complete them where they stand. -/
theorem split_unpaged (xs : List SItem) (hn : ∀ k ∈ xs, usageLike k.1 = true → 0 ≤ k.2)
    (hp : ∀ k ∈ xs, k.1 ≠ .push ∧ k.1 ≠ .pop) :
    ∀ (a b : Host) (page : Int) (d : Decl), SplitHosts a b 0 d →
      (splitKept .atUsage a page d xs).flatMap (fun p => (p.1.withUsages p.2).events) = eventsFrom .atUsage b (unpaged xs) := by
  induction xs with
  | nil => intros; rfl
  | cons x xs ih =>
    intro a b page d H
    have ih := ih (fun k hk => hn k (by simp [hk])) (fun k hk => hp k (by simp [hk]))
    have hx := hn x (by simp)
    have hpx := hp x (by simp)
    have hsp : ∀ v : Int, 0 ≤ v → PageRule.atUsage.declare (v / 65536) (v % 65536) = v := by
      intro v hv; simp only [PageRule.declare, full]; split <;> omega
    have h0 : ∀ v : Int, PageRule.atUsage.declare 0 v = v := by
      intro v; simp only [PageRule.declare, full]; split <;> omega
    by_cases hup : x.1 = .usagePage
    · have hu : unpaged (x :: xs) = unpaged xs := by simp [unpaged, hup]
      rw [hu, splitKept]
      simp only [hup, reduceCtorEq, if_false, if_true]
      have e : a.step .atUsage x = { a with g := fun c => if c = .usagePage then x.2 else a.g c } := by
        simp [Host.step, hup]
      rw [e]
      exact ih _ b _ d ⟨fun c hc => by simp only [if_neg hc]; exact H.g c hc, H.page, H.usages, H.strings, H.desigs⟩
    · have hu : unpaged (x :: xs) = x :: unpaged xs := by simp [unpaged, hup]
      rw [hu, eventsFrom_cons, splitKept]
      by_cases hul : usageLike x.1 = true
      · have hv := hx hul
        have hnm := usageLike_kind hul
        simp only [if_neg hnm, List.nil_append]
        obtain ⟨c, v⟩ := x
        simp only at hv hul hsp h0
        cases c <;> simp [usageLike] at hul
        all_goals
          simp only [reduceCtorEq, if_false, if_true]
          refine ih _ _ _ _ ?_
          constructor
          · exact fun c hc => H.g c hc
          · exact H.page
          · simp only [Host.step, H.usages, H.page, h0, hsp v hv]
          · exact H.strings
          · exact H.desigs
      · have hul' : usageLike x.1 = false := by simpa using hul
        have H' := splitHosts_other .atUsage H x hul' hpx.1 hpx.2
        rw [if_neg hup] at H'
        have n1 : x.1 ≠ .usage := by rintro e; rw [e] at hul; simp [usageLike] at hul
        have n2 : x.1 ≠ .usageMin := by rintro e; rw [e] at hul; simp [usageLike] at hul
        have n3 : x.1 ≠ .usageMax := by rintro e; rw [e] at hul; simp [usageLike] at hul
        rw [if_neg n1, if_neg n2, if_neg n3, if_neg hup]
        by_cases hm : x.1.kind = .main
        · rw [if_pos hm, if_pos hm, List.flatMap_cons]
          rw [if_pos hm] at H'
          rw [ih _ _ _ _ H']
          congr 1
          symm
          apply events_pageless (a := b.main .atUsage x)
          · rfl
          · rfl
          · intro c hc; exact H.g c hc
          · simp only [Host.main, MainRec.withUsages, H.usages]; rfl
          · simp only [Host.main, MainRec.withUsages, H.strings]
          · simp only [Host.main, MainRec.withUsages, H.desigs]
        · rw [if_neg hm, if_neg hm, List.nil_append]
          rw [if_neg hm] at H'
          exact ih _ _ _ _ H'

theorem closed_unpaged (xs : List SItem) (hp : ∀ k ∈ xs, k.1 ≠ .push ∧ k.1 ≠ .pop) : ∀ (a b : Host),
    a.usages.closed = b.usages.closed → a.usages.lo.isSome = b.usages.lo.isSome → a.usages.hi.isSome = b.usages.hi.isSome →
    a.strings = b.strings → a.desigs = b.desigs →
    rangesClosed .atUsage a xs = rangesClosed .atUsage b (unpaged xs) := by
  induction xs with
  | nil => intros; rfl
  | cons x xs ih =>
    rintro ⟨g, st, ⟨ur, ul, uh⟩, ss, ds⟩ ⟨g', st', ⟨ur', ul', uh'⟩, ss', ds'⟩ h1 h2 h3 h4 h5
    simp only at h1 h2 h3 h4 h5
    subst h4 h5
    have ih := ih (fun k hk => hp k (by simp [hk]))
    have hpx := hp x (by simp)
    by_cases hup : x.1 = .usagePage
    · have hu : unpaged (x :: xs) = unpaged xs := by simp [unpaged, hup]
      rw [hu, rangesClosed]
      have : x.1.isData = false := by rw [hup]; rfl
      rw [this, Bool.not_false, Bool.true_or, Bool.true_and]
      refine ih _ _ ?_ ?_ ?_ ?_ ?_ <;> simp [Host.step, hup, h1, h2, h3]
    · have hu : unpaged (x :: xs) = x :: unpaged xs := by simp [unpaged, hup]
      rw [hu, rangesClosed, rangesClosed]
      congr 1
      · simp only [h1]
      · obtain ⟨c, v⟩ := x
        apply ih <;> cases c <;> simp only [Host.step] <;> first
          | exact h1 | exact h2 | exact h3 | rfl | (exact absurd rfl hpx.1) | (exact absurd rfl hpx.2)
          | (cases ul <;> cases ul' <;> cases uh <;> cases uh' <;> simp_all [Decl.setLo, Decl.setHi, Decl.closed])

end Hrdc
