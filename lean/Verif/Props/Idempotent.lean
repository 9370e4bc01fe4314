import Verif.Props.Passes5
/-!
# C68: running a pass again

Each pass is run on its own output.  Equality is of items, with their names, except for usage
pages, where it is of tags and numbers.
-/
namespace Hrdc
open Spec

theorem Pass.runFrom_append (p : Pass) (st : p.σ) (xs ys : List Item) :
    p.runFrom st (xs ++ ys) = (p.feed st xs).2 ++ p.runFrom (p.feed st xs).1 ys := by
  rw [Pass.runFrom_eq, Pass.runFrom_eq, Pass.feed_append]; simp [List.append_assoc]

theorem Pass.feed_one (p : Pass) (st : p.σ) (x : Item) : p.feed st [x] = p.step st x := by
  simp [Pass.feed]

theorem Pass.feed_two (p : Pass) (st : p.σ) (x y : Item) :
    p.feed st [x, y] = ((p.step (p.step st x).1 y).1, (p.step st x).2 ++ (p.step (p.step st x).1 y).2) := by
  simp [Pass.feed]

/-! ## Designator indices -/

theorem du_loc {x : Item} (hx : x.cls.kind = .loc) (st : Optimizer.DUState) :
    Optimizer.designatorUniq.step st x = (⟨st.pending ++ [x], if x.cls = .desigIndex then
      if st.toFilter = none ∧ x.ival = 0 then some (some st.pending.length) else some none
      else st.toFilter⟩, []) := by
  show (if x.cls.kind = .loc then _ else _) = _
  rw [if_pos hx]
  by_cases hd : x.cls = .desigIndex
  · simp only [if_pos hd]; split <;> rfl
  · simp only [if_neg hd]

theorem du_end {x : Item} (hx : x.cls.kind ≠ .loc) (st : Optimizer.DUState) :
    Optimizer.designatorUniq.step st x = ({}, match st.toFilter with
        | some (some k) => (st.pending ++ [x]).eraseIdx k
        | _ => st.pending ++ [x]) := by
  show (if x.cls.kind = .loc then _ else _) = _
  rw [if_neg hx]
  rcases st.toFilter with _ | _ | _ <;> rfl

/-- A run of local items without designator index. -/
def NoDesig (p : List Item) : Prop := ∀ i ∈ p, i.cls.kind = .loc ∧ i.cls ≠ .desigIndex

theorem du_feed_quiet (st : Optimizer.DUState) (p : List Item) (h : NoDesig p) :
    Optimizer.designatorUniq.feed st p = (⟨st.pending ++ p, st.toFilter⟩, []) := by
  induction p generalizing st with
  | nil => simp [Pass.feed]
  | cons x p ih =>
    rw [Pass.feed, du_loc (h x (by simp)).1, ih _ (fun i hi => h i (by simp [hi])),
      if_neg (h x (by simp)).2]
    simp

/-- What is known of the state while local items are collected. -/
structure DUInv (st : Optimizer.DUState) : Prop where
  fed : Optimizer.designatorUniq.feed {} st.pending = (st, [])
  none : st.toFilter = none → NoDesig st.pending
  erase : ∀ k, st.toFilter = some (some k) → k < st.pending.length ∧ NoDesig (st.pending.eraseIdx k)

theorem du_idem (st : Optimizer.DUState) (h : DUInv st) (xs : List Item) :
    Optimizer.designatorUniq.run (Optimizer.designatorUniq.runFrom st xs)
      = Optimizer.designatorUniq.runFrom st xs := by
  induction xs generalizing st with
  | nil => rfl
  | cons x xs ih =>
    rw [Pass.runFrom_cons]
    by_cases hx : x.cls.kind = .loc
    · rw [du_loc hx]
      refine ih _ ⟨?_, ?_, ?_⟩
      · rw [Pass.feed_append, h.fed, Pass.feed_one, du_loc hx]; rfl
      · intro e
        simp only at e
        split at e
        · split at e <;> simp at e
        · next hd =>
          intro i hi
          simp at hi
          rcases hi with hi | rfl
          · exact h.none e i hi
          · exact ⟨hx, hd⟩
      · intro k e
        simp only at e
        split at e
        · next hd =>
          split at e
          · next hc =>
            simp at e; subst e
            refine ⟨by simp, ?_⟩
            rw [List.eraseIdx_append_of_length_le (Nat.le_refl _)]
            simpa using h.none hc.1
          · simp at e
        · next hd =>
          obtain ⟨hk, hn⟩ := h.erase k e
          refine ⟨by simp; omega, ?_⟩
          rw [List.eraseIdx_append_of_lt_length hk]
          intro i hi
          simp at hi
          rcases hi with hi | rfl
          · exact hn i hi
          · exact ⟨hx, hd⟩
    · rw [du_end hx]
      have hi := ih {} ⟨rfl, by intro _ i hi; simp at hi, by intro k e; simp at e⟩
      have key : ∀ q : List Item, Optimizer.designatorUniq.feed {} q = (⟨q, .none⟩, []) ∨
          Optimizer.designatorUniq.feed {} q = (⟨q, some .none⟩, []) →
          Optimizer.designatorUniq.run (q ++ [x] ++ Optimizer.designatorUniq.runFrom {} xs)
            = q ++ [x] ++ Optimizer.designatorUniq.runFrom {} xs := by
        intro q hq
        show Optimizer.designatorUniq.runFrom {} _ = _
        rw [Pass.runFrom_append, Pass.feed_append]
        rcases hq with hq | hq <;> rw [hq, Pass.feed_one, du_end hx] <;> simp only [List.nil_append] <;>
          congr 1
      have hst : st = ⟨st.pending, st.toFilter⟩ := rfl
      cases ht : st.toFilter with
      | none =>
        refine key _ (Or.inl ?_)
        rw [h.fed]; rw [hst, ht]
      | some o =>
        cases o with
        | none =>
          refine key _ (Or.inr ?_)
          rw [h.fed]; rw [hst, ht]
        | some k =>
          obtain ⟨hk, hn⟩ := h.erase k ht
          simp only
          rw [List.eraseIdx_append_of_lt_length hk]
          refine key _ (Or.inl ?_)
          rw [du_feed_quiet _ _ hn]
          rfl

/-- C68, designators.  Removing `DesignatorIndex(0)` a second time removes nothing, for every stream. -/
theorem C68_designator_uniq (xs : List Item) :
    Optimizer.designatorUniq.run (Optimizer.designatorUniq.run xs) = Optimizer.designatorUniq.run xs :=
  du_idem {} ⟨rfl, by intro _ i hi; simp at hi, by intro k e; simp at e⟩ xs

/-! ## Physical bounds -/

theorem pm_main {x : Item} (hx : x.cls.kind = .main) (st : Optimizer.PMState) :
    Optimizer.physicalMerge.step st x = ({}, (if st.changed .physMin = st.changed .logMin ∧
        st.changed .physMax = st.changed .logMax then
          st.pending.filter Optimizer.notPhys
        else st.pending) ++ [x]) := by
  show (if x.cls.kind = .main then _ else _) = _
  rw [if_pos hx]

theorem pm_other {x : Item} (hx : x.cls.kind ≠ .main) (st : Optimizer.PMState) :
    Optimizer.physicalMerge.step st x = (⟨if x.cls.kind = .global ∧ Optimizer.rangeTag x.cls then
            fun c => if c = x.cls then x.ival else st.changed c
          else st.changed, st.pending ++ [x]⟩, []) := by
  show (if x.cls.kind = .main then _ else _) = _
  rw [if_neg hx]

theorem pm_feed (p : List Item) (h : ∀ i ∈ p, i.cls.kind ≠ .main) (st : Optimizer.PMState) :
    (Optimizer.physicalMerge.feed st p).2 = [] ∧
    (Optimizer.physicalMerge.feed st p).1.pending = st.pending ++ p := by
  induction p generalizing st with
  | nil => simp [Pass.feed]
  | cons x p ih =>
    rw [Pass.feed, pm_other (h x (by simp))]
    have := ih (fun i hi => h i (by simp [hi]))
    simp [(this _).1, (this _).2]

theorem pm_idem (st : Optimizer.PMState) (h : ∀ i ∈ st.pending, i.cls.kind ≠ .main)
    (hf : Optimizer.physicalMerge.feed {} st.pending = (st, [])) (xs : List Item) :
    Optimizer.physicalMerge.run (Optimizer.physicalMerge.runFrom st xs)
      = Optimizer.physicalMerge.runFrom st xs := by
  induction xs generalizing st with
  | nil =>
    show Optimizer.physicalMerge.runFrom {} st.pending = st.pending
    rw [Pass.runFrom_eq, hf]; rfl
  | cons x xs ih =>
    rw [Pass.runFrom_cons]
    by_cases hx : x.cls.kind = .main
    · rw [pm_main hx]
      have hi := ih {} (by simp) rfl
      show Optimizer.physicalMerge.runFrom {} _ = _
      rw [Pass.runFrom_append, Pass.feed_append, Pass.feed_one, pm_main hx]
      have h0 : Optimizer.physicalMerge.runFrom {} (Optimizer.physicalMerge.runFrom {} xs)
        = Optimizer.physicalMerge.runFrom {} xs := hi
      rw [h0]
      congr 1
      by_cases hc : st.changed .physMin = st.changed .logMin ∧ st.changed .physMax = st.changed .logMax
      · rw [if_pos hc]
        obtain ⟨e1, e2⟩ := pm_feed (st.pending.filter Optimizer.notPhys)
          (fun i hi => h i (List.mem_filter.1 hi).1) {}
        rw [e1, e2]
        simp
      · rw [if_neg hc, hf, if_neg hc]; rfl
    · rw [pm_other hx]
      refine ih _ ?_ ?_
      · intro i hi
        simp at hi
        rcases hi with hi | rfl
        · exact h i hi
        · exact hx
      · rw [Pass.feed_append, hf, Pass.feed_one, pm_other hx]; rfl

/-- C68, physical bounds.  Removing physical bounds a second time removes nothing, for every stream. -/
theorem C68_physical_merge (xs : List Item) :
    Optimizer.physicalMerge.run (Optimizer.physicalMerge.run xs) = Optimizer.physicalMerge.run xs :=
  pm_idem {} (by simp) rfl xs

/-! ## Ranges -/

theorem build_cases (reg : Registry) (c : Cls) (v : PyVal) (hc : c.kind = .loc) :
    Optimizer.build reg c v = ⟨c, v⟩ ∨
    (Optimizer.usageLike c = true ∧ Optimizer.build reg c v = ⟨c, .usage (Usage.lookup reg v)⟩) := by
  unfold Optimizer.build Item.new
  cases c <;> simp [Cls.kind] at hc <;> simp [Item.baseInit, Optimizer.usageLike] <;> (split <;> simp_all) <;>
    (next h => split at h <;> simp_all)

theorem build_again (reg : Registry) (c : Cls) (v : PyVal) (hc : c.kind = .loc) :
    Optimizer.build reg c (Optimizer.build reg c v).val = Optimizer.build reg c v := by
  rcases build_cases reg c v hc with h | ⟨hu, h⟩
  · rw [h]; simp only [h]
  · rw [h]
    simp only
    rcases build_cases reg c (.usage (Usage.lookup reg v)) hc with h2 | ⟨-, h2⟩ <;> rw [h2] <;> rfl

theorem build_truthy (reg : Registry) (c : Cls) (v : PyVal) (hc : c.kind = .loc) (h : v.truthy = true) :
    (Optimizer.build reg c v).val.truthy = true := by
  rcases build_cases reg c v hc with h1 | ⟨-, h1⟩ <;> rw [h1]
  · exact h
  · rfl

theorem build_toInt (reg : Registry) (c : Cls) (v : PyVal) (hc : c.kind = .loc) :
    (Optimizer.build reg c v).val.toInt = v.toInt :=
  build_ival reg c v (by intro e; rw [e] at hc; simp [Cls.kind] at hc)

/-- The three families of tags. -/
structure TagsOk (t : Optimizer.RangeTags) : Prop where
  l : t.lookup.kind = .loc
  lo : t.min.kind = .loc
  hi : t.max.kind = .loc
  n1 : t.lookup ≠ t.min
  n2 : t.lookup ≠ t.max

section
open Optimizer
variable {reg : Registry} {t : RangeTags}

theorem rm_main {x : Item} (hx : x.cls.kind = .main) (st : RMState) :
    (rangeMerge reg t).step st x = ({ pending := [x] }, st.out reg t) := by
  show (if x.cls.kind = .main then _ else _) = _
  rw [if_pos hx]
  simp [RMState.note, hx]

theorem rm_other {x : Item} (hx : x.cls.kind ≠ .main) (st : RMState) :
    (rangeMerge reg t).step st x = ({ st.note t x with pending := st.pending ++ [x] }, []) := by
  show (if x.cls.kind = .main then _ else _) = _
  rw [if_neg hx]

theorem note_other {x : Item} (hx : notRange t x = true) (st : RMState) : st.note t x = st := by
  unfold RMState.note
  split
  · next h =>
    simp [notRange, h.2] at hx
    simp [hx]
  · rfl

theorem note_pending (st : RMState) (x : Item) : (st.note t x).pending = st.pending := by
  unfold RMState.note
  repeat' split
  all_goals rfl

/-- Local and global items outside the family are kept aside. -/
theorem rm_feed_other (q : List Item) (h : ∀ i ∈ q, i.cls.kind ≠ .main ∧ notRange t i = true) (st : RMState) :
    (rangeMerge reg t).feed st q = ({ st with pending := st.pending ++ q }, []) := by
  induction q generalizing st with
  | nil => simp [Pass.feed]
  | cons x q ih =>
    rw [Pass.feed, rm_other (h x (by simp)).1, note_other (h x (by simp)).2,
      ih (fun i hi => h i (by simp [hi]))]
    simp

/-- A run of items between main items, with the one it starts with. -/
def Seg (p : List Item) : Prop := ∀ i ∈ p.tail, i.cls.kind ≠ .main

theorem Seg.filter {p : List Item} (h : Seg p) (f : Item → Bool) : Seg (p.filter f) := by
  cases p with
  | nil => exact h
  | cons x q =>
    intro i hi
    by_cases hx : f x = true
    · rw [List.filter_cons_of_pos hx] at hi
      simp at hi
      exact h i (by simp [hi.1])
    · rw [List.filter_cons_of_neg hx] at hi
      exact h i (by simpa using (List.mem_filter.1 (List.mem_of_mem_tail hi)).1)

theorem rm_feed_seg (q : List Item) (h : Seg q) (hq : ∀ i ∈ q, notRange t i = true) :
    (rangeMerge reg t).feed {} q = ({ pending := q }, []) := by
  cases q with
  | nil => rfl
  | cons x q =>
    rw [Pass.feed]
    by_cases hx : x.cls.kind = .main
    · rw [rm_main hx, rm_feed_other q (fun i hi => ⟨h i (by simpa using hi), hq i (by simp [hi])⟩)]
      simp [RMState.out]
    · rw [rm_other hx, note_other (hq x (by simp)),
        rm_feed_other q (fun i hi => ⟨h i (by simpa using hi), hq i (by simp [hi])⟩)]
      simp

/-- What is known of the state while the items before a main item are collected. -/
structure RMSeg (reg : Registry) (t : RangeTags) (st : RMState) : Prop where
  fed : (rangeMerge reg t).feed {} st.pending = (st, [])
  seg : Seg st.pending
  le : ∀ lo hi, st.minValue = some lo → st.maxValue = some hi → lo.toInt ≤ hi.toInt
  both : st.minValue = none ↔ st.maxValue = none

theorem note_le {st : RMState} (h : ∀ lo hi, st.minValue = some lo → st.maxValue = some hi → lo.toInt ≤ hi.toInt)
    (hb : st.minValue = none ↔ st.maxValue = none) (x : Item) :
    (∀ lo hi, (st.note t x).minValue = some lo → (st.note t x).maxValue = some hi → lo.toInt ≤ hi.toInt) ∧
    ((st.note t x).minValue = none ↔ (st.note t x).maxValue = none) := by
  unfold RMState.note
  split
  · split
    · exact ⟨h, hb⟩
    · split
      · split
        · simp
        · next m hm =>
          split
          · next hx =>
            refine ⟨?_, ?_⟩
            · intro lo hi e1 e2
              simp at e2; subst e2
              have := h lo m e1 hm
              show lo.toInt ≤ x.ival
              omega
            · simp [hb, hm]
          · exact ⟨h, hb⟩
      · exact ⟨h, hb⟩
  · exact ⟨h, hb⟩

/-- What the pass sends on for one run of items is left alone by a second run. -/
theorem rm_out_fixed (ht : TagsOk t) {st : RMState} (h : RMSeg reg t st) :
    Seg (st.out reg t) ∧ (∀ x r, st.pending = x :: r → x.cls.kind = .main → ∃ r', st.out reg t = x :: r') ∧
    ∃ st', (rangeMerge reg t).feed {} (st.out reg t) = (st', []) ∧ st'.out reg t = st.out reg t := by
  have keep : st.out reg t = st.pending → Seg (st.out reg t) ∧
      (∀ x r, st.pending = x :: r → x.cls.kind = .main → ∃ r', st.out reg t = x :: r') ∧
      ∃ st', (rangeMerge reg t).feed {} (st.out reg t) = (st', []) ∧ st'.out reg t = st.out reg t := by
    intro e
    rw [e]
    exact ⟨h.seg, fun x r hp _ => ⟨r, hp⟩, st, h.fed, e⟩
  cases hlo : st.minValue with
  | none => exact keep (by unfold RMState.out; rw [hlo])
  | some lo =>
    cases hhi : st.maxValue with
    | none => exact keep (by unfold RMState.out; rw [hlo, hhi])
    | some hi =>
      by_cases hc : lo.truthy = true ∧ hi.truthy = true ∧ st.merging = true
      case neg => exact keep (by unfold RMState.out; rw [hlo, hhi]; simp only [if_neg hc])
      case pos =>
        have ho : st.out reg t = st.pending.filter (notRange t) ++
            (if lo.eqv hi = true then [build reg t.lookup lo]
             else if hi.toInt - lo.toInt > 1 then [build reg t.min lo, build reg t.max hi]
             else [build reg t.lookup lo, build reg t.lookup hi]) := by
          unfold RMState.out; rw [hlo, hhi]; simp only [if_pos hc]
        have hle := h.le lo hi hlo hhi
        have hq : ∀ i ∈ st.pending.filter (notRange t), notRange t i = true := fun i hi => (List.mem_filter.1 hi).2
        have hseg := h.seg.filter (notRange t)
        have hfq := rm_feed_seg (reg := reg) _ hseg hq
        have hff : (st.pending.filter (notRange t)).filter (notRange t) = st.pending.filter (notRange t) := by
          rw [List.filter_filter]; simp
        have hhead : ∀ x r, st.pending = x :: r → x.cls.kind = .main →
            ∃ r', st.pending.filter (notRange t) = x :: r' := by
          intro x r hp hx
          rw [hp, List.filter_cons_of_pos (by simp [notRange, hx])]
          exact ⟨_, rfl⟩
        generalize st.pending.filter (notRange t) = q at ho hq hseg hfq hff hhead
        have happ : ∀ tail : List Item, (∀ i ∈ tail, i.cls.kind ≠ .main) → Seg (q ++ tail) ∧
            (∀ x r, st.pending = x :: r → x.cls.kind = .main → ∃ r', q ++ tail = x :: r') := by
          intro tail htl
          refine ⟨?_, ?_⟩
          · intro i hi
            cases q with
            | nil => exact htl i (List.mem_of_mem_tail hi)
            | cons y q =>
              simp at hi
              rcases hi with hi | hi
              · exact hseg i (by simpa using hi)
              · exact htl i hi
          · intro x r hp hx
            obtain ⟨r', hr⟩ := hhead x r hp hx
            exact ⟨r' ++ tail, by rw [hr]; rfl⟩
        have kl : ∀ v, (build reg t.lookup v).cls.kind ≠ .main := fun v => by rw [build_cls, ht.l]; simp
        have k1 : ∀ v, (build reg t.min v).cls.kind ≠ .main := fun v => by rw [build_cls, ht.lo]; simp
        have k2 : ∀ v, (build reg t.max v).cls.kind ≠ .main := fun v => by rw [build_cls, ht.hi]; simp
        have nl : ∀ v, notRange t (build reg t.lookup v) = false := fun v => by
          simp [notRange, build_cls, ht.l]
        have note1 : ∀ v, ({ pending := q } : RMState).note t (build reg t.lookup v)
            = { pending := q, maxValue := some (build reg t.lookup v).val, minValue := some (build reg t.lookup v).val } := by
          intro v
          simp [RMState.note, build_cls, ht.l, ht.n1, ht.n2]
        by_cases he : lo.eqv hi = true
        · rw [if_pos he] at ho
          rw [ho]
          refine ⟨(happ _ (by simp [kl])).1, (happ _ (by simp [kl])).2, ?_⟩
          rw [Pass.feed_append, hfq, Pass.feed_one, rm_other (kl lo), note1]
          refine ⟨_, rfl, ?_⟩
          have := build_truthy reg t.lookup lo ht.l hc.1
          simp [RMState.out, this, PyVal.eqv, List.filter_append, hff, nl, build_again reg t.lookup lo ht.l]
        · rw [if_neg he] at ho
          by_cases hd : hi.toInt - lo.toInt > 1
          · rw [if_pos hd] at ho
            rw [ho]
            refine ⟨(happ _ (by simp [k1, k2])).1, (happ _ (by simp [k1, k2])).2, ?_⟩
            rw [Pass.feed_append, hfq, Pass.feed_two, rm_other (k1 lo), rm_other (k2 hi)]
            refine ⟨_, rfl, ?_⟩
            simp [RMState.note, build_cls, ht.lo, RMState.out]
          · rw [if_neg hd] at ho
            rw [ho]
            refine ⟨(happ _ (by simp [kl])).1, (happ _ (by simp [kl])).2, ?_⟩
            rw [Pass.feed_append, hfq, Pass.feed_two, rm_other (kl lo), note1, rm_other (kl hi)]
            refine ⟨_, rfl, ?_⟩
            have t1 := build_truthy reg t.lookup lo ht.l hc.1
            have t2 := build_truthy reg t.lookup hi ht.l hc.2.1
            have v1 := build_toInt reg t.lookup lo ht.l
            have v2 := build_toInt reg t.lookup hi ht.l
            have hne : lo.toInt ≠ hi.toInt := by simpa [PyVal.eqv] using he
            have hs : hi.toInt = lo.toInt + 1 := by omega
            have hi1 : (build reg t.lookup hi).ival = (build reg t.lookup lo).val.toInt + 1 := by
              show (build reg t.lookup hi).val.toInt = _
              rw [v1, v2, hs]
            have hnd : ¬ (hi.toInt - lo.toInt > 1) := hd
            simp [RMState.note, build_cls, ht.l, ht.n1, ht.n2, hi1]
            simp [RMState.out, t1, t2, PyVal.eqv, v1, v2, hne, hnd, List.filter_append, hff, nl,
              build_again reg t.lookup lo ht.l, build_again reg t.lookup hi ht.l]

theorem rm_inv_start (x : Item) (hx : x.cls.kind = .main) : RMSeg reg t { pending := [x] } where
  fed := by rw [Pass.feed_one, rm_main hx]; rfl
  seg := by intro i hi; simp at hi
  le := by intro lo hi h; simp at h
  both := by simp

theorem rm_inv_step {st : RMState} {y : Item} (h : RMSeg reg t st) (hy : y.cls.kind ≠ .main) :
    RMSeg reg t { st.note t y with pending := st.pending ++ [y] } := by
  have hn := note_le (t := t) h.le h.both y
  exact {
        fed := by rw [Pass.feed_append, h.fed, Pass.feed_one, rm_other hy]; rfl
        seg := by
          intro i hi
          cases hp : st.pending with
          | nil => rw [hp] at hi; simp at hi
          | cons z q =>
            rw [hp] at hi; simp at hi
            rcases hi with hi | rfl
            · exact h.seg i (by rw [hp]; simpa using hi)
            · exact hy
        le := hn.1
        both := hn.2 }

/-- The output from a state whose run starts with a main item starts with it. -/
theorem rm_head (ht : TagsOk t) (x : Item) (hx : x.cls.kind = .main) (xs : List Item) (st : RMState)
    (h : RMSeg reg t st) (hp : ∃ r, st.pending = x :: r) :
    ∃ r, (rangeMerge reg t).runFrom st xs = x :: r := by
  obtain ⟨r, hp⟩ := hp
  induction xs generalizing st r with
  | nil => exact (rm_out_fixed ht h).2.1 x r hp hx
  | cons y ys ih =>
    rw [Pass.runFrom_cons]
    by_cases hy : y.cls.kind = .main
    · rw [rm_main hy]
      obtain ⟨r', hr⟩ := (rm_out_fixed ht h).2.1 x r hp hx
      exact ⟨r' ++ (rangeMerge reg t).runFrom { pending := [y] } ys, by rw [hr]; rfl⟩
    · rw [rm_other hy]
      exact ih _ (rm_inv_step h hy) (r ++ [y]) (by simp [hp])

theorem rm_idem (ht : TagsOk t) (xs : List Item) (st : RMState) (h : RMSeg reg t st) :
    (rangeMerge reg t).run ((rangeMerge reg t).runFrom st xs) = (rangeMerge reg t).runFrom st xs := by
  induction xs generalizing st with
  | nil =>
    obtain ⟨-, -, st', hf, ho⟩ := rm_out_fixed ht h
    show (rangeMerge reg t).runFrom {} (st.out reg t) = st.out reg t
    rw [Pass.runFrom_eq, hf]
    exact ho
  | cons x xs ih =>
    rw [Pass.runFrom_cons]
    by_cases hx : x.cls.kind = .main
    · rw [rm_main hx]
      obtain ⟨-, -, st', hf, ho⟩ := rm_out_fixed ht h
      have hi := ih { pending := [x] } (rm_inv_start x hx)
      obtain ⟨r, hr⟩ := rm_head ht x hx xs { pending := [x] } (rm_inv_start (reg := reg) (t := t) x hx) ⟨[], rfl⟩
      simp only at hi hr ⊢
      rw [hr] at hi ⊢
      have hi' : (rangeMerge reg t).runFrom {} (x :: r) = x :: r := hi
      rw [Pass.runFrom_cons, rm_main hx] at hi'
      show (rangeMerge reg t).runFrom {} _ = _
      rw [Pass.runFrom_append, hf]
      simp only [List.nil_append]
      rw [Pass.runFrom_cons, rm_main hx]
      simp only [ho]
      congr 1
    · rw [rm_other hx]
      exact ih _ (rm_inv_step h hx)

end

/-- C68, ranges.  Merging usages, strings or designators into ranges a second time changes nothing,
for every stream. -/
theorem C68_range_merge (reg : Registry) (t : Optimizer.RangeTags)
    (ht : t = Optimizer.usageTags ∨ t = Optimizer.strTags ∨ t = Optimizer.desigTags) (xs : List Item) :
    (Optimizer.rangeMerge reg t).run ((Optimizer.rangeMerge reg t).run xs) = (Optimizer.rangeMerge reg t).run xs := by
  have hk : TagsOk t := by
    rcases ht with rfl | rfl | rfl <;> exact ⟨rfl, rfl, rfl, by decide, by decide⟩
  exact rm_idem hk xs {} ⟨rfl, by intro i hi; simp at hi, by intro lo hi h; simp at h, by simp⟩

/-! ## Usage pages -/

section
open Optimizer

theorem up_usage (reg : Registry) {x : Item} (hx : usageLike x.cls = true) (pg : Option Int) :
    ∃ a b : Item, a.key = (.usagePage, x.ival / 65536) ∧ b.key = (x.cls, x.ival % 65536) ∧
      (usagePage reg).step pg x = (some (x.ival / 65536),
        if pg = some (x.ival / 65536) then [b] else [a, b]) := by
  have hc : x.cls ≠ .collection := by intro e; rw [e] at hx; simp [usageLike] at hx
  have h1 : (Usage.split (Usage.lookup reg x.val)).1.toInt = x.ival / 65536 := by
    rw [split_fst, lookup_value]; rfl
  have h2 : (Usage.split (Usage.lookup reg x.val)).2.toInt = x.ival % 65536 := by
    rw [split_snd, lookup_value]; rfl
  refine ⟨build reg .usagePage (Usage.split (Usage.lookup reg x.val)).1,
    build reg x.cls (Usage.split (Usage.lookup reg x.val)).2, ?_, ?_, ?_⟩
  · rw [build_key _ _ _ (by simp), h1]
  · rw [build_key _ _ _ hc, h2]
  · show (if usageLike x.cls = true then (match Usage.split (Usage.lookup reg x.val) with
      | (sp, su) => (some sp.toInt, (if pg = some sp.toInt then [] else [build reg .usagePage sp]) ++ [build reg x.cls su]))
      else _) = _
    rw [if_pos hx]
    rcases hsp : Usage.split (Usage.lookup reg x.val) with ⟨sp, su⟩
    rw [hsp] at h1
    simp only at h1 ⊢
    rw [h1]
    by_cases hp : pg = some (x.ival / 65536)
    · simp only [if_pos hp]; rfl
    · simp only [if_neg hp]; rfl

theorem up_page (reg : Registry) {x : Item} (hx : x.cls = .usagePage) (pg : Option Int) :
    (usagePage reg).step pg x = (some x.ival, [x]) := by
  show (if usageLike x.cls = true then _ else if x.cls = .usagePage then _ else _) = _
  rw [if_neg (by rw [hx]; simp [usageLike]), if_pos hx]

theorem up_other (reg : Registry) {x : Item} (hx : usageLike x.cls ≠ true) (hy : x.cls ≠ .usagePage)
    (pg : Option Int) : (usagePage reg).step pg x = (pg, [x]) := by
  show (if usageLike x.cls = true then _ else if x.cls = .usagePage then _ else _) = _
  rw [if_neg hx, if_neg hy]

/-- Every usage stands on the page it names. -/
def paged (pg : Option Int) : List Item → Prop
  | [] => True
  | x :: xs =>
    if usageLike x.cls then pg = some (x.ival / 65536) ∧ paged pg xs
    else if x.cls = .usagePage then paged (some x.ival) xs
    else paged pg xs

theorem up_length (reg : Registry) (ys : List Item) (pg : Option Int) :
    ys.length ≤ ((usagePage reg).runFrom pg ys).length ∧
    (((usagePage reg).runFrom pg ys).length = ys.length → paged pg ys) := by
  induction ys generalizing pg with
  | nil => exact ⟨by simp, fun _ => trivial⟩
  | cons x xs ih =>
    rw [Pass.runFrom_cons]
    by_cases hu : usageLike x.cls = true
    · obtain ⟨a, b, -, -, hs⟩ := up_usage reg hu pg
      rw [hs]
      have hi := ih (some (x.ival / 65536))
      simp only [paged, if_pos hu]
      by_cases hp : pg = some (x.ival / 65536)
      · rw [if_pos hp]
        subst hp
        refine ⟨by simp; omega, fun e => ⟨rfl, hi.2 (by simp at e; omega)⟩⟩
      · rw [if_neg hp]
        refine ⟨by simp; omega, fun e => ?_⟩
        simp at e; omega
    · by_cases hy : x.cls = .usagePage
      · rw [up_page reg hy]
        have hi := ih (some x.ival)
        simp only [paged, if_neg hu, if_pos hy]
        exact ⟨by simp; omega, fun e => hi.2 (by simp at e; omega)⟩
      · rw [up_other reg hu hy]
        have hi := ih pg
        simp only [paged, if_neg hu, if_neg hy]
        exact ⟨by simp; omega, fun e => hi.2 (by simp at e; omega)⟩

/-- Short usages that stand on page 0 go through. -/
theorem up_paged (reg : Registry) (ys : List Item) (pg : Option Int) (hp : paged pg ys)
    (h0 : ∀ i ∈ ys, usageLike i.cls = true → i.ival / 65536 = 0) :
    keys ((usagePage reg).runFrom pg ys) = keys ys := by
  induction ys generalizing pg with
  | nil => rfl
  | cons x xs ih =>
    rw [Pass.runFrom_cons]
    have ih := fun pg hp => ih pg hp (fun i hi => h0 i (by simp [hi]))
    by_cases hu : usageLike x.cls = true
    · obtain ⟨a, b, -, hb, hs⟩ := up_usage reg hu pg
      rw [hs]
      simp only [paged, if_pos hu] at hp
      rw [if_pos hp.1, ← hp.1]
      simp only [List.cons_append, List.nil_append, keys_cons, ih pg hp.2, hb]
      have := h0 x (by simp) hu
      have e : x.ival % 65536 = x.ival := by omega
      rw [e]; rfl
    · by_cases hy : x.cls = .usagePage
      · rw [up_page reg hy]
        simp only [paged, if_neg hu, if_pos hy] at hp
        simp only [List.cons_append, List.nil_append, keys_cons, ih _ hp]
      · rw [up_other reg hu hy]
        simp only [paged, if_neg hu, if_neg hy] at hp
        simp only [List.cons_append, List.nil_append, keys_cons, ih _ hp]

theorem key_cls {a : Item} {c : Cls} {n : Int} (h : a.key = (c, n)) : a.cls = c ∧ a.ival = n := by
  have h' : (a.cls, a.ival) = (c, n) := h
  simpa using h'

theorem up_paged_iff (reg : Registry) (xs : List Item) (pg : Option Int) :
    paged pg ((usagePage reg).runFrom pg xs) ↔ ∀ i ∈ xs, usageLike i.cls = true → i.ival / 65536 = 0 := by
  induction xs generalizing pg with
  | nil => simp [Pass.runFrom, paged]
  | cons x xs ih =>
    rw [Pass.runFrom_cons]
    by_cases hu : usageLike x.cls = true
    · obtain ⟨a, b, ha, hb, hs⟩ := up_usage reg hu pg
      rw [hs]
      obtain ⟨a1, a2⟩ := key_cls ha
      obtain ⟨b1, b2⟩ := key_cls hb
      have hb0 : b.ival / 65536 = 0 := by omega
      have hbu : usageLike b.cls = true := by rw [b1]; exact hu
      have hau : ¬ usageLike a.cls = true := by rw [a1]; simp [usageLike]
      have e1 : paged pg ((if pg = some (x.ival / 65536) then [b] else [a, b]) ++
          (usagePage reg).runFrom (some (x.ival / 65536)) xs) ↔
          (x.ival / 65536 = 0 ∧ paged (some (x.ival / 65536)) ((usagePage reg).runFrom (some (x.ival / 65536)) xs)) := by
        by_cases hp : pg = some (x.ival / 65536)
        · rw [if_pos hp]
          simp only [List.cons_append, List.nil_append, paged, if_pos hbu, hb0]
          rw [hp]; simp
        · rw [if_neg hp]
          simp only [List.cons_append, List.nil_append, paged, if_pos hbu, if_neg hau, if_pos a1, hb0, a2]
          simp
      rw [e1, ih]
      simp [hu]
    · by_cases hy : x.cls = .usagePage
      · rw [up_page reg hy]
        simp only [List.cons_append, List.nil_append, paged, if_neg hu, if_pos hy, ih]
        simp [hu]
      · rw [up_other reg hu hy]
        simp only [List.cons_append, List.nil_append, paged, if_neg hu, if_neg hy, ih]
        simp [hu]

end

/-- C68, usage pages.  Splitting usages into page and number a second time changes nothing exactly when
every usage of the stream is on page 0: any other comes out short and is moved to page 0 by the second
run.  For every stream. -/
theorem C68_usage_page_iff (reg : Registry) (xs : List Item) :
    keys ((Optimizer.usagePage reg).run ((Optimizer.usagePage reg).run xs)) = keys ((Optimizer.usagePage reg).run xs)
      ↔ ∀ i ∈ xs, Optimizer.usageLike i.cls = true → i.ival / 65536 = 0 := by
  constructor
  · intro h
    have hl := congrArg List.length h
    simp only [keys, List.length_map] at hl
    exact (up_paged_iff reg xs none).1 ((up_length reg _ none).2 hl)
  · intro h
    refine up_paged reg _ none ((up_paged_iff reg xs none).2 h) ?_
    have : ∀ pg, ∀ i ∈ (Optimizer.usagePage reg).runFrom pg xs, Optimizer.usageLike i.cls = true → i.ival / 65536 = 0 := by
      clear h
      induction xs with
      | nil => intro pg i hi; simp [Pass.runFrom] at hi
      | cons x xs ih =>
        intro pg i hi hiu
        rw [Pass.runFrom_cons, List.mem_append] at hi
        rcases hi with hi | hi
        · by_cases hu : Optimizer.usageLike x.cls = true
          · obtain ⟨a, b, ha, hb, hs⟩ := up_usage reg hu pg
            rw [hs] at hi
            obtain ⟨a1, a2⟩ := key_cls ha
            obtain ⟨b1, b2⟩ := key_cls hb
            simp only at hi
            have : i = a ∨ i = b := by split at hi <;> simp at hi <;> simp [hi]
            rcases this with rfl | rfl
            · rw [a1] at hiu; simp [Optimizer.usageLike] at hiu
            · omega
          · by_cases hy : x.cls = .usagePage
            · rw [up_page reg hy] at hi; simp at hi; subst hi; exact absurd hiu hu
            · rw [up_other reg hu hy] at hi; simp at hi; subst hi; exact absurd hiu hu
        · exact ih _ i hi hiu
    exact this none

/-! ## Main items -/

section
open Optimizer

theorem build_count (reg : Registry) (n : Int) : build reg .reportCount (.int n) = ⟨.reportCount, .int n⟩ := by
  unfold build Item.new
  simp only [Item.baseInit]
  split
  · next h => split at h <;> simp at h; exact h.symm
  · rfl

/-- An item at which what was collected is sent on. -/
def Event (props : Cls → Int) (x : Item) : Prop :=
  (x.cls.kind = .main ∧ x.cls.isData = false) ∨
  (x.cls.kind = .global ∧ watched x.cls = true ∧ props x.cls ≠ x.ival)

/-- The watched globals after an item. -/
def upd (props : Cls → Int) (x : Item) : Cls → Int :=
  fun c => if x.cls.kind = .global ∧ watched x.cls = true ∧ c = x.cls then x.ival else props c

def updL (props : Cls → Int) (l : List Item) : Cls → Int := l.foldl upd props

/-- Some item of the list is one, with the globals as they are there. -/
def hasEvent (props : Cls → Int) : List Item → Prop
  | [] => False
  | x :: r => Event props x ∨ hasEvent (upd props x) r

theorem upd_quiet {props : Cls → Int} {x : Item} (h : ¬ Event props x) : upd props x = props := by
  funext c
  unfold upd
  split
  · next hc =>
    rw [hc.2.2]
    exact (Decidable.byContradiction fun hn => h (Or.inr ⟨hc.1, hc.2.1, fun e => hn e.symm⟩))
  · rfl

theorem upd_count {props : Cls → Int} {x : Item} (h : x.cls = .reportCount) : upd props x = props := by
  funext c; simp [upd, h, watched]

theorem not_event_count {props : Cls → Int} {x : Item} (h : x.cls = .reportCount) : ¬ Event props x := by
  rintro (⟨h1, -⟩ | ⟨-, h1, -⟩) <;> rw [h] at h1 <;> simp [Cls.kind, watched] at h1

theorem updL_append (props : Cls → Int) (a b : List Item) : updL props (a ++ b) = updL (updL props a) b :=
  List.foldl_append

theorem updL_quiet {props : Cls → Int} (l : List Item) (h : ∀ x ∈ l, ¬ Event props x) : updL props l = props := by
  induction l with
  | nil => rfl
  | cons x l ih =>
    show updL (upd props x) l = props
    rw [upd_quiet (h x (by simp))]
    exact ih (fun y hy => h y (by simp [hy]))

theorem updL_filter (props : Cls → Int) (l : List Item) : updL props (l.filter notCount) = updL props l := by
  induction l generalizing props with
  | nil => rfl
  | cons x l ih =>
    by_cases hx : notCount x = true
    · rw [List.filter_cons_of_pos hx]
      exact ih (upd props x)
    · have hc : x.cls = .reportCount := by
        by_cases hc : x.cls = .reportCount
        · exact hc
        · exact absurd ((notCount_iff x).2 hc) hx
      rw [List.filter_cons_of_neg hx]
      show _ = updL (upd props x) l
      rw [upd_count hc, ih]

theorem hasEvent_filter (props : Cls → Int) (l : List Item) (h : hasEvent props l) :
    hasEvent props (l.filter notCount) := by
  induction l generalizing props with
  | nil => exact h
  | cons x l ih =>
    by_cases hx : notCount x = true
    · rw [List.filter_cons_of_pos hx]
      exact h.imp id (ih _)
    · have hc : x.cls = .reportCount := by
        by_cases hc : x.cls = .reportCount
        · exact hc
        · exact absurd ((notCount_iff x).2 hc) hx
      rw [List.filter_cons_of_neg hx]
      rcases h with h | h
      · exact absurd h (not_event_count hc)
      · rw [upd_count hc] at h; exact ih _ h

theorem hasEvent_left (props : Cls → Int) (a b : List Item) (h : hasEvent props a) : hasEvent props (a ++ b) := by
  induction a generalizing props with
  | nil => exact h.elim
  | cons x a ih => exact h.imp id (ih _)

theorem hasEvent_last {props : Cls → Int} (a : List Item) (e : Item) (h : ∀ x ∈ a, ¬ Event props x)
    (he : Event props e) : hasEvent props (a ++ [e]) := by
  induction a with
  | nil => exact Or.inl he
  | cons x a ih =>
    refine Or.inr ?_
    rw [upd_quiet (h x (by simp))]
    exact ih (fun y hy => h y (by simp [hy]))

/-- Items a state holds, in their order. -/
def held (s : MMState) : List Item := s.before ++ s.mains ++ s.after

/-- Nothing but other items held. -/
structure Idle (s : MMState) : Prop where
  mains : s.mains = []
  bc : s.beforeCount = 0
  before : ∀ i ∈ s.before, notCount i = true
  after : ∀ i ∈ s.after, notCount i = true

/-- One data item held, with its count of 1 right before it. -/
structure Held (m : Item) (s : MMState) : Prop where
  mains : s.mains = [m]
  bc : s.beforeCount = 1
  before : ∃ b, s.before = b ++ [⟨.reportCount, .int 1⟩] ∧ ∀ i ∈ b, notCount i = true
  after : ∀ i ∈ s.after, notCount i = true

theorem filter_id {l : List Item} (h : ∀ i ∈ l, notCount i = true) : l.filter notCount = l :=
  List.filter_eq_self.2 h

theorem flush_idle (reg : Registry) {s : MMState} (h : Idle s) : (s.flush reg).2 = s.before := by
  simp [MMState.flush, h.mains, filter_id h.before]

theorem flush_held (reg : Registry) {s : MMState} {m : Item} (h : Held m s) : (s.flush reg).2 = s.before ++ [m] := by
  obtain ⟨b, hb, hn⟩ := h.before
  simp [MMState.flush, h.mains, h.bc, build_count, hb, List.filter_append, filter_id hn, notCount, Cls.kind]

/-- The state after an event. -/
def afterEvent (s : MMState) (x : Item) : MMState := { before := s.after ++ [x], mains := [], after := [], beforeCount := 0, afterCount := s.afterCount, props := upd s.props x }

/-- The state after any other item that is not data. -/
def afterQuiet (s : MMState) (x : Item) : MMState := { before := s.before, mains := s.mains, after := s.after ++ [x], beforeCount := s.beforeCount, afterCount := if x.cls = .reportCount then x.ival else s.afterCount, props := s.props }

/-- An event sends on everything held but the items after the data item. -/
theorem mm_event (reg : Registry) (s : MMState) {x : Item} (he : Event s.props x) :
    (mainMerge reg).step s x = (afterEvent s x, (s.flush reg).2) := by
  obtain ⟨props, h1, h2⟩ := mm_step_flush reg s x he
  have hp : props = upd s.props x := by
    funext c
    rw [h2]
    unfold upd
    rcases he with ⟨hk, -⟩ | ⟨hk, hw, -⟩
    · simp [hk]
    · simp [hk, hw]
  rw [h1, hp]
  rfl

theorem mm_quiet (reg : Registry) (s : MMState) {x : Item} (he : ¬ Event s.props x) (hd : x.cls.isData = false) :
    (mainMerge reg).step s x = (afterQuiet s x, []) := by
  by_cases hc : x.cls = .reportCount
  · rw [mm_step_rc reg s x hc, afterQuiet, if_pos hc]; rfl
  · rw [mm_step_quiet reg s x, afterQuiet, if_neg hc]
    · rfl
    · intro hk; exact he (Or.inl ⟨hk, hd⟩)
    · rintro ⟨hw, hne⟩
      refine he (Or.inr ⟨?_, hw, hne⟩)
      cases hx : x.cls <;> rw [hx] at hw <;> simp [watched] at hw <;> rfl
    · exact hc

/-- One item that is neither data nor a report count, in the second run. -/
theorem again_other (reg : Registry) (s : MMState) {x : Item} (hd : x.cls.isData = false) (hn : notCount x = true)
    (h : Idle s ∨ ∃ m, Held m s) :
    ∃ s' o, (mainMerge reg).step s x = (s', o) ∧ o ++ held s' = held s ++ [x] ∧ s'.props = upd s.props x ∧
      (Idle s' ∨ ∃ m, Held m s ∧ Held m s' ∧ ¬ Event s.props x) := by
  by_cases he : Event s.props x
  · refine ⟨_, _, mm_event reg s he, ?_, rfl, Or.inl ⟨rfl, rfl, ?_, by simp [afterEvent]⟩⟩
    · rcases h with h | ⟨m, h⟩
      · rw [flush_idle reg h]; simp [held, h.mains, afterEvent]
      · rw [flush_held reg h]; simp [held, h.mains, afterEvent]
    · intro i hi
      simp [afterEvent] at hi
      rcases hi with hi | rfl
      · rcases h with h | ⟨m, h⟩ <;> exact h.after i hi
      · exact hn
  · have hc : x.cls ≠ .reportCount := (notCount_iff x).1 hn
    refine ⟨_, _, mm_quiet reg s he hd, by simp [held, afterQuiet], by rw [upd_quiet he]; rfl, ?_⟩
    have ha : ∀ (ok : ∀ i ∈ s.after, notCount i = true), ∀ i ∈ s.after ++ [x], notCount i = true := by
      intro ok i hi
      simp at hi
      rcases hi with hi | rfl
      · exact ok i hi
      · exact hn
    rcases h with h | ⟨m, h⟩
    · exact Or.inl ⟨h.mains, h.bc, h.before, ha h.after⟩
    · exact Or.inr ⟨m, h, ⟨h.mains, h.bc, h.before, ha h.after⟩, he⟩

theorem again_others (reg : Registry) (l : List Item) (s : MMState)
    (hl : ∀ x ∈ l, x.cls.isData = false ∧ notCount x = true) (h : Idle s ∨ ∃ m, Held m s) :
    ∃ s' o, (mainMerge reg).feed s l = (s', o) ∧ o ++ held s' = held s ++ l ∧ s'.props = updL s.props l ∧
      (Idle s' ∨ ∃ m, Held m s ∧ Held m s' ∧ ¬ hasEvent s.props l) := by
  induction l generalizing s with
  | nil =>
    refine ⟨s, [], rfl, by simp, rfl, ?_⟩
    rcases h with h | ⟨m, h⟩
    · exact Or.inl h
    · exact Or.inr ⟨m, h, h, fun h => h⟩
  | cons x l ih =>
    obtain ⟨s1, o1, e1, h1, p1, c1⟩ := again_other reg s (hl x (by simp)).1 (hl x (by simp)).2 h
    have hc1 : Idle s1 ∨ ∃ m, Held m s1 := c1.imp id (fun ⟨m, _, h, _⟩ => ⟨m, h⟩)
    obtain ⟨s2, o2, e2, h2, p2, c2⟩ := ih s1 (fun y hy => hl y (by simp [hy])) hc1
    refine ⟨s2, o1 ++ o2, ?_, ?_, ?_, ?_⟩
    · rw [Pass.feed, e1, e2]
    · rw [List.append_assoc, h2, ← List.append_assoc, h1]; simp
    · rw [p2, p1]; rfl
    · rcases c2 with c2 | ⟨m, g1, g2, g3⟩
      · exact Or.inl c2
      · rcases c1 with c1 | ⟨m', f1, f2, f3⟩
        · have := g1.mains; rw [c1.mains] at this; simp at this
        · have hm : m' = m := by
            have := f2.mains; rw [g1.mains] at this; simpa using this.symm
          subst hm
          refine Or.inr ⟨m', f1, g2, ?_⟩
          rintro (h | h)
          · exact f3 h
          · rw [p1] at g3; exact g3 h

/-- A report count and a data item, in the second run. -/
theorem again_data (reg : Registry) (s : MMState) (n : Int) {m : Item} (hm : m.cls.isData = true)
    (h : Idle s ∨ ∃ m0, Held m0 s ∧ m.pyEq m0 = false) :
    ∃ s' o, (mainMerge reg).feed s [⟨.reportCount, .int n⟩, m] = (s', o) ∧
      o ++ held s' = held s ++ [⟨.reportCount, .int n⟩, m] ∧ s'.props = s.props ∧
      (n = 1 → Held m s') ∧ (n ≠ 1 → Idle s') := by
  have hrc := mm_step_rc reg s ⟨.reportCount, .int n⟩ rfl
  rw [Pass.feed_two, hrc]
  have hidle : ∀ (q : MMState) (b : List Item), q.mains = [] → q.beforeCount = 0 → q.afterCount = n →
      q.before ++ q.after = b ++ [⟨.reportCount, .int n⟩] → (∀ i ∈ b, notCount i = true) →
      ∃ s' o, (if q.afterCount ≠ 1 then (((MMState.take q m).flush reg).1, ((MMState.take q m).flush reg).2)
        else (MMState.take q m, [])) = (s', o) ∧ o ++ held s' = q.before ++ q.after ++ [m] ∧ s'.props = q.props ∧
        (n = 1 → Held m s') ∧ (n ≠ 1 → Idle s') := by
    intro q b q1 q2 q3 q4 q5
    by_cases hn : n = 1
    · refine ⟨MMState.take q m, [], ?_, ?_, rfl, fun _ => ?_, fun h => absurd hn h⟩
      · rw [if_neg (by rw [q3]; simpa using hn)]
      · simp [held, MMState.take, q1]
      · exact ⟨by simp [MMState.take, q1], by simp [MMState.take, q2, q3, hn],
          ⟨b, by simp [MMState.take, q4, hn], q5⟩, by simp [MMState.take]⟩
    · refine ⟨_, _, if_pos (by rw [q3]; exact hn), ?_, rfl, fun h => absurd h hn, fun _ => ?_⟩
      · simp [held, MMState.take, MMState.flush, q1, q2, q3, q4, build_count, List.filter_append, filter_id q5,
          notCount, Cls.kind]
      · exact ⟨rfl, rfl, by simp [MMState.flush, MMState.take], by simp [MMState.flush]⟩
  obtain ⟨q, o, hq, hs⟩ := mm_step_data reg (MMState.pushRC s ⟨.reportCount, .int n⟩) m hm
  rw [hs]
  rcases h with h | ⟨m0, h, hne⟩
  · have hq' : q = MMState.pushRC s ⟨.reportCount, .int n⟩ ∧ o = [] := by
      rcases hq with ⟨h1, h2, -⟩ | ⟨-, -, m', ms, h3, -⟩
      · exact ⟨h1, h2⟩
      · have : s.mains = m' :: ms := h3
        rw [h.mains] at this; simp at this
    obtain ⟨rfl, rfl⟩ := hq'
    obtain ⟨s', o, e1, e2, e3, e4⟩ := hidle (MMState.pushRC s ⟨.reportCount, .int n⟩) (s.before ++ s.after)
      h.mains h.bc rfl (by simp [MMState.pushRC])
      (by intro i hi; simp at hi; rcases hi with hi | hi; exact h.before i hi; exact h.after i hi)
    refine ⟨s', o, ?_, ?_, e3, e4⟩
    · split at e1
      · next hc => rw [if_pos hc]; cases e1; simp
      · next hc => rw [if_neg hc]; cases e1; simp
    rw [e2]; simp [held, h.mains, MMState.pushRC]
  · have hq' : q = ((MMState.pushRC s ⟨.reportCount, .int n⟩).flush reg).1 ∧
        o = ((MMState.pushRC s ⟨.reportCount, .int n⟩).flush reg).2 := by
      rcases hq with ⟨h1, h2, h3⟩ | ⟨h1, h2, -⟩
      · have := h3 m0 [] h.mains
        rw [hne] at this; simp at this
      · exact ⟨h1, h2⟩
    obtain ⟨rfl, rfl⟩ := hq'
    obtain ⟨s', o, e1, e2, e3, e4⟩ := hidle ((MMState.pushRC s ⟨.reportCount, .int n⟩).flush reg).1 s.after
      rfl rfl rfl (by simp [MMState.pushRC, MMState.flush]) h.after
    have ho : ((MMState.pushRC s ⟨.reportCount, .int n⟩).flush reg).2 = s.before ++ [m0] :=
      (flush_held reg h : (s.flush reg).2 = _)
    refine ⟨s', (s.before ++ [m0]) ++ o, ?_, ?_, e3, e4⟩
    · rw [ho]
      split at e1
      · next hc => rw [if_pos hc]; cases e1; simp
      · next hc => rw [if_neg hc]; cases e1; simp
    · rw [List.append_assoc, e2]; simp [held, h.mains, MMState.pushRC, MMState.flush]


/-- What links the first run, in state `s`, to the second one, in state `t`, fed what the first has sent on. -/
structure Link (s t : MMState) : Prop where
  props : s.props = updL t.props s.before
  before : ∀ i ∈ s.before, i.cls.isData = false
  data : ∀ i ∈ s.mains, i.cls.isData = true
  ready : Idle t ∨ ∃ m, Held m t ∧ (hasEvent t.props s.before ∨ ∃ m1 ms, s.mains = m1 :: ms ∧ m1.pyEq m = false)

/-- What the first run sends on when it flushes, in the second run. -/
theorem again_flush (reg : Registry) {s t : MMState} (h : Link s t) :
    ∃ t' o, (mainMerge reg).feed t (s.flush reg).2 = (t', o) ∧ o ++ held t' = held t ++ (s.flush reg).2 ∧
      t'.props = s.props ∧
      (Idle t' ∨ ∃ m1 ms, s.mains = m1 :: ms ∧ s.beforeCount = 1 ∧ Held m1 t') := by
  have hl : ∀ x ∈ s.before.filter notCount, x.cls.isData = false ∧ notCount x = true := fun x hx =>
    ⟨h.before x (List.mem_filter.1 hx).1, (List.mem_filter.1 hx).2⟩
  obtain ⟨t1, o1, e1, h1, p1, c1⟩ := again_others reg (s.before.filter notCount) t hl
    (h.ready.imp id (fun ⟨m, hm, _⟩ => ⟨m, hm⟩))
  rw [updL_filter, ← h.props] at p1
  cases hms : s.mains with
  | nil =>
    have hf : (s.flush reg).2 = s.before.filter notCount := by simp [MMState.flush, hms]
    rw [hf]
    refine ⟨t1, o1, e1, h1, p1, ?_⟩
    rcases c1 with c1 | ⟨m, f1, f2, f3⟩
    · exact Or.inl c1
    · rcases h.ready with hr | ⟨m', hr, hr' | ⟨m1, ms, hm, -⟩⟩
      · have := f1.mains; rw [hr.mains] at this; simp at this
      · exact absurd (hasEvent_filter _ _ hr') f3
      · rw [hms] at hm; simp at hm
  | cons m1 ms =>
    have hf : (s.flush reg).2 = s.before.filter notCount ++ [⟨.reportCount, .int s.beforeCount⟩, m1] := by
      simp [MMState.flush, hms, build_count]
    rw [hf]
    have hr : Idle t1 ∨ ∃ m0, Held m0 t1 ∧ m1.pyEq m0 = false := by
      rcases c1 with c1 | ⟨m, f1, f2, f3⟩
      · exact Or.inl c1
      · rcases h.ready with hr | ⟨m', hr, hr' | ⟨m1', ms', hm, hne⟩⟩
        · have := f1.mains; rw [hr.mains] at this; simp at this
        · exact absurd (hasEvent_filter _ _ hr') f3
        · rw [hms] at hm
          obtain ⟨rfl, rfl⟩ := List.cons.inj hm
          have hm' : m' = m := by
            have := f1.mains; rw [hr.mains] at this; simpa using this
          subst hm'
          exact Or.inr ⟨m', f2, hne⟩
    obtain ⟨t2, o2, e2, h2, p2, a2, b2⟩ := again_data reg t1 s.beforeCount (h.data m1 (by rw [hms]; simp)) hr
    refine ⟨t2, o1 ++ o2, ?_, ?_, by rw [p2, p1], ?_⟩
    · rw [Pass.feed_append, e1, e2]
    · rw [List.append_assoc, h2, ← List.append_assoc, h1]; simp
    · by_cases hb : s.beforeCount = 1
      · exact Or.inr ⟨m1, ms, rfl, hb, a2 hb⟩
      · exact Or.inl (b2 hb)

/-- The rest of the invariant. -/
structure Again (s t : MMState) : Prop extends Link s t where
  after : ∀ i ∈ s.after, i.cls.isData = false ∧ ¬ Event s.props i
  bc : s.beforeCount = s.mains.length
  ac : s.mains ≠ [] → 1 ≤ s.afterCount
  last : s.mains = [] → s.before = [] ∨ ∃ ns e, s.before = ns ++ [e] ∧ (∀ i ∈ ns, ¬ Event t.props i) ∧ Event t.props e

/-- Items that send nothing on. -/
theorem quiet_feed (reg : Registry) (l : List Item) (s : MMState)
    (hl : ∀ x ∈ l, x.cls.isData = false ∧ ¬ Event s.props x) :
    ∃ n, (mainMerge reg).feed s l = (⟨s.before, s.mains, s.after ++ l, s.beforeCount, n, s.props⟩, []) := by
  induction l generalizing s with
  | nil => exact ⟨s.afterCount, by simp [Pass.feed]⟩
  | cons x l ih =>
    rw [Pass.feed, mm_quiet reg s (hl x (by simp)).2 (hl x (by simp)).1]
    obtain ⟨n, hn⟩ := ih (afterQuiet s x) (fun y hy => hl y (by simp [hy]))
    exact ⟨n, by simp only [hn]; simp [afterQuiet]⟩

/-- What the first run holds at the end, in the second run. -/
theorem again_close (reg : Registry) {s t : MMState} (h : Again s t) (hm : s.mains = []) :
    (mainMerge reg).runFrom t (s.before ++ s.mains ++ s.after) = held t ++ (s.before ++ s.mains ++ s.after) := by
  rw [hm, List.append_nil]
  rcases h.last hm with hb | ⟨ns, e, hb, hns, he⟩
  · have hp : s.props = t.props := by rw [h.props, hb]; rfl
    have hi : Idle t := by
      rcases h.ready with hr | ⟨m, hr, hr' | ⟨m1, ms, h1, -⟩⟩
      · exact hr
      · rw [hb] at hr'; exact hr'.elim
      · rw [hm] at h1; simp at h1
    rw [hb, List.nil_append]
    obtain ⟨n, hn⟩ := quiet_feed reg s.after t (by rw [← hp]; exact h.after)
    rw [Pass.runFrom_eq, hn]
    simp [held]
  · have hd : ∀ i ∈ ns, i.cls.isData = false := fun i hi => h.before i (by rw [hb]; simp [hi])
    obtain ⟨n, hn⟩ := quiet_feed reg ns t (fun i hi => ⟨hd i hi, hns i hi⟩)
    have hp : s.props = upd t.props e := by
      rw [h.props, hb, updL_append, updL_quiet ns hns]; rfl
    rw [hb, Pass.runFrom_append, Pass.feed_append, hn, Pass.feed_one, mm_event reg _ (by exact he)]
    obtain ⟨n', hn'⟩ := quiet_feed reg s.after
      (afterEvent ⟨t.before, t.mains, t.after ++ ns, t.beforeCount, n, t.props⟩ e)
      (by show ∀ x ∈ s.after, _ ∧ ¬ Event (upd t.props e) x
          rw [← hp]; exact h.after)
    rw [Pass.runFrom_eq, hn']
    have hfl : (MMState.flush reg ⟨t.before, t.mains, t.after ++ ns, t.beforeCount, n, t.props⟩).2
        = t.before ++ t.mains := by
      show (t.flush reg).2 = _
      rcases h.ready with hr | ⟨m, hr, -⟩
      · rw [flush_idle reg hr, hr.mains]; simp
      · rw [flush_held reg hr, hr.mains]
    rw [hfl]
    simp [held, afterEvent]

/-- Taking in a data item keeps the link. -/
theorem link_take {s t : MMState} (h : Link s t) (ha : ∀ i ∈ s.after, i.cls.isData = false ∧ ¬ Event s.props i)
    {x : Item} (hx : x.cls.isData = true)
    (hm : s.mains = [] → Idle t ∨ ∃ m, Held m t ∧ (hasEvent t.props s.before ∨ x.pyEq m = false)) :
    Link (MMState.take s x) t where
  props := by
    show s.props = updL t.props (s.before ++ s.after)
    rw [updL_append, ← h.props, updL_quiet s.after (fun i hi => (ha i hi).2)]
  before := by
    intro i hi
    have hi : i ∈ s.before ++ s.after := hi
    rw [List.mem_append] at hi
    exact hi.elim (h.before i) (fun hi => (ha i hi).1)
  data := by
    intro i hi
    have hi : i ∈ s.mains ++ [x] := hi
    simp at hi
    rcases hi with hi | rfl
    · exact h.data i hi
    · exact hx
  ready := by
    show Idle t ∨ ∃ m, Held m t ∧ (hasEvent t.props (s.before ++ s.after) ∨
      ∃ m1 ms, s.mains ++ [x] = m1 :: ms ∧ m1.pyEq m = false)
    cases hms : s.mains with
    | nil =>
      rcases hm hms with h1 | ⟨m, h1, h2 | h2⟩
      · exact Or.inl h1
      · exact Or.inr ⟨m, h1, Or.inl (hasEvent_left _ _ _ h2)⟩
      · exact Or.inr ⟨m, h1, Or.inr ⟨x, [], rfl, h2⟩⟩
    | cons m1 ms =>
      rcases h.ready with h1 | ⟨m, h1, h2 | ⟨m1', ms', h2, h3⟩⟩
      · exact Or.inl h1
      · exact Or.inr ⟨m, h1, Or.inl (hasEvent_left _ _ _ h2)⟩
      · rw [hms] at h2
        obtain ⟨rfl, rfl⟩ := List.cons.inj h2
        exact Or.inr ⟨m, h1, Or.inr ⟨m1, ms ++ [x], rfl, h3⟩⟩

theorem idle_link {s t : MMState} (hp : t.props = s.props) (hi : Idle t) (h1 : s.before = []) (h2 : s.mains = []) : Link s t where
  props := by rw [h1, ← hp]; rfl
  before := by rw [h1]; simp
  data := by rw [h2]; simp
  ready := Or.inl hi

theorem mm_again (reg : Registry) (xs : List Item) (s t : MMState) (h : Again s t) (b : Bool)
    (hb : b = true → s.mains = []) (htr : trailing b xs = true)
    (hc : ∀ i ∈ xs, i.cls = .reportCount → 1 ≤ i.ival) :
    (mainMerge reg).runFrom t ((mainMerge reg).runFrom s xs) = held t ++ (mainMerge reg).runFrom s xs := by
  induction xs generalizing s t b with
  | nil => exact again_close reg h (hb (by simpa [trailing] using htr))
  | cons x xs ih =>
    have hc' : ∀ i ∈ xs, i.cls = .reportCount → 1 ≤ i.ival := fun i hi => hc i (by simp [hi])
    -- what remains to be shown of one step
    have go : ∀ (s' : MMState) (o : List Item) (b' : Bool), (mainMerge reg).step s x = (s', o) →
        (∃ t' o', (mainMerge reg).feed t o = (t', o') ∧ o' ++ held t' = held t ++ o ∧ Again s' t') →
        (b' = true → s'.mains = []) → trailing b' xs = true →
        (mainMerge reg).runFrom t ((mainMerge reg).runFrom s (x :: xs))
          = held t ++ (mainMerge reg).runFrom s (x :: xs) := by
      intro s' o b' hs ⟨t', o', e1, e2, h'⟩ hb' htr'
      rw [Pass.runFrom_cons, hs]
      simp only
      rw [Pass.runFrom_append, e1]
      simp only
      rw [ih s' t' h' b' hb' htr' hc', ← List.append_assoc, e2, List.append_assoc]
    have sync : Link s t := h.toLink
    by_cases hd : x.cls.isData = true
    · -- a data item
      have hk := isData_kind hd
      have htr' : trailing false xs = true := by simpa [trailing, hk, hd] using htr
      -- after the item is taken in
      have fin : ∀ (q u : MMState), Link (MMState.take q x) u → q.beforeCount = q.mains.length →
          (q.mains ≠ [] → 1 ≤ q.afterCount) →
          ∃ s' o u' o', (if q.afterCount ≠ 1 then (((MMState.take q x).flush reg).1, ((MMState.take q x).flush reg).2)
            else (MMState.take q x, [])) = (s', o) ∧ (mainMerge reg).feed u o = (u', o') ∧
            o' ++ held u' = held u ++ o ∧ Again s' u' := by
        intro q u hl hq1 hq2
        by_cases hac : q.afterCount = 1
        · refine ⟨MMState.take q x, [], u, [], if_neg (by simpa using hac), rfl, by simp, ?_⟩
          refine ⟨hl, by simp [MMState.take], ?_, ?_, ?_⟩
          · show q.beforeCount + q.afterCount = ((q.mains ++ [x]).length : Nat)
            rw [hq1, hac]; simp
          · intro _
            show 1 ≤ q.afterCount
            omega
          · intro e
            have e : q.mains ++ [x] = [] := e
            simp at e
        · obtain ⟨u', o', e1, e2, e3, e4⟩ := again_flush reg hl
          refine ⟨_, _, u', o', if_pos hac, e1, e2, ?_⟩
          have hidle : Idle u' := by
            rcases e4 with e4 | ⟨m1, ms, f1, f2, -⟩
            · exact e4
            · exfalso
              have f2 : q.beforeCount + q.afterCount = 1 := f2
              rw [hq1] at f2
              by_cases hqm : q.mains = []
              · rw [hqm] at f2; simp at f2; omega
              · have := hq2 hqm
                have : 0 < q.mains.length := List.length_pos_iff.2 hqm
                omega
          exact ⟨idle_link e3 hidle rfl rfl, by simp [MMState.flush], rfl, by simp [MMState.flush],
            fun _ => Or.inl rfl⟩
      obtain ⟨q, o, hq, hs⟩ := mm_step_data reg s x hd
      rcases hq with ⟨rfl, rfl, hq⟩ | ⟨rfl, rfl, m, ms, hms, hne⟩
      · obtain ⟨s', o', u', o'', g1, g2, g3, g4⟩ := fin q t (link_take sync h.after hd (fun hm => by
          rcases h.ready with hr | ⟨m, hr, hr' | ⟨m1, ms, h1, -⟩⟩
          · exact Or.inl hr
          · exact Or.inr ⟨m, hr, Or.inl hr'⟩
          · rw [hm] at h1; simp at h1)) h.bc h.ac
        refine go s' o' false ?_ ⟨u', o'', g2, g3, g4⟩ (by simp) htr'
        rw [hs]
        split at g1
        · next hc => rw [if_pos hc]; cases g1; simp
        · next hc => rw [if_neg hc]; cases g1; simp
      · obtain ⟨t1, o1, e1, e2, e3, e4⟩ := again_flush reg sync
        have hl : Link (MMState.take (s.flush reg).1 x) t1 := by
          refine ⟨?_, ?_, ?_, ?_⟩
          · show s.props = updL t1.props (s.after ++ [])
            rw [List.append_nil, e3, updL_quiet s.after (fun i hi => (h.after i hi).2)]
          · intro i hi
            have hi : i ∈ s.after ++ [] := hi
            rw [List.append_nil] at hi
            exact (h.after i hi).1
          · intro i hi
            have hi : i ∈ ([] : List Item) ++ [x] := hi
            simp at hi; subst hi; exact hd
          · rcases e4 with e4 | ⟨m1, ms', f1, -, f3⟩
            · exact Or.inl e4
            · rw [hms] at f1
              obtain ⟨rfl, rfl⟩ := List.cons.inj f1
              exact Or.inr ⟨m, f3, Or.inr ⟨x, [], rfl, hne⟩⟩
        obtain ⟨s', o', u', o'', g1, g2, g3, g4⟩ := fin (s.flush reg).1 t1 hl rfl (by intro e; exact absurd rfl e)
        refine go s' ((s.flush reg).2 ++ o') false ?_ ⟨u', o1 ++ o'', ?_, ?_, g4⟩ (by simp) htr'
        · rw [hs]
          split at g1
          · next hc => rw [if_pos hc]; cases g1; simp
          · next hc => rw [if_neg hc]; cases g1; simp
        · rw [Pass.feed_append, e1, g2]
        · rw [List.append_assoc, g3, ← List.append_assoc, e2, List.append_assoc]
    · have hd : x.cls.isData = false := by simpa using hd
      by_cases he : Event s.props x
      · -- an item that flushes
        obtain ⟨t', o', e1, e2, e3, e4⟩ := again_flush reg sync
        refine go (afterEvent s x) _ true (mm_event reg s he) ⟨t', o', e1, e2, ?_⟩ (fun _ => rfl) ?_
        · have hq : ∀ i ∈ s.after, ¬ Event t'.props i := by rw [e3]; exact fun i hi => (h.after i hi).2
          have he' : Event t'.props x := by rw [e3]; exact he
          refine ⟨⟨?_, ?_, by simp [afterEvent], ?_⟩, by simp [afterEvent], by simp [afterEvent], by simp [afterEvent],
            fun _ => Or.inr ⟨s.after, x, rfl, hq, he'⟩⟩
          · show upd s.props x = updL t'.props (s.after ++ [x])
            rw [updL_append, updL_quiet s.after hq, e3]; rfl
          · intro i hi
            have hi : i ∈ s.after ++ [x] := hi
            simp at hi
            rcases hi with hi | rfl
            · exact (h.after i hi).1
            · exact hd
          · rcases e4 with e4 | ⟨m1, ms, -, -, f3⟩
            · exact Or.inl e4
            · exact Or.inr ⟨m1, f3, Or.inl (hasEvent_last s.after x hq he')⟩
        · by_cases hk : x.cls.kind = .main
          · simpa [trailing, hk, hd] using htr
          · cases b with
            | true => simpa [trailing, hk] using htr
            | false => exact trailing_mono _ (by simpa [trailing, hk] using htr) _
      · -- any other item
        have hk : x.cls.kind ≠ .main := fun hk => he (Or.inl ⟨hk, hd⟩)
        refine go (afterQuiet s x) [] b (mm_quiet reg s he hd) ⟨t, [], rfl, by simp, ?_⟩ hb ?_
        · refine ⟨⟨h.props, h.before, h.data, h.ready⟩, ?_, h.bc, ?_, h.last⟩
          · intro i hi
            have hi : i ∈ s.after ++ [x] := hi
            simp at hi
            rcases hi with hi | rfl
            · exact h.after i hi
            · exact ⟨hd, he⟩
          · intro hm
            show 1 ≤ if x.cls = .reportCount then x.ival else s.afterCount
            split
            · next hx => exact hc x (by simp) hx
            · exact h.ac hm
        · simpa [trailing, hk] using htr

end

/-- C68, main items.  Merging main items a second time changes nothing, provided no report count is 0 and
the last data item is followed by the start or end of a collection.  Missing, and false of the code:
`C68_zero_count_breaks`, `C68_open_stream_breaks`. -/
theorem C68_main_merge_partial (reg : Registry) (xs : List Item)
    (hc : ∀ i ∈ xs, i.cls = .reportCount → 1 ≤ i.ival) (htr : trailing true xs = true) :
    (Optimizer.mainMerge reg).run ((Optimizer.mainMerge reg).run xs) = (Optimizer.mainMerge reg).run xs := by
  have := mm_again reg xs {} {} ⟨⟨rfl, by simp, by simp, Or.inl ⟨rfl, rfl, by simp, by simp⟩⟩, by simp, rfl, by simp,
    fun _ => Or.inl rfl⟩ true (fun _ => rfl) htr hc
  rw [show held ({} : Optimizer.MMState) = [] from rfl, List.nil_append] at this
  exact this

/-- Three single buttons that become one field of three. -/
example : trailing true [⟨.collection, .int 1⟩, ⟨.reportSize, .int 1⟩, ⟨.reportCount, .int 1⟩, ⟨.usage, .int 0x90001⟩,
      ⟨.input, .int 2⟩, ⟨.usage, .int 0x90002⟩, ⟨.input, .int 2⟩, ⟨.endCollection, .int 0⟩] = true ∧
    keys ((Optimizer.mainMerge []).run [⟨.collection, .int 1⟩, ⟨.reportSize, .int 1⟩, ⟨.reportCount, .int 1⟩,
      ⟨.usage, .int 0x90001⟩, ⟨.input, .int 2⟩, ⟨.usage, .int 0x90002⟩, ⟨.input, .int 2⟩, ⟨.endCollection, .int 0⟩])
      = [(.collection, 1), (.reportSize, 1), (.usage, 0x90001), (.usage, 0x90002), (.reportCount, 2), (.input, 2),
        (.endCollection, 0)] := by decide +kernel

/-- Left out by `C68_main_merge_partial`, and false: a field of count 1 merged with one of count 0 is a field of
count 1, which the second run merges with the next. -/
theorem C68_zero_count_breaks :
    let xs : List Item := [⟨.reportCount, .int 1⟩, ⟨.input, .int 2⟩, ⟨.reportCount, .int 0⟩, ⟨.input, .int 2⟩,
      ⟨.reportCount, .int 1⟩, ⟨.input, .int 2⟩, ⟨.endCollection, .int 0⟩]
    keys ((Optimizer.mainMerge []).run ((Optimizer.mainMerge []).run xs)) ≠ keys ((Optimizer.mainMerge []).run xs) := by
  decide +kernel

/-- Left out by `C68_main_merge_partial`, and false: a data item still held when the stream ends is written
without its count, and takes the count of the merged item before it in the second run. -/
theorem C68_open_stream_breaks :
    let xs : List Item := [⟨.reportCount, .int 1⟩, ⟨.input, .int 2⟩, ⟨.input, .int 2⟩, ⟨.output, .int 2⟩]
    keys ((Optimizer.mainMerge []).run ((Optimizer.mainMerge []).run xs)) ≠ keys ((Optimizer.mainMerge []).run xs) := by
  decide +kernel

/-! ## The whole optimizer -/

/-- False of the code: optimizing an optimized descriptor.  The usages come out of the first run without their
page, and the second run puts them on page 0: a mouse turns into an undefined usage. -/
theorem C68_optimize_twice_breaks :
    let xs : List Item := [⟨.usage, .int 0x10002⟩, ⟨.collection, .int 1⟩, ⟨.endCollection, .int 0⟩]
    keys (Optimizer.optimize [] xs) = [(.usagePage, 1), (.usage, 2), (.collection, 1), (.endCollection, 0)] ∧
    keys (Optimizer.optimize [] (Optimizer.optimize [] xs))
      = [(.usagePage, 1), (.usagePage, 0), (.usage, 2), (.collection, 1), (.endCollection, 0)] ∧
    ∀ rule, meaning rule (keys (Optimizer.optimize [] (Optimizer.optimize [] xs)))
      ≠ meaning rule (keys (Optimizer.optimize [] xs)) := by
  intro xs
  refine ⟨by decide +kernel, by decide +kernel, fun rule => ?_⟩
  cases rule <;> decide +kernel

/-- Nor is the optimizer idempotent with the usage page pass left out: two fields kept apart by physical bounds
are merged by the second run, the bounds being gone. -/
theorem C68_passes_twice_breaks :
    let xs : List Item := [⟨.collection, .int 1⟩, ⟨.reportSize, .int 1⟩, ⟨.logMin, .int 0⟩, ⟨.logMax, .int 1⟩,
      ⟨.reportCount, .int 1⟩, ⟨.input, .int 2⟩, ⟨.logMin, .int 0⟩, ⟨.logMax, .int 1⟩, ⟨.physMin, .int 0⟩,
      ⟨.physMax, .int 1⟩, ⟨.reportCount, .int 1⟩, ⟨.input, .int 2⟩, ⟨.endCollection, .int 0⟩]
    keys ((Optimizer.new [] 10 100 Pass.sink).run ((Optimizer.new [] 10 100 Pass.sink).run xs))
      ≠ keys ((Optimizer.new [] 10 100 Pass.sink).run xs) := by
  decide +kernel

end Hrdc
