import Verif.Props.Passes4
import Verif.Proofs.MainMerge2
/-!
# Properties of items that survive the passes
-/
namespace Hrdc
open Spec Optimizer

/-- A property of items that holds of the input and is kept by every step holds of the output. -/
theorem Pass.runFrom_all (p : Pass) (P : Item → Prop) (I : p.σ → Prop)
    (hs : ∀ st x, I st → P x → I (p.step st x).1 ∧ ∀ y ∈ (p.step st x).2, P y)
    (hf : ∀ st, I st → ∀ y ∈ p.fin st, P y) (xs : List Item) (st : p.σ) (h0 : I st)
    (hx : ∀ x ∈ xs, P x) : ∀ y ∈ p.runFrom st xs, P y := by
  induction xs generalizing st with
  | nil => exact hf st h0
  | cons x xs ih =>
    intro y hy
    rw [Pass.runFrom_cons] at hy
    have := hs st x h0 (hx x (by simp))
    rcases List.mem_append.1 hy with hy | hy
    · exact this.2 y hy
    · exact ih _ this.1 (fun z hz => hx z (by simp [hz])) y hy

/-- What is relied on about usages: nothing, that they are 32-bit, or that no page but 0 is
selected. -/
inductive Care where
  | any | long | zero

/-- Values of usages. -/
def Care.usageOk : Care → Int → Prop
  | .any, _ => True
  | .long, v => 65536 ≤ v
  | .zero, v => 0 ≤ v

/-- Values of usage pages. -/
def Care.pageOk : Care → Int → Prop
  | .zero, v => v = 0
  | _, _ => True

/-- Items that a pass may rely on: no Push/Pop, and usages as asked. -/
def Tame (m : Care) (i : Item) : Prop :=
  i.cls ≠ .push ∧ i.cls ≠ .pop ∧ (usageLike i.cls = true → m.usageOk i.ival) ∧
    (i.cls = .usagePage → m.pageOk i.ival)

theorem tame_any (xs : List Item) : (∀ i ∈ xs, Tame .any i) ↔ NoPushPop xs := by
  simp [Tame, NoPushPop, Care.usageOk, Care.pageOk]

theorem tame_long (xs : List Item) : (∀ i ∈ xs, Tame .long i) ↔ (NoPushPop xs ∧ LongUsages xs) := by
  constructor
  · intro h
    exact ⟨fun i hi => ⟨(h i hi).1, (h i hi).2.1⟩, fun i hi => (h i hi).2.2.1⟩
  · rintro ⟨h1, h2⟩ i hi
    exact ⟨(h1 i hi).1, (h1 i hi).2, h2 i hi, fun _ => trivial⟩

theorem tame_zero (xs : List Item) :
    (∀ i ∈ xs, Tame .zero i) ↔ (NoPushPop xs ∧ PagelessUsages xs) := by
  constructor
  · intro h
    exact ⟨fun i hi => ⟨(h i hi).1, (h i hi).2.1⟩, fun i hi => (h i hi).2.2⟩
  · rintro ⟨h1, h2⟩ i hi
    exact ⟨(h1 i hi).1, (h1 i hi).2, h2 i hi⟩

/-- Complete usages are one of the two sorts. -/
theorem tame_full {xs : List Item} (hp : NoPushPop xs) (hl : FullUsages xs) :
    ∃ m : Care, m ≠ .any ∧ ∀ i ∈ xs, Tame m i := by
  rcases hl with h | h
  · exact ⟨.long, by simp, (tame_long xs).2 ⟨hp, h⟩⟩
  · exact ⟨.zero, by simp, (tame_zero xs).2 ⟨hp, h⟩⟩

theorem full_tame {m : Care} {xs : List Item} (hm : m ≠ .any) (h : ∀ i ∈ xs, Tame m i) :
    NoPushPop xs ∧ FullUsages xs := by
  cases m with
  | any => exact absurd rfl hm
  | long => exact ⟨((tame_long xs).1 h).1, Or.inl ((tame_long xs).1 h).2⟩
  | zero => exact ⟨((tame_zero xs).1 h).1, Or.inr ((tame_zero xs).1 h).2⟩

theorem keeps_du (P : Item → Prop) (xs : List Item) (hx : ∀ i ∈ xs, P i) :
    ∀ i ∈ designatorUniq.run xs, P i := by
  apply Pass.runFrom_all _ P (fun st : DUState => ∀ i ∈ st.pending, P i)
  · intro st x hst hx
    have hall : ∀ i ∈ st.pending ++ [x], P i := by
      intro i hi
      rcases List.mem_append.1 hi with hi | hi
      · exact hst i hi
      · simp at hi; subst hi; exact hx
    by_cases hk : x.cls.kind = .loc
    · simp only [hk, if_true]
      split
      · split <;> exact ⟨hall, by simp⟩
      · exact ⟨hall, by simp⟩
    · simp only [hk, if_false]
      refine ⟨by simp, ?_⟩
      split
      · intro y hy; exact hall y (List.mem_of_mem_eraseIdx hy)
      · exact hall
  · intro st _ y hy; simp at hy
  · intro i hi; simp at hi
  · exact hx

theorem tame_du (b : Care) (xs : List Item) (hx : ∀ i ∈ xs, Tame b i) :
    ∀ i ∈ designatorUniq.run xs, Tame b i := keeps_du _ xs hx

theorem tame_flush (b : Care) (reg : Registry) (st : MMState)
    (h : ∀ i ∈ st.before ++ st.mains ++ st.after, Tame b i) :
    (∀ i ∈ (st.flush reg).1.before ++ (st.flush reg).1.mains ++ (st.flush reg).1.after, Tame b i) ∧
    ∀ i ∈ (st.flush reg).2, Tame b i := by
  constructor
  · intro i hi
    simp [MMState.flush] at hi
    exact h i (by simp [hi])
  · intro i hi
    simp only [MMState.flush, List.mem_append] at hi
    rcases hi with hi | hi
    · exact h i (by simp [(List.mem_filter.1 hi).1])
    · cases hm : st.mains with
      | nil => rw [hm] at hi; simp at hi
      | cons m ms =>
        rw [hm] at hi
        simp only [List.mem_cons, List.not_mem_nil, or_false] at hi
        rcases hi with rfl | rfl
        · simp [Tame, build_cls, usageLike]
        · exact h i (by simp [hm])

theorem tame_mm (b : Care) (reg : Registry) (xs : List Item) (hx : ∀ i ∈ xs, Tame b i) :
    ∀ i ∈ (mainMerge reg).run xs, Tame b i := by
  apply Pass.runFrom_all _ (Tame b)
    (fun st : MMState => ∀ i ∈ st.before ++ st.mains ++ st.after, Tame b i)
  · intro st x hst hx
    have hpush : ∀ i ∈ st.before ++ st.mains ++ (st.after ++ [x]), Tame b i := by
      intro i hi
      rw [← List.append_assoc] at hi
      rcases List.mem_append.1 hi with hi | hi
      · exact hst i hi
      · simp at hi; subst hi; exact hx
    have htake : ∀ q : MMState, (∀ i ∈ q.before ++ q.mains ++ q.after, Tame b i) →
        ∀ i ∈ (MMState.take q x).before ++ (MMState.take q x).mains ++ (MMState.take q x).after,
          Tame b i := by
      intro q hq i hi
      simp only [MMState.take, List.append_nil, List.mem_append, List.mem_singleton] at hi
      rcases hi with (hi | hi) | hi | hi
      · exact hq i (by simp [hi])
      · exact hq i (by simp [hi])
      · exact hq i (by simp [hi])
      · subst hi; exact hx
    by_cases hd : x.cls.isData = true
    · obtain ⟨q, o, hqo, hst'⟩ := mm_step_data reg st x hd
      have hq : (∀ i ∈ q.before ++ q.mains ++ q.after, Tame b i) ∧ ∀ i ∈ o, Tame b i := by
        rcases hqo with ⟨rfl, rfl, -⟩ | ⟨rfl, rfl, -⟩
        · exact ⟨hst, by simp⟩
        · exact tame_flush b reg st hst
      rw [hst']
      split
      · have := tame_flush b reg _ (htake q hq.1)
        refine ⟨this.1, ?_⟩
        intro y hy
        rcases List.mem_append.1 hy with hy | hy
        · exact hq.2 y hy
        · exact this.2 y hy
      · exact ⟨htake q hq.1, hq.2⟩
    · cases hk : x.cls.kind with
      | loc => simp only [hk]; exact ⟨hpush, by simp⟩
      | global =>
        simp only [hk]
        split
        · exact tame_flush b reg _ hpush
        · split <;> exact ⟨hpush, by simp⟩
      | main =>
        simp only [hk, hd, if_false, Bool.false_eq_true]
        exact tame_flush b reg _ hpush
  · intro st h; exact h
  · intro i hi; simp at hi
  · exact hx

theorem keeps_pm (P : Item → Prop) (xs : List Item) (hx : ∀ i ∈ xs, P i) :
    ∀ i ∈ physicalMerge.run xs, P i := by
  apply Pass.runFrom_all _ P (fun st : PMState => ∀ i ∈ st.pending, P i)
  · intro st x hst hx
    have hall : ∀ i ∈ st.pending ++ [x], P i := by
      intro i hi
      rcases List.mem_append.1 hi with hi | hi
      · exact hst i hi
      · simp at hi; subst hi; exact hx
    by_cases hk : x.cls.kind = .main
    · simp only [hk, if_true]
      refine ⟨by simp, ?_⟩
      split
      · intro y hy
        rcases List.mem_append.1 hy with hy | hy
        · exact hst y (List.mem_filter.1 hy).1
        · simp at hy; subst hy; exact hx
      · exact hall
    · simp only [hk, if_false]
      exact ⟨hall, by simp⟩
  · intro st h; exact h
  · intro i hi; simp at hi
  · exact hx

theorem tame_pm (b : Care) (xs : List Item) (hx : ∀ i ∈ xs, Tame b i) :
    ∀ i ∈ physicalMerge.run xs, Tame b i := keeps_pm _ xs hx

theorem keeps_gm (P : Item → Prop) (xs : List Item) (hx : ∀ i ∈ xs, P i) :
    ∀ i ∈ globalMerge.run xs, P i := by
  apply Pass.runFrom_all _ P (fun _ => True)
  · intro st x _ hx
    refine ⟨trivial, ?_⟩
    by_cases hk : x.cls.kind = .global
    · simp only [hk, if_true]
      intro y hy
      have : ∀ (c : Prop) [Decidable c], y ∈ (if c then [x] else []) → y = x := by
        intro c _ h; split at h <;> simp at h; exact h
      rw [this _ hy]; exact hx
    · simp only [hk, if_false]
      intro y hy; simp at hy; subst hy; exact hx
  · intro st _ y hy; simp at hy
  · trivial
  · exact hx

theorem tame_gm (b : Care) (xs : List Item) (hx : ∀ i ∈ xs, Tame b i) :
    ∀ i ∈ globalMerge.run xs, Tame b i := keeps_gm _ xs hx

/-- The tags of a range belong together. -/
def RangeTags.Uniform (t : RangeTags) : Prop :=
  (∀ c ∈ [t.lookup, t.min, t.max], c ≠ .push ∧ c ≠ .pop ∧ c ≠ .collection ∧ c ≠ .usagePage) ∧
  usageLike t.min = usageLike t.lookup ∧ usageLike t.max = usageLike t.lookup

theorem tame_rm (b : Care) (reg : Registry) (t : RangeTags) (ht : RangeTags.Uniform t)
    (xs : List Item) (hx : ∀ i ∈ xs, Tame b i) : ∀ i ∈ (rangeMerge reg t).run xs, Tame b i := by
  obtain ⟨htags, htmin, htmax⟩ := ht
  let L : Option PyVal → Prop := fun o =>
    ∀ v, o = some v → usageLike t.lookup = true → b.usageOk v.toInt
  let I : RMState → Prop := fun st => (∀ i ∈ st.pending, Tame b i) ∧ L st.minValue ∧ L st.maxValue
  have hbuild : ∀ c ∈ [t.lookup, t.min, t.max], ∀ v : PyVal,
      (usageLike t.lookup = true → b.usageOk v.toInt) → Tame b (build reg c v) := by
    intro c hc v hv
    have h3 := htags c hc
    refine ⟨by rw [build_cls]; exact h3.1, by rw [build_cls]; exact h3.2.1, ?_,
      by rw [build_cls]; intro h; exact absurd h h3.2.2.2⟩
    rw [build_cls, build_ival _ _ _ h3.2.2.1]
    intro hu
    apply hv
    simp only [List.mem_cons, List.not_mem_nil, or_false] at hc
    rcases hc with rfl | rfl | rfl
    · exact hu
    · rw [← htmin]; exact hu
    · rw [← htmax]; exact hu
  have hout : ∀ st : RMState, I st → ∀ y ∈ st.out reg t, Tame b y := by
    intro st hst y hy
    unfold RMState.out at hy
    split at hy
    · next lo hi hlo hhi =>
      have blo := fun c hc => hbuild c hc lo (hst.2.1 lo hlo)
      have bhi := fun c hc => hbuild c hc hi (hst.2.2 hi hhi)
      split at hy
      · rcases List.mem_append.1 hy with hy | hy
        · exact hst.1 y (List.mem_filter.1 hy).1
        · split at hy
          · simp at hy; subst hy; exact blo _ (by simp)
          · split at hy
            · simp only [List.mem_cons, List.not_mem_nil, or_false] at hy
              rcases hy with rfl | rfl
              · exact blo _ (by simp)
              · exact bhi _ (by simp)
            · simp only [List.mem_cons, List.not_mem_nil, or_false] at hy
              rcases hy with rfl | rfl
              · exact blo _ (by simp)
              · exact bhi _ (by simp)
      · exact hst.1 y hy
    · exact hst.1 y hy
  have hnote : ∀ st x, I st → Tame b x → L (RMState.note t st x).minValue ∧
      L (RMState.note t st x).maxValue ∧ (RMState.note t st x).pending = st.pending := by
    intro st x hst hx
    unfold RMState.note
    split
    · split
      · exact ⟨hst.2.1, hst.2.2, rfl⟩
      · split
        · next hlk =>
          have hv : L (some x.val) := by
            intro v hv hu
            cases hv
            exact hx.2.2.1 (by rw [hlk]; exact hu)
          split
          · exact ⟨hv, hv, rfl⟩
          · split
            · exact ⟨hst.2.1, hv, rfl⟩
            · exact ⟨hst.2.1, hst.2.2, rfl⟩
        · exact ⟨hst.2.1, hst.2.2, rfl⟩
    · exact ⟨hst.2.1, hst.2.2, rfl⟩
  apply Pass.runFrom_all _ (Tame b) I
  · intro st x hst hx
    have hn := hnote st x hst hx
    by_cases hk : x.cls.kind = .main
    · simp only [hk, if_true]
      refine ⟨⟨by intro i hi; simp at hi; subst hi; exact hx, by intro v hv; simp at hv,
        by intro v hv; simp at hv⟩, hout _ ⟨by rw [hn.2.2]; exact hst.1, hn.1, hn.2.1⟩⟩
    · simp only [hk, if_false]
      refine ⟨⟨?_, hn.1, hn.2.1⟩, by simp⟩
      intro i hi
      rcases List.mem_append.1 hi with hi | hi
      · exact hst.1 i hi
      · simp at hi; subst hi; exact hx
  · exact hout
  · exact ⟨by intro i hi; simp at hi, by intro v hv; simp at hv, by intro v hv; simp at hv⟩
  · exact hx

theorem uniform_str : RangeTags.Uniform strTags := by
  unfold RangeTags.Uniform; exact ⟨by decide, rfl, rfl⟩
theorem uniform_desig : RangeTags.Uniform desigTags := by
  unfold RangeTags.Uniform; exact ⟨by decide, rfl, rfl⟩
theorem uniform_usage : RangeTags.Uniform usageTags := by
  unfold RangeTags.Uniform; exact ⟨by decide, rfl, rfl⟩

theorem tame_up (reg : Registry) (xs : List Item) (hx : NoPushPop xs) :
    NoPushPop ((usagePage reg).run xs) := by
  apply Pass.runFrom_all _ (fun i => i.cls ≠ .push ∧ i.cls ≠ .pop) (fun _ => True)
  · intro st x _ hx
    refine ⟨trivial, ?_⟩
    by_cases hu : usageLike x.cls = true
    · simp only [hu, if_true]
      intro y hy
      rcases List.mem_append.1 hy with hy | hy
      · split at hy
        · simp at hy
        · simp at hy; subst hy; simp [build_cls]
      · simp at hy; subst hy; rw [build_cls]; exact hx
    · simp only [hu, if_false, Bool.false_eq_true]
      split
      · intro y hy; simp at hy; subst hy; exact hx
      · intro y hy; simp at hy; subst hy; exact hx
  · intro st _ y hy; simp at hy
  · trivial
  · exact hx

/-! ## `DesignatorUniq` without index 0 -/

theorem dropDesig_eq {xs ys : List Item} (h : DropDesig xs ys) (h0 : ∀ i ∈ xs, isDesig0 i = false) :
    ys = xs := by
  induction h with
  | nil => rfl
  | keep x _ ih => rw [ih (fun i hi => h0 i (by simp [hi]))]
  | drop x hx _ _ => rw [h0 x (by simp)] at hx; exact absurd hx (by decide)

/-- Without `DesignatorIndex(0)`, the pass only drops trailing local items. -/
theorem du_eq (xs : List Item) (h0 : ∀ i ∈ xs, isDesig0 i = false) :
    ∃ tail, (∀ i ∈ tail, i.cls.kind = .loc) ∧ xs = designatorUniq.run xs ++ tail := by
  obtain ⟨tail, ht, hd⟩ := designatorUniq_drops {} xs (by simp) (by simp)
  exact ⟨tail, ht, (dropDesig_eq hd h0).symm⟩

theorem trailing_tail (b : Bool) (xs tail : List Item) (ht : ∀ i ∈ tail, i.cls.kind = .loc) :
    trailing b (xs ++ tail) = trailing b xs := by
  induction xs generalizing b with
  | nil =>
    induction tail with
    | nil => rfl
    | cons x t ih =>
      simp only [List.nil_append, trailing] at ih ⊢
      rw [ht x (by simp)]
      exact ih (fun i hi => ht i (by simp [hi]))
  | cons x xs ih => simp only [List.cons_append, trailing]; exact ih _

theorem rangesClosed_prefix (rule : PageRule) (h : Host) (xs ys : List SItem)
    (hc : rangesClosed rule h (xs ++ ys) = true) : rangesClosed rule h xs = true := by
  induction xs generalizing h with
  | nil => rfl
  | cons x xs ih =>
    simp only [List.cons_append, rangesClosed, Bool.and_eq_true] at hc ⊢
    exact ⟨hc.1, ih _ hc.2⟩

theorem recs_tail (rule : PageRule) (h : Host) (xs tail : List Item)
    (ht : ∀ i ∈ tail, i.cls.kind = .loc) :
    recs rule h (keys (xs ++ tail)) = recs rule h (keys xs) := by
  rw [keys_append, recs_append, recs_no_main _ _ (keys tail), List.append_nil]
  intro i hi
  obtain ⟨j, hj, rfl⟩ := mem_keys.1 hi
  simp [ht j hj]

theorem physSafe_prefix (m : PhysMode) (s : Bounds) (xs ys : List Item)
    (hc : physSafe m s (xs ++ ys) = true) : physSafe m s xs = true := by
  induction xs generalizing m s with
  | nil => rfl
  | cons x xs ih =>
    simp only [List.cons_append, physSafe] at hc ⊢
    split
    · next hk =>
      simp only [hk, if_true] at hc
      split
      · next hn => rw [hn] at hc; exact hc
      · next m' hn => rw [hn] at hc; exact ih _ _ hc
    · next hk =>
      simp only [hk, if_false] at hc
      split
      · next hg => rw [if_pos hg] at hc; exact ih _ _ hc
      · next hg => rw [if_neg hg] at hc; exact ih _ _ hc

/-! ## `MainMerge` and physical bounds -/

theorem physNext_join (m m1 m2 : PhysMode) (s s1 : Bounds)
    (h1 : physNext m s = some m1) (h2 : physNext m1 s1 = some m2)
    (hc : ∀ c v w, rangeTag c = true → s c = some v → s1 c = some w → v = w) :
    physNext m (fun c => (s1 c).or (s c)) = some m2 := by
  have a1 := fun v w => hc .physMin v w rfl
  have a2 := fun v w => hc .physMax v w rfl
  have a3 := fun v w => hc .logMin v w rfl
  have a4 := fun v w => hc .logMax v w rfl
  unfold physNext at *
  cases e1 : s .physMin <;> cases e2 : s .physMax <;> cases e3 : s .logMin <;> cases e4 : s .logMax <;>
    cases f1 : s1 .physMin <;> cases f2 : s1 .physMax <;> cases f3 : s1 .logMin <;>
    cases f4 : s1 .logMax <;> simp only [e1, e2, e3, e4, f1, f2, f3, f4] at * <;> grind

/-- One item of `physSafe`. -/
def physStep (st : Option (PhysMode × Bounds)) (i : Item) : Option (PhysMode × Bounds) :=
  match st with
  | none => none
  | some (m, s) =>
    if i.cls.kind = .main then (physNext m s).map (fun m' => (m', fun _ => none))
    else if i.cls.kind = .global ∧ rangeTag i.cls then
      some (m, fun c => if c = i.cls then some i.ival else s c)
    else some (m, s)

/-- Several items. -/
def physFold (st : Option (PhysMode × Bounds)) (xs : List Item) : Option (PhysMode × Bounds) :=
  xs.foldl physStep st

@[simp] theorem physFold_nil (st : Option (PhysMode × Bounds)) : physFold st [] = st := rfl
@[simp] theorem physFold_cons (st : Option (PhysMode × Bounds)) (x : Item) (xs : List Item) :
    physFold st (x :: xs) = physFold (physStep st x) xs := rfl
theorem physFold_append (st : Option (PhysMode × Bounds)) (xs ys : List Item) :
    physFold st (xs ++ ys) = physFold (physFold st xs) ys := by simp [physFold]
@[simp] theorem physFold_none (xs : List Item) : physFold none xs = none := by
  induction xs with
  | nil => rfl
  | cons x xs ih => exact ih

theorem physSafe_fold (m : PhysMode) (s : Bounds) (xs : List Item) :
    physSafe m s xs = (physFold (some (m, s)) xs).isSome := by
  induction xs generalizing m s with
  | nil => rfl
  | cons x xs ih =>
    simp only [physSafe, physFold_cons, physStep]
    split
    · cases physNext m s with
      | none => simp
      | some m' => simp [ih]
    · split
      · rw [ih]
      · rw [ih]

theorem physStep_rc (st : Option (PhysMode × Bounds)) (i : Item) (hc : i.cls = .reportCount) :
    physStep st i = st := by
  unfold physStep
  cases st with
  | none => rfl
  | some a => simp [hc, Cls.kind, rangeTag]

theorem physFold_filter (st : Option (PhysMode × Bounds)) (xs : List Item) :
    physFold st (xs.filter notCount) = physFold st xs := by
  induction xs generalizing st with
  | nil => rfl
  | cons x xs ih =>
    by_cases hn : notCount x = true
    · rw [List.filter_cons_of_pos hn, physFold_cons, physFold_cons, ih]
    · rw [List.filter_cons_of_neg hn, physFold_cons, ih, physStep_rc]
      by_cases hc : x.cls = .reportCount
      · exact hc
      · exact absurd ((notCount_iff x).2 hc) hn

/-- Items still to be sent on. -/
def MMState.all (p : MMState) : List Item := p.before ++ p.mains.take 1 ++ p.after

theorem physFold_flush (reg : Registry) (q : MMState) (st : Option (PhysMode × Bounds)) :
    physFold (physFold st (q.flush reg).2) (MMState.all (q.flush reg).1)
      = physFold st (MMState.all q) := by
  unfold MMState.all MMState.flush
  cases q.mains with
  | nil => simp [physFold_append, physFold_filter]
  | cons m ms =>
    simp only [List.take, physFold_append, physFold_filter, physFold_cons, physFold_nil,
      physStep_rc _ _ (build_cls reg .reportCount _), List.append_nil]

/-- Bounds set agree with the values the pass has recorded. -/
def Agrees (p : MMState) (st : Option (PhysMode × Bounds)) : Prop :=
  ∀ m s c v, rangeTag c = true → st = some (m, s) → s c = some v → p.props c = v

theorem physFold_bounds (m : PhysMode) (s : Bounds) (xs : List Item)
    (hx : ∀ i ∈ xs, i.cls.kind ≠ .main) : physFold (some (m, s)) xs = some (m, bounds s xs) := by
  induction xs generalizing s with
  | nil => rfl
  | cons x xs ih =>
    rw [physFold_cons]
    simp only [physStep, hx x (by simp), if_false]
    have hx' := fun i hi => hx i (List.mem_cons_of_mem _ hi)
    split
    · next h => rw [ih _ hx']; simp [bounds, h]
    · next h => rw [ih _ hx']; simp only [bounds, List.foldl_cons, h, if_false]

theorem bounds_or (s : Bounds) (xs : List Item) :
    bounds s xs = fun c => (bounds (fun _ => none) xs c).or (s c) := by
  have : ∀ t : Bounds, bounds (fun c => (t c).or (s c)) xs = fun c => (bounds t xs c).or (s c) := by
    induction xs with
    | nil => intro t; rfl
    | cons x xs ih =>
      intro t
      simp only [bounds, List.foldl_cons] at ih ⊢
      split
      · next h =>
        rw [← ih]
        congr 1
        funext c
        by_cases hc : c = x.cls <;> simp [hc]
      · exact ih t
  have h := this (fun _ => none)
  simpa using h

theorem mm_phys (reg : Registry) (xs : List Item) (p : MMState) (st : Option (PhysMode × Bounds))
    (hA : Agrees p (physFold st (MMState.all p)))
    (hB : p.mains ≠ [] → Agrees p (physFold st p.before))
    (hm : ∀ i ∈ p.mains, i.cls.isData = true) (ha : p.mains ≠ [] → ∀ i ∈ p.after, i.cls.kind ≠ .main)
    (htr : trailing p.mains.isEmpty xs = true)
    (r : PhysMode × Bounds) (hr : physFold st (MMState.all p ++ xs) = some r) :
    physFold st ((mainMerge reg).runFrom p xs) = some r := by
  induction xs generalizing p st with
  | nil =>
    simp only [trailing, List.isEmpty_iff] at htr
    rw [Pass.runFrom_nil]
    show physFold st (p.before ++ p.mains ++ p.after) = _
    rw [← hr]
    simp [MMState.all, htr]
  | cons x xs ih =>
    -- flush with nothing new in `mains`
    have useFlush : ∀ (q : MMState) (st : Option (PhysMode × Bounds)),
        Agrees q (physFold st (MMState.all q)) →
        trailing true xs = true → physFold st (MMState.all q ++ xs) = some r →
        physFold st ((q.flush reg).2 ++ (mainMerge reg).runFrom (q.flush reg).1 xs) = some r := by
      intro q st h1 h2 h3
      rw [physFold_append]
      apply ih
      · rw [physFold_flush]; exact h1
      · intro h; exact absurd rfl h
      · intro i hi; simp [MMState.flush] at hi
      · intro h; exact absurd rfl h
      · exact h2
      · rw [physFold_append, physFold_flush, ← physFold_append]; exact h3
    rw [Pass.runFrom_cons]
    by_cases hd : x.cls.isData = true
    · have hk := isData_kind hd
      have htr' : trailing false xs = true := by simpa [trailing, hk, hd] using htr
      -- taking in the item
      have fin : ∀ (q : MMState) (st : Option (PhysMode × Bounds)),
          (∀ i ∈ q.mains, i.cls.isData = true) →
          (q.mains ≠ [] → ∀ i ∈ q.after, i.cls.kind ≠ .main) →
          Agrees q (physFold st (MMState.all q)) →
          (q.mains ≠ [] → Agrees q (physFold st q.before)) →
          physFold st (MMState.all q ++ x :: xs) = some r →
          physFold st (if q.afterCount ≠ 1 then ((MMState.take q x).flush reg).2 ++
              (mainMerge reg).runFrom ((MMState.take q x).flush reg).1 xs
            else (mainMerge reg).runFrom (MMState.take q x) xs) = some r := by
        intro q st hqm hqa hqA hqB hqr
        have hbefore : Agrees q (physFold st (q.before ++ q.after)) ∧
            physFold st (MMState.all (MMState.take q x)) = physFold st (MMState.all q ++ [x]) := by
          cases hms : q.mains with
          | nil =>
            have e : MMState.all q = q.before ++ q.after := by simp [MMState.all, hms]
            refine ⟨by rw [← e]; exact hqA, ?_⟩
            simp [MMState.all, MMState.take, hms]
          | cons m ms =>
            have hmk := isData_kind (hqm m (by simp [hms]))
            have e : MMState.all q = q.before ++ [m] ++ q.after := by simp [MMState.all, hms]
            have e2 : MMState.all (MMState.take q x) = q.before ++ q.after ++ [m] := by
              simp [MMState.all, MMState.take, hms]
            have hqa' := hqa (by simp [hms])
            have hqB' := hqB (by simp [hms])
            rw [e2]
            rw [e] at hqA hqr ⊢
            cases hb : physFold st q.before with
            | none =>
              exfalso
              have hno : physFold st (q.before ++ [m] ++ q.after ++ x :: xs) = none := by
                simp [physFold_append, hb, physStep]
              rw [hno] at hqr; exact absurd hqr (by simp)
            | some ms0 =>
              obtain ⟨m0, s0⟩ := ms0
              simp only [physFold_append, hb, physFold_cons, physFold_nil] at hqA hqr ⊢
              rw [hb] at hqB'
              rw [physFold_bounds m0 s0 _ hqa', bounds_or s0]
              simp only [physStep, hmk, hk, if_true] at hqA hqr ⊢
              cases hn : physNext m0 s0 with
              | none => simp [hn] at hqr
              | some m1 =>
                simp only [hn, Option.map_some] at hqA hqr ⊢
                rw [physFold_bounds m1 _ _ hqa'] at hqA hqr ⊢
                simp only at hqr ⊢
                have hor : Agrees q (some (m0, fun c => (bounds (fun _ => none) q.after c).or (s0 c))) := by
                  intro m s c v hrc h hv
                  cases h
                  simp only at hv
                  cases hbc : bounds (fun _ => none) q.after c with
                  | none => rw [hbc] at hv; exact hqB' m0 s0 c v hrc rfl (by simpa using hv)
                  | some w =>
                    rw [hbc] at hv
                    simp at hv
                    subst hv
                    exact hqA m1 _ c w hrc rfl hbc
                refine ⟨hor, ?_⟩
                cases hn2 : physNext m1 (bounds (fun _ => none) q.after) with
                | none => simp [hn2] at hqr
                | some m2 =>
                  have := physNext_join m0 m1 m2 s0 _ hn hn2 (by
                    intro c v w hrc hv hw
                    rw [← hqB' m0 s0 c v hrc rfl hv, ← hqA m1 _ c w hrc rfl hw])
                  rw [this]
        have hr' : physFold st (MMState.all (MMState.take q x) ++ xs) = some r := by
          rw [physFold_append, hbefore.2, ← physFold_append]
          simpa using hqr
        have hAt : Agrees (MMState.take q x) (physFold st (MMState.all (MMState.take q x))) := by
          rw [hbefore.2, physFold_append]
          intro m s c v hrc h hv
          exfalso
          simp only [physFold_cons, physFold_nil] at h
          cases hpf : physFold st (MMState.all q) with
          | none => rw [hpf] at h; simp [physStep] at h
          | some a =>
            rw [hpf] at h
            simp only [physStep, hk, if_true, Option.map_eq_some_iff, Prod.mk.injEq] at h
            obtain ⟨_, _, _, h2⟩ := h
            rw [← h2] at hv
            simp at hv
        split
        · exact useFlush _ _ hAt (trailing_mono _ htr' _) hr'
        · refine ih (MMState.take q x) st hAt (fun _ => hbefore.1) ?_ (by simp [MMState.take])
            (trailing_mono _ htr' _) hr'
          intro i hi
          rcases List.mem_append.1 hi with hi | hi
          · exact hqm i hi
          · simp at hi; subst hi; exact hd
      obtain ⟨q, o, hqo, hstep⟩ := mm_step_data reg p x hd
      rcases hqo with ⟨rfl, rfl, -⟩ | ⟨rfl, rfl, -⟩
      · have := fin q st hm ha hA hB hr
        rw [hstep]
        split
        · next h => rw [if_pos h] at this; simpa using this
        · next h => rw [if_neg h] at this; simpa using this
      · have := fin (p.flush reg).1 (physFold st (p.flush reg).2) (by simp [MMState.flush])
          (fun h => absurd rfl h) (by rw [physFold_flush]; exact hA) (fun h => absurd rfl h)
          (by rw [physFold_append, physFold_flush, ← physFold_append]; exact hr)
        rw [hstep]
        split
        · next h =>
          rw [if_pos h] at this
          simp only [List.append_assoc]
          rw [physFold_append]; exact this
        · next h =>
          rw [if_neg h] at this
          rw [physFold_append]; exact this
    · have hd' : x.cls.isData = false := by simpa using hd
      have hr' : physFold st (MMState.all (MMState.push p x) ++ xs) = some r := by
        simpa [MMState.all, MMState.push] using hr
      have hpa : physFold st (MMState.all (MMState.push p x))
          = physStep (physFold st (MMState.all p)) x := by
        simp [MMState.all, MMState.push, physFold_append]
      by_cases hf : (x.cls.kind = .main ∧ x.cls.isData = false) ∨
          (x.cls.kind = .global ∧ watched x.cls = true ∧ p.props x.cls ≠ x.ival)
      · obtain ⟨props, hs, hprops⟩ := mm_step_flush reg p x hf
        rw [hs]
        refine useFlush _ st ?_ ?_ hr'
        · show Agrees _ (physFold st (MMState.all (MMState.push p x)))
          rw [hpa]
          intro m s c v hrc h hv
          show props c = v
          rw [hprops]
          cases hpf : physFold st (MMState.all p) with
          | none => rw [hpf] at h; simp [physStep] at h
          | some a =>
            obtain ⟨m0, s0⟩ := a
            rw [hpf] at h hA
            rcases hf with ⟨hk, -⟩ | ⟨hk, hw, -⟩
            · exfalso
              unfold physStep at h
              simp only at h
              rw [if_pos hk] at h
              simp only [Option.map_eq_some_iff, Prod.mk.injEq] at h
              obtain ⟨_, _, _, h2⟩ := h
              rw [← h2] at hv
              simp at hv
            · have hnm : ¬ x.cls.kind = .main := by rw [hk]; decide
              unfold physStep at h
              simp only at h
              rw [if_neg hnm] at h
              split at h
              · simp only [Option.some.injEq, Prod.mk.injEq] at h
                obtain ⟨rfl, rfl⟩ := h
                simp only at hv
                by_cases hc : c = x.cls
                · simp [hc] at hv; simp [hc, hk, hv]
                · simp only [hc, if_false] at hv
                  simp only [hc, and_false, if_false]
                  exact hA m0 s0 c v hrc rfl hv
              · next hrt =>
                simp only [Option.some.injEq, Prod.mk.injEq] at h
                obtain ⟨rfl, rfl⟩ := h
                by_cases hc : c = x.cls
                · exact absurd ⟨hk, by rw [← hc]; exact hrc⟩ hrt
                · simp only [hc, and_false, if_false]
                  exact hA m0 s0 c v hrc rfl hv
        · rcases hf with ⟨hk, -⟩ | ⟨hk, -⟩
          · simpa [trailing, hk, hd'] using htr
          · have : trailing p.mains.isEmpty xs = true := by
              simpa [trailing, hk] using htr
            cases hb : p.mains.isEmpty with
            | true => rw [hb] at this; exact this
            | false => rw [hb] at this; exact trailing_mono _ this _
      · have hk : ¬ x.cls.kind = .main := fun h => hf (Or.inl ⟨h, hd'⟩)
        have hw : ¬ (watched x.cls = true ∧ p.props x.cls ≠ x.ival) := by
          intro hh
          apply hf
          right
          refine ⟨?_, hh⟩
          have hh1 := hh.1
          cases hc : x.cls <;> rw [hc] at hh1 <;> simp [watched] at hh1 <;> rfl
        have htr' : trailing p.mains.isEmpty xs = true := by simpa [trailing, hk] using htr
        have hA' : Agrees (MMState.push p x) (physFold st (MMState.all (MMState.push p x))) := by
          rw [hpa]
          intro m s c v hrc h hv
          show p.props c = v
          cases hpf : physFold st (MMState.all p) with
          | none => rw [hpf] at h; simp [physStep] at h
          | some a =>
            obtain ⟨m0, s0⟩ := a
            rw [hpf] at h hA
            unfold physStep at h
            simp only at h
            rw [if_neg hk] at h
            split at h
            · next hrt =>
              simp only [Option.some.injEq, Prod.mk.injEq] at h
              obtain ⟨rfl, rfl⟩ := h
              simp only at hv
              by_cases hc : c = x.cls
              · simp only [hc, if_true, Option.some.injEq] at hv
                subst hc
                have hwc : watched x.cls = true := by
                  have h1 := hrt.2
                  cases hc : x.cls <;> rw [hc] at h1 <;> simp [rangeTag] at h1 <;> rfl
                by_cases he : p.props x.cls = x.ival
                · rw [he, hv]
                · exact absurd ⟨hwc, he⟩ hw
              · simp only [hc, if_false] at hv
                exact hA m0 s0 c v hrc rfl hv
            · simp only [Option.some.injEq, Prod.mk.injEq] at h
              obtain ⟨rfl, rfl⟩ := h
              exact hA m0 s0 c v hrc rfl hv
        have ha' : p.mains ≠ [] → ∀ i ∈ p.after ++ [x], i.cls.kind ≠ .main := by
          intro hne i hi
          rcases List.mem_append.1 hi with hi | hi
          · exact ha hne i hi
          · simp at hi; subst hi; exact hk
        by_cases hrc : x.cls = .reportCount
        · rw [mm_step_rc reg p x hrc]
          exact ih (MMState.pushRC p x) st hA' hB hm ha' htr' hr'
        · rw [mm_step_quiet reg p x hk hw hrc]
          exact ih (MMState.push p x) st hA' hB hm ha' htr' hr'

/-- `MainMerge` keeps streams safe for `PhysicalMerge`. -/
theorem physSafe_mm (reg : Registry) (xs : List Item) (htr : trailing true xs = true)
    (hs : physSafe .zero (fun _ => none) xs = true) :
    physSafe .zero (fun _ => none) ((mainMerge reg).run xs) = true := by
  rw [physSafe_fold] at hs ⊢
  obtain ⟨r, hr⟩ := Option.isSome_iff_exists.1 hs
  have := mm_phys reg xs {} (some (.zero, fun _ => none)) (by
      intro m s c v _ h hv
      simp [MMState.all] at h
      rw [← h.2] at hv; simp at hv) (fun h => absurd rfl h) (by simp) (fun h => absurd rfl h) htr r
    (by simpa [MMState.all] using hr)
  rw [show (mainMerge reg).run xs = (mainMerge reg).runFrom {} xs from rfl, this]
  rfl

end Hrdc
