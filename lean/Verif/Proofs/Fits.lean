import Verif.Proofs.Made
import Verif.Props.Streams
import Verif.Props.Passes5
/-!
# Items sent on by the optimizer can be encoded
-/
namespace Hrdc
open Spec Optimizer

namespace Item

/-- The value of an item has an encoding. -/
def Small (i : Item) : Prop := Fits i.cls 4 i.ival

end Item

namespace Spec

/-- Number of data items. -/
def dataCount : List SItem → Nat
  | [] => 0
  | k :: ks => (if k.1.isData then 1 else 0) + dataCount ks

/-- Counts that stay below 2^32 when the fields of any of the data items are merged. -/
def CountsSmall (ks : List SItem) : Prop := ∀ k ∈ ks, k.1 = .reportCount → k.2 + dataCount ks ≤ 2 ^ 32

end Spec

theorem small_unsigned {c : Cls} (hc : c.signed = false) {v : Int} : Fits c 4 v ↔ 0 ≤ v ∧ v < 2 ^ 32 := by
  rw [fits_iff c (by simp), hc]
  simp

theorem loc_unsigned {c : Cls} (hc : c.kind = .loc) : c.signed = false ∧ c ≠ .collection := by
  cases c <;> simp [Cls.kind, Cls.signed] at hc ⊢

theorem small_build (reg : Registry) (c : Cls) (v : PyVal) (hs : c.signed = false) (hc : c ≠ .collection)
    (h0 : 0 ≤ v.toInt) (h1 : v.toInt < 2 ^ 32) : (build reg c v).Small := by
  unfold Item.Small
  rw [build_cls, build_ival _ _ _ hc, small_unsigned hs]
  exact ⟨h0, h1⟩

theorem small_up (reg : Registry) (xs : List Item) (hx : ∀ i ∈ xs, i.Small) :
    ∀ i ∈ (usagePage reg).run xs, i.Small := by
  apply Pass.runFrom_all _ Item.Small (fun _ => True)
  · intro st x _ hx
    refine ⟨trivial, ?_⟩
    by_cases hu : usageLike x.cls = true
    · have hl : x.cls.kind = .loc := by
        cases hx : x.cls <;> rw [hx] at hu <;> simp [usageLike] at hu <;> rfl
      have h0 := (small_unsigned (loc_unsigned hl).1).1 hx
      have hsp : (Usage.split (Usage.lookup reg x.val)).1.toInt = x.ival / 65536 := by
        rw [split_fst, lookup_value]; rfl
      have hsu : (Usage.split (Usage.lookup reg x.val)).2.toInt = x.ival % 65536 := by
        rw [split_snd, lookup_value]; rfl
      simp only [hu, if_true]
      intro y hy
      rcases List.mem_append.1 hy with hy | hy
      · split at hy
        · simp at hy
        · simp at hy; subst hy
          exact small_build _ _ _ rfl (by simp) (by omega) (by omega)
      · simp at hy; subst hy
        exact small_build _ _ _ (loc_unsigned hl).1 (loc_unsigned hl).2 (by omega) (by omega)
    · simp only [hu, if_false, Bool.false_eq_true]
      split
      · intro y hy; simp at hy; subst hy; exact hx
      · intro y hy; simp at hy; subst hy; exact hx
  · intro st _ y hy; simp at hy
  · trivial
  · exact hx

theorem small_rm (reg : Registry) (t : RangeTags) (ht : ∀ c ∈ [t.lookup, t.min, t.max], c.kind = .loc)
    (xs : List Item) (hx : ∀ i ∈ xs, i.Small) : ∀ i ∈ (rangeMerge reg t).run xs, i.Small := by
  let L : Option PyVal → Prop := fun o => ∀ v, o = some v → 0 ≤ v.toInt ∧ v.toInt < 2 ^ 32
  let I : RMState → Prop := fun st => (∀ i ∈ st.pending, i.Small) ∧ L st.minValue ∧ L st.maxValue
  have hbuild : ∀ c ∈ [t.lookup, t.min, t.max], ∀ v : PyVal, 0 ≤ v.toInt ∧ v.toInt < 2 ^ 32 → (build reg c v).Small :=
    fun c hc v hv => small_build reg c v (loc_unsigned (ht c hc)).1 (loc_unsigned (ht c hc)).2 hv.1 hv.2
  have hout : ∀ st : RMState, I st → ∀ y ∈ st.out reg t, y.Small := by
    intro st hst y hy
    unfold RMState.out at hy
    split at hy
    · next lo hi hlo hhi =>
      have blo := fun c hc => hbuild c hc lo (hst.2.1 lo hlo)
      have bhi := fun c hc => hbuild c hc hi (hst.2.2 hi hhi)
      split at hy
      · rcases List.mem_append.1 hy with hy | hy
        · exact hst.1 y (List.mem_filter.1 hy).1
        · split at hy
          · simp at hy; subst hy; exact blo _ (by simp)
          · split at hy
            · simp only [List.mem_cons, List.not_mem_nil, or_false] at hy
              rcases hy with rfl | rfl
              · exact blo _ (by simp)
              · exact bhi _ (by simp)
            · simp only [List.mem_cons, List.not_mem_nil, or_false] at hy
              rcases hy with rfl | rfl
              · exact blo _ (by simp)
              · exact bhi _ (by simp)
      · exact hst.1 y hy
    · exact hst.1 y hy
  have hnote : ∀ st x, I st → x.Small → L (RMState.note t st x).minValue ∧
      L (RMState.note t st x).maxValue ∧ (RMState.note t st x).pending = st.pending := by
    intro st x hst hx
    unfold RMState.note
    split
    · next hk =>
      split
      · exact ⟨hst.2.1, hst.2.2, rfl⟩
      · split
        · have hv : L (some x.val) := by
            intro v hv
            cases hv
            exact (small_unsigned (loc_unsigned hk.2).1).1 hx
          split
          · exact ⟨hv, hv, rfl⟩
          · split
            · exact ⟨hst.2.1, hv, rfl⟩
            · exact ⟨hst.2.1, hst.2.2, rfl⟩
        · exact ⟨hst.2.1, hst.2.2, rfl⟩
    · exact ⟨hst.2.1, hst.2.2, rfl⟩
  apply Pass.runFrom_all _ Item.Small I
  · intro st x hst hx
    have hn := hnote st x hst hx
    by_cases hk : x.cls.kind = .main
    · simp only [hk, if_true]
      refine ⟨⟨by intro i hi; simp at hi; subst hi; exact hx, by intro v hv; simp at hv,
        by intro v hv; simp at hv⟩, hout _ ⟨by rw [hn.2.2]; exact hst.1, hn.1, hn.2.1⟩⟩
    · simp only [hk, if_false]
      refine ⟨⟨?_, hn.1, hn.2.1⟩, by simp⟩
      intro i hi
      rcases List.mem_append.1 hi with hi | hi
      · exact hst.1 i hi
      · simp at hi; subst hi; exact hx
  · exact hout
  · exact ⟨by intro i hi; simp at hi, by intro v hv; simp at hv, by intro v hv; simp at hv⟩
  · exact hx

/-- What `MainMerge` holds back when at most `D` data items come in all, and counts are at most `C`. -/
structure MMSmall (C : Int) (st : MMState) : Prop where
  items : ∀ i ∈ st.before ++ st.mains ++ st.after, i.Small
  nonneg : 0 ≤ st.beforeCount ∧ 0 ≤ st.afterCount
  after : st.afterCount = 0 ∨ st.afterCount ≤ C
  before : st.beforeCount = 0 ∨ st.beforeCount ≤ st.mains.length ∧ 1 ≤ C

theorem small_flush (reg : Registry) (C : Int) (st : MMState) (h : MMSmall C st) (hb : st.beforeCount < 2 ^ 32) :
    MMSmall C (st.flush reg).1 ∧ ∀ i ∈ (st.flush reg).2, i.Small := by
  constructor
  · refine ⟨?_, ⟨by simp [MMState.flush], h.nonneg.2⟩, h.after, .inl rfl⟩
    intro i hi
    simp [MMState.flush] at hi
    exact h.items i (by simp [hi])
  · intro i hi
    simp only [MMState.flush, List.mem_append] at hi
    rcases hi with hi | hi
    · exact h.items i (by simp [(List.mem_filter.1 hi).1])
    · cases hm : st.mains with
      | nil => rw [hm] at hi; simp at hi
      | cons m ms =>
        rw [hm] at hi
        simp only [List.mem_cons, List.not_mem_nil, or_false] at hi
        rcases hi with rfl | rfl
        · exact small_build _ _ _ rfl (by simp) h.nonneg.1 hb
        · exact h.items i (by simp [hm])

theorem small_mm (reg : Registry) (D : Nat) (C : Int) (hCD : C + D ≤ 2 ^ 32) : ∀ (xs : List Item) (st : MMState),
    MMSmall C st → st.mains.length + dataCount (keys xs) ≤ D → (∀ i ∈ xs, i.Small) →
    (∀ i ∈ xs, i.cls = .reportCount → i.ival ≤ C) →
    ∀ i ∈ (mainMerge reg).runFrom st xs, i.Small := by
  intro xs
  induction xs with
  | nil => intro st h _ _ _; exact h.items
  | cons x xs ih =>
    intro st hst hD hx hc
    have hxs := hx x (by simp)
    have hbc : ∀ q : MMState, MMSmall C q → (q.mains.length : Int) ≤ D → q.beforeCount < 2 ^ 32 := by
      intro q hq hl
      rcases hq.before with h | h
      · rw [h]; decide
      · omega
    have hl : (st.mains.length : Int) ≤ D := by omega
    have hpush : MMSmall C (MMState.push st x) := by
      refine ⟨?_, hst.nonneg, hst.after, hst.before⟩
      intro i hi
      simp only [MMState.push] at hi
      rw [← List.append_assoc] at hi
      rcases List.mem_append.1 hi with hi | hi
      · exact hst.items i hi
      · simp at hi; subst hi; exact hxs
    have htake : ∀ q : MMState, MMSmall C q → (∀ i ∈ (MMState.take q x).before ++ (MMState.take q x).mains ++
        (MMState.take q x).after, i.Small) := by
      intro q hq i hi
      simp only [MMState.take, List.append_nil, List.mem_append, List.mem_singleton] at hi
      rcases hi with (hi | hi) | hi | hi
      · exact hq.items i (by simp [hi])
      · exact hq.items i (by simp [hi])
      · exact hq.items i (by simp [hi])
      · subst hi; exact hxs
    have fin : ∀ q o, (mainMerge reg).step st x = (q, o) → MMSmall C q → (∀ i ∈ o, i.Small) →
        q.mains.length + dataCount (keys xs) ≤ D → ∀ i ∈ (mainMerge reg).runFrom st (x :: xs), i.Small := by
      intro q o hs hq ho hD' i hi
      rw [Pass.runFrom, hs] at hi
      rcases List.mem_append.1 hi with hi | hi
      · exact ho i hi
      · exact ih q hq hD' (fun i hi => hx i (by simp [hi])) (fun i hi => hc i (by simp [hi])) i hi
    have flushed : ∀ q : MMState, (q.flush reg).1.mains = [] := fun _ => rfl
    by_cases hd : x.cls.isData = true
    · have hD' : st.mains.length + 1 + dataCount (keys xs) ≤ D := by
        simp only [keys, List.map_cons, dataCount, Item.key, hd, if_true] at hD ⊢
        omega
      obtain ⟨q, o, hqo, hst'⟩ := mm_step_data reg st x hd
      have hq : MMSmall C q ∧ (∀ i ∈ o, i.Small) ∧ q.mains.length ≤ st.mains.length := by
        rcases hqo with ⟨rfl, rfl, -⟩ | ⟨rfl, rfl, -⟩
        · exact ⟨hst, by simp, Nat.le_refl _⟩
        · exact ⟨(small_flush reg C st hst (hbc st hst hl)).1, (small_flush reg C st hst (hbc st hst hl)).2,
            by simp [MMState.flush]⟩
      obtain ⟨hq, ho, hql⟩ := hq
      have ha := hq.after
      have hb := hq.before
      have hn := hq.nonneg
      have hlen : (MMState.take q x).mains.length = q.mains.length + 1 := by simp [MMState.take]
      split at hst'
      · next hne =>
        have h0 : 0 ≤ (MMState.take q x).beforeCount ∧ (MMState.take q x).beforeCount < 2 ^ 32 := by
          simp only [MMState.take]
          omega
        refine fin _ _ hst' ?_ ?_ ?_
        · refine ⟨?_, ⟨by simp [MMState.flush], hn.2⟩, ha, .inl rfl⟩
          intro i hi
          simp [MMState.flush, MMState.take] at hi
        · intro i hi
          rcases List.mem_append.1 hi with hi | hi
          · exact ho i hi
          · simp only [MMState.flush, List.mem_append] at hi
            rcases hi with hi | hi
            · exact htake q hq i (by simp [(List.mem_filter.1 hi).1])
            · cases hm : (MMState.take q x).mains with
              | nil => rw [hm] at hi; simp at hi
              | cons m ms =>
                rw [hm] at hi
                simp only [List.mem_cons, List.not_mem_nil, or_false] at hi
                rcases hi with rfl | rfl
                · exact small_build _ _ _ rfl (by simp) h0.1 h0.2
                · exact htake q hq i (by simp [hm])
        · rw [flushed]; simp; omega
      · next hne =>
        have h1 : q.afterCount = 1 := by simpa using hne
        refine fin _ _ hst' ⟨htake q hq, ?_, ha, ?_⟩ ho ?_
        · simp only [MMState.take]; omega
        · right
          rw [hlen]
          simp only [MMState.take]
          omega
        · rw [hlen]; omega
    · have hD' : st.mains.length + dataCount (keys xs) ≤ D := by
        simp only [keys, List.map_cons, dataCount, Item.key, hd, if_false, Bool.false_eq_true] at hD ⊢
        omega
      have hpf := small_flush reg C _ hpush (hbc _ hpush hl)
      cases hk : x.cls.kind with
      | loc => exact fin (MMState.push st x) [] (by simp only [hk]; rfl) hpush (by simp) hD'
      | global =>
        by_cases hw : watched x.cls ∧ st.props x.cls ≠ x.ival
        · have : MMSmall C { MMState.push st x with props := fun c => if c = x.cls then x.ival else st.props c } :=
            ⟨hpush.items, hpush.nonneg, hpush.after, hpush.before⟩
          have hf := small_flush reg C _ this (hbc _ this hl)
          exact fin _ _ (by simp only [hk]; rw [if_pos hw]; rfl) hf.1 hf.2 (by rw [flushed]; simp; omega)
        · by_cases hr : x.cls = .reportCount
          · refine fin { MMState.push st x with afterCount := x.ival } [] (by simp only [hk]; rw [if_neg hw, if_pos hr]; rfl)
              ⟨hpush.items, ⟨hst.nonneg.1, ?_⟩, .inr (hc x (by simp) hr), hst.before⟩ (by simp) hD'
            have : Fits x.cls 4 x.ival := hxs
            rw [hr] at this
            exact ((small_unsigned rfl).1 this).1
          · exact fin (MMState.push st x) [] (by simp only [hk]; rw [if_neg hw, if_neg hr]; rfl) hpush (by simp) hD'
      | main =>
        exact fin _ _ (by simp only [hk, hd, if_false, Bool.false_eq_true]; rfl) hpf.1 hpf.2 (by rw [flushed]; simp; omega)

theorem dataCount_sublist {a b : List SItem} (h : a.Sublist b) : dataCount a ≤ dataCount b := by
  induction h with
  | slnil => exact Nat.le_refl _
  | cons k _ ih => simp only [dataCount]; omega
  | cons_cons k _ ih => simp only [dataCount]; omega

theorem du_sublist : ∀ (xs : List Item) (st : DUState),
    (designatorUniq.runFrom st xs).Sublist (st.pending ++ xs)
  | [], st => by simp [Pass.runFrom]
  | x :: xs, st => by
    have ih := du_sublist xs
    have hold : ∀ t, (designatorUniq.runFrom { pending := st.pending ++ [x], toFilter := t } xs).Sublist
        (st.pending ++ x :: xs) := by
      intro t
      have := ih { pending := st.pending ++ [x], toFilter := t }
      simpa using this
    rw [Pass.runFrom]
    by_cases hk : x.cls.kind = .loc
    · simp only [hk, if_true]
      split
      · split <;> exact hold _
      · exact hold _
    · simp only [hk, if_false]
      have h2 := ih {}
      rw [show st.pending ++ x :: xs = (st.pending ++ [x]) ++ xs by simp]
      refine List.Sublist.append ?_ (by simpa using h2)
      split
      · exact List.eraseIdx_sublist _ _
      · exact List.Sublist.refl _

/-- All items the optimizer sends on have encodings, when those it receives have and counts cannot overflow. -/
theorem optimizer_small (reg : Registry) (min max : Int) (xs : List Item) (h : ∀ i ∈ xs, i.Small)
    (hc : CountsSmall (keys xs)) : ∀ i ∈ (new reg min max Pass.sink).run xs, i.Small := by
  let Q : List Item → Prop := fun ys => ∀ i ∈ ys, i.Small
  have hdu : Q (stage reg min max .designatorUniq xs) ∧ CountsSmall (keys (stage reg min max .designatorUniq xs)) := by
    unfold stage
    split
    · refine ⟨keeps_du _ xs h, ?_⟩
      have hs := du_sublist xs {}
      simp only [List.nil_append] at hs
      have hs' : (keys (designatorUniq.run xs)).Sublist (keys xs) := hs.map _
      intro k hk hr
      have h1 := hc k (hs'.subset hk) hr
      have h2 := dataCount_sublist hs'
      show k.2 + dataCount (keys (designatorUniq.run xs)) ≤ 2 ^ 32
      omega
    · exact ⟨h, hc⟩
  have hmm : Q (stage reg min max .mainMerge (stage reg min max .designatorUniq xs)) := by
    generalize stage reg min max .designatorUniq xs = ys at hdu ⊢
    unfold stage
    split
    · refine small_mm reg (dataCount (keys ys)) (2 ^ 32 - dataCount (keys ys)) (by omega) ys {} ?_ ?_ hdu.1 ?_
      · exact ⟨by simp, by simp, .inl rfl, .inl rfl⟩
      · simp
      · intro i hi hr
        have := hdu.2 i.key (List.mem_map_of_mem hi) hr
        simp only [Item.key] at this
        omega
    · exact hdu.1
  rw [new_run]
  have hall : ∀ p ys, p ≠ .mainMerge → Q ys → Q ((pass reg p).run ys) := by
    intro p ys hp hy
    cases p with
    | designatorUniq => exact keeps_du _ ys hy
    | globalMerge => exact keeps_gm _ ys hy
    | mainMerge => exact absurd rfl hp
    | physicalMerge => exact keeps_pm _ ys hy
    | designatorMerge => exact small_rm reg _ local_desig ys hy
    | stringMerge => exact small_rm reg _ local_str ys hy
    | usageMerge => exact small_rm reg _ local_usage ys hy
    | usagePage => exact small_up reg ys hy
  have hs := fun p (hp : p ≠ PassId.mainMerge) {ys} hy => stage_pres reg min max p Q (hall p · hp) (xs := ys) hy
  exact hs _ (by simp) (hs _ (by simp) (hs _ (by simp) (hs _ (by simp) (hs _ (by simp) (hs _ (by simp) hmm)))))

theorem small_of_binary {l : List Item} {b : List UInt8} (hm : ∀ i ∈ l, i.Made) (h : Formatter.binary l = .ok b) :
    ∀ i ∈ l, i.Small := by
  intro i hi
  exact readAll_fits b.length b (Nat.le_refl _) (readAll_binary hm h) i.key (List.mem_map_of_mem hi)

end Hrdc
