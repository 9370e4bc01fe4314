import Verif.Props.Passes5
/-!
# Encoded size of optimized streams
-/
namespace Hrdc
open Spec Item Optimizer

/-- Bytes an item takes. -/
def weight (i : Item) : Nat := 1 + payloadLen i.sizeCode

/-- Bytes a list of items takes. -/
def total (l : List Item) : Nat := (l.map weight).sum

/-- Bytes an unsigned value takes, header included. -/
def uw (v : Int) : Nat := if v.toNat < 256 then 2 else if v.toNat < 65536 then 3 else 5

@[simp] theorem total_nil : total [] = 0 := rfl
@[simp] theorem total_cons (i : Item) (l : List Item) : total (i :: l) = weight i + total l := by
  simp [total]
@[simp] theorem total_append (a b : List Item) : total (a ++ b) = total a + total b := by
  simp [total]

theorem total_filter (p : Item → Bool) (l : List Item) :
    total (l.filter p) + total (l.filter (fun i => !p i)) = total l := by
  induction l with
  | nil => rfl
  | cons x l ih =>
    cases h : p x <;> simp [h] <;> omega

theorem total_filter_le (p : Item → Bool) (l : List Item) : total (l.filter p) ≤ total l := by
  have := total_filter p l
  omega

theorem total_eraseIdx_le (k : Nat) (l : List Item) : total (l.eraseIdx k) ≤ total l := by
  induction l generalizing k with
  | nil => simp
  | cons x l ih =>
    cases k with
    | zero => simp
    | succ k => simp only [List.eraseIdx_cons_succ, total_cons]; have := ih k; omega

theorem bytes_weight {i : Item} {b : List UInt8} (h : i.bytes = .ok b) : b.length = weight i := by
  unfold Item.bytes at h
  split at h
  · simp at h
  · simp only at h
    unfold weight
    split at h
    · next h0 =>
      rw [h0]
      simp only [Except.ok.injEq] at h
      subst h; rfl
    · split at h
      · next p hp =>
        simp only [Except.ok.injEq] at h
        subst h
        have : p.length = payloadLen i.sizeCode := by
          unfold pack at hp
          split at hp <;> split at hp <;> first | (cases hp; exact leBytes_length _ _) | simp at hp
        simp [this]; omega
      · simp at h

theorem binary_total {l : List Item} {b : List UInt8} (h : Formatter.binary l = .ok b) : b.length = total l := by
  induction l generalizing b with
  | nil => unfold Formatter.binary at h; simp only [Except.ok.injEq] at h; subst h; rfl
  | cons i l ih =>
    obtain ⟨b1, b2, h1, h2, rfl⟩ := binary_ok h
    simp [bytes_weight h1, ih h2]

theorem weight_unsigned {i : Item} (hs : i.cls.signed = false) (ho : i.cls.optionalValue = false) :
    weight i = uw i.ival := by
  unfold weight uw sizeCode bitCount
  simp only [hs, ho, Bool.false_and, Bool.false_eq_true, if_false, and_false]
  by_cases h0 : i.ival.toNat = 0
  · simp only [h0, ne_eq, not_true, if_false]
    cases i.val.truthy <;> simp [payloadLen]
  · simp only [h0, ne_eq, not_false_eq_true, if_true]
    have h8 := Nat.log2_lt (n := i.ival.toNat) (k := 8) h0
    have h16 := Nat.log2_lt (n := i.ival.toNat) (k := 16) h0
    by_cases a : i.ival.toNat < 256
    · have := h8.2 a
      rw [if_pos (by omega), if_pos a]; rfl
    · have n8 : ¬ i.ival.toNat.log2 < 8 := fun h => a (h8.1 h)
      rw [if_neg (by omega), if_neg a]
      by_cases b : i.ival.toNat < 65536
      · have := h16.2 b
        rw [if_pos (by omega), if_pos b]; rfl
      · have n16 : ¬ i.ival.toNat.log2 < 16 := fun h => b (h16.1 h)
        rw [if_neg (by omega), if_neg b]; rfl

theorem weight_build (reg : Registry) (c : Cls) (v : PyVal) (hd : c ≠ .collection) (hs : c.signed = false)
    (ho : c.optionalValue = false) : weight (build reg c v) = uw v.toInt := by
  rw [weight_unsigned (by rw [build_cls]; exact hs) (by rw [build_cls]; exact ho), build_ival _ _ _ hd]

/-- A stage whose output is paid for by what it receives and what it holds. -/
theorem Pass.runFrom_total (p : Pass) (f : p.σ → Nat) (P : Item → Prop) (I : p.σ → Prop)
    (hs : ∀ st x, I st → P x → I (p.step st x).1 ∧ total (p.step st x).2 + f (p.step st x).1 ≤ f st + weight x)
    (hf : ∀ st, I st → total (p.fin st) ≤ f st) (xs : List Item) (st : p.σ) (h0 : I st) (hx : ∀ x ∈ xs, P x) :
    total (p.runFrom st xs) ≤ f st + total xs := by
  induction xs generalizing st with
  | nil => exact hf st h0
  | cons x xs ih =>
    rw [Pass.runFrom_cons, total_append, total_cons]
    have h1 := hs st x h0 (hx x (by simp))
    have h2 := ih _ h1.1 (fun z hz => hx z (by simp [hz]))
    omega

theorem du_total (xs : List Item) : total (designatorUniq.run xs) ≤ total xs := by
  have := Pass.runFrom_total designatorUniq (fun st : DUState => total st.pending) (fun _ => True) (fun _ => True)
    (by
      intro st x _ _
      refine ⟨trivial, ?_⟩
      by_cases hk : x.cls.kind = .loc
      · simp only [hk, if_true]
        split
        · split <;> simp
        · simp
      · simp only [hk, if_false]
        split
        · next k _ =>
          have := total_eraseIdx_le k (st.pending ++ [x])
          simp at this ⊢; omega
        · simp)
    (by intro st _; simp) xs {} trivial (by simp)
  simpa [Pass.run] using this

theorem pm_total (xs : List Item) : total (physicalMerge.run xs) ≤ total xs := by
  have := Pass.runFrom_total physicalMerge (fun st : PMState => total st.pending) (fun _ => True) (fun _ => True)
    (by
      intro st x _ _
      refine ⟨trivial, ?_⟩
      by_cases hk : x.cls.kind = .main
      · simp only [hk, if_true]
        split
        · have := total_filter_le notPhys st.pending
          simp; omega
        · simp
      · simp only [hk, if_false]; simp)
    (by intro st _; simp) xs {} trivial (by simp)
  simpa [Pass.run] using this

theorem gm_total (xs : List Item) : total (globalMerge.run xs) ≤ total xs := by
  have := Pass.runFrom_total globalMerge (fun _ => 0) (fun _ => True) (fun _ => True)
    (by
      intro st x _ _
      refine ⟨trivial, ?_⟩
      by_cases hk : x.cls.kind = .global
      · simp only [hk, if_true]
        repeat' split
        all_goals simp
      · simp only [hk, if_false]; simp)
    (by intro st _; simp) xs globalInit trivial (by simp)
  simpa [Pass.run] using this

/-! ## `RangeMerge` -/

/-- Unsigned classes with a payload. -/
def Optimizer.RangeTags.Sized (t : RangeTags) : Prop :=
  ∀ c ∈ [t.lookup, t.min, t.max], c ≠ .collection ∧ c.signed = false ∧ c.optionalValue = false ∧ c.kind = .loc

theorem sized_str : RangeTags.Sized strTags := by unfold RangeTags.Sized; decide
theorem sized_desig : RangeTags.Sized desigTags := by unfold RangeTags.Sized; decide
theorem sized_usage : RangeTags.Sized usageTags := by unfold RangeTags.Sized; decide

theorem rm_total (reg : Registry) (t : RangeTags) (ht : t.Sized) (xs : List Item) :
    total ((rangeMerge reg t).run xs) ≤ total xs := by
  let lt : List Item → Nat := fun l => total (l.filter (fun i => !notRange t i))
  let I : RMState → Prop := fun st => st.merging = true → ∀ lo hi, st.minValue = some lo → st.maxValue = some hi →
    (lo.eqv hi = true ∧ uw lo.toInt ≤ lt st.pending) ∨ uw lo.toInt + uw hi.toInt ≤ lt st.pending
  have hw : ∀ c ∈ [t.lookup, t.min, t.max], ∀ v : PyVal, weight (build reg c v) = uw v.toInt := by
    intro c hc v
    have := ht c hc
    exact weight_build reg c v this.1 this.2.1 this.2.2.1
  have hout : ∀ st : RMState, I st → total (st.out reg t) ≤ total st.pending := by
    intro st hst
    unfold RMState.out
    split
    · next lo hi hlo hhi =>
      split
      · next hc =>
        have h1 := hst hc.2.2 lo hi hlo hhi
        have h2 := total_filter (notRange t) st.pending
        have e : lt st.pending = total (st.pending.filter (fun i => !notRange t i)) := rfl
        rw [e] at h1
        split
        · rw [total_append, total_cons, total_nil, hw _ (by simp)]
          rcases h1 with h1 | h1 <;> omega
        · next hne =>
          have h1 : uw lo.toInt + uw hi.toInt ≤ total (st.pending.filter (fun i => !notRange t i)) := by
            rcases h1 with h1 | h1
            · exact absurd h1.1 hne
            · exact h1
          split <;>
            (rw [total_append, total_cons, total_cons, total_nil, hw _ (by simp), hw _ (by simp)]; omega)
      · exact Nat.le_refl _
    · exact Nat.le_refl _
  have hmono : ∀ (l : List Item) (x : Item), lt l ≤ lt (l ++ [x]) := by
    intro l x
    simp only [lt, List.filter_append, total_append]
    omega
  -- the state after `note`, with the item counted among the pending ones
  have hnote : ∀ st x, I st → x.cls.kind = .loc ∨ True → I { st.note t x with pending := st.pending ++ [x] } := by
    intro st x hst _ hm lo hi hlo hhi
    have hmono := hmono st.pending x
    unfold RMState.note at hm hlo hhi
    by_cases hc : st.merging = true ∧ x.cls.kind = .loc
    · rw [if_pos hc] at hm hlo hhi
      by_cases h1 : x.cls = t.min ∨ x.cls = t.max
      · rw [if_pos h1] at hm; simp at hm
      · rw [if_neg h1] at hm hlo hhi
        by_cases h2 : x.cls = t.lookup
        · rw [if_pos h2] at hm hlo hhi
          have hx := ht t.lookup (by simp)
          have hlt : lt (st.pending ++ [x]) = lt st.pending + uw x.ival := by
            have : notRange t x = false := by simp [notRange, h2, hx.2.2.2]
            simp [lt, this, weight_unsigned (i := x) (by rw [h2]; exact hx.2.1) (by rw [h2]; exact hx.2.2.1)]
          show _ ∨ uw lo.toInt + uw hi.toInt ≤ lt (st.pending ++ [x])
          rw [hlt]
          cases hmx : st.maxValue with
          | none =>
            rw [hmx] at hlo hhi
            simp only [Option.some.injEq] at hlo hhi
            subst hlo; subst hhi
            left
            refine ⟨by simp [PyVal.eqv], ?_⟩
            show uw x.ival ≤ _
            omega
          | some m =>
            rw [hmx] at hlo hhi hm
            simp only at hlo hhi hm
            by_cases h3 : x.ival = m.toInt + 1
            · rw [if_pos h3] at hlo hhi
              simp only [Option.some.injEq] at hlo hhi
              subst hhi
              have := hst hc.1 lo m hlo hmx
              right
              show uw lo.toInt + uw x.ival ≤ _
              rcases this with h | h <;> omega
            · rw [if_neg h3] at hm; simp at hm
        · rw [if_neg h2] at hm hlo hhi
          have := hst hm lo hi hlo hhi
          show (_ ∧ _ ≤ lt (st.pending ++ [x])) ∨ uw lo.toInt + uw hi.toInt ≤ lt (st.pending ++ [x])
          rcases this with h | h
          · left; exact ⟨h.1, by omega⟩
          · right; omega
    · rw [if_neg hc] at hm hlo hhi
      have := hst hm lo hi hlo hhi
      show (_ ∧ _ ≤ lt (st.pending ++ [x])) ∨ uw lo.toInt + uw hi.toInt ≤ lt (st.pending ++ [x])
      rcases this with h | h
      · left; exact ⟨h.1, by omega⟩
      · right; omega
  have := Pass.runFrom_total (rangeMerge reg t) (fun st : RMState => total st.pending) (fun _ => True) I
    (by
      intro st x hst _
      by_cases hk : x.cls.kind = .main
      · have hno : st.note t x = st := by
          unfold RMState.note
          rw [if_neg (by rw [hk]; simp)]
        simp only [hk, if_true, hno]
        refine ⟨by intro _ lo hi hlo; simp at hlo, ?_⟩
        have := hout st hst
        simp; omega
      · simp only [hk, if_false]
        exact ⟨hnote st x hst (Or.inr trivial), by simp⟩)
    (by intro st hst; exact hout st hst) xs {} (by intro _ lo hi hlo; simp at hlo) (by simp)
  simpa [Pass.run] using this

/-! ## `UsagePage` -/

/-- Usages for which a page and an id take no more bytes than the whole. -/
def Spec.Narrow (v : Int) : Prop := 65536 ≤ v ∧ v < 4294967296 ∧ (v < 16777216 ∨ v % 65536 < 256)

instance (v : Int) : Decidable (Narrow v) := by unfold Narrow; infer_instance

theorem up_total (reg : Registry) (xs : List Item) (hx : ∀ i ∈ xs, usageLike i.cls = true → Narrow i.ival) :
    total ((Optimizer.usagePage reg).run xs) ≤ total xs := by
  have := Pass.runFrom_total (Optimizer.usagePage reg) (fun _ => 0)
    (fun i => usageLike i.cls = true → Narrow i.ival) (fun _ => True)
    (by
      intro st x _ hx
      refine ⟨trivial, ?_⟩
      by_cases hu : usageLike x.cls = true
      · simp only [hu, if_true]
        have hcls : x.cls ≠ .collection ∧ x.cls.signed = false ∧ x.cls.optionalValue = false := by
          revert hu; cases x.cls <;> simp [usageLike, Cls.isData, Cls.signed, Cls.optionalValue]
        have hn := hx hu
        have hv : (Usage.lookup reg x.val).value = x.ival := lookup_value reg x.val
        have hv1 := split_fst (Usage.lookup reg x.val)
        have hv2 := split_snd (Usage.lookup reg x.val)
        rw [hv] at hv1 hv2
        have w0 := weight_unsigned hcls.2.1 hcls.2.2
        have w1 := weight_build reg .usagePage (Usage.split (Usage.lookup reg x.val)).1 (by simp) rfl rfl
        have w2 := weight_build reg x.cls (Usage.split (Usage.lookup reg x.val)).2 hcls.1 hcls.2.1 hcls.2.2
        have hb : uw (x.ival / 65536) + uw (x.ival % 65536) ≤ uw x.ival := by
          unfold Narrow at hn
          unfold uw
          repeat' split
          all_goals omega
        rw [hv1] at w1
        rw [hv2] at w2
        split <;> simp [w1, w2, w0] <;> omega
      · simp only [hu, if_false, Bool.false_eq_true]
        split <;> simp)
    (by intro st _; simp) xs none trivial hx
  simpa [Pass.run] using this

/-! ## `MainMerge` -/

/-- Every Input, Output and Feature item has a ReportCount of its own: one after the previous such
item. -/
def Spec.counted : Bool → List SItem → Bool
  | _, [] => true
  | b, k :: r =>
    if k.1.isData then b && counted false r
    else if k.1 = .reportCount then counted true r
    else counted b r

/-- Bytes of the ReportCount items. -/
def rcs (l : List Item) : Nat := total (l.filter (fun i => !notCount i))

theorem rcs_append (a b : List Item) : rcs (a ++ b) = rcs a + rcs b := by simp [rcs]
theorem rcs_single (x : Item) : rcs [x] = if x.cls = .reportCount then uw x.ival else 0 := by
  by_cases h : x.cls = .reportCount
  · have : notCount x = false := by simp [notCount, h, Cls.kind]
    simp [rcs, this, h, weight_unsigned (i := x) (by rw [h]; rfl) (by rw [h]; rfl)]
  · have : notCount x = true := by simp [notCount, h]
    simp [rcs, this, h]

theorem uw_add (a b : Int) : uw (a + b) ≤ uw a + uw b := by
  unfold uw
  repeat' split
  all_goals omega

/-- Bytes the next flush writes for the count. -/
def Optimizer.MMState.need (st : MMState) : Nat := if st.mains = [] then 0 else uw st.beforeCount

/-- `C` bytes were saved, and with the ReportCounts held they pay for the counts to write; `b` tells
that a ReportCount followed the last main item. -/
structure MMPaid (b : Bool) (C : Nat) (st : MMState) : Prop where
  held : st.need ≤ rcs st.before + C
  next : b = true → st.need + uw st.afterCount ≤ rcs st.before + rcs st.after + C
  zero : st.mains = [] → st.beforeCount = 0

/-- Bytes held. -/
def Optimizer.MMState.size (st : MMState) : Nat := total st.before + total st.mains + total st.after

theorem flush_paid (reg : Registry) {b : Bool} {C : Nat} {st : MMState} (h : MMPaid b C st) :
    ∃ C', MMPaid b C' (st.flush reg).1 ∧
      total (st.flush reg).2 + (st.flush reg).1.size + C' ≤ st.size + C := by
  refine ⟨rcs st.before + C - st.need, ⟨?_, ?_, ?_⟩, ?_⟩
  · simp [MMState.flush, MMState.need]
  · intro hb
    have := h.next hb
    have := h.held
    simp only [MMState.flush, MMState.need, if_true]
    have e : st.need = if st.mains = [] then 0 else uw st.beforeCount := rfl
    rw [← e]
    omega
  · intro _; rfl
  · have h1 := h.held
    have h2 := total_filter notCount st.before
    have e : rcs st.before = total (st.before.filter (fun i => !notCount i)) := rfl
    simp only [MMState.flush, MMState.size, total_append, total_nil, Nat.add_zero]
    cases hm : st.mains with
    | nil => simp only [total_nil]; omega
    | cons m ms =>
      have hn : st.need = uw st.beforeCount := by simp [MMState.need, hm]
      simp only [total_cons, total_nil, weight_build reg .reportCount (.int st.beforeCount) (by simp) rfl rfl]
      have : (PyVal.int st.beforeCount).toInt = st.beforeCount := rfl
      rw [this]
      omega

theorem push_paid {b : Bool} {C : Nat} {st : MMState} (h : MMPaid b C st) (x : Item) :
    MMPaid b C { st with after := st.after ++ [x] } := by
  refine ⟨h.held, ?_, h.zero⟩
  intro hb
  have := h.next hb
  simp only [MMState.need, rcs_append] at this ⊢
  omega

theorem take_paid {C : Nat} {st : MMState} (h : MMPaid true C st) (x : Item) :
    MMPaid false C (MMState.take st x) := by
  refine ⟨?_, by simp, by simp [MMState.take]⟩
  have h1 := h.next rfl
  have h2 := uw_add st.beforeCount st.afterCount
  have h3 := h.zero
  simp only [MMState.need, MMState.take] at h1 ⊢
  simp only [List.append_eq_nil_iff, List.cons_ne_nil, and_false, if_false, rcs_append]
  by_cases hm : st.mains = []
  · have := h3 hm
    simp only [hm, if_true] at h1
    rw [this, Int.zero_add]
    omega
  · simp only [hm, if_false] at h1
    omega

theorem mm_total_from (reg : Registry) (xs : List Item) (b : Bool) (C : Nat) (st : MMState)
    (h : MMPaid b C st) (hc : counted b (keys xs) = true) :
    total ((mainMerge reg).runFrom st xs) ≤ st.size + C + total xs := by
  induction xs generalizing b C st with
  | nil => simp [Pass.runFrom, MMState.size]; omega
  | cons x xs ih =>
    rw [Pass.runFrom_cons, total_append, total_cons]
    have hkeys : keys (x :: xs) = (x.cls, x.ival) :: keys xs := rfl
    rw [hkeys] at hc
    simp only [counted] at hc
    have hpushsize : ({ st with after := st.after ++ [x] } : MMState).size = st.size + weight x := by
      simp [MMState.size]; omega
    by_cases hd : x.cls.isData = true
    · simp only [hd, if_true, Bool.and_eq_true] at hc
      obtain ⟨rfl, hc⟩ := hc
      obtain ⟨q, o, hqo, hst'⟩ := mm_step_data reg st x hd
      have hq : ∃ C', MMPaid true C' q ∧ total o + q.size + C' ≤ st.size + C := by
        rcases hqo with ⟨rfl, rfl, -⟩ | ⟨rfl, rfl, -⟩
        · exact ⟨C, h, by simp⟩
        · exact flush_paid reg h
      obtain ⟨C', hq, hqs⟩ := hq
      have htake := take_paid hq x
      have hts : (MMState.take q x).size = q.size + weight x := by
        simp [MMState.size, MMState.take]; omega
      rw [hst']
      split
      · obtain ⟨C2, h2, h2s⟩ := flush_paid reg (st := MMState.take q x) htake
        have := ih false C2 _ h2 hc
        simp only [total_append]
        omega
      · have := ih false C' _ htake hc
        simp only
        have e : (MMState.take q x).size = q.size + weight x := hts
        simp only [MMState.take] at e
        simp only [MMState.take] at this ⊢
        omega
    · simp only [hd, if_false, Bool.false_eq_true] at hc
      cases hk : x.cls.kind with
      | loc =>
        have hr : x.cls ≠ .reportCount := by intro e; rw [e] at hk; simp [Cls.kind] at hk
        simp only [hr, if_false] at hc
        have := ih b C _ (push_paid h x) hc
        simp only [hk, total_nil]
        omega
      | main =>
        have hr : x.cls ≠ .reportCount := by intro e; rw [e] at hk; simp [Cls.kind] at hk
        simp only [hr, if_false] at hc
        obtain ⟨C2, h2, h2s⟩ := flush_paid reg (push_paid h x)
        have := ih b C2 _ h2 hc
        simp only [hk, hd, if_false, Bool.false_eq_true]
        omega
      | global =>
        simp only [hk]
        by_cases hr : x.cls = .reportCount
        · simp only [hr, if_true] at hc
          have hw : watched Cls.reportCount = false := rfl
          simp only [hr, hw, Bool.false_eq_true, false_and, if_false, if_true]
          have hp : MMPaid true C { st with after := st.after ++ [x], afterCount := x.ival } := by
            refine ⟨h.held, ?_, h.zero⟩
            intro _
            have h1 := h.held
            have h2 := rcs_single x
            rw [if_pos hr] at h2
            simp only [MMState.need, rcs_append] at h1 ⊢
            omega
          have := ih true C _ hp hc
          rw [total_nil]
          have e : ({ st with after := st.after ++ [x], afterCount := x.ival } : MMState).size
              = st.size + weight x := by simp [MMState.size]; omega
          omega
        · simp only [hr, if_false] at hc
          split
          · have hp : ∀ p, MMPaid b C { st with after := st.after ++ [x], props := p } :=
              fun p => ⟨(push_paid h x).held, (push_paid h x).next, (push_paid h x).zero⟩
            obtain ⟨C2, h2, h2s⟩ := flush_paid reg (hp (fun c => if c = x.cls then x.ival else st.props c))
            have := ih b C2 _ h2 hc
            have e : ∀ p, ({ st with after := st.after ++ [x], props := p } : MMState).size
              = st.size + weight x := fun _ => hpushsize
            rw [e] at h2s
            omega
          · simp only [hr, if_false]
            have := ih b C _ (push_paid h x) hc
            simp only [total_nil]
            omega

theorem mm_total (reg : Registry) (xs : List Item) (hc : counted false (keys xs) = true) :
    total ((mainMerge reg).run xs) ≤ total xs := by
  have := mm_total_from reg xs false 0 {} ⟨by simp [MMState.need], by simp, by simp⟩ hc
  simpa [Pass.run, MMState.size] using this

end Hrdc
