import Verif.Props.Size
/-!
# Measures the optimizer's passes do not increase

The lemmas of `Proofs/Size.lean` for any measure of items.
-/
namespace Hrdc
open Spec Item Optimizer

/-- The sum of a measure over a list of items. -/
def sumOf (w : Item → Nat) (l : List Item) : Nat := (l.map w).sum

section
variable {w : Item → Nat}

@[simp] theorem sum_nil : sumOf w [] = 0 := rfl
@[simp] theorem sum_cons (i : Item) (l : List Item) : sumOf w (i :: l) = w i + sumOf w l := by
  simp [sumOf]
@[simp] theorem sum_append (a b : List Item) : sumOf w (a ++ b) = sumOf w a + sumOf w b := by
  simp [sumOf]

theorem sum_filter (p : Item → Bool) (l : List Item) :
    sumOf w (l.filter p) + sumOf w (l.filter (fun i => !p i)) = sumOf w l := by
  induction l with
  | nil => rfl
  | cons x l ih =>
    cases h : p x <;> simp [h] <;> omega

theorem sum_filter_le (p : Item → Bool) (l : List Item) : sumOf w (l.filter p) ≤ sumOf w l := by
  have := sum_filter (w := w) p l
  omega

theorem sum_eraseIdx_le (k : Nat) (l : List Item) : sumOf w (l.eraseIdx k) ≤ sumOf w l := by
  induction l generalizing k with
  | nil => simp
  | cons x l ih =>
    cases k with
    | zero => simp
    | succ k => simp only [List.eraseIdx_cons_succ, sum_cons]; have := ih k; omega

/-- A stage whose output is paid for by what it receives and what it holds. -/
theorem Pass.runFrom_sum (p : Pass) (f : p.σ → Nat) (P : Item → Prop) (I : p.σ → Prop)
    (hs : ∀ st x, I st → P x → I (p.step st x).1 ∧ sumOf w (p.step st x).2 + f (p.step st x).1 ≤ f st + w x)
    (hf : ∀ st, I st → sumOf w (p.fin st) ≤ f st) (xs : List Item) (st : p.σ) (h0 : I st) (hx : ∀ x ∈ xs, P x) :
    sumOf w (p.runFrom st xs) ≤ f st + sumOf w xs := by
  induction xs generalizing st with
  | nil => exact hf st h0
  | cons x xs ih =>
    rw [Pass.runFrom_cons, sum_append, sum_cons]
    have h1 := hs st x h0 (hx x (by simp))
    have h2 := ih _ h1.1 (fun z hz => hx z (by simp [hz]))
    omega

theorem du_sum (xs : List Item) : sumOf w (designatorUniq.run xs) ≤ sumOf w xs := by
  have := Pass.runFrom_sum (w := w) designatorUniq (fun st : DUState => sumOf w st.pending) (fun _ => True) (fun _ => True)
    (by
      intro st x _ _
      refine ⟨trivial, ?_⟩
      by_cases hk : x.cls.kind = .loc
      · simp only [hk, if_true]
        split
        · split <;> simp
        · simp
      · simp only [hk, if_false]
        split
        · next k _ =>
          have := sum_eraseIdx_le (w := w) k (st.pending ++ [x])
          simp at this ⊢; omega
        · simp)
    (by intro st _; simp) xs {} trivial (by simp)
  simpa [Pass.run] using this

theorem pm_sum (xs : List Item) : sumOf w (physicalMerge.run xs) ≤ sumOf w xs := by
  have := Pass.runFrom_sum (w := w) physicalMerge (fun st : PMState => sumOf w st.pending) (fun _ => True) (fun _ => True)
    (by
      intro st x _ _
      refine ⟨trivial, ?_⟩
      by_cases hk : x.cls.kind = .main
      · simp only [hk, if_true]
        split
        · have := sum_filter_le (w := w) notPhys st.pending
          simp; omega
        · simp
      · simp only [hk, if_false]; simp)
    (by intro st _; simp) xs {} trivial (by simp)
  simpa [Pass.run] using this

theorem gm_sum (xs : List Item) : sumOf w (globalMerge.run xs) ≤ sumOf w xs := by
  have := Pass.runFrom_sum (w := w) globalMerge (fun _ => 0) (fun _ => True) (fun _ => True)
    (by
      intro st x _ _
      refine ⟨trivial, ?_⟩
      by_cases hk : x.cls.kind = .global
      · simp only [hk, if_true]
        repeat' split
        all_goals simp
      · simp only [hk, if_false]; simp)
    (by intro st _; simp) xs globalInit trivial (by simp)
  simpa [Pass.run] using this

theorem rm_sum (reg : Registry) (t : RangeTags) (ht : t.Sized) (g : Int → Nat)
    (hw : ∀ c ∈ [t.lookup, t.min, t.max], ∀ v : PyVal, w (build reg c v) = g v.toInt)
    (hl : ∀ x : Item, x.cls = t.lookup → w x = g x.ival) (xs : List Item) :
    sumOf w ((rangeMerge reg t).run xs) ≤ sumOf w xs := by
  let lt : List Item → Nat := fun l => sumOf w (l.filter (fun i => !notRange t i))
  let I : RMState → Prop := fun st => st.merging = true → ∀ lo hi, st.minValue = some lo → st.maxValue = some hi →
    (lo.eqv hi = true ∧ g lo.toInt ≤ lt st.pending) ∨ g lo.toInt + g hi.toInt ≤ lt st.pending
  have hout : ∀ st : RMState, I st → sumOf w (st.out reg t) ≤ sumOf w st.pending := by
    intro st hst
    unfold RMState.out
    split
    · next lo hi hlo hhi =>
      split
      · next hc =>
        have h1 := hst hc.2.2 lo hi hlo hhi
        have h2 := sum_filter (w := w) (notRange t) st.pending
        have e : lt st.pending = sumOf w (st.pending.filter (fun i => !notRange t i)) := rfl
        rw [e] at h1
        split
        · rw [sum_append, sum_cons, sum_nil, hw _ (by simp)]
          rcases h1 with h1 | h1 <;> omega
        · next hne =>
          have h1 : g lo.toInt + g hi.toInt ≤ sumOf w (st.pending.filter (fun i => !notRange t i)) := by
            rcases h1 with h1 | h1
            · exact absurd h1.1 hne
            · exact h1
          split <;>
            (rw [sum_append, sum_cons, sum_cons, sum_nil, hw _ (by simp), hw _ (by simp)]; omega)
      · exact Nat.le_refl _
    · exact Nat.le_refl _
  have hmono : ∀ (l : List Item) (x : Item), lt l ≤ lt (l ++ [x]) := by
    intro l x
    simp only [lt, List.filter_append, sum_append]
    omega
  -- the state after `note`, with the item counted among the pending ones
  have hnote : ∀ st x, I st → x.cls.kind = .loc ∨ True → I { st.note t x with pending := st.pending ++ [x] } := by
    intro st x hst _ hm lo hi hlo hhi
    have hmono := hmono st.pending x
    unfold RMState.note at hm hlo hhi
    by_cases hc : st.merging = true ∧ x.cls.kind = .loc
    · rw [if_pos hc] at hm hlo hhi
      by_cases h1 : x.cls = t.min ∨ x.cls = t.max
      · rw [if_pos h1] at hm; simp at hm
      · rw [if_neg h1] at hm hlo hhi
        by_cases h2 : x.cls = t.lookup
        · rw [if_pos h2] at hm hlo hhi
          have hx := ht t.lookup (by simp)
          have hlt : lt (st.pending ++ [x]) = lt st.pending + g x.ival := by
            have : notRange t x = false := by simp [notRange, h2, hx.2.2.2]
            simp [lt, this, hl x h2]
          show _ ∨ g lo.toInt + g hi.toInt ≤ lt (st.pending ++ [x])
          rw [hlt]
          cases hmx : st.maxValue with
          | none =>
            rw [hmx] at hlo hhi
            simp only [Option.some.injEq] at hlo hhi
            subst hlo; subst hhi
            left
            refine ⟨by simp [PyVal.eqv], ?_⟩
            show g x.ival ≤ _
            omega
          | some m =>
            rw [hmx] at hlo hhi hm
            simp only at hlo hhi hm
            by_cases h3 : x.ival = m.toInt + 1
            · rw [if_pos h3] at hlo hhi
              simp only [Option.some.injEq] at hlo hhi
              subst hhi
              have := hst hc.1 lo m hlo hmx
              right
              show g lo.toInt + g x.ival ≤ _
              rcases this with h | h <;> omega
            · rw [if_neg h3] at hm; simp at hm
        · rw [if_neg h2] at hm hlo hhi
          have := hst hm lo hi hlo hhi
          show (_ ∧ _ ≤ lt (st.pending ++ [x])) ∨ g lo.toInt + g hi.toInt ≤ lt (st.pending ++ [x])
          rcases this with h | h
          · left; exact ⟨h.1, by omega⟩
          · right; omega
    · rw [if_neg hc] at hm hlo hhi
      have := hst hm lo hi hlo hhi
      show (_ ∧ _ ≤ lt (st.pending ++ [x])) ∨ g lo.toInt + g hi.toInt ≤ lt (st.pending ++ [x])
      rcases this with h | h
      · left; exact ⟨h.1, by omega⟩
      · right; omega
  have := Pass.runFrom_sum (w := w) (rangeMerge reg t) (fun st : RMState => sumOf w st.pending) (fun _ => True) I
    (by
      intro st x hst _
      by_cases hk : x.cls.kind = .main
      · have hno : st.note t x = st := by
          unfold RMState.note
          rw [if_neg (by rw [hk]; simp)]
        simp only [hk, if_true, hno]
        refine ⟨by intro _ lo hi hlo; simp at hlo, ?_⟩
        have := hout st hst
        simp; omega
      · simp only [hk, if_false]
        exact ⟨hnote st x hst (Or.inr trivial), by simp⟩)
    (by intro st hst; exact hout st hst) xs {} (by intro _ lo hi hlo; simp at hlo) (by simp)
  simpa [Pass.run] using this

end

end Hrdc
