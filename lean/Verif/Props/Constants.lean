import Verif.Model.Constant
import Verif.Model.Descriptor
/-!
# Property C60: combining constants
-/
namespace Hrdc
open Constant
namespace Spec

/-- Bit `k` of an integer in two's complement. -/
def bit (i : Int) (k : Nat) : Bool := i / (2 ^ k : Int) % 2 == 1

end Spec
open Spec

theorem bit_nat (a k : Nat) : bit (.ofNat a) k = a.testBit k := by
  have : (Int.ofNat a) / (2 ^ k : Int) % 2 = ((a / 2 ^ k % 2 : Nat) : Int) := by
    simp
  simp only [bit, this, Nat.testBit_eq_decide_div_mod_eq]
  have h2 := Nat.mod_two_eq_zero_or_one (a / 2 ^ k)
  rcases h2 with h | h <;> simp [h]

theorem bit_neg (a k : Nat) : bit (.negSucc a) k = !a.testBit k := by
  have hp : (0 : Int) < 2 ^ k := Int.pow_pos (by decide)
  have hd : (Int.negSucc a) / (2 ^ k : Int) = -((a / 2 ^ k : Nat) : Int) - 1 := by
    have := Int.negSucc_ediv a hp
    rw [this]
    have he : Int.ediv (a : Int) (2 ^ k) = ((a / 2 ^ k : Nat) : Int) := by
      show (a : Int) / (2 ^ k : Int) = _
      simp
    rw [he]
    omega
  simp only [bit, hd, Nat.testBit_eq_decide_div_mod_eq]
  generalize a / 2 ^ k = q
  have h2 := Nat.mod_two_eq_zero_or_one q
  rcases h2 with h | h
  · have : (-(q : Int) - 1) % 2 = 1 := by omega
    simp [this, h]
  · have : (-(q : Int) - 1) % 2 = 0 := by omega
    simp [this, h]

/-- Integers with the same bits are equal. -/
theorem bit_ext {a b : Int} (h : ∀ k, bit a k = bit b k) : a = b := by
  cases a with
  | ofNat a =>
    cases b with
    | ofNat b =>
      have : a = b := Nat.eq_of_testBit_eq (fun k => by have := h k; rwa [bit_nat, bit_nat] at this)
      rw [this]
    | negSucc b =>
      exfalso
      have := h (a + b)
      rw [bit_nat, bit_neg, Nat.testBit_lt_two_pow (by have := Nat.lt_two_pow_self (n := a + b); omega),
        Nat.testBit_lt_two_pow (by have := Nat.lt_two_pow_self (n := a + b); omega)] at this
      simp at this
  | negSucc a =>
    cases b with
    | negSucc b =>
      have : a = b := Nat.eq_of_testBit_eq (fun k => by
        have := h k
        rw [bit_neg, bit_neg] at this
        simpa using this)
      rw [this]
    | ofNat b =>
      exfalso
      have := h (a + b)
      rw [bit_nat, bit_neg, Nat.testBit_lt_two_pow (by have := Nat.lt_two_pow_self (n := a + b); omega),
        Nat.testBit_lt_two_pow (by have := Nat.lt_two_pow_self (n := a + b); omega)] at this
      simp at this

theorem bit_iand (a b : Int) (k : Nat) : bit (iand a b) k = (bit a k && bit b k) := by
  cases a with
  | ofNat a =>
    cases b with
    | ofNat b => simp only [iand, bit_nat, Nat.testBit_and]
    | negSucc b =>
      simp only [iand, bit_nat, bit_neg, Nat.testBit_and, Nat.testBit_xor]
      cases a.testBit k <;> cases b.testBit k <;> rfl
  | negSucc a =>
    cases b with
    | ofNat b =>
      simp only [iand, bit_nat, bit_neg, Nat.testBit_and, Nat.testBit_xor]
      cases a.testBit k <;> cases b.testBit k <;> rfl
    | negSucc b =>
      simp only [iand, bit_neg, Nat.testBit_or]
      cases a.testBit k <;> cases b.testBit k <;> rfl

theorem bit_ior (a b : Int) (k : Nat) : bit (ior a b) k = (bit a k || bit b k) := by
  cases a with
  | ofNat a =>
    cases b with
    | ofNat b => simp only [ior, bit_nat, Nat.testBit_or]
    | negSucc b =>
      simp only [ior, bit_nat, bit_neg, Nat.testBit_and, Nat.testBit_xor]
      cases a.testBit k <;> cases b.testBit k <;> rfl
  | negSucc a =>
    cases b with
    | ofNat b =>
      simp only [ior, bit_nat, bit_neg, Nat.testBit_and, Nat.testBit_xor]
      cases a.testBit k <;> cases b.testBit k <;> rfl
    | negSucc b =>
      simp only [ior, bit_neg, Nat.testBit_and]
      cases a.testBit k <;> cases b.testBit k <;> rfl

/-- `|` of a constant or int with a constant or int has the bits of both, in either order. -/
theorem C60_or (a b : PyVal) : ∃ v, apply .or a b = .ok v ∧ apply .or b a = .ok v ∧
    ∀ k, bit v k = (bit a.toInt k || bit b.toInt k) := by
  have hc : ∀ x y, ior x y = ior y x := fun x y => bit_ext (fun k => by rw [bit_ior, bit_ior, Bool.or_comm])
  refine ⟨ior a.toInt b.toInt, ?_, ?_, bit_ior _ _⟩
  · cases a <;> cases b <;> simp [apply, onInts, PyVal.toInt, hc]
  · cases a <;> cases b <;> simp [apply, onInts, PyVal.toInt, hc]

/-- `&` keeps the bits both have, in either order. -/
theorem C60_and (a b : PyVal) : ∃ v, apply .and a b = .ok v ∧ apply .and b a = .ok v ∧
    ∀ k, bit v k = (bit a.toInt k && bit b.toInt k) := by
  have hc : ∀ x y, iand x y = iand y x := fun x y => bit_ext (fun k => by rw [bit_iand, bit_iand, Bool.and_comm])
  refine ⟨iand a.toInt b.toInt, ?_, ?_, bit_iand _ _⟩
  · cases a <;> cases b <;> simp [apply, onInts, PyVal.toInt, hc]
  · cases a <;> cases b <;> simp [apply, onInts, PyVal.toInt, hc]

/-- `~` inverts every bit. -/
theorem C60_invert (a : PyVal) (k : Nat) : bit (invert a) k = !bit a.toInt k := by
  unfold invert
  generalize a.toInt = x
  cases x with
  | ofNat n => rw [show -(Int.ofNat n) - 1 = .negSucc n by simp [Int.negSucc_eq]; omega, bit_neg, bit_nat]
  | negSucc n => rw [show -(Int.negSucc n) - 1 = .ofNat n by simp [Int.negSucc_eq], bit_nat, bit_neg]; simp

/-- Sums, products and shifts of a constant on the left are those of its value. -/
theorem C60_arithmetic (a b : PyVal) (ha : ∀ i, a ≠ .int i) :
    apply .add a b = .ok (a.toInt + b.toInt) ∧ apply .mul a b = .ok (a.toInt * b.toInt) ∧
    (0 ≤ b.toInt → apply .shl a b = .ok (a.toInt * 2 ^ b.toInt.toNat) ∧
      apply .shr a b = .ok (a.toInt / 2 ^ b.toInt.toNat)) ∧
    (b.toInt < 0 → apply .shl a b = .error .value ∧ apply .shr a b = .error .value) := by
  have h : ∀ o, apply o a b = onInts o a.toInt b.toInt := by
    intro o
    cases a with
    | int i => exact absurd rfl (ha i)
    | named n i => rfl
    | usage u => rfl
  simp only [h]
  refine ⟨rfl, rfl, fun hb => ?_, fun hb => ?_⟩
  · simp [onInts, Int.not_lt.2 hb]
  · simp [onInts, hb]

/-- With an int on the left they raise `TypeError`: `Usage + 1` works, `1 + Usage` does not. -/
theorem C60_int_left_breaks (i : Int) (b : PyVal) (hb : ∀ j, b ≠ .int j) (o : Op) (ho : o ≠ .and ∧ o ≠ .or) :
    apply o (.int i) b = .error .type := by
  cases b with
  | int j => exact absurd rfl (hb j)
  | named n j => cases o <;> simp at ho <;> rfl
  | usage u => cases o <;> simp at ho <;> rfl

/-- **C60.** Flags combined with `|`, in any order, by name or by number, make a value with exactly the
bits of all of them: a `Value` is constant, variable, ... exactly when one of the flags says so. -/
theorem C60_flags (a : PyVal) (l : List PyVal) : ∃ v, orAll a l = .ok v ∧
    ∀ k, bitSet v.toInt k = (a :: l).any (fun x => bitSet x.toInt k) := by
  have hb : ∀ i k, bitSet i k = bit i k := by
    intro i k
    simp [bitSet, bit]
  simp only [hb]
  induction l generalizing a with
  | nil => exact ⟨a, rfl, by simp⟩
  | cons b l ih =>
    obtain ⟨w, h1, -, h2⟩ := C60_or a b
    obtain ⟨v, h3, h4⟩ := ih (.int w)
    refine ⟨v, by simp only [orAll, h1, h3], ?_⟩
    intro k
    have h2' : bit (PyVal.int w).toInt k = (bit a.toInt k || bit b.toInt k) := h2 k
    rw [h4]
    simp only [List.any_cons, h2', Bool.or_assoc]

/-- The order does not matter. -/
theorem C60_flags_order (a b : PyVal) (l m : List PyVal) (v w : PyVal) (h : orAll a l = .ok v)
    (h' : orAll b m = .ok w) (hp : ∀ x, x ∈ a :: l ↔ x ∈ b :: m) : v.toInt = w.toInt := by
  obtain ⟨v', e1, e2⟩ := C60_flags a l
  obtain ⟨w', e3, e4⟩ := C60_flags b m
  rw [h] at e1
  rw [h'] at e3
  cases e1
  cases e3
  refine bit_ext (fun k => ?_)
  have hb : ∀ i k, bitSet i k = bit i k := by
    intro i k
    simp [bitSet, bit]
  rw [← hb, ← hb, e2, e4]
  rw [Bool.eq_iff_iff]
  simp only [List.any_eq_true]
  constructor
  · rintro ⟨x, hx, hx'⟩; exact ⟨x, (hp x).1 hx, hx'⟩
  · rintro ⟨x, hx, hx'⟩; exact ⟨x, (hp x).2 hx, hx'⟩

/-- `Value.Variable | Value.Relative | 0x20`. -/
example : orAll (.named (tx "Variable") 2) [.named (tx "Relative") 4, .int 0x20] = .ok (.int 0x26) ∧
    apply .and (.int (-2)) (.named (tx "Variable") 2) = .ok 2 ∧
    apply .add (.named (tx "Button") 0x90000) (.int 3) = .ok 0x90003 ∧
    apply .add (.int 3) (.named (tx "Button") 0x90000) = .error .type := by decide +kernel

end Hrdc
