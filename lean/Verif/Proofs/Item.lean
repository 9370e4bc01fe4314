import Verif.Spec.Wire
import Verif.Proofs.Usage
/-! Helper lemmas about item encoding. -/
namespace Hrdc
open Item

@[simp] theorem leBytes_length (n v : Nat) : (leBytes n v).length = n := by
  induction n generalizing v with
  | zero => rfl
  | succ n ih => simp [leBytes, ih]

theorem leVal_leBytes (n v : Nat) : leVal (leBytes n v) = v % 256 ^ n := by
  induction n generalizing v with
  | zero => simp [leBytes, leVal, Nat.mod_one]
  | succ n ih =>
    simp only [leBytes, leVal, ih]
    have h1 : (UInt8.ofNat (v % 256)).toNat = v % 256 := by
      simp
    rw [h1, Nat.pow_succ, Nat.mul_comm (256 ^ n) 256, Nat.mod_mul]

theorem leVal_lt (d : List UInt8) : leVal d < 256 ^ d.length := by
  induction d with
  | nil => simp [leVal]
  | cons b r ih =>
    simp only [leVal, List.length_cons, Nat.pow_succ]
    have := b.toNat_lt
    omega

theorem unsignedLE_eq (d : List UInt8) : Spec.unsignedLE d = (leVal d : Int) := by
  induction d with
  | nil => simp [Spec.unsignedLE, leVal]
  | cons b r ih => simp [Spec.unsignedLE, leVal, ih]

/-- Items that some constructor call returns. -/
def Item.Made (i : Item) : Prop := ∃ reg v, Item.new reg i.cls v = .ok i

theorem baseInit_ok {c : Cls} {v : PyVal} {i : Item} (h : baseInit c v = .ok i) :
    i = ⟨c, v⟩ ∧ (c.signed = true ∨ 0 ≤ v.toInt) := by
  unfold baseInit at h
  split at h
  · rename_i hc; simp at h; exact ⟨h.symm, by simpa using hc⟩
  · simp at h

theorem new_cls {reg : Registry} {c : Cls} {v : PyVal} {i : Item} (h : Item.new reg c v = .ok i) :
    i.cls = c ∧ (c.signed = true ∨ 0 ≤ i.ival) := by
  unfold Item.new at h
  repeat' split at h
  all_goals first
    | (have := baseInit_ok h; rw [this.1]; exact ⟨rfl, this.2⟩)
    | exact absurd h (by simp)

theorem Item.Made.nonneg {i : Item} (h : i.Made) : i.cls.signed = true ∨ 0 ≤ i.ival := by
  obtain ⟨reg, v, hn⟩ := h
  exact (new_cls hn).2

theorem pow_facts : (2:Nat)^7 = 128 ∧ (2:Nat)^8 = 256 ∧ (2:Nat)^15 = 32768 ∧ (2:Nat)^16 = 65536
    ∧ (2:Nat)^31 = 2147483648 ∧ (2:Nat)^32 = 4294967296 := by decide

theorem log2_lt' {m : Nat} (h : m ≠ 0) (k : Nat) : m.log2 < k ↔ m < 2 ^ k := Nat.log2_lt h

/-- Magnitude used to choose the width: value for non-negative, `-v-1` for negative. -/
def mag (v : Int) : Nat := if v < 0 then (-v - 1).toNat else v.toNat

theorem sizeCode_unsigned (i : Item) (hs : i.cls.signed = false) (hv : 0 ≤ i.ival) :
    i.sizeCode = if i.ival = 0 ∧ i.val.truthy = false ∧ i.cls.optionalValue = true then 0
      else if i.ival < 256 then 1 else if i.ival < 65536 then 2 else 3 := by
  unfold sizeCode bitCount
  simp only [hs, Bool.false_and]
  by_cases h0 : i.ival = 0
  · simp only [h0]
    cases ht : i.val.truthy <;> cases ho : i.cls.optionalValue <;> simp
  · have hn : i.ival.toNat ≠ 0 := by omega
    have h8 := log2_lt' hn 8
    have h16 := log2_lt' hn 16
    simp only [pow_facts] at h8 h16
    simp [hn, h0]
    repeat' split
    all_goals omega

theorem sizeCode_signed (i : Item) (hs : i.cls.signed = true) :
    i.sizeCode = if -128 ≤ i.ival ∧ i.ival < 128 then 1
      else if -32768 ≤ i.ival ∧ i.ival < 32768 then 2 else 3 := by
  have ho : i.cls.optionalValue = false := by
    revert hs; cases i.cls <;> simp [Cls.signed, Cls.optionalValue]
  have e : i.bitCount = if mag i.ival ≠ 0 then Nat.log2 (mag i.ival) + 2
      else if i.val.truthy then 1 else 0 := by
    simp [bitCount, mag, hs]
  unfold sizeCode
  simp only [e, ho]
  by_cases h0 : mag i.ival = 0
  · have : -1 ≤ i.ival ∧ i.ival ≤ 0 := by unfold mag at h0; split at h0 <;> omega
    simp only [h0]
    cases i.val.truthy <;> simp <;> omega
  · have h8 := log2_lt' h0 7
    have h16 := log2_lt' h0 15
    simp only [pow_facts] at h8 h16
    have hm : (mag i.ival < 128 ↔ -128 ≤ i.ival ∧ i.ival < 128) := by
      unfold mag; split <;> omega
    have hm2 : (mag i.ival < 32768 ↔ -32768 ≤ i.ival ∧ i.ival < 32768) := by
      unfold mag; split <;> omega
    simp [h0]
    repeat' split
    all_goals omega

theorem pow256_4 : (256:Nat)^1 = 256 ∧ (256:Nat)^2 = 65536 ∧ (256:Nat)^4 = 4294967296 := by decide

/-- Packing succeeds exactly in range. -/
theorem pack_ok_iff (n : Nat) (s : Bool) (v : Int) :
    (∃ p, pack n s v = .ok p) ↔
      (if s then -(2 ^ (8 * n - 1) : Nat) ≤ v ∧ v < (2 ^ (8 * n - 1) : Nat)
        else 0 ≤ v ∧ v < (2 ^ (8 * n) : Nat)) := by
  unfold pack
  cases s <;> simp
  all_goals split <;> simp_all

theorem unpack_pack {n : Nat} (hn : n = 1 ∨ n = 2 ∨ n = 4) {s : Bool} {v : Int} {p : List UInt8}
    (h : pack n s v = .ok p) : p.length = n ∧ unpack n s p = .ok v := by
  have key : ∃ w : Nat, p = leBytes n w ∧ w < 256 ^ n ∧
      (if s && decide (2 ^ (8 * n - 1) ≤ w) then (w : Int) - (2 ^ (8 * n) : Nat) else (w : Int)) = v := by
    unfold pack at h
    rcases hn with rfl | rfl | rfl <;> cases s <;> simp only [Bool.false_eq_true, if_true, if_false] at h <;>
      split at h <;> simp at h <;> refine ⟨_, h.symm, ?_, ?_⟩ <;>
      simp [pow_facts, pow256_4] at * <;> try split
    all_goals omega
  obtain ⟨w, rfl, hw, hv⟩ := key
  refine ⟨leBytes_length _ _, ?_⟩
  unfold unpack
  simp only [leBytes_length, leVal_leBytes, Nat.mod_eq_of_lt hw, if_true]
  rw [← hv]
  split <;> rfl

theorem signed_iff (c : Cls) : c.signed = true ↔ Spec.isSigned c := by
  cases c <;> simp [Cls.signed, Spec.isSigned]

theorem unpack_spec {n : Nat} (hn : n = 0 ∨ n = 1 ∨ n = 2 ∨ n = 4) (c : Cls) {d : List UInt8} {v : Int}
    (h : unpack n c.signed d = .ok v) : Spec.dataValue c d = v := by
  unfold unpack at h
  split at h
  · rename_i hl
    have hlt := leVal_lt d
    rw [hl] at hlt
    have hs := signed_iff c
    unfold Spec.dataValue Spec.signedLE
    rw [unsignedLE_eq]
    by_cases hsg : Spec.isSigned c
    · have := hs.mpr hsg
      simp only [this, hsg, if_true, Bool.true_and, decide_eq_true_eq, hl] at h ⊢
      rcases hn with rfl | rfl | rfl | rfl <;> simp [pow_facts, pow256_4] at h ⊢ <;>
        split at h <;> simp at h <;> subst h <;> split <;> simp at * <;> omega
    · have : c.signed = false := by
        cases hc : c.signed
        · rfl
        · exact absurd (hs.mp hc) hsg
      simp [this, hsg] at h ⊢
      exact h
  · simp at h

theorem ofKey_self (c : Cls) : Cls.ofKey c.kind.code c.tag = some c := by
  cases c <;> decide

theorem header_facts (c : Cls) (l : Nat) (hl : l < 4) :
    (header c l).toNat % 4 = l ∧ (header c l).toNat / 4 % 4 = c.kind.code ∧
    (header c l).toNat / 16 = c.tag ∧ (header c l).toNat = Spec.hidPrefix c + l := by
  have : (header c l).toNat = (c.tag * 16 + c.kind.code * 4 + l) % 256 := by
    simp [header]
  rw [this]
  cases c <;> simp [Cls.tag, Cls.kind, Kind.code, Spec.hidPrefix] <;> omega

theorem sizeCode_le (i : Item) : i.sizeCode < 4 := by
  unfold sizeCode; simp only; repeat' split
  all_goals omega

theorem ofKey_some {k t : Nat} {c : Cls} (h : Cls.ofKey k t = some c) :
    c.kind.code = k ∧ c.tag = t := by
  have := List.find?_some h
  simpa using this

theorem collNames_getD_ne (n : Nat) (h : n < 7) : collNames.getD n [] ≠ [] := by
  revert n; decide

theorem collNames_get (n : Nat) (h : n < 7) : collNames[n]? = some (collNames.getD n []) := by
  revert n; decide

/-- `Collection(i)` on a plain int. -/
theorem new_collection_int (reg : Registry) (i : Int) : Item.new reg .collection (.int i) =
    if i < 7 then
      if 0 ≤ i then baseInit .collection (.named (collNames.getD i.toNat []) i)
      else if -7 ≤ i then baseInit .collection (.named (collNames.getD (i + 7).toNat []) (i + 7))
      else .error .index
    else baseInit .collection (.int i) := by
  have h7 : (collNames.length : Int) = 7 := rfl
  simp only [Item.new, collConst, h7]
  split
  · by_cases h0 : 0 ≤ i
    · simp only [if_neg (Int.not_lt.mpr h0), if_pos h0, collNames_get i.toNat (by omega)]
    · simp only [if_pos (Int.not_le.mp h0), if_neg h0]
      by_cases h : -7 ≤ i
      · simp only [if_pos (show 0 ≤ i + 7 by omega), if_pos h, collNames_get (i + 7).toNat (by omega)]
      · simp only [if_neg (show ¬ 0 ≤ i + 7 by omega), if_neg h]
  · rfl

theorem usualUnit_toInt (v : PyVal) : (usualUnit v).toInt = v.toInt := by
  unfold usualUnit
  split
  · rename_i h
    have := List.find?_some h
    simpa [PyVal.toInt] using this
  · rfl

/-- The value kept by a constructor. -/
theorem new_ival {reg : Registry} {c : Cls} {v : PyVal} {i : Item} (h : Item.new reg c v = .ok i)
    (hc : c = .collection → 0 ≤ v.toInt) : i.ival = v.toInt := by
  by_cases hcc : c = .collection ∧ ∃ k, v = .int k
  · obtain ⟨rfl, k, rfl⟩ := hcc
    have h0 : 0 ≤ k := hc rfl
    rw [new_collection_int, if_pos h0] at h
    split at h <;> rw [(baseInit_ok h).1] <;> rfl
  unfold Item.new at h
  repeat' split at h
  all_goals first
    | (have := baseInit_ok h; rw [this.1]
       first
       | (simp_all [Item.ival, PyVal.toInt]; done)
       | (simp only [Item.ival, usualUnit_toInt]; done)
       | (simp only [Item.ival]; exact lookup_value _ _))
    | exact absurd h (by simp)
    | skip

end Hrdc
