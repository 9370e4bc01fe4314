import Verif.Proofs.Item
/-!
# Properties C01-C06: one item, its bytes, and back

`Item.new` is the class constructor, `Item.bytes` the encoder, `Item.parse` the decoder of the code;
`Spec.readItem`, `Spec.dataValue` are the independent HID wire format.
-/
namespace Hrdc
open Item

/-- `n` payload bytes can carry value `v` for item class `c` (specification). -/
def Spec.Fits (c : Cls) (n : Nat) (v : Int) : Prop :=
  ∃ d : List UInt8, d.length = n ∧ Spec.dataValue c d = v

/-- Helper: `Fits` as an interval. -/
theorem fits_iff (c : Cls) {n : Nat} (hn : n = 1 ∨ n = 2 ∨ n = 4) (v : Int) :
    Spec.Fits c n v ↔ (if c.signed then -(2 ^ (8 * n - 1) : Nat) ≤ v ∧ v < (2 ^ (8 * n - 1) : Nat)
        else 0 ≤ v ∧ v < (2 ^ (8 * n) : Nat)) := by
  constructor
  · rintro ⟨d, hl, hv⟩
    have hlt := leVal_lt d
    have hs := signed_iff c
    unfold Spec.dataValue Spec.signedLE at hv
    rw [unsignedLE_eq, hl] at hv
    rw [hl] at hlt
    by_cases hsg : Spec.isSigned c
    · have h1 := hs.mpr hsg
      simp only [h1, hsg, if_true] at hv ⊢
      rcases hn with rfl | rfl | rfl <;> simp at * <;> split at hv <;> omega
    · have h1 : c.signed = false := by
        cases hc : c.signed
        · rfl
        · exact absurd (hs.mp hc) hsg
      simp only [h1, hsg, if_false] at hv ⊢
      rcases hn with rfl | rfl | rfl <;> simp at * <;> omega
  · intro h
    obtain ⟨p, hp⟩ := (pack_ok_iff n c.signed v).mpr h
    have h2 := unpack_pack hn hp
    exact ⟨p, h2.1, unpack_spec (by omega) c h2.2⟩

theorem payloadLen_cases {l : Nat} (h0 : l ≠ 0) :
    payloadLen l = 1 ∨ payloadLen l = 2 ∨ payloadLen l = 4 := by
  rcases l with _ | _ | _ | l <;> simp [payloadLen] at *

theorem dataLen_payloadLen {l : Nat} (hl : l < 4) : Spec.dataLen l = payloadLen l := by
  rcases l with _ | _ | _ | _ | l <;> simp [payloadLen, Spec.dataLen] at * <;> omega

/-- Helper: shape of a successful encoding. -/
theorem bytes_ok {i : Item} {bs : List UInt8} (h : i.bytes = .ok bs) :
    (i.cls.signed = true ∨ 0 ≤ i.ival) ∧
    ((i.sizeCode = 0 ∧ bs = [header i.cls 0]) ∨
      ∃ p, i.sizeCode ≠ 0 ∧ pack (payloadLen i.sizeCode) i.cls.signed i.ival = .ok p ∧
        bs = header i.cls i.sizeCode :: p) := by
  unfold Item.bytes at h
  split at h
  · simp at h
  · rename_i hns
    refine ⟨by cases hs : i.cls.signed <;> simp_all, ?_⟩
    simp only at h
    split at h
    · left; rename_i h0; simp at h; exact ⟨h0, h.symm⟩
    · right
      split at h
      · rename_i p hp; simp at h; exact ⟨p, by assumption, hp, h.symm⟩
      · simp at h

/-- Helper: what the constructors leave in `val` for classes that may have an empty payload. -/
theorem made_endCollection {i : Item} (h : i.Made) (hc : i.cls = .endCollection) :
    i.val = .int 0 := by
  obtain ⟨reg, v, hn⟩ := h
  rw [hc] at hn
  simp only [Item.new] at hn
  split at hn
  · rw [(baseInit_ok hn).1]
  · simp at hn

theorem made_input {i : Item} (h : i.Made) (hc : i.cls = .input) : i.val.truthy = true := by
  obtain ⟨reg, v, hn⟩ := h
  rw [hc] at hn
  unfold Item.new at hn
  simp only at hn
  split at hn
  · rw [(baseInit_ok hn).1]; rfl
  · rename_i hv
    rw [(baseInit_ok hn).1]
    cases v <;> simp_all [PyVal.truthy]

theorem made_zero {i : Item} (h : i.Made) (hc : i.cls = .endCollection ∨ i.cls = .push ∨ i.cls = .pop) :
    i.val = .int 0 := by
  obtain ⟨reg, v, hn⟩ := h
  rcases hc with hc | hc | hc <;>
  · rw [hc] at hn
    simp only [Item.new] at hn
    split at hn
    · rw [(baseInit_ok hn).1]
    · simp at hn

theorem sizeCode_zero_iff {i : Item} (h : i.Made) : i.sizeCode = 0 ↔ i.cls = .endCollection := by
  constructor
  · intro h0
    cases hs : i.cls.signed with
    | true => rw [sizeCode_signed i hs] at h0; split at h0 <;> (try split at h0) <;> simp at h0
    | false =>
      have hv : 0 ≤ i.ival := by have := h.nonneg; simp_all
      rw [sizeCode_unsigned i hs hv] at h0
      split at h0
      · rename_i hh
        have ho := hh.2.2
        have ht := hh.2.1
        cases hc : i.cls <;> simp [hc, Cls.optionalValue] at ho
        · rw [made_input h hc] at ht; simp at ht
        · rfl
      · split at h0 <;> (try split at h0) <;> simp at h0
  · intro hc
    have hz := made_endCollection h hc
    have hs : i.cls.signed = false := by rw [hc]; rfl
    rw [sizeCode_unsigned i hs (by simp [Item.ival, hz, PyVal.toInt])]
    simp [Item.ival, hz, PyVal.toInt, hc, Cls.optionalValue, PyVal.truthy]

/-- Helper: constructing again from the bare integer succeeds and keeps class and value. -/
theorem new_of_made {reg : Registry} {c : Cls} {v : Int}
    (hs : c.signed = true ∨ 0 ≤ v) (hz : c = .endCollection ∨ c = .push ∨ c = .pop → v = 0) :
    ∃ j, Item.new reg c (.int v) = .ok j ∧ j.cls = c ∧ j.ival = v := by
  have key : ∃ j, Item.new reg c (.int v) = .ok j := by
    have hb : ∀ w : PyVal, w.toInt = v → ∃ j, baseInit c w = .ok j := by
      intro w hw
      unfold baseInit
      rw [if_pos (by rw [hw]; simpa using hs)]
      exact ⟨_, rfl⟩
    by_cases hcc : c = .collection
    · subst hcc
      have : 0 ≤ v := by simpa [Cls.signed] using hs
      rw [new_collection_int, if_pos this]
      split
      · exact hb _ rfl
      · exact hb _ rfl
    cases c <;> simp only [Item.new] <;> simp at hz hcc
    case unit => exact hb _ (usualUnit_toInt _)
    case usage => exact hb _ (lookup_value _ _)
    case usageMin => exact hb _ (lookup_value _ _)
    case usageMax => exact hb _ (lookup_value _ _)
    case endCollection => subst hz; exact ⟨_, rfl⟩
    case push => subst hz; exact ⟨_, rfl⟩
    case pop => subst hz; exact ⟨_, rfl⟩
    all_goals exact hb _ rfl
  obtain ⟨j, hj⟩ := key
  refine ⟨j, hj, (new_cls hj).1, ?_⟩
  exact new_ival hj (by rintro rfl; simpa [Cls.signed, PyVal.toInt] using hs)

/-! ## C01 -/

/-- **C01.** Whatever constructor call made the item, if it encodes to `bs` then parsing `bs` (with
any usage registry) gives an item of the same class and the same integer value. -/
theorem C01_encode_parse (reg reg' : Registry) (c : Cls) (v : PyVal) (i : Item) (bs : List UInt8)
    (hn : Item.new reg c v = .ok i) (hb : i.bytes = .ok bs) :
    ∃ j, Item.parse reg' bs = .ok j ∧ j.cls = i.cls ∧ j.ival = i.ival := by
  have hcls := (new_cls hn).1
  have hm : i.Made := ⟨reg, v, by rw [hcls]; exact hn⟩
  have hz : i.cls = .endCollection ∨ i.cls = .push ∨ i.cls = .pop → i.ival = 0 := by
    intro h; simp [Item.ival, made_zero hm h, PyVal.toInt]
  obtain ⟨hs, hshape⟩ := bytes_ok hb
  have hnew := new_of_made (reg := reg') hs hz
  rcases hshape with ⟨h0, rfl⟩ | ⟨p, h0, hp, rfl⟩
  · have hf := header_facts i.cls 0 (by omega)
    have hec := (sizeCode_zero_iff hm).mp h0
    simp only [Item.parse, hf.2.1, hf.2.2.1, ofKey_self, hf.1, if_true]
    rw [hz (Or.inl hec)] at hnew
    obtain ⟨j, h1, h2, h3⟩ := hnew
    exact ⟨j, h1, h2, by rw [h3, hz (Or.inl hec)]⟩
  · have hf := header_facts i.cls i.sizeCode (sizeCode_le i)
    have hu := unpack_pack (payloadLen_cases h0) hp
    simp only [Item.parse, hf.2.1, hf.2.2.1, ofKey_self, hf.1, if_neg h0, hu.2]
    exact hnew

/-- Satisfiable, non-trivial instance: a signed two-byte value. -/
example : ∃ i bs, Item.new [] .logMax (.int (-300)) = .ok i ∧ i.bytes = .ok bs ∧ bs = [0x26, 0xd4, 0xfe] := by
  refine ⟨⟨.logMax, .int (-300)⟩, [0x26, 0xd4, 0xfe], by decide, by decide +kernel, rfl⟩

/-! ## C02 -/

/-- **C02.** The encoding, followed by anything, is read by the independent HID short-item reader as
exactly this item (class given by type and tag bits, value by the little-endian payload, two's
complement for signed classes), leaving what follows untouched. -/
theorem C02_wire_format (i : Item) (hm : i.Made) (bs rest : List UInt8) (hb : i.bytes = .ok bs) :
    Spec.readItem (bs ++ rest) = some ((i.cls, i.ival), rest) := by
  obtain ⟨_, hshape⟩ := bytes_ok hb
  have hfind : ∀ c : Cls, Spec.shortItems.find? (fun c' => Spec.hidPrefix c' == Spec.hidPrefix c) = some c := by
    intro c; cases c <;> decide
  rcases hshape with ⟨h0, rfl⟩ | ⟨p, h0, hp, rfl⟩
  · have hf := header_facts i.cls 0 (by omega)
    have hec := (sizeCode_zero_iff hm).mp h0
    have hz : i.ival = 0 := by simp [Item.ival, made_endCollection hm hec, PyVal.toInt]
    have e : (header i.cls 0).toNat - 0 = Spec.hidPrefix i.cls := by
      have := hf.1; have := hf.2.2.2; omega
    simp only [Spec.readItem, List.cons_append, List.nil_append, hf.1, e, hfind, hz]
    simp [Spec.dataLen, Spec.dataValue, Spec.isSigned, hec, Spec.unsignedLE]
  · have hf := header_facts i.cls i.sizeCode (sizeCode_le i)
    have hu := unpack_pack (payloadLen_cases h0) hp
    have e : (header i.cls i.sizeCode).toNat - i.sizeCode = Spec.hidPrefix i.cls := by
      have := hf.1; have := hf.2.2.2; omega
    have hv := unpack_spec (by have := payloadLen_cases h0; omega) i.cls hu.2
    simp only [Spec.readItem, List.cons_append, e, hfind, hf.1, dataLen_payloadLen (sizeCode_le i)]
    rw [if_neg (by simp; omega), ← hu.1]
    simp [hv]

/-- Satisfiable: the unsigned 0xffff. -/
example : (⟨.usageMax, .usage ⟨[], 0xffff, []⟩⟩ : Item).Made := ⟨[], .usage ⟨[], 0xffff, []⟩, rfl⟩

/-! ## C03 -/

/-- **C03.** The payload is empty exactly for EndCollection; for every other class it is the
shortest of 1, 2, 4 bytes that can carry the value. -/
theorem C03_shortest_payload (i : Item) (hm : i.Made) (bs : List UInt8) (hb : i.bytes = .ok bs) :
    (bs.length = 1 ↔ i.cls = .endCollection) ∧
    (i.cls ≠ .endCollection →
      ∃ n, bs.length = 1 + n ∧ (n = 1 ∨ n = 2 ∨ n = 4) ∧ Spec.Fits i.cls n i.ival ∧
        ∀ m, (m = 1 ∨ m = 2 ∨ m = 4) → Spec.Fits i.cls m i.ival → n ≤ m) := by
  obtain ⟨hs, hshape⟩ := bytes_ok hb
  have hz := sizeCode_zero_iff hm
  rcases hshape with ⟨h0, rfl⟩ | ⟨p, h0, hp, rfl⟩
  · exact ⟨by simp [hz.mp h0], fun h => absurd (hz.mp h0) h⟩
  · have hne : i.cls ≠ .endCollection := fun h => h0 (hz.mpr h)
    have hpl := payloadLen_cases h0
    have hu := unpack_pack hpl hp
    refine ⟨⟨fun h => ?_, fun h => absurd h hne⟩, fun _ => ?_⟩
    · simp only [List.length_cons] at h; omega
    · refine ⟨payloadLen i.sizeCode, by simp [hu.1]; omega, hpl,
        ⟨p, hu.1, unpack_spec (by omega) _ hu.2⟩, ?_⟩
      intro m hmm hfit
      rw [fits_iff _ hmm] at hfit
      cases hsg : i.cls.signed with
      | true =>
        rw [sizeCode_signed i hsg]
        simp only [hsg, if_true] at hfit
        rcases hmm with rfl | rfl | rfl <;> simp at hfit <;> repeat' split
        all_goals (simp [payloadLen]; try omega)
      | false =>
        have hv : 0 ≤ i.ival := by simpa [hsg] using hs
        have hsc := sizeCode_unsigned i hsg hv
        rw [hsc] at h0 ⊢
        simp only [hsg] at hfit
        rcases hmm with rfl | rfl | rfl <;> simp at hfit <;> repeat' split
        all_goals (simp [payloadLen]; try omega)

example : (⟨.logMin, .int (-128)⟩ : Item).Made ∧ (⟨.logMin, .int (-128)⟩ : Item).bytes = .ok [0x15, 0x80] := by
  exact ⟨⟨[], .int (-128), rfl⟩, by decide +kernel⟩

/-! ## C04 -/

/-- **C04.** Encoding raises if and only if the value does not fit four payload bytes of the class's
signedness. -/
theorem C04_encode_error_iff (i : Item) (hm : i.Made) :
    (∃ e, i.bytes = .error e) ↔ ¬ Spec.Fits i.cls 4 i.ival := by
  have hs := hm.nonneg
  have hok : (∃ bs, i.bytes = .ok bs) ↔ Spec.Fits i.cls 4 i.ival := by
    rw [fits_iff _ (by simp)]
    constructor
    · rintro ⟨bs, hb⟩
      obtain ⟨_, hshape⟩ := bytes_ok hb
      rcases hshape with ⟨h0, rfl⟩ | ⟨p, h0, hp, rfl⟩
      · have hec := (sizeCode_zero_iff hm).mp h0
        simp [Item.ival, made_endCollection hm hec, PyVal.toInt, hec, Cls.signed]
      · have := (pack_ok_iff _ _ _).mp ⟨p, hp⟩
        rcases payloadLen_cases h0 with h | h | h <;> rw [h] at this <;>
          cases hc : i.cls.signed <;> simp [hc] at this ⊢ <;> omega
    · intro hr
      unfold Item.bytes
      rw [if_neg (by intro hh; have h1 := hh.1; have h2 := hh.2; rcases hs with h | h
                     · simp [h] at h1
                     · omega)]
      simp only
      split
      · exact ⟨_, rfl⟩
      · rename_i h0
        have hp : ∃ p, pack (payloadLen i.sizeCode) i.cls.signed i.ival = .ok p := by
          rw [pack_ok_iff]
          cases hc : i.cls.signed with
          | true =>
            rw [sizeCode_signed i hc]
            simp [hc] at hr ⊢
            repeat' split
            all_goals (simp [payloadLen]; omega)
          | false =>
            have hv : 0 ≤ i.ival := by simpa [hc] using hs
            have hsc := sizeCode_unsigned i hc hv
            rw [hsc] at h0 ⊢
            simp [hc] at hr ⊢
            repeat' split
            all_goals (simp [payloadLen]; omega)
        obtain ⟨p, hp⟩ := hp
        rw [hp]; exact ⟨_, rfl⟩
  rw [← hok]
  cases i.bytes <;> simp

example : (⟨.reportSize, .int (2 ^ 32)⟩ : Item).Made ∧ ¬ Spec.Fits .reportSize 4 (2 ^ 32) := by
  refine ⟨⟨[], .int (2 ^ 32), by decide +kernel⟩, ?_⟩
  rw [fits_iff _ (by simp)]; decide

/-! ## C05 -/

/-- Construction succeeds exactly on the legal values and keeps the integer value, negative plain
ints given to `Collection` aside. -/
theorem construct_kept (reg : Registry) (c : Cls) (v : PyVal)
    (hcoll : c = .collection → ∀ k, v = .int k → 0 ≤ k) :
    ((∃ i, Item.new reg c v = .ok i) ↔
      (Spec.isSigned c ∨ 0 ≤ v.toInt) ∧
      (c = .endCollection ∨ c = .push ∨ c = .pop → v.toInt = 0)) ∧
    ∀ i, Item.new reg c v = .ok i → i.cls = c ∧ i.ival = v.toInt := by
  rw [← signed_iff]
  have hb : ∀ w : PyVal, (∃ j, baseInit c w = .ok j) ↔ (c.signed = true ∨ 0 ≤ w.toInt) := by
    intro w
    unfold baseInit
    split
    · rename_i h; simpa using h
    · rename_i h; simpa using h
  constructor
  · have hl := lookup_value reg v
    by_cases hci : c = .collection ∧ ∃ k, v = .int k
    · obtain ⟨rfl, k, rfl⟩ := hci
      have hk := hcoll rfl k rfl
      rw [new_collection_int, if_pos hk]
      split <;> rw [hb] <;> simp [PyVal.toInt]
    cases c <;> simp only [Item.new]
    case collection =>
      split
      · exact absurd ⟨rfl, _, rfl⟩ hci
      · rw [hb]; simp
    case input => split <;> rw [hb] <;> simp [PyVal.toInt]
    case output => split <;> rw [hb] <;> simp [PyVal.toInt]
    case feature => split <;> rw [hb] <;> simp [PyVal.toInt]
    case unit => rw [hb, usualUnit_toInt]; simp
    case usage => rw [hb]; simp [PyVal.toInt, hl]
    case usageMin => rw [hb]; simp [PyVal.toInt, hl]
    case usageMax => rw [hb]; simp [PyVal.toInt, hl]
    case endCollection => split <;> simp_all [baseInit, Cls.signed, PyVal.toInt]
    case push => split <;> simp_all [baseInit, Cls.signed, PyVal.toInt]
    case pop => split <;> simp_all [baseInit, Cls.signed, PyVal.toInt]
    all_goals (rw [hb]; simp)
  · intro i hi
    refine ⟨(new_cls hi).1, ?_⟩
    by_cases hc : c = .collection ∧ ∃ n k, v = .named n k ∨ ∃ u, v = .usage u
    · obtain ⟨rfl, n, k, h⟩ := hc
      rcases h with rfl | ⟨u, rfl⟩ <;> simp only [Item.new] at hi <;> rw [(baseInit_ok hi).1] <;> rfl
    · refine new_ival hi ?_
      rintro rfl
      cases v with
      | int k => exact hcoll rfl k rfl
      | named n k => exact absurd ⟨rfl, n, k, Or.inl rfl⟩ hc
      | usage u => exact absurd ⟨rfl, [], 0, Or.inr ⟨u, rfl⟩⟩ hc

/-- A negative plain int counts the collection kinds from the end: `Collection(-1)` is accepted and
silently becomes kind 6. -/
theorem C05_negative_collection (reg : Registry) (k : Int) (hk : k < 0) :
    (∀ i, Item.new reg .collection (.int k) = .ok i → i.cls = .collection ∧ i.ival = k + 7) ∧
    ((∃ i, Item.new reg .collection (.int k) = .ok i) ↔ -7 ≤ k) := by
  rw [new_collection_int, if_pos (by omega), if_neg (by omega)]
  by_cases h : -7 ≤ k
  · rw [if_pos h]
    constructor
    · intro i hi
      rw [(baseInit_ok hi).1]; exact ⟨rfl, rfl⟩
    · refine ⟨fun _ => h, fun _ => ⟨⟨.collection, .named (collNames.getD (k + 7).toNat []) (k + 7)⟩, ?_⟩⟩
      rw [baseInit, if_pos (.inr (by simp only [PyVal.toInt]; omega))]
  · rw [if_neg h]; simp [h]

/-- **C05.** Construction succeeds exactly on the legal values: not negative unless the class is
signed, and 0 for EndCollection, Push and Pop.  The item has the class and the integer value it was
given, `Collection(-7)` to `Collection(-1)` aside (`Spec.keptValue`).  Failures are assertion errors,
or index errors for `Collection(k)` with `k` below -7. -/
theorem C05_construct (reg : Registry) (c : Cls) (v : PyVal) :
    ((∃ i, Item.new reg c v = .ok i) ↔
      (Spec.isSigned c ∨ 0 ≤ Spec.keptValue c v) ∧
      (c = .endCollection ∨ c = .push ∨ c = .pop → v.toInt = 0)) ∧
    (∀ i, Item.new reg c v = .ok i → i.cls = c ∧ i.ival = Spec.keptValue c v) ∧
    ∀ e, Item.new reg c v = .error e →
      (e = .index ∧ c = .collection ∧ ∃ k, v = .int k ∧ k < -7) ∨
      (e = .assertion ∧ ¬ (c = .collection ∧ ∃ k, v = .int k)) := by
  have herr : ∀ c w e, baseInit c w = .error e → e = .assertion := by
    intro c w e h
    unfold baseInit at h
    split at h
    · simp at h
    · simpa using h.symm
  by_cases hn : c = .collection ∧ ∃ k, v = .int k
  · obtain ⟨rfl, k, rfl⟩ := hn
    by_cases hk : 0 ≤ k
    · have h := construct_kept reg .collection (.int k) (by intro _ k' e; cases e; exact hk)
      have hkept : Spec.keptValue .collection (.int k) = k := by
        simp only [Spec.keptValue]; rw [if_neg (by omega)]
      rw [hkept]
      refine ⟨h.1, h.2, ?_⟩
      intro e he
      have := h.1.2 ⟨.inr hk, by simp⟩
      rw [he] at this
      simp at this
    · have h := C05_negative_collection reg k (by omega)
      refine ⟨?_, ?_, ?_⟩
      · rw [h.2]
        simp only [Spec.keptValue, Spec.isSigned, reduceCtorEq, or_false, false_or, false_implies, and_true, true_and]
        split <;> omega
      · intro i hi
        have h7 := h.2.1 ⟨i, hi⟩
        have := h.1 i hi
        refine ⟨this.1, ?_⟩
        simp only [Spec.keptValue]
        rw [if_pos ⟨trivial, h7, by omega⟩]
        exact this.2
      · intro e he
        left
        have h7 : ¬ -7 ≤ k := fun h7 => by
          have := h.2.2 h7
          rw [he] at this
          simp at this
        rw [new_collection_int, if_pos (by omega), if_neg hk, if_neg h7] at he
        simp only [Except.error.injEq] at he
        exact ⟨he.symm, rfl, k, rfl, by omega⟩
  · have hkept : Spec.keptValue c v = v.toInt := by
      cases v with
      | int k =>
        simp only [Spec.keptValue]
        rw [if_neg (fun h => hn ⟨h.1, k, rfl⟩)]; rfl
      | named n k => rfl
      | usage u => rfl
    have h := construct_kept reg c v (fun hc k hk => absurd ⟨hc, k, hk⟩ hn)
    rw [hkept]
    refine ⟨h.1, h.2, fun e he => .inr ⟨?_, hn⟩⟩
    cases c <;> simp only [Item.new] at he
    case collection =>
      cases v with
      | int k => exact absurd ⟨rfl, k, rfl⟩ hn
      | named n k => exact herr _ _ _ he
      | usage u => exact herr _ _ _ he
    case input => split at he <;> exact herr _ _ _ he
    case output => split at he <;> exact herr _ _ _ he
    case feature => split at he <;> exact herr _ _ _ he
    case endCollection =>
      split at he
      · exact herr _ _ _ he
      · simpa using he.symm
    case push =>
      split at he
      · exact herr _ _ _ he
      · simpa using he.symm
    case pop =>
      split at he
      · exact herr _ _ _ he
      · simpa using he.symm
    all_goals exact herr _ _ _ he

example : ∃ i, Item.new [] .collection (.int (-1)) = .ok i ∧ i.ival = 6 := ⟨_, rfl, rfl⟩
example : Item.new [] .collection (.int 7) = .ok ⟨.collection, .int 7⟩ := by decide

example : Item.new [] .reportSize (.int (-1)) = .error .assertion := by decide
example : Item.new [] .push (.int 1) = .error .assertion := by decide

/-! ## C06 -/

/-- Helper: the numeric key lookup agrees with the HID item table. -/
theorem ofKey_prefix (h : UInt8) :
    Cls.ofKey (h.toNat / 4 % 4) (h.toNat / 16)
      = Spec.shortItems.find? (fun c => Spec.hidPrefix c == h.toNat - h.toNat % 4) := by
  have hall : Cls.all = Spec.shortItems := rfl
  unfold Cls.ofKey
  rw [hall]
  congr 1
  funext c
  have hlt := h.toNat_lt
  have e : ∀ a b : Nat, (a == b) = decide (a = b) := fun a b => rfl
  simp only [e]
  rw [← Bool.decide_and]
  congr 1
  apply propext
  cases c <;> simp only [Cls.kind, Kind.code, Cls.tag, Spec.hidPrefix] <;> omega

/-- **C06 (partial).** `parse` succeeds exactly when the header is in the HID short-item table, the payload
(for a non-zero size field) has exactly the announced length, and EndCollection/Push/Pop carry zero;
the result then has the table's class and the payload's value.  (With a zero size field the payload
argument is not inspected; the stream parser never passes one then.)
Missing, and false of the code: bytes after a header of size code 0 (`C06_extra_bytes_accepted`). -/
theorem C06_parse_spec_partial (reg : Registry) (h : UInt8) (d : List UInt8) (c : Cls) (v : Int) :
    (∃ i, Item.parse reg (h :: d) = .ok i ∧ i.cls = c ∧ i.ival = v) ↔
      Spec.shortItems.find? (fun c => Spec.hidPrefix c == h.toNat - h.toNat % 4) = some c ∧
      (h.toNat % 4 ≠ 0 → d.length = Spec.dataLen (h.toNat % 4)) ∧
      v = Spec.dataValue c (d.take (Spec.dataLen (h.toNat % 4))) ∧
      (c = .endCollection ∨ c = .push ∨ c = .pop → v = 0) := by
  have hl4 : h.toNat % 4 < 4 := Nat.mod_lt _ (by omega)
  have hd0 : ∀ c : Cls, Spec.dataValue c [] = 0 := by
    intro c; unfold Spec.dataValue Spec.signedLE; split <;> simp [Spec.unsignedLE]
  rw [← ofKey_prefix, dataLen_payloadLen hl4]
  simp only [Item.parse]
  have hmk : ∀ (c' : Cls) (w : Int), (c'.signed = true ∨ 0 ≤ w) →
      ((∃ i, Item.new reg c' (.int w) = .ok i ∧ i.cls = c ∧ i.ival = v) ↔
        (c' = c ∧ v = w ∧ (c = .endCollection ∨ c = .push ∨ c = .pop → v = 0))) := by
    intro c' w hs
    have hp := construct_kept reg c' (.int w)
      (by rintro rfl k hk; simp at hk; subst hk; simpa [Cls.signed] using hs)
    constructor
    · rintro ⟨i, hi, rfl, rfl⟩
      have h1 := hp.2 i hi
      have h2 := hp.1.mp ⟨i, hi⟩
      refine ⟨h1.1.symm, h1.2, ?_⟩
      rw [h1.1, h1.2]; exact h2.2
    · rintro ⟨rfl, rfl, hz⟩
      obtain ⟨i, hi⟩ := hp.1.mpr ⟨hs.imp (signed_iff c').mp id, hz⟩
      exact ⟨i, hi, hp.2 i hi⟩
  cases hk : Cls.ofKey (h.toNat / 4 % 4) (h.toNat / 16) with
  | none => simp
  | some c' =>
    simp only [Option.some.injEq]
    by_cases h0 : h.toNat % 4 = 0
    · simp only [h0, if_true, payloadLen, List.take_zero, hd0]
      rw [hmk c' 0 (by simp)]
      simp
    · rw [if_neg h0]
      have hpl := payloadLen_cases h0
      cases hu : unpack (payloadLen (h.toNat % 4)) c'.signed d with
      | error e =>
        simp
        intro _ hlen
        unfold unpack at hu
        rw [if_pos (hlen h0)] at hu
        simp at hu
        split at hu <;> simp at hu
      | ok w =>
        have hlen : d.length = payloadLen (h.toNat % 4) := by
          unfold unpack at hu
          split at hu
          · assumption
          · simp at hu
        have hv := unpack_spec (by omega) c' hu
        have hs : c'.signed = true ∨ 0 ≤ w := by
          cases hsg : c'.signed
          · right
            have : ¬ Spec.isSigned c' := fun hh => by rw [(signed_iff c').mpr hh] at hsg; simp at hsg
            rw [← hv]; unfold Spec.dataValue; rw [if_neg this, unsignedLE_eq]; omega
          · left; rfl
        rw [hmk c' w hs]
        constructor
        · rintro ⟨rfl, rfl, hz⟩
          exact ⟨rfl, fun _ => hlen, by rw [← hlen, List.take_length]; exact hv.symm, hz⟩
        · rintro ⟨rfl, _, hv', hz⟩
          refine ⟨rfl, ?_, hz⟩
          rw [← hlen, List.take_length] at hv'
          rw [hv', hv]

/-- **C06**, empty input raises. -/
theorem C06_parse_empty (reg : Registry) : Item.parse reg [] = .error .index := rfl

/-- **C06 fails for size code 0**: bytes after the header are not looked at, where HID announces none. -/
theorem C06_extra_bytes_accepted (reg : Registry) (d : List UInt8) :
    ∃ i, Item.parse reg (0x08 :: d) = .ok i ∧ i.cls = .usage ∧ i.ival = 0 :=
  (C06_parse_spec_partial reg 0x08 d .usage 0).2
    ⟨by decide +kernel, by simp, by simp [Spec.dataLen, Spec.dataValue, Spec.isSigned, Spec.unsignedLE], by simp⟩

example : Item.parse [] [0xfe, 0, 0] = .error .key := by decide +kernel
example : ∃ i, Item.parse [] [0x16, 0x00, 0x80] = .ok i ∧ i.cls = .logMin ∧ i.ival = -32768 :=
  ⟨⟨.logMin, .int (-32768)⟩, by decide +kernel, rfl, rfl⟩

end Hrdc
