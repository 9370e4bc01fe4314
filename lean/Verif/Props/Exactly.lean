import Verif.Props.Encoding
import Verif.Props.Usages
import Verif.Props.Streams
import Verif.Props.Compile2
/-!
# Exactly where some of the claims hold
-/
namespace Hrdc
open Spec Streamer

/-! ## C06 -/

/-- A header of the short-item table, as much data as it announces, nothing but 0 for items without data. -/
def Spec.legalItem (h : UInt8) (d : List UInt8) : Prop :=
  ∃ c, shortItems.find? (fun c => hidPrefix c == h.toNat - h.toNat % 4) = some c ∧
    d.length = dataLen (h.toNat % 4) ∧ (c = .endCollection ∨ c = .push ∨ c = .pop → dataValue c d = 0)

/-- **C06.** `Item.parse` accepts what it should and nothing else exactly when there are no bytes after a header that
announces none, unless it is no header at all. -/
theorem C06_iff (reg : Registry) (h : UInt8) (d : List UInt8) :
    ((∃ i, Item.parse reg (h :: d) = .ok i) ↔ legalItem h d) ↔
      (h.toNat % 4 = 0 → d = [] ∨ shortItems.find? (fun c => hidPrefix c == h.toNat - h.toNat % 4) = none) := by
  have hd0 : ∀ c : Cls, dataValue c [] = 0 := by
    intro c; unfold dataValue signedLE; split <;> simp [unsignedLE]
  have e : (∃ i, Item.parse reg (h :: d) = .ok i) ↔
      ∃ c, shortItems.find? (fun c => hidPrefix c == h.toNat - h.toNat % 4) = some c ∧
        (h.toNat % 4 ≠ 0 → d.length = dataLen (h.toNat % 4)) ∧
        (c = .endCollection ∨ c = .push ∨ c = .pop → dataValue c (d.take (dataLen (h.toNat % 4))) = 0) := by
    constructor
    · rintro ⟨i, hi⟩
      obtain ⟨a, b, c, d⟩ := (C06_parse_spec_partial reg h d i.cls i.ival).1 ⟨i, hi, rfl, rfl⟩
      exact ⟨i.cls, a, b, by rw [← c]; exact d⟩
    · rintro ⟨c, a, b, z⟩
      obtain ⟨i, hi, -⟩ := (C06_parse_spec_partial reg h d c _).2 ⟨a, b, rfl, z⟩
      exact ⟨i, hi⟩
  rw [e]
  constructor
  · intro hh h0
    by_cases hd : d = []
    · exact Or.inl hd
    · right
      cases hf : shortItems.find? (fun c => hidPrefix c == h.toNat - h.toNat % 4) with
      | none => rfl
      | some c =>
        exfalso
        obtain ⟨c', -, hl, -⟩ := hh.1 ⟨c, hf, fun x => absurd h0 x, fun _ => by rw [h0]; simpa [dataLen] using hd0 c⟩
        rw [h0] at hl
        exact hd (List.length_eq_zero_iff.1 (by simpa [dataLen] using hl))
  · intro hh
    constructor
    · rintro ⟨c, a, b, z⟩
      by_cases h0 : h.toNat % 4 = 0
      · rcases hh h0 with rfl | hn
        · exact ⟨c, a, by simp [h0, dataLen], fun _ => hd0 c⟩
        · rw [hn] at a; simp at a
      · refine ⟨c, a, b h0, fun x => ?_⟩
        have := z x
        rwa [← b h0, List.take_length] at this
    · rintro ⟨c, a, b, z⟩
      exact ⟨c, a, fun _ => b, fun x => by rw [← b, List.take_length]; exact z x⟩

/-! ## C45 -/

/-- Fields among events. -/
def Spec.onlyFields (es : List Event) : List Event := es.filter (fun e => match e with | .control .. => true | _ => false)

theorem onlyFields_append (a b : List Event) : onlyFields (a ++ b) = onlyFields a ++ onlyFields b := List.filter_append ..

theorem onlyFields_pads (n : Nat) (c : Cls) (i : Int) : onlyFields (List.replicate n (.padBit c i)) = [] := by
  unfold onlyFields
  rw [List.filter_eq_nil_iff]
  intro e he
  rw [(List.mem_replicate.1 he).2]
  simp

/-- **C45.** A value with a named array has Array fields (no Variable flag) that choose among the array's usages in order,
with the logical range of the claim, exactly when it has no usage of its own. -/
theorem C45_iff (reg : Registry) (rule : PageRule) (v : Value) (hm : v.Made) (hne : arrayUsages v.namedArray ≠ [])
    (hc : 0 < v.count) (items : List Item) (h : compile reg (.value v) = .ok items) :
    (∃ lo attrs, v.logicalMin = some lo ∧ attrs.logMin = lo ∧ attrs.logMax = lo + (arrayUsages v.namedArray).length - 1 ∧
      onlyFields (meaning rule (keys items)) = List.replicate v.count.toNat (.control v.way.cls 0 0 attrs
        ((arrayUsages v.namedArray).map (fun u => ⟨some u, v.string, v.designator⟩)))) ↔
    usageOf v.usage = none := by
  constructor
  · rintro ⟨lo, attrs, -, -, -, hf⟩
    cases hu : usageOf v.usage with
    | none => rfl
    | some u =>
      exfalso
      obtain ⟨pad, attrs', he⟩ := C45_usage_breaks reg rule v hm hne u hu items h
      rw [he, onlyFields_append, onlyFields_pads] at hf
      obtain ⟨k, hk⟩ : ∃ k, v.count.toNat = k + 1 := ⟨v.count.toNat - 1, by omega⟩
      rw [hk, List.range_succ_eq_map, List.replicate_succ] at hf
      simp [onlyFields] at hf
  · intro hu
    obtain ⟨pad, lo, hlo, he⟩ := C45_array_partial reg rule v hm hne hu items h
    refine ⟨lo, { size := v.size, logMin := lo, logMax := lo + (arrayUsages v.namedArray).length - 1,
                  physMin := lo, physMax := lo + (arrayUsages v.namedArray).length - 1,
                  unit := v.unit.toInt, unitExp := v.unitExponent }, hlo, rfl, rfl, ?_⟩
    rw [he, onlyFields_append, onlyFields_pads, List.nil_append]
    unfold onlyFields
    rw [List.filter_eq_self.2]
    intro e h
    rw [(List.mem_replicate.1 h).2]

/-! ## C48 -/

/-- **C48.** `len`, and `r[k]` for every index of a list of that length, agree with the list min..max exactly when
min ≤ max + 1. -/
theorem C48_iff (reg : Registry) (r : UsageRange) :
    (r.len = .ok (r.iter reg).length ↔ r.min.toInt ≤ r.max.toInt + 1) ∧
    ∀ k : Int, ((r.getItem reg k).value ∈ (r.iter reg).map UsageC.value ↔ 0 ≤ k ∧ k ≤ r.max.toInt - r.min.toInt) := by
  constructor
  · constructor
    · intro h
      refine Decidable.byContradiction fun hn => ?_
      rw [(C48_range_inverted reg r (by omega)).1] at h
      simp at h
    · exact fun h => (C48_range_list_partial reg r h).2.1
  · intro k
    simp only [UsageRange.iter, UsageRange.pyRange, UsageRange.getItem, List.map_map, List.mem_map, List.mem_range,
      Function.comp, lookup_value, PyVal.toInt]
    constructor
    · rintro ⟨j, hj, e⟩
      omega
    · rintro ⟨a, b⟩
      exact ⟨k.toNat, by omega, by omega⟩

/-! ## C53 -/

/-- At most the same in kind, tag and value. -/
def Spec.below (a b : Item) : Prop :=
  a.cls.kind.code ≤ b.cls.kind.code ∧ a.cls.tag ≤ b.cls.tag ∧ a.ival ≤ b.ival

instance (a b : Item) : Decidable (below a b) := by unfold below; infer_instance

/-- **C53.** `a < b` says that b is not at most a in kind, tag and value at once. -/
theorem C53_lt_iff (a b : Item) : Item.pyLt a b = true ↔ ¬ below b a := by
  simp only [Item.pyLt, below, Bool.or_eq_true, decide_eq_true_eq]
  omega

/-- **C53.** Two items are not both less than the other exactly when one is at most the other in kind, tag and value. -/
theorem C53_asymm_iff (a b : Item) : ¬ (Item.pyLt a b = true ∧ Item.pyLt b a = true) ↔ below a b ∨ below b a := by
  simp only [C53_lt_iff]
  constructor
  · intro h
    by_cases h1 : below b a
    · exact Or.inr h1
    · exact Or.inl (Decidable.byContradiction fun h2 => h ⟨h1, h2⟩)
  · rintro (h | h) ⟨h1, h2⟩
    · exact h2 h
    · exact h1 h

/-- **C53.** Among items any two of which are so related, `<` is a strict order: asymmetric and transitive. -/
theorem C53_chain (s : Item → Prop) (hs : ∀ a b, s a → s b → below a b ∨ below b a) :
    (∀ a b, s a → s b → Item.pyLt a b = true → Item.pyLt b a = false) ∧
    (∀ a b c, s a → s b → s c → Item.pyLt a b = true → Item.pyLt b c = true → Item.pyLt a c = true) := by
  constructor
  · intro a b ha hb h
    have := (C53_asymm_iff a b).2 (hs a b ha hb)
    cases hh : Item.pyLt b a with
    | false => rfl
    | true => exact absurd ⟨h, hh⟩ this
  · intro a b c ha hb hc h1 h2
    rw [C53_lt_iff] at h1 h2 ⊢
    intro h3
    have hab := (hs a b ha hb).resolve_right h1
    exact h2 ⟨Nat.le_trans h3.1 hab.1, Nat.le_trans h3.2.1 hab.2.1, Int.le_trans h3.2.2 hab.2.2⟩

/-- Case of C53: the items of one class. -/
theorem C53_chain_case (c : Cls) (a b : Item) (ha : a.cls = c) (hb : b.cls = c) : below a b ∨ below b a := by
  unfold below; rw [ha, hb]; omega

/-- **C53.** `<` is a strict order on a set of items exactly when any two of them are so related. -/
theorem C53_iff (s : Item → Prop) :
    ((∀ a b, s a → s b → Item.pyLt a b = true → Item.pyLt b a = false) ∧
      (∀ a b c, s a → s b → s c → Item.pyLt a b = true → Item.pyLt b c = true → Item.pyLt a c = true)) ↔
    ∀ a b, s a → s b → below a b ∨ below b a := by
  refine ⟨fun h a b ha hb => (C53_asymm_iff a b).1 fun ⟨h1, h2⟩ => ?_, C53_chain s⟩
  rw [h.1 a b ha hb h1] at h2
  simp at h2

/-! ## C55 -/

/-- Collections are properly nested: none is closed that is not open, none stays open; `d` are open. -/
def Spec.nested (d : Nat) : List Cls → Bool
  | [] => d == 0
  | c :: r => if c = .collection then nested (d + 1) r else if c = .endCollection then d != 0 && nested (d - 1) r else nested d r

theorem nested_open (l : List Item) (d : Nat) (h : nested d (l.map (·.cls)) = true) : (d : Int) + openCount l = 0 := by
  induction l generalizing d with
  | nil => simpa [nested, openCount] using h
  | cons i l ih =>
    rw [openCount_cons]
    rw [List.map_cons, nested] at h
    by_cases h1 : i.cls = .collection
    · rw [if_pos h1] at h ⊢
      have := ih _ h
      omega
    · rw [if_neg h1] at h ⊢
      by_cases h2 : i.cls = .endCollection
      · rw [if_pos h2] at h ⊢
        simp only [Bool.and_eq_true, bne_iff_ne, ne_eq] at h
        have := ih _ h.2
        omega
      · rw [if_neg h2] at h ⊢
        have := ih _ h
        omega

/-- **C55.** `close()` never warns about proper nesting; it is right about a stream exactly when the stream is properly
nested or has different numbers of Collection and EndCollection. -/
theorem C55_iff (l : List Item) :
    (nested 0 (l.map (·.cls)) = true → Formatter.codeWarns l = false) ∧
    ((Formatter.codeWarns l = true ↔ nested 0 (l.map (·.cls)) = false) ↔
      (nested 0 (l.map (·.cls)) = true ∨ openCount l ≠ 0)) := by
  have hw := C55_close_warns_partial l
  have hn := nested_open l 0
  cases hc : nested 0 (l.map (·.cls)) with
  | true =>
    have h0 : openCount l = 0 := by simpa using hn hc
    have : Formatter.codeWarns l = false := by
      cases h : Formatter.codeWarns l with
      | false => rfl
      | true => exact absurd h0 (hw.1 h)
    simp [this]
  | false => simp [hw]

end Hrdc
