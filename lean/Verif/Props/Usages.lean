import Verif.Proofs.Item
/-!
# Properties C46-C49, C52, C53: usages, usage ranges, units, item comparison
-/
namespace Hrdc
open Item

/-! ## C46 -/

/-- **C46.** For every usage object (any name, any value): `split()` gives the page number and the
16-bit identifier of the value, and the two parts rebuild it. -/
theorem C46_split (u : UsageC) :
    0 ≤ (Usage.split u).2.toInt ∧ (Usage.split u).2.toInt < 65536 ∧
    (Usage.split u).1.toInt * 65536 + (Usage.split u).2.toInt = u.value := by
  rw [split_fst, split_snd]
  omega

/-- **C46.** Renaming a 16-bit identifier inside any page, with any registry, keeps its number;
and joining the parts of a split usage gives back the usage value. -/
theorem C46_inpage (reg : Registry) (page no : Int) (_hp : 0 ≤ page) (h0 : 0 ≤ no) (h1 : no < 65536) :
    (Usage.inpage reg page no).toInt = no ∧
    ∀ u : UsageC, 0 ≤ u.value →
      Usage.joinPage (Usage.split u).1.toInt (Usage.split u).2.toInt = u.value := by
  constructor
  · exact inpage_toInt reg page no h0 h1
  · intro u hu
    rw [split_fst, split_snd, joinPage_eq (by omega) (by omega) (by omega)]
    omega

example : (Usage.split ⟨tx "consumer.VolumeUp", 0xc00e9, []⟩).1 = .named (tx "consumer") 0xc := by decide +kernel

/-! ## C47 -/

/-- **C47.** `lookup` keeps the integer value of every argument. -/
theorem C47_lookup_value (reg : Registry) (v : PyVal) : (Usage.lookup reg v).value = v.toInt :=
  lookup_value reg v

/-- **C47.** For a plain int above 0xffff (or negative), `lookup` returns the usage registered last
with this value when there is one; otherwise, and for all 16-bit ints, a fresh usage named by the hex value. -/
theorem C47_lookup_registered (reg : Registry) (i : Int) :
    (∀ later u earlier, reg = later ++ u :: earlier → (∀ w ∈ later, w.value ≠ i) → u.value = i →
      (i < 0 ∨ 65536 ≤ i) → Usage.lookup reg (.int i) = u) ∧
    ((∀ w ∈ reg, w.value ≠ i) ∨ (0 ≤ i ∧ i < 65536) →
      Usage.lookup reg (.int i) = ⟨pyHex i, i, []⟩) := by
  constructor
  · rintro later u earlier rfl hlater hv hi
    simp only [Usage.lookup]
    rw [if_pos (by omega)]
    have : Registry.get (later ++ u :: earlier) i = some u := by
      unfold Registry.get
      rw [List.find?_append, List.find?_eq_none.2 (fun w hw => by simpa using hlater w hw)]
      simp [hv]
    rw [this]
  · intro h
    simp only [Usage.lookup]
    split
    · rename_i hne
      have hno : ∀ w ∈ reg, w.value ≠ i := by
        rcases h with h | h
        · exact h
        · omega
      have : reg.get i = none := by
        unfold Registry.get
        rw [List.find?_eq_none]
        intro w hw; simpa using hno w hw
      rw [this]
    · rfl

example : Usage.lookup [⟨tx "desktop.X", 0x10030, [.DV]⟩] (.int 0x10030) = ⟨tx "desktop.X", 0x10030, [.DV]⟩ := by
  decide +kernel

/-! ## C48 -/

/-- Specification: the integers from `lo` to `hi`. -/
def Spec.IsInterval (lo hi : Int) (l : List Int) : Prop :=
  (l.length : Int) = hi - lo + 1 ∧ ∀ k, (h : k < l.length) → l[k] = lo + (k : Nat)

/-- **C48 (partial).** A range with `min ≤ max + 1` behaves as the list min..max: iteration gives usages with
exactly these values, `len` is the length of the iteration and `r[k]` its k-th element.
Missing, and false of the code: other ranges (`C48_range_inverted`), other indices (`C48_negative_index_breaks`). -/
theorem C48_range_list_partial (reg : Registry) (r : UsageRange) (h : r.min.toInt ≤ r.max.toInt + 1) :
    Spec.IsInterval r.min.toInt r.max.toInt ((r.iter reg).map UsageC.value) ∧
    r.len = .ok (r.iter reg).length ∧
    ∀ k, (hk : k < (r.iter reg).length) → (r.iter reg)[k] = r.getItem reg k := by
  have hl : (r.iter reg).length = (r.max.toInt - r.min.toInt + 1).toNat := by
    simp [UsageRange.iter, UsageRange.pyRange]
  refine ⟨⟨?_, ?_⟩, ?_, ?_⟩
  · rw [List.length_map, hl]; omega
  · intro k hk
    simp [UsageRange.iter, UsageRange.pyRange, lookup_value, PyVal.toInt]
  · rw [hl]; unfold UsageRange.len UsageRange.rawLen
    rw [if_neg (by omega)]
  · intro k hk
    simp [UsageRange.iter, UsageRange.pyRange, UsageRange.getItem]

/-- **C48.** A range with `max < min - 1` raises on `len` although it iterates as empty. -/
theorem C48_range_inverted (reg : Registry) (r : UsageRange) (h : r.max.toInt + 1 < r.min.toInt) :
    r.len = .error .value ∧ r.iter reg = [] := by
  constructor
  · unfold UsageRange.len UsageRange.rawLen; rw [if_pos (by omega)]
  · have : (r.max.toInt - r.min.toInt + 1).toNat = 0 := by omega
    simp [UsageRange.iter, UsageRange.pyRange, this]

/-- **C48 fails for negative indices**: `r[-1]` is the usage before the first, not the last one, and no
index raises. -/
theorem C48_negative_index_breaks (reg : Registry) (r : UsageRange) :
    (r.getItem reg (-1)).value = r.min.toInt - 1 ∧
      (r.getItem reg (r.max.toInt - r.min.toInt + 1)).value = r.max.toInt + 1 := by
  unfold UsageRange.getItem
  rw [lookup_value, lookup_value]
  simp only [PyVal.toInt]
  omega

theorem contiguous_iff (l : List PyVal) :
    UsageRange.contiguous l = true ↔
      ∀ k, (h : k + 1 < l.length) → l[k + 1].toInt = l[k].toInt + 1 := by
  induction l with
  | nil => simp [UsageRange.contiguous]
  | cons a l ih =>
    cases l with
    | nil => simp [UsageRange.contiguous]
    | cons b r =>
      simp only [UsageRange.contiguous, Bool.and_eq_true, beq_iff_eq, ih]
      constructor
      · rintro ⟨h1, h2⟩ k hk
        cases k with
        | zero => simp [h1]
        | succ k => exact h2 k (by simpa using hk)
      · intro h
        refine ⟨by simpa using (h 0 (by simp)).symm, fun k hk => ?_⟩
        exact h (k + 1) (by simpa using hk)

theorem contiguous_values (l : List PyVal) (h : UsageRange.contiguous l = true) (k : Nat)
    (hk : k < l.length) : l[k].toInt = l[0].toInt + k := by
  rw [contiguous_iff] at h
  induction k with
  | zero => simp
  | succ k ih => rw [h k hk, ih (by omega)]; omega

/-- **C48.** `from_array` succeeds exactly on arrays of at least two consecutive values, and the
range it returns iterates over exactly the array's values. -/
theorem C48_from_array (reg : Registry) (arr : List PyVal) :
    ((∃ r, UsageRange.fromArray arr = .ok r) ↔
      2 ≤ arr.length ∧ ∀ k, (h : k + 1 < arr.length) → arr[k + 1].toInt = arr[k].toInt + 1) ∧
    ∀ r, UsageRange.fromArray arr = .ok r →
      (r.iter reg).map UsageC.value = arr.map PyVal.toInt := by
  match arr with
  | [] => simp [UsageRange.fromArray]
  | [a] => simp [UsageRange.fromArray]
  | a :: b :: l =>
    constructor
    · rw [← contiguous_iff]
      simp only [UsageRange.fromArray]
      split <;> simp_all
    · intro r hr
      simp only [UsageRange.fromArray] at hr
      split at hr
      · rename_i hc
        simp only [Except.ok.injEq] at hr
        subst hr
        have hv := contiguous_values _ hc
        have hlast : ((b :: l).getLast (by simp)).toInt = a.toInt + (l.length + 1 : Nat) := by
          have := hv (l.length + 1) (by simp)
          rw [List.getLast_eq_getElem]
          simpa using this
        apply List.ext_getElem
        · simp [UsageRange.iter, UsageRange.pyRange, hlast]; omega
        · intro k h1 h2
          have := hv k (by simpa using h2)
          have e : ∀ i : Int, (PyVal.int i).toInt = i := fun _ => rfl
          simp only [UsageRange.iter, UsageRange.pyRange, List.getElem_map, lookup_value, e,
            List.getElem_range]
          exact this.symm
      · simp at hr

example : UsageRange.fromArray [.int 5, .named (tx "n") 6, .int 7] = .ok ⟨.int 5, .int 7⟩ := by decide
example : UsageRange.fromArray [.int 5, .int 7] = .error .value := by decide

/-! ## C49 -/

/-- Specification: value of a nibble read as 4-bit two's complement. -/
def Spec.nibble (v : Nat) (pos : Nat) : Int :=
  let n := v / 16 ^ pos % 16
  if n < 8 then n else (n : Int) - 16

/-- The expression `system | d1 | d2 | ..` where each `d` is a dimension function applied to an
exponent; `none` when one of the calls raises. -/
def unitExpr (system : Nat) : List (Nat × Int) → Option Nat
  | [] => some system
  | (pos, e) :: l =>
    match Item.unitNibble e pos, unitExpr system l with
    | .ok n, some r => some (r ||| n.toNat)
    | _, _ => none

theorem unitNibble_ok {e : Int} {pos : Nat} {n : Int} (h : Item.unitNibble e pos = .ok n) :
    ∃ m : Nat, m < 16 ∧ n.toNat = m * 2 ^ (4 * pos) ∧ (if m < 8 then (m : Int) else (m : Int) - 16) = e ∧
      -8 ≤ e ∧ e ≤ 7 := by
  unfold Item.unitNibble at h
  split at h
  · rename_i hr
    simp only [Except.ok.injEq] at h
    refine ⟨(if e < 0 then e + 16 else e).toNat, ?_, ?_, ?_, hr⟩
    · split <;> omega
    · rw [← h, Nat.mul_comm pos 4]
      have : ∀ x : Int, 0 ≤ x → (x * ((2 ^ (4 * pos) : Nat) : Int)).toNat = x.toNat * 2 ^ (4 * pos) := by
        intro x hx
        rw [Int.toNat_mul hx (Int.natCast_nonneg _), Int.toNat_natCast]
      apply this
      split <;> omega
    · split <;> split <;> omega
  · simp at h

theorem nib_testBit {m pos j : Nat} (_hm : m < 16) :
    (m * 2 ^ (4 * pos)).testBit j = (decide (4 * pos ≤ j) && m.testBit (j - 4 * pos)) := by
  rw [← Nat.shiftLeft_eq, Nat.testBit_shiftLeft]

theorem small_testBit {m j : Nat} (hm : m < 16) (hj : 4 ≤ j) : m.testBit j = false := by
  apply Nat.testBit_lt_two_pow
  calc m < 2 ^ 4 := by omega
    _ ≤ 2 ^ j := Nat.pow_le_pow_right (by omega) hj

theorem unitExpr_testBit {system : Nat} (hs : system < 16) {l : List (Nat × Int)} {v : Nat}
    (h : unitExpr system l = some v) (hpos : ∀ p ∈ l, 1 ≤ p.1) (hnd : (l.map (·.1)).Nodup) :
    (∀ j, j < 4 → v.testBit j = system.testBit j) ∧
    (∀ k, 1 ≤ k → k ∉ l.map (·.1) → ∀ j, j < 4 → v.testBit (4 * k + j) = false) ∧
    (∀ p ∈ l, ∃ m : Nat, m < 16 ∧ (if m < 8 then (m : Int) else (m : Int) - 16) = p.2 ∧
      ∀ j, j < 4 → v.testBit (4 * p.1 + j) = m.testBit j) := by
  induction l generalizing v with
  | nil =>
    simp only [unitExpr, Option.some.injEq] at h
    subst h
    refine ⟨fun _ _ => rfl, ?_, by simp⟩
    intro k hk _ j hj
    exact small_testBit hs (by omega)
  | cons a l ih =>
    obtain ⟨pos, e⟩ := a
    simp only [unitExpr] at h
    split at h
    · rename_i n r hn hr
      simp only [Option.some.injEq] at h
      subst h
      obtain ⟨m, hm, hval, he, _⟩ := unitNibble_ok hn
      simp only [List.map_cons, List.nodup_cons] at hnd
      obtain ⟨i1, i2, i3⟩ := ih hr (fun p hp => hpos p (by simp [hp])) hnd.2
      have hp1 : 1 ≤ pos := hpos (pos, e) (by simp)
      have hother : ∀ k j, j < 4 → k ≠ pos → n.toNat.testBit (4 * k + j) = false := by
        intro k j hj hk
        rw [hval, nib_testBit hm]
        by_cases hle : 4 * pos ≤ 4 * k + j
        · rw [small_testBit hm (by omega)]; simp
        · simp [hle]
      have hown : ∀ j, n.toNat.testBit (4 * pos + j) = m.testBit j := by
        intro j
        rw [hval, nib_testBit hm]; simp
      refine ⟨?_, ?_, ?_⟩
      · intro j hj
        rw [Nat.testBit_or, i1 j hj]
        have := hother 0 j hj (by omega)
        simp at this
        simp [this]
      · intro k hk hkn j hj
        simp only [List.map_cons, List.mem_cons, not_or] at hkn
        rw [Nat.testBit_or, i2 k hk hkn.2 j hj, hother k j hj hkn.1]; rfl
      · intro p hp
        simp only [List.mem_cons] at hp
        rcases hp with rfl | hp
        · refine ⟨m, hm, he, fun j hj => ?_⟩
          rw [Nat.testBit_or, i2 pos hp1 hnd.1 j hj, hown]; simp
        · obtain ⟨m', hm', he', ht'⟩ := i3 p hp
          refine ⟨m', hm', he', fun j hj => ?_⟩
          have hne : p.1 ≠ pos := by
            intro heq; apply hnd.1; rw [← heq]; exact List.mem_map_of_mem hp
          rw [Nat.testBit_or, ht' j hj, hother p.1 j hj hne]; simp
    · simp at h

theorem nibble_of_testBit {v m k : Nat} (hm : m < 16) (h : ∀ j, j < 4 → v.testBit (4 * k + j) = m.testBit j) :
    v / 16 ^ k % 16 = m := by
  apply Nat.eq_of_testBit_eq
  intro j
  have e1 : (16 : Nat) ^ k = 2 ^ (4 * k) := by rw [Nat.pow_mul]
  have e2 : (16 : Nat) = 2 ^ 4 := rfl
  rw [e1, e2, Nat.testBit_mod_two_pow, Nat.testBit_div_two_pow]
  by_cases hj : j < 4
  · simp [hj]; rw [← h j hj]; congr 1; omega
  · simp [hj]; exact small_testBit hm (Nat.le_of_not_lt hj)

/-- **C49.** Or-ing a system code with dimensions at distinct nibble positions (in any order) packs
them independently: the low nibble is the system, each dimension reads back its own exponent, and
every other nibble is zero. -/
theorem C49_unit_packing (system : Nat) (hs : system < 16) (l : List (Nat × Int)) (v : Nat)
    (h : unitExpr system l = some v) (hpos : ∀ p ∈ l, 1 ≤ p.1) (hnd : (l.map (·.1)).Nodup) :
    v % 16 = system ∧ (∀ p ∈ l, Spec.nibble v p.1 = p.2) ∧
    ∀ k, 1 ≤ k → k ∉ l.map (·.1) → Spec.nibble v k = 0 := by
  obtain ⟨h1, h2, h3⟩ := unitExpr_testBit hs h hpos hnd
  refine ⟨?_, ?_, ?_⟩
  · have := nibble_of_testBit (v := v) (k := 0) hs (by simpa using h1)
    simpa using this
  · intro p hp
    obtain ⟨m, hm, he, ht⟩ := h3 p hp
    simp only [Spec.nibble, nibble_of_testBit hm ht]
    exact he
  · intro k hk hkn
    have := nibble_of_testBit (v := v) (k := k) (m := 0) (by omega)
      (by intro j hj; rw [h2 k hk hkn j hj]; simp)
    simp [Spec.nibble, this]

/-- **C49.** A dimension function accepts exactly the exponents -8..7. -/
theorem C49_nibble_range (e : Int) (pos : Nat) :
    (∃ n, Item.unitNibble e pos = .ok n) ↔ -8 ≤ e ∧ e ≤ 7 := by
  unfold Item.unitNibble
  split <;> simp_all

/-- **C49.** The constants of `Unit` are the values of their defining expressions
(`item.py:283-303`; positions: length 1, mass 2, time 3, temperature 4, current 5,
luminous intensity 6). -/
theorem C49_unit_constants :
    Item.usualUnits.map (fun p => some p.1.toNat) = [
      unitExpr 1 [(1, 1)], unitExpr 2 [(1, 1)], unitExpr 3 [(1, 1)], unitExpr 4 [(1, 1)],
      unitExpr 1 [(2, 1)], unitExpr 3 [(2, 1)], unitExpr 0 [(3, 1)], unitExpr 1 [(4, 1)],
      unitExpr 3 [(4, 1)], unitExpr 0 [(5, 1)], unitExpr 0 [(6, 1)],
      unitExpr 1 [(3, -1), (1, 1)], unitExpr 1 [(3, -1), (1, 1), (2, 1)],
      unitExpr 1 [(3, -2), (1, 1)], unitExpr 1 [(3, -2), (1, 1), (2, 1)],
      unitExpr 1 [(3, -2), (1, 2), (2, 1)], unitExpr 1 [(3, -3), (1, 2), (2, 1), (5, -1)]] := by
  decide +kernel

example : unitExpr 1 [(3, -3), (1, 2), (2, 1), (5, -1)] = some 0xf0d121 := by decide +kernel

/-! ## C52, C53 -/

theorem cls_eq_of_key {a b : Cls} (h1 : a.kind.code = b.kind.code) (h2 : a.tag = b.tag) : a = b := by
  have ha := ofKey_self a
  have hb := ofKey_self b
  rw [h1, h2, hb] at ha
  exact (Option.some.inj ha).symm

/-- **C52.** `==` holds exactly when class and integer value agree; it is an equivalence. -/
theorem C52_item_eq : (∀ a b : Item, Item.pyEq a b = true ↔ a.cls = b.cls ∧ a.ival = b.ival) ∧
    Equivalence (fun a b : Item => Item.pyEq a b = true) := by
  have key : ∀ a b : Item, Item.pyEq a b = true ↔ a.cls = b.cls ∧ a.ival = b.ival := by
    intro a b
    simp only [Item.pyEq, Bool.and_eq_true, beq_iff_eq]
    constructor
    · rintro ⟨⟨h1, h2⟩, h3⟩; exact ⟨cls_eq_of_key h1 h2, h3⟩
    · rintro ⟨h1, h2⟩; rw [h1]; exact ⟨⟨rfl, rfl⟩, h2⟩
  refine ⟨key, fun a => ?_, ?_, ?_⟩
  · rw [key]; exact ⟨rfl, rfl⟩
  · intro a b h; rw [key] at *; exact ⟨h.1.symm, h.2.symm⟩
  · intro a b c h1 h2; rw [key] at *; exact ⟨h1.1.trans h2.1, h1.2.trans h2.2⟩

example : Item.pyEq ⟨.usage, .int 5⟩ ⟨.usage, .named (tx "x") 5⟩ = true := by decide

/-- **C53 (partial).** `<` is irreflexive, and on items of one class it is the strict order of the
values.  Missing: asymmetry and transitivity across classes, which are false
(`C53_lt_not_asymm`, `C53_lt_not_trans`). -/
theorem C53_lt_partial :
    (∀ a : Item, Item.pyLt a a = false) ∧
    (∀ a b : Item, a.cls = b.cls → (Item.pyLt a b = true ↔ a.ival < b.ival)) := by
  constructor
  · intro a; simp [Item.pyLt]
  · intro a b h; simp [Item.pyLt, h]

/-- **C53 counterexample.** Two items can each be less than the other. -/
theorem C53_lt_not_asymm : ∃ a b : Item, a.Made ∧ b.Made ∧ Item.pyLt a b = true ∧ Item.pyLt b a = true :=
  ⟨⟨.reportSize, .int 8⟩, ⟨.reportCount, .int 1⟩, ⟨[], .int 8, by decide +kernel⟩,
    ⟨[], .int 1, by decide +kernel⟩, by decide, by decide⟩

/-- **C53 counterexample.** `<` is not transitive. -/
theorem C53_lt_not_trans : ∃ a b c : Item, a.Made ∧ b.Made ∧ c.Made ∧
    Item.pyLt a b = true ∧ Item.pyLt b c = true ∧ Item.pyLt a c = false :=
  ⟨⟨.reportCount, .int 8⟩, ⟨.usage, .usage ⟨tx "0x1", 1, []⟩⟩, ⟨.reportSize, .int 8⟩,
    ⟨[], .int 8, by decide +kernel⟩, ⟨[], .int 1, by decide +kernel⟩, ⟨[], .int 8, by decide +kernel⟩,
    by decide, by decide, by decide⟩

end Hrdc
