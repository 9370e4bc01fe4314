import Verif.Proofs.Stream
/-!
# Properties C07-C10, C16, C17, C55: whole streams in binary, the comparer, indentation
-/
namespace Hrdc
open Item

/-! ## C07 -/

/-- **C07.** Writing any list of constructed items as binary and parsing the blob delivers the same
items (class and value) in order, without error (so the output is closed). -/
theorem C07_stream_roundtrip (reg : Registry) (l : List Item) (hm : ∀ i ∈ l, i.Made) (b : List UInt8)
    (h : Formatter.binary l = .ok b) :
    (Parser.blobParse reg b).2 = none ∧ (Parser.blobParse reg b).1.map Item.key = l.map Item.key := by
  refine (blobLoop_ok_iff reg b.length 0 b (Nat.le_refl _) _).mpr ⟨readAll_binary hm h, ?_⟩
  intro k hk
  rw [List.mem_map] at hk
  obtain ⟨i, hi, rfl⟩ := hk
  exact made_zeroOK (hm i hi)

/-- The hypotheses are met by a three-item stream. -/
example : ∃ b, Formatter.binary [⟨.usagePage, .int 1⟩, ⟨.logMin, .int (-1000)⟩, ⟨.endCollection, .int 0⟩]
    = .ok b ∧ b = [0x05, 0x01, 0x16, 0x18, 0xfc, 0xc0] := by
  exact ⟨_, by decide +kernel, rfl⟩

/-! ## C08 -/

/-- **C08.** The loop is total; it succeeds exactly when the independent HID reader reads the whole
blob (with EndCollection/Push/Pop data zero), and delivers what that reader reads. -/
theorem C08_parse_iff_hid (reg : Registry) (b : List UInt8) (ks : List Spec.SItem) :
    ((Parser.blobParse reg b).2 = none ∧ (Parser.blobParse reg b).1.map Item.key = ks) ↔
      Spec.readAll b = some ks ∧ ∀ k ∈ ks, Spec.ZeroOK k :=
  blobLoop_ok_iff reg b.length 0 b (Nat.le_refl _) ks

theorem framing_aux (n : Nat) (b : List UInt8) (hn : b.length ≤ n) (ks : List Spec.SItem)
    (h : Spec.readAll b = some ks) :
    ∃ slices : List (List UInt8), slices.flatten = b ∧
      slices.map Spec.readItem = ks.map (fun k => some (k, [])) := by
  induction n generalizing b ks with
  | zero =>
    have : b = [] := List.length_eq_zero_iff.mp (by omega)
    subst this
    rw [readAll_nil] at h; simp at h; subst h
    exact ⟨[], rfl, rfl⟩
  | succ n ih =>
    cases b with
    | nil => rw [readAll_nil] at h; simp at h; subst h; exact ⟨[], rfl, rfl⟩
    | cons x t =>
      cases hr : Spec.readItem (x :: t) with
      | none => rw [readAll_fail hr] at h; simp at h
      | some kr =>
        obtain ⟨k, rest⟩ := kr
        have hlt := Spec.readItem_lt hr
        rw [readAll_step hr] at h
        simp only [Option.map_eq_some_iff] at h
        obtain ⟨l, hl, rfl⟩ := h
        obtain ⟨sl, h1, h2⟩ := ih rest (by simp at hlt hn; omega) l hl
        have hsplit : ∃ s, s ++ rest = x :: t ∧ Spec.readItem s = some (k, []) := by
          simp only [Spec.readItem] at hr
          split at hr
          · simp at hr
          · rename_i c hf
            split at hr
            · simp at hr
            · rename_i hle
              simp only [Option.some.injEq, Prod.mk.injEq] at hr
              refine ⟨x :: t.take (Spec.dataLen (x.toNat % 4)), ?_, ?_⟩
              · rw [← hr.2]; simp
              · simp only [Spec.readItem, hf]
                rw [if_neg (by simp; omega), ← hr.1]
                simp [List.take_take]
        obtain ⟨s, hs1, hs2⟩ := hsplit
        exact ⟨s :: sl, by rw [List.flatten_cons, h1, hs1], by simp [hs2, h2]⟩

/-- **C08.** When the loop succeeds, the blob is the concatenation of consecutive slices, one per
delivered item, each slice being exactly one complete HID item with the delivered class and value:
no byte is skipped, duplicated or shared. -/
theorem C08_framing (reg : Registry) (b : List UInt8) (l : List Item)
    (h : Parser.blobParse reg b = (l, none)) :
    ∃ slices : List (List UInt8), slices.flatten = b ∧
      slices.map Spec.readItem = l.map (fun i => some (Item.key i, [])) := by
  have h1 := ((C08_parse_iff_hid reg b (l.map Item.key)).mp (by rw [h]; simp)).1
  obtain ⟨sl, h2, h3⟩ := framing_aux b.length b (Nat.le_refl _) _ h1
  exact ⟨sl, h2, by rw [h3, List.map_map]; rfl⟩

example : (Parser.blobParse [] [0x05, 0x01, 0x09]).2 = some .struct := by decide +kernel
example : (Parser.blobParse [] [0x26, 0xff, 0x00, 0xc0]).2 = none := by decide +kernel

/-! ## C09 -/

theorem truncated_item {i : Item} (hm : i.Made) {bs : List UInt8} (hb : i.bytes = .ok bs) {n : Nat}
    (h0 : 0 < n) (hn : n < bs.length) (reg : Registry) (page : Int) :
    ∃ e, Parser.blobLoop reg page (bs.take n) = ([], some e) := by
  have hr := C02_wire_format i hm bs [] hb
  cases bs with
  | nil => simp at hn
  | cons x t =>
    obtain ⟨n, rfl⟩ : ∃ m, n = m + 1 := ⟨n - 1, by omega⟩
    rw [List.append_nil] at hr
    have hnone : ∀ k r, Spec.readItem ((x :: t).take (n + 1)) ≠ some (k, r) := by
      intro k r hk
      simp only [Spec.readItem, List.take_succ_cons] at hr hk
      split at hr
      · simp at hr
      · rename_i c hf
        rw [hf] at hk
        simp only at hk
        split at hr
        · simp at hr
        · simp only [Option.some.injEq, Prod.mk.injEq] at hr
          have hl : t.length = Spec.dataLen (x.toNat % 4) := by
            have := congrArg List.length hr.2
            simp at this; omega
          rw [if_pos (by simp at hn ⊢; omega)] at hk
          simp at hk
    rw [List.take_succ_cons, blobLoop_cons]
    rcases itemParse_slice reg page x (t.take n) with ⟨k, rest, hk, _⟩ | ⟨_, e, he⟩
    · exact absurd hk (by simpa using hnone k rest)
    · rw [he]; exact ⟨e, rfl⟩

theorem truncation_aux (reg : Registry) (l : List Item) (hm : ∀ i ∈ l, i.Made) (b : List UInt8)
    (h : Formatter.binary l = .ok b) (page : Int) (n : Nat) (hn : n ≤ b.length) :
    ∃ k pre, k ≤ l.length ∧ Formatter.binary (l.take k) = .ok pre ∧ pre.length ≤ n ∧
      (∀ pre', k < l.length → Formatter.binary (l.take (k + 1)) = .ok pre' → n < pre'.length) ∧
      (Parser.blobLoop reg page (b.take n)).1.map Item.key = (l.take k).map Item.key ∧
      ((Parser.blobLoop reg page (b.take n)).2 = none ↔ pre.length = n) := by
  induction l generalizing b page n with
  | nil =>
    simp only [Formatter.binary, Except.ok.injEq] at h
    subst h
    simp only [List.length_nil, Nat.le_zero] at hn
    subst hn
    exact ⟨0, [], by simp, rfl, by simp, by simp, by simp [blobLoop_nil], by simp [blobLoop_nil]⟩
  | cons i l ih =>
    obtain ⟨b1, b2, h1, h2, rfl⟩ := binary_ok h
    have hmi := hm i (by simp)
    by_cases hlt : n < b1.length
    · have hpre : ∀ pre', Formatter.binary ((i :: l).take 1) = .ok pre' → pre' = b1 := by
        intro pre' hp
        simp [Formatter.binary, h1] at hp
        exact hp.symm
      by_cases h0 : n = 0
      · subst h0
        refine ⟨0, [], by simp, rfl, by simp, ?_, by simp [blobLoop_nil], by simp [blobLoop_nil]⟩
        intro pre' _ hp; rw [hpre pre' hp]; exact hlt
      · obtain ⟨e, he⟩ := truncated_item hmi h1 (by omega) hlt reg page
        have ht : (b1 ++ b2).take n = b1.take n := by
          rw [List.take_append_of_le_length (by omega)]
        rw [ht, he]
        refine ⟨0, [], by simp, rfl, by simp, ?_, by simp, by simp; omega⟩
        intro pre' _ hp; rw [hpre pre' hp]; exact hlt
    · have hge : b1.length ≤ n := by omega
      have ht : (b1 ++ b2).take n = b1 ++ b2.take (n - b1.length) := by
        rw [List.take_append, List.take_of_length_le hge]
      have hr := C02_wire_format i hmi b1 (b2.take (n - b1.length)) h1
      rw [ht]
      obtain ⟨x, t, hx⟩ : ∃ x t, b1 = x :: t := by
        cases b1 with
        | nil => simp [Spec.readItem] at *; exact absurd (bytes_ok h1).2 (by simp)
        | cons x t => exact ⟨x, t, rfl⟩
      subst hx
      rw [List.cons_append, blobLoop_cons]
      rw [List.cons_append] at hr
      rcases itemParse_slice reg page x (t ++ b2.take (n - (x :: t).length)) with
        ⟨k, rest, hk, hz, hrest, _, _, p, j, hp, hmj, hkey⟩ | ⟨hno, _⟩
      · rw [hr] at hk
        simp only [Option.some.injEq, Prod.mk.injEq] at hk
        obtain ⟨hk1, hk2⟩ := hk
        rw [hp]
        simp only [← hrest, ← hk2]
        obtain ⟨k', pre, e1, e2, e3, e4, e5, e6⟩ := ih (fun y hy => hm y (by simp [hy])) b2 h2 p
          (n - (x :: t).length) (by simp at hn ⊢; omega)
        refine ⟨k' + 1, (x :: t) ++ pre, by simp; omega, ?_, by simp at e3 hge ⊢; omega, ?_, ?_, ?_⟩
        · simp only [List.take_succ_cons, Formatter.binary, h1, e2]
        · intro pre' hk' hp'
          rw [List.take_succ_cons] at hp'
          obtain ⟨c1, c2, hc1, hc2, rfl⟩ := binary_ok hp'
          rw [h1] at hc1; simp only [Except.ok.injEq] at hc1; subst hc1
          have := e4 c2 (by simpa using hk') hc2
          simp at this hge ⊢; omega
        · simp only [List.map_cons, List.take_succ_cons, e5, hkey, ← hk1]; rfl
        · rw [e6]; simp at hge ⊢; omega
      · exact absurd (made_zeroOK hmi) (hno _ _ hr)

/-- **C09.** Cut the binary form of any item list at any position `n`: the parser delivers exactly
the `k` items that are complete before the cut, and raises exactly when the cut is not at an item
boundary. -/
theorem C09_truncation (reg : Registry) (l : List Item) (hm : ∀ i ∈ l, i.Made) (b : List UInt8)
    (h : Formatter.binary l = .ok b) (n : Nat) (hn : n ≤ b.length) :
    ∃ k pre, k ≤ l.length ∧ Formatter.binary (l.take k) = .ok pre ∧ pre.length ≤ n ∧
      (∀ pre', k < l.length → Formatter.binary (l.take (k + 1)) = .ok pre' → n < pre'.length) ∧
      (Parser.blobParse reg (b.take n)).1.map Item.key = (l.take k).map Item.key ∧
      ((Parser.blobParse reg (b.take n)).2 = none ↔ pre.length = n) :=
  truncation_aux reg l hm b h 0 n hn

example : (Parser.blobParse [] ([0x05, 0x01, 0x26, 0xff, 0x00].take 4)).1.map Item.key = [(.usagePage, 1)] ∧
    (Parser.blobParse [] ([0x05, 0x01, 0x26, 0xff, 0x00].take 4)).2 = some .struct := by decide +kernel

/-! ## C10 -/

theorem readItem_fits {b : List UInt8} {k : Spec.SItem} {r : List UInt8}
    (h : Spec.readItem b = some (k, r)) : Spec.Fits k.1 4 k.2 := by
  cases b with
  | nil => simp [Spec.readItem] at h
  | cons x t =>
    simp only [Spec.readItem] at h
    split at h
    · simp at h
    · rename_i c hf
      split at h
      · simp at h
      · rename_i hle
        simp only [Option.some.injEq, Prod.mk.injEq] at h
        obtain ⟨rfl, _⟩ := h
        have hs : x.toNat % 4 = 0 ∨ x.toNat % 4 = 1 ∨ x.toNat % 4 = 2 ∨ x.toNat % 4 = 3 := by omega
        have mono : ∀ m v, (m = 1 ∨ m = 2 ∨ m = 4) → Spec.Fits c m v → Spec.Fits c 4 v := by
          intro m v hm hf
          rw [fits_iff _ hm] at hf
          rw [fits_iff _ (by simp)]
          rcases hm with rfl | rfl | rfl <;> cases hsg : c.signed <;> simp [hsg] at hf ⊢ <;> omega
        have hlen : ∀ n, ¬ t.length < n → (t.take n).length = n := by
          intro n hn; simp; omega
        rcases hs with hs | hs | hs | hs <;> simp only [hs, Spec.dataLen] at hle ⊢
        · have : Spec.dataValue c (List.take (if (0:Nat) = 3 then 4 else 0) t) = 0 := by
            unfold Spec.dataValue Spec.signedLE; split <;> simp [Spec.unsignedLE]
          rw [this, fits_iff _ (by simp)]
          split <;> simp
        · exact mono 1 _ (by simp) ⟨_, hlen _ hle, rfl⟩
        · exact mono 2 _ (by simp) ⟨_, hlen _ hle, rfl⟩
        · exact mono 4 _ (by simp) ⟨_, hlen _ hle, rfl⟩

theorem readAll_fits (n : Nat) (b : List UInt8) (hn : b.length ≤ n) {ks : List Spec.SItem}
    (h : Spec.readAll b = some ks) : ∀ k ∈ ks, Spec.Fits k.1 4 k.2 := by
  induction n generalizing b ks with
  | zero =>
    have : b = [] := List.length_eq_zero_iff.mp (by omega)
    subst this; rw [readAll_nil] at h; simp at h; subst h; simp
  | succ n ih =>
    cases b with
    | nil => rw [readAll_nil] at h; simp at h; subst h; simp
    | cons x t =>
      cases hr : Spec.readItem (x :: t) with
      | none => rw [readAll_fail hr] at h; simp at h
      | some kr =>
        obtain ⟨k, rest⟩ := kr
        rw [readAll_step hr] at h
        simp only [Option.map_eq_some_iff] at h
        obtain ⟨l, hl, rfl⟩ := h
        intro k' hk'
        simp only [List.mem_cons] at hk'
        rcases hk' with rfl | hk'
        · exact readItem_fits hr
        · exact ih rest (by have := Spec.readItem_lt hr; simp at this hn; omega) hl k' hk'

theorem binary_of_fits {l : List Item} (hm : ∀ i ∈ l, i.Made) (hf : ∀ i ∈ l, Spec.Fits i.cls 4 i.ival) :
    ∃ b, Formatter.binary l = .ok b := by
  induction l with
  | nil => exact ⟨[], rfl⟩
  | cons i l ih =>
    obtain ⟨b2, h2⟩ := ih (fun x hx => hm x (by simp [hx])) (fun x hx => hf x (by simp [hx]))
    have : ∃ b1, i.bytes = .ok b1 := by
      cases hb : i.bytes with
      | ok b1 => exact ⟨b1, rfl⟩
      | error e => exact absurd (hf i (by simp)) ((C04_encode_error_iff i (hm i (by simp))).mp ⟨e, hb⟩)
    obtain ⟨b1, h1⟩ := this
    exact ⟨b1 ++ b2, by simp [Formatter.binary, h1, h2]⟩

/-- Items the parser delivers can always be written. -/
theorem parsed_encodable (reg : Registry) (b : List UInt8) (l : List Item)
    (h : Parser.blobParse reg b = (l, none)) :
    (∀ i ∈ l, i.Made) ∧ ∃ b', Formatter.binary l = .ok b' := by
  have hm : ∀ i ∈ l, i.Made := by
    have := blobLoop_made reg b.length 0 b (Nat.le_refl _)
    unfold Parser.blobParse at h
    rw [h] at this; exact this
  have hr := ((C08_parse_iff_hid reg b (l.map Item.key)).mp (by rw [h]; simp)).1
  refine ⟨hm, binary_of_fits hm ?_⟩
  intro i hi
  exact readAll_fits b.length b (Nat.le_refl _) hr i.key (List.mem_map_of_mem hi)

/-- **C10.** Converting any parsable blob to binary succeeds; the result means the same item
sequence to a HID host, and converting it again (with any registry) reproduces it byte for byte. -/
theorem C10_convert_idempotent (reg reg' : Registry) (uni : Parser.Uni) (b : List UInt8)
    (h : (Parser.blobParse reg b).2 = none) :
    ∃ b', Formatter.convert .binary .binary reg uni (.bytes b) = .ok (.bytes b') ∧
      Spec.readAll b' = Spec.readAll b ∧ Spec.readAll b ≠ none ∧
      Formatter.convert .binary .binary reg' uni (.bytes b') = .ok (.bytes b') := by
  obtain ⟨l, hl⟩ : ∃ l, Parser.blobParse reg b = (l, none) := ⟨_, by rw [← h]⟩
  obtain ⟨hm, b', hb'⟩ := parsed_encodable reg b l hl
  have hr := ((C08_parse_iff_hid reg b (l.map Item.key)).mp (by rw [hl]; simp)).1
  have hr' := readAll_binary hm hb'
  have h7 := C07_stream_roundtrip reg' l hm b' hb'
  obtain ⟨l', hl'⟩ : ∃ l', Parser.blobParse reg' b' = (l', none) := ⟨_, by rw [← h7.1]⟩
  have hm' := (parsed_encodable reg' b' l' hl').1
  refine ⟨b', ?_, by rw [hr, hr'], by rw [hr]; simp, ?_⟩
  · simp only [Formatter.convert, Formatter.deliver, hl, Formatter.render, hb', Except.map]
  · rw [hl'] at h7
    have := binary_congr hm' hm h7.2
    simp only [Formatter.convert, Formatter.deliver, hl', Formatter.render, this, hb', Except.map]

/-- **C10.** Conversion succeeds exactly on the blobs a HID host can read whose zero-length items
carry a meaning for hrdc, and never writes a document after an exception, in any formats. -/
theorem C10_convert_iff (reg : Registry) (uni : Parser.Uni) :
    (∀ b, (∃ d, Formatter.convert .binary .binary reg uni (.bytes b) = .ok d) ↔
      ∃ ks, Spec.readAll b = some ks ∧ ∀ k ∈ ks, Spec.ZeroOK k) ∧
    (∀ f g d e, (Formatter.deliver f reg uni d).2 = some e →
      Formatter.convert f g reg uni d = .error e) := by
  have herr : ∀ f g d e, (Formatter.deliver f reg uni d).2 = some e →
      Formatter.convert f g reg uni d = .error e := by
    intro f g d e h
    obtain ⟨l, hl⟩ : ∃ l, Formatter.deliver f reg uni d = (l, some e) := ⟨_, by rw [← h]⟩
    simp only [Formatter.convert, hl]
  refine ⟨fun b => ⟨?_, ?_⟩, herr⟩
  · rintro ⟨d, hd⟩
    cases hp : (Parser.blobParse reg b).2 with
    | some e =>
      rw [herr .binary .binary (.bytes b) e hp] at hd
      simp at hd
    | none => exact ⟨_, (C08_parse_iff_hid reg b _).mp ⟨hp, rfl⟩⟩
  · rintro ⟨ks, hk⟩
    obtain ⟨b', hb', -⟩ := C10_convert_idempotent reg reg uni b
      ((C08_parse_iff_hid reg b ks).mpr hk).1
    exact ⟨_, hb'⟩

example : Formatter.convert .binary .binary [] ⟨fun _ => false, fun _ => false⟩ (.bytes [0x06, 0x01, 0x00, 0x80])
    = .ok (.bytes [0x05, 0x01, 0x81, 0x00]) := by decide +kernel

/-! ## C16 -/

/-- **C16.** Naming never fails on a constructed item and never changes class or value, whatever the
registry and the current page. -/
theorem C16_naming_keeps_values (reg : Registry) (page : Int) (i : Item) (hm : i.Made) :
    ∃ p j, Parser.append reg page i = .ok (p, j) ∧ j.cls = i.cls ∧ j.ival = i.ival := by
  obtain ⟨p, j, h1, _, h3⟩ := append_ok reg page hm
  exact ⟨p, j, h1, congrArg Prod.fst h3, congrArg Prod.snd h3⟩

theorem registry_independent_aux (reg reg' : Registry) (n : Nat) (page page' : Int) (b : List UInt8)
    (hn : b.length ≤ n) :
    (Parser.blobLoop reg page b).1.map Item.key = (Parser.blobLoop reg' page' b).1.map Item.key ∧
    ((Parser.blobLoop reg page b).2 = none ↔ (Parser.blobLoop reg' page' b).2 = none) := by
  induction n generalizing page page' b with
  | zero =>
    have : b = [] := List.length_eq_zero_iff.mp (by omega)
    subst this; simp [blobLoop_nil]
  | succ n ih =>
    cases b with
    | nil => simp [blobLoop_nil]
    | cons h t =>
      rw [blobLoop_cons, blobLoop_cons]
      rcases itemParse_slice reg page h t with ⟨k, rest, hr, hz, hrest, _, _, p, j, hp, hm, hk⟩ | ⟨hno, e, he⟩
      · rcases itemParse_slice reg' page' h t with ⟨k', rest', hr', _, hrest', _, _, p', j', hp', _, hk'⟩ | ⟨hno', _⟩
        · rw [hr] at hr'
          simp only [Option.some.injEq, Prod.mk.injEq] at hr'
          rw [hp, hp']
          simp only [List.map_cons, hk, hk', hr'.1, ← hrest]
          have := ih p p' rest (by have := Spec.readItem_lt hr; simp at this hn; omega)
          exact ⟨by rw [this.1], this.2⟩
        · exact absurd hz (hno' k rest hr)
      · rcases itemParse_slice reg' page' h t with ⟨k', rest', hr', hz', _⟩ | ⟨hno', e', he'⟩
        · exact absurd hz' (hno k' rest' hr')
        · rw [he, he']; simp

/-- **C16.** The values delivered from a blob, and whether it parses, do not depend on which usages
are registered. -/
theorem C16_registry_independent (reg reg' : Registry) (b : List UInt8) :
    (Parser.blobParse reg b).1.map Item.key = (Parser.blobParse reg' b).1.map Item.key ∧
    ((Parser.blobParse reg b).2 = none ↔ (Parser.blobParse reg' b).2 = none) :=
  registry_independent_aux reg reg' b.length 0 0 b (Nat.le_refl _)

example : (Parser.blobParse [⟨tx "desktop.Mouse", 0x10002, []⟩] [0x05, 0x01, 0x09, 0x02]).1.map Item.str
    = [tx "UsagePage (GenericDesktop)", tx "Usage (Mouse)"] := by decide +kernel

/-! ## C17 -/

theorem compare_aux (exp : List UInt8) (point : Nat) (hp : point ≤ exp.length) (l : List Item) :
    Formatter.compareFrom exp point l = .ok () ↔ Formatter.binary l = .ok (exp.drop point) := by
  induction l generalizing point with
  | nil =>
    simp only [Formatter.compareFrom, Formatter.binary, Except.ok.injEq]
    split
    · rename_i h; simp [h]
    · rename_i h
      simp only [reduceCtorEq, false_iff]
      intro hd
      have := congrArg List.length hd
      simp at this; omega
  | cons i l ih =>
    simp only [Formatter.compareFrom]
    cases hb : i.bytes with
    | error e =>
      simp [Formatter.binary, hb]
    | ok part =>
      simp only [Formatter.binary, hb]
      split
      · rename_i heq
        have hlen : point + part.length ≤ exp.length := by
          have := congrArg List.length heq
          simp at this; omega
        rw [ih _ hlen]
        have hd : exp.drop point = part ++ exp.drop (point + part.length) := by
          conv => lhs; rw [← List.take_append_drop part.length (exp.drop point), heq, List.drop_drop]
        rw [hd]
        cases Formatter.binary l with
        | error e => simp
        | ok r => simp
      · rename_i hne
        simp only [reduceCtorEq, false_iff]
        intro hbin
        apply hne
        cases hl : Formatter.binary l with
        | error e => rw [hl] at hbin; simp at hbin
        | ok r =>
          rw [hl] at hbin
          simp only [Except.ok.injEq] at hbin
          rw [← hbin]; simp

/-- **C17.** The comparer accepts a stream (no assertion fails, up to and including `close`) if and
only if every item encodes and the concatenated bytes equal the expected bytes. -/
theorem C17_comparer_exact (expected : List UInt8) (l : List Item) :
    Formatter.compareFrom expected 0 l = .ok () ↔ Formatter.binary l = .ok expected := by
  rw [compare_aux expected 0 (Nat.zero_le _) l]; simp

example : Formatter.compareFrom [0x05, 0x01] 0 [⟨.usagePage, .int 1⟩] = .ok () := by decide +kernel
example : Formatter.compareFrom [0x05, 0x01, 0x00] 0 [⟨.usagePage, .int 1⟩] = .error .assertion := by
  decide +kernel

/-! ## C55 -/

/-- Specification: number of open collections after a list of items. -/
def Spec.openCount (l : List Item) : Int :=
  ((l.filter (fun i => i.cls = .collection)).length : Int)
    - ((l.filter (fun i => i.cls = .endCollection)).length : Int)

/-- Specification: nesting depth at which item `i` is shown after items `pre`: an EndCollection
lines up with its Collection. -/
def Spec.shownDepth (pre : List Item) (i : Item) : Int :=
  if i.cls = .endCollection then Spec.openCount pre - 1 else Spec.openCount pre

theorem openCount_cons (i : Item) (l : List Item) :
    Spec.openCount (i :: l) = (if i.cls = .collection then 1 else if i.cls = .endCollection then -1 else 0)
      + Spec.openCount l := by
  unfold Spec.openCount
  simp only [List.filter_cons]
  by_cases h1 : i.cls = .collection
  · simp [h1]; omega
  · by_cases h2 : i.cls = .endCollection
    · simp [h2]; omega
    · simp [h1, h2]

theorem code_aux (indent : Int) (l : List Item) (t : Text) (h : Formatter.codeFrom indent l = .ok t) :
    ∃ lines : List Text, lines.flatten = t ∧ lines.length = l.length ∧
      ∀ k, (hk : k < l.length) → ∃ head b, l[k].bytes = .ok b ∧
        lines[k]? = some (head ++ [' ', '/', '/', ' ']
          ++ List.replicate (4 * (indent + Spec.shownDepth (l.take k) l[k])).toNat ' ' ++ l[k].str ++ ['\n'])
        ∧ head.length = 5 + max 30 (6 * b.length - 1) := by
  induction l generalizing indent t with
  | nil => simp [Formatter.codeFrom] at h; subst h; exact ⟨[], rfl, rfl, by simp⟩
  | cons i l ih =>
    simp only [Formatter.codeFrom] at h
    split at h
    · rename_i b r hb hr
      simp only [Except.ok.injEq] at h
      obtain ⟨lines, h1, h2, h3⟩ := ih _ _ hr
      refine ⟨Formatter.codeLine (Formatter.indentBefore indent i) b i.str :: lines, by simp [h1, h], by simp [h2], ?_⟩
      intro k hk
      cases k with
      | zero =>
        refine ⟨List.replicate 5 ' ' ++ Formatter.ljust 30
            (pyJoin [',', ' '] (b.map (fun x => '0' :: 'x' :: hex2 x)) ++ [',']),
            b, by simpa using hb, ?_, ?_⟩
        · have e : Formatter.indentBefore indent i * 4
              = 4 * (indent + Spec.shownDepth ((i :: l).take 0) i) := by
            simp only [Formatter.indentBefore, Spec.shownDepth, List.take_zero, Spec.openCount,
              List.filter_nil, List.length_nil]
            split <;> omega
          simp only [Formatter.codeLine, Formatter.spaces, e, List.getElem?_cons_zero,
            List.getElem_cons_zero]
        · have hj : ∀ b : List UInt8, b ≠ [] →
              (pyJoin [',', ' '] (b.map (fun x => '0' :: 'x' :: hex2 x))).length = 6 * b.length - 2 := by
            intro b
            induction b with
            | nil => simp
            | cons x b ihb =>
              intro _
              cases b with
              | nil => simp [pyJoin, hex2]
              | cons y b =>
                have := ihb (by simp)
                simp only [List.map_cons] at this
                simp [pyJoin, hex2] at this ⊢
                omega
          have hne : b ≠ [] := by
            intro h0; subst h0
            have := (bytes_ok hb).2
            simp at this
          have := hj b hne
          have hpos : 0 < b.length := List.length_pos_iff.mpr hne
          simp [Formatter.ljust, this]
          omega
      | succ k =>
        obtain ⟨head, b', e1, e2, e3⟩ := h3 k (by simpa using hk)
        refine ⟨head, b', by simpa using e1, ?_, e3⟩
        simp only [List.getElem?_cons_succ, List.getElem_cons_succ, List.take_succ_cons]
        rw [e2]
        congr 4
        unfold Spec.shownDepth Formatter.indentAfter Formatter.indentBefore
        rw [openCount_cons]
        by_cases c1 : i.cls = .collection
        · simp [c1]; split <;> omega
        · by_cases c2 : i.cls = .endCollection
          · simp [c2]; split <;> omega
          · simp [c1, c2]
    · simp at h
    · simp at h

/-- **C55.** In the code writer's output there is one line per item, whose comment is indented by
four columns per open collection (an EndCollection lining up with its Collection; nothing below
zero). -/
theorem C55_code_indent (l : List Item) (t : Text) (h : Formatter.code l = .ok t) :
    ∃ lines : List Text, lines.flatten = t ∧ lines.length = l.length ∧
      ∀ k, (hk : k < l.length) → ∃ head b, l[k].bytes = .ok b ∧
        lines[k]? = some (head ++ [' ', '/', '/', ' ']
          ++ List.replicate (4 * Spec.shownDepth (l.take k) l[k]).toNat ' ' ++ l[k].str ++ ['\n'])
        ∧ head.length = 5 + max 30 (6 * b.length - 1) := by
  simpa using code_aux 0 l t h

theorem finalIndent_eq (indent : Int) (l : List Item) :
    Formatter.finalIndent indent l = indent + Spec.openCount l := by
  induction l generalizing indent with
  | nil => simp [Formatter.finalIndent, Spec.openCount]
  | cons i l ih =>
    simp only [Formatter.finalIndent, ih, openCount_cons, Formatter.indentAfter, Formatter.indentBefore]
    by_cases c1 : i.cls = .collection
    · simp [c1]; omega
    · by_cases c2 : i.cls = .endCollection
      · simp [c2]; omega
      · simp [c1, c2]

/-- **C55 (partial).** `close()` warns exactly when the numbers of Collection and EndCollection
items differ.  Missing: a stream with equal numbers but wrong nesting is not reported
(`C55_misnested_not_reported`). -/
theorem C55_close_warns_partial (l : List Item) :
    Formatter.codeWarns l = true ↔ Spec.openCount l ≠ 0 := by
  unfold Formatter.codeWarns
  rw [finalIndent_eq]; simp

/-- **C55 counterexample.** EndCollection before Collection is not reported. -/
theorem C55_misnested_not_reported :
    ∃ l : List Item, l.map (·.cls) = [.endCollection, .collection] ∧ Formatter.codeWarns l = false :=
  ⟨[⟨.endCollection, .int 0⟩, ⟨.collection, .int 1⟩], rfl, by decide⟩

example : Formatter.codeWarns [⟨.collection, .int 1⟩] = true := by decide

end Hrdc
