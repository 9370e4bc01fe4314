import Verif.Proofs.Numeral
import Verif.Props.Streams
/-!
# Properties C11-C15: the text formats
-/
namespace Hrdc
open Parser

/-! ## C15 -/

theorem isWord_spec (uni : Char → Bool) : isWord uni = Spec.inWord uni := by
  funext c
  have small : ∀ n : Fin 128,
      ((Char.ofNat n).isAlphanum || Char.ofNat n == '_') = Spec.asciiWord.contains (Char.ofNat n) := by decide +kernel
  unfold isWord Spec.inWord
  by_cases h : c.toNat < 128
  · have := small ⟨c.toNat, h⟩
    simp only [Char.ofNat_toNat] at this
    rw [this]
  · have h1 : c.isAlphanum = false := by
      simp only [Char.isAlphanum, Char.isAlpha, Char.isUpper, Char.isLower, Char.isDigit, Char.toNat] at h ⊢
      simp only [ge_iff_le, UInt32.le_iff_toNat_le, Bool.or_eq_false_iff, decide_eq_false_iff_not, Bool.and_eq_false_iff]
      have e : c.val.toNat = c.toNat := rfl
      simp; omega
    have h2 : (c == '_') = false := by
      rw [beq_eq_false_iff_ne]; rintro rfl; exact h (by decide)
    have h3 : Spec.asciiWord.contains c = false := by
      rw [Bool.eq_false_iff]
      intro hc
      have all : ∀ d ∈ Spec.asciiWord, d.toNat < 128 := by decide +kernel
      exact h (all c (by simpa using hc))
    rw [h1, h2, h3]; rfl

/-- **C15.** The hex reader returns exactly the bytes denoted by the maximal words that are two hex
digits (optionally prefixed `0x`), in order, for every text and every classification of non-ASCII
characters.  (It is a total function: it never raises.) -/
theorem C15_hex_reader (uni : Char → Bool) (t : Text) :
    hexBlob uni t = (Spec.words (Spec.inWord uni) t).filterMap Spec.hexWord :=
  isWord_spec uni ▸ (hexScan_eq uni t.length t (Nat.le_refl _)).1 none rfl

example : hexBlob (fun _ => false) (tx "05 0x1F, abc 1 -2a_ 2a;") = [0x05, 0x1f, 0x2a] := by decide +kernel

/-! ## C11 -/

theorem hexDigit_isHex (n : Nat) : isHex (hexDigit n) = true := by
  unfold hexDigit; split <;> decide

theorem hexWord_hex2 (b : UInt8) : Spec.hexWord (hex2 b) = some b := by
  have : ∀ n : Fin 256, Spec.hexWord (hex2 (UInt8.ofNat n)) = some (UInt8.ofNat n) := by decide +kernel
  have h := this ⟨b.toNat, b.toNat_lt⟩
  simpa using h

theorem words_hex_line (uni : Char → Bool) (b : List UInt8) (hb : b ≠ []) (r : Text) :
    Spec.words (isWord uni) (pyJoin [' '] (b.map hex2) ++ '\n' :: r)
      = b.map hex2 ++ Spec.words (isWord uni) r := by
  have hw : ∀ x : UInt8, ∀ c ∈ hex2 x, isWord uni c = true := by
    intro x c hc
    simp only [hex2, List.mem_cons, List.not_mem_nil, or_false] at hc
    rcases hc with rfl | rfl <;> exact isWord_of_isHex uni (hexDigit_isHex _)
  have hne : ∀ x : UInt8, hex2 x ≠ [] := by intro x; simp [hex2]
  have hsp : isWord uni ' ' = false := by simp [isWord]
  have hnl : isWord uni '\n' = false := by simp [isWord]
  induction b with
  | nil => exact absurd rfl hb
  | cons x b ih =>
    cases b with
    | nil =>
      simp only [List.map_cons, List.map_nil, pyJoin]
      rw [words_word_sep _ (hne x) (hw x) hnl]; rfl
    | cons y b =>
      simp only [List.map_cons, pyJoin, List.append_assoc, List.cons_append, List.nil_append]
      rw [words_word_sep _ (hne x) (hw x) hsp]
      have := ih (by simp)
      simp only [List.map_cons, List.cons_append] at this
      rw [this]

/-- **C11.** Reading the hex writer's output gives exactly the bytes of the stream, for every list
of items (whatever their values). -/
theorem C11_hex_roundtrip (uni : Char → Bool) (l : List Item) (t : Text) (h : Formatter.hex l = .ok t) :
    Formatter.binary l = .ok (hexBlob uni t) := by
  rw [C15_hex_reader, ← isWord_spec]
  induction l generalizing t with
  | nil => simp [Formatter.hex] at h; subst h; simp [Formatter.binary, words_nil]
  | cons i l ih =>
    unfold Formatter.hex at h
    split at h
    · rename_i b r hb hr
      simp only [Except.ok.injEq] at h
      subst h
      have hne : b ≠ [] := by
        intro h0; subst h0
        have := (bytes_ok hb).2
        simp at this
      rw [words_hex_line uni b hne, List.filterMap_append]
      have := ih r hr
      have hid : (b.map hex2).filterMap Spec.hexWord = b := by
        rw [List.filterMap_map]
        have : (Spec.hexWord ∘ hex2) = some := by funext x; exact hexWord_hex2 x
        rw [this, List.filterMap_some]
      rw [hid]
      simp [Formatter.binary, hb, this]
    · simp at h
    · simp at h

/-- The hex writer succeeds whenever the binary writer does. -/
theorem hex_ok_of_binary (l : List Item) (b : List UInt8) (h : Formatter.binary l = .ok b) :
    ∃ t, Formatter.hex l = .ok t := by
  induction l generalizing b with
  | nil => exact ⟨[], rfl⟩
  | cons i l ih =>
    obtain ⟨b1, b2, h1, h2, rfl⟩ := binary_ok h
    obtain ⟨t, ht⟩ := ih b2 h2
    exact ⟨pyJoin [' '] (b1.map hex2) ++ '\n' :: t, by simp only [Formatter.hex, h1, ht]⟩

example : Formatter.hex [⟨.usagePage, .int 1⟩, ⟨.logMax, .int 300⟩] = .ok (tx "05 01\n26 2c 01\n") := by
  decide +kernel

/-! ## C14 -/

theorem isSpace_space (uni : Char → Bool) : isSpace uni ' ' = true := by simp [isSpace]
theorem isSpace_nl (uni : Char → Bool) : isSpace uni '\n' = true := by simp [isSpace]

theorem isSpace_spec (uni : Char → Bool) : isSpace uni = Spec.space uni := by
  funext c
  have h32 : (c == ' ') = decide (c.toNat = 32) := by
    rw [Bool.eq_iff_iff]
    simp only [beq_iff_eq, decide_eq_true_eq]
    exact ⟨fun h => by rw [h]; rfl, fun h => char_eq_of_toNat h⟩
  rw [Bool.eq_iff_iff]
  simp only [isSpace, Spec.space, h32, Bool.or_eq_true, Bool.and_eq_true, decide_eq_true_eq,
    List.contains_eq_mem, List.mem_cons, List.not_mem_nil, or_false]
  by_cases hu : uni c = true
  · simp only [hu, and_true]; omega
  · simp only [hu, and_false, or_false, Bool.false_eq_true]; omega

theorem codeBlob_tidy (uni : Char → Bool) (t : Text) (ht : Spec.tidy .code t = true) :
    codeBlob uni t = tokenBytes (splitChar ',' (Spec.stripC (isSpace uni) .code t)) := by
  unfold codeBlob
  simp only
  rw [(lines_eq t.length t (Nat.le_refl _)).1,
    strip_code (isSpace uni) (isSpace_space uni) (isSpace_nl uni) t.length t (Nat.le_refl _) ht]

/-- **C14 (partial).** For every text whose block comments are closed and contain no `//`, the reader
returns exactly the bytes written in base 16 by the comma-separated fields of the text without
comments and white space, as a one-pass C lexer removes them, and raises when a field writes no byte;
so two such texts with the same stripped form read the same.
Missing: texts with `//` inside a block comment, where the code differs
(`C14_slashes_in_block_lose_bytes`). -/
theorem C14_code_layout_partial (uni : Char → Bool) :
    (∀ t bs, Spec.tidy .code t = true →
      (codeBlob uni t = .ok bs ↔ Spec.FieldBytes (Spec.stripC (Spec.space uni) .code t) bs)) ∧
    (∀ t t', Spec.tidy .code t = true → Spec.tidy .code t' = true →
      Spec.stripC (Spec.space uni) .code t = Spec.stripC (Spec.space uni) .code t' →
      codeBlob uni t = codeBlob uni t') := by
  have key := codeBlob_tidy uni
  rw [← isSpace_spec]
  refine ⟨fun t bs ht => ?_, fun t t' h1 h2 he => ?_⟩
  · rw [key t ht]; exact fieldBytes_iff _ bs
  · rw [key t h1, key t' h2, he]

/-- Fields may be longer than two digits as long as they are bytes. -/
example : Spec.FieldBytes (tx "0x0_7F,,+1") [0x7f, 1] :=
  ⟨[tx "0x0_7F", [], tx "+1"], by decide +kernel, by decide +kernel,
    ⟨[], ['0', 'x'], [[('0', 0)], [('7', 7), ('F', 15)]], by decide +kernel⟩,
    ⟨['+'], [], [[('1', 1)]], by decide +kernel⟩, trivial⟩

/-- **C14 counterexample.** A URL in a block comment makes the reader silently lose the byte 0x09
of the next line. -/
theorem C14_slashes_in_block_lose_bytes :
    codeBlob (fun _ => false) (tx "0x05, /* see http://x */ 0x01,\n0x09, /* mouse */ 0x02")
      = .ok [0x05, 0x02] ∧
    tokenBytes (splitChar ',' (Spec.stripC (isSpace (fun _ => false)) .code
      (tx "0x05, /* see http://x */ 0x01,\n0x09, /* mouse */ 0x02"))) = .ok [0x05, 0x01, 0x09, 0x02] := by
  decide +kernel

example : Spec.tidy .code (tx "0x05, /* page\n */ 0x01, // d /* e\n 0x09,\n") = true ∧
    codeBlob (fun _ => false) (tx "0x05, /* page\n */ 0x01, // d /* e\n 0x09,\n") = .ok [0x05, 0x01, 0x09] := by
  decide +kernel

/-! ## C12 -/

theorem tidy_plain (p r : Text) (hp : '/' ∉ p) : Spec.tidy .code (p ++ r) = Spec.tidy .code r := by
  induction p with
  | nil => rfl
  | cons c p ih =>
    simp only [List.mem_cons, not_or] at hp
    rw [List.cons_append, tidy_code_cons (by intro h; exact hp.1 h.1.symm) (by intro h; exact hp.1 h.1.symm), ih hp.2]

theorem strip_plain (sp : Char → Bool) (p r : Text) (hp : '/' ∉ p) :
    Spec.stripC sp .code (p ++ r) = p.filter (fun c => !sp c) ++ Spec.stripC sp .code r := by
  induction p with
  | nil => rfl
  | cons c p ih =>
    simp only [List.mem_cons, not_or] at hp
    rw [List.cons_append, stripC_code_cons sp (by intro h; exact hp.1 h.1.symm) (by intro h; exact hp.1 h.1.symm),
      ih hp.2, List.filter_cons]
    cases sp c <;> simp

theorem line_comment (sp : Char → Bool) (p r : Text) (hp : '\n' ∉ p) :
    Spec.stripC sp .line (p ++ '\n' :: r) = Spec.stripC sp .code r ∧
    Spec.tidy .line (p ++ '\n' :: r) = Spec.tidy .code r := by
  induction p with
  | nil => simp [Spec.stripC, Spec.tidy]
  | cons c p ih =>
    simp only [List.mem_cons, not_or] at hp
    have : c ≠ '\n' := fun h => hp.1 h.symm
    simp only [List.cons_append, Spec.stripC, Spec.tidy, this, if_false]
    exact ih hp.2

theorem hex2_facts (uni : Char → Bool) (x : UInt8) :
    '/' ∉ hex2 x ∧ ',' ∉ hex2 x ∧ (hex2 x).filter (fun c => !isSpace uni c) = hex2 x := by
  have h : ∀ n : Nat, hexDigit n ≠ '/' ∧ hexDigit n ≠ ',' ∧ isSpace uni (hexDigit n) = false := by
    intro n
    have : hexDigit n ∈ Spec.hexTable.map (·.1) := isHex_cases (hexDigit_isHex n)
    have hall : ∀ c ∈ Spec.hexTable.map (·.1), c ≠ '/' ∧ c ≠ ',' ∧ c ≠ ' ' ∧ 32 ≤ c.toNat ∧ c.toNat < 128 := by
      decide
    obtain ⟨h1, h2, h3, h4, h5⟩ := hall _ this
    refine ⟨h1, h2, ?_⟩
    simp only [isSpace, Bool.or_eq_false_iff, Bool.and_eq_false_iff, decide_eq_false_iff_not, beq_eq_false_iff_ne]
    refine ⟨⟨⟨h3, ?_⟩, ?_⟩, ?_⟩ <;> omega
  have h1 := h (x.toNat / 16)
  have h2 := h (x.toNat % 16)
  refine ⟨?_, ?_, ?_⟩
  · simp [hex2, h1.1.symm, h2.1.symm]
  · simp [hex2, h1.2.1.symm, h2.2.1.symm]
  · simp [hex2, h1.2.2, h2.2.2]

/-- The tokens of one line once spaces are removed. -/
def toks (b : List UInt8) : Text := b.flatMap (fun x => '0' :: 'x' :: hex2 x ++ [','])

theorem join_toks (uni : Char → Bool) (b : List UInt8) (hb : b ≠ []) :
    '/' ∉ pyJoin [',', ' '] (b.map (fun x => '0' :: 'x' :: hex2 x)) ++ [','] ∧
    (pyJoin [',', ' '] (b.map (fun x => '0' :: 'x' :: hex2 x)) ++ [',']).filter (fun c => !isSpace uni c) = toks b := by
  have s0 : isSpace uni '0' = false := by simp [isSpace]
  have sx : isSpace uni 'x' = false := by simp [isSpace]
  have sc : isSpace uni ',' = false := by simp [isSpace]
  have ss := isSpace_space uni
  induction b with
  | nil => exact absurd rfl hb
  | cons x b ih =>
    obtain ⟨h1, h2, h3⟩ := hex2_facts uni x
    cases b with
    | nil => 
      simp [pyJoin, toks, h1, s0, sx, sc]
      simpa using h3
    | cons y b =>
      obtain ⟨i1, i2⟩ := ih (by simp)
      constructor
      · simp only [List.map_cons, List.mem_append, not_or] at i1
        simp [pyJoin, h1, i1.1]
      · have e : pyJoin [',', ' '] ((x :: y :: b).map (fun x => '0' :: 'x' :: hex2 x)) ++ [',']
            = ('0' :: 'x' :: hex2 x) ++ (',' :: ' ' :: (pyJoin [',', ' '] ((y :: b).map (fun x => '0' :: 'x' :: hex2 x)) ++ [','])) := by
          simp [pyJoin]
        rw [e, List.filter_append]
        simp only [List.filter_cons, s0, sx, sc, ss, h3, Bool.not_false, Bool.not_true, if_true,
          Bool.false_eq_true, if_false, i2]
        simp [toks]

theorem code_text (uni : Char → Bool) (indent : Int) (l : List Item) (t : Text) (b : List UInt8)
    (hn : ∀ i ∈ l, '\n' ∉ i.str) (h : Formatter.codeFrom indent l = .ok t) (hb : Formatter.binary l = .ok b) :
    Spec.tidy .code t = true ∧ Spec.stripC (isSpace uni) .code t = toks b := by
  induction l generalizing indent t b with
  | nil =>
    simp [Formatter.codeFrom] at h; subst h
    simp [Formatter.binary] at hb; subst hb
    simp [Spec.tidy, Spec.stripC, toks]
  | cons i l ih =>
    obtain ⟨b1, b2, h1, h2, rfl⟩ := binary_ok hb
    simp only [Formatter.codeFrom, h1] at h
    split at h
    · rename_i b' r hb' hr
      simp only [Except.ok.injEq] at hb' h
      subst hb'
      obtain ⟨e1, e2⟩ := ih _ r b2 (fun j hj => hn j (by simp [hj])) hr h2
      have hne : b1 ≠ [] := by
        intro h0; subst h0
        have := (bytes_ok h1).2
        simp at this
      obtain ⟨j1, j2⟩ := join_toks uni b1 hne
      generalize hblob : pyJoin [',', ' '] (b1.map (fun x => '0' :: 'x' :: hex2 x)) ++ [','] = blob at *
      have hnoslash : '/' ∉ (List.replicate 5 ' ' ++ Formatter.ljust 30 blob ++ [' ']) := by
        simp [Formatter.ljust, j1]
      have hname : '\n' ∉ (' ' :: (Formatter.spaces (Formatter.indentBefore indent i * 4) ++ i.str)) := by
        have := hn i (by simp)
        simp [Formatter.spaces, this]
      have hfilt : (List.replicate 5 ' ' ++ Formatter.ljust 30 blob ++ [' ']).filter (fun c => !isSpace uni c)
          = toks b1 := by
        simp [Formatter.ljust, List.filter_append, j2, isSpace_space]
      have eq : t = (List.replicate 5 ' ' ++ Formatter.ljust 30 blob ++ [' ']) ++ ('/' :: '/' ::
          ((' ' :: (Formatter.spaces (Formatter.indentBefore indent i * 4) ++ i.str)) ++ '\n' :: r)) := by
        rw [← h]
        simp [Formatter.codeLine, hblob]
      have hlc := line_comment (isSpace uni) _ r hname
      rw [eq, tidy_plain _ _ hnoslash, strip_plain _ _ _ hnoslash, hfilt, Spec.tidy, Spec.stripC, hlc.1, hlc.2, e1, e2]
      simp [toks]
    · simp at h
    · simp at h

theorem splitChar_append (s : Char) (p r : Text) (hp : s ∉ p) :
    splitChar s (p ++ s :: r) = p :: splitChar s r := by
  induction p with
  | nil => simp [splitChar]
  | cons c p ih =>
    simp only [List.mem_cons, not_or] at hp
    have : c ≠ s := fun h => hp.1 h.symm
    simp [splitChar, this, ih hp.2]

theorem int16_tok (x : UInt8) : int16 ('0' :: 'x' :: hex2 x) = .ok x.toNat := by
  have : ∀ n : Fin 256, int16 ('0' :: 'x' :: hex2 (UInt8.ofNat n)) = .ok (n : Nat) := by decide +kernel
  have h := this ⟨x.toNat, x.toNat_lt⟩
  simpa using h

theorem tokenBytes_toks (b : List UInt8) : tokenBytes (splitChar ',' (toks b)) = .ok b := by
  induction b with
  | nil => simp [toks, splitChar, tokenBytes]
  | cons x b ih =>
    have e : toks (x :: b) = ('0' :: 'x' :: hex2 x) ++ ',' :: toks b := by simp [toks]
    have hc : ',' ∉ ('0' :: 'x' :: hex2 x) := by
      have := (hex2_facts (fun _ => false) x).2.1
      simp [this]
    rw [e, splitChar_append _ _ _ hc]
    have := x.toNat_lt
    simp only [tokenBytes, List.isEmpty_cons, Bool.false_eq_true, if_false, int16_tok, ih]
    rw [if_pos (by omega)]
    simp

/-- **C12.** Reading the C-code writer's output gives exactly the bytes of the stream, for every list
of items whose printed names contain no newline, at every indentation. -/
theorem C12_code_roundtrip (uni : Char → Bool) (indent : Int) (l : List Item) (t : Text)
    (hn : ∀ i ∈ l, '\n' ∉ i.str) (h : Formatter.codeFrom indent l = .ok t) :
    ∃ b, Formatter.binary l = .ok b ∧ codeBlob uni t = .ok b := by
  have hb : ∃ b, Formatter.binary l = .ok b := by
    clear hn
    induction l generalizing indent t with
    | nil => exact ⟨[], rfl⟩
    | cons i l ih =>
      simp only [Formatter.codeFrom] at h
      split at h
      · rename_i b r hb hr
        obtain ⟨b2, h2⟩ := ih _ _ hr
        exact ⟨b ++ b2, by simp [Formatter.binary, hb, h2]⟩
      · simp at h
      · simp at h
  obtain ⟨b, hb⟩ := hb
  obtain ⟨h1, h2⟩ := code_text uni indent l t b hn h hb
  exact ⟨b, hb, by rw [codeBlob_tidy uni t h1, h2, tokenBytes_toks]⟩

theorem code_ok_of_binary (indent : Int) (l : List Item) (b : List UInt8) (h : Formatter.binary l = .ok b) :
    ∃ t, Formatter.codeFrom indent l = .ok t := by
  induction l generalizing b indent with
  | nil => exact ⟨[], rfl⟩
  | cons i l ih =>
    obtain ⟨b1, b2, h1, h2, rfl⟩ := binary_ok h
    obtain ⟨t, ht⟩ := ih (Formatter.indentAfter (Formatter.indentBefore indent i) i) b2 h2
    exact ⟨Formatter.codeLine (Formatter.indentBefore indent i) b1 i.str ++ t, by simp only [Formatter.codeFrom, h1, ht]⟩

/-- **C12.** The newline condition is needed: a newline in a name breaks the round trip. -/
theorem C12_newline_in_name_breaks :
    ∃ t, Formatter.code [⟨.usagePage, .named (tx "a\n0x07,") 1⟩] = .ok t ∧
      codeBlob (fun _ => false) t ≠ .ok [0x05, 0x01] := by
  refine ⟨_, rfl, by decide +kernel⟩

example : Formatter.code [⟨.usagePage, .named (tx "GenericDesktop /* // ") 1⟩, ⟨.endCollection, .int 0⟩]
    = .ok (tx "     0x05, 0x01,                    // UsagePage (GenericDesktop /* // )\n     0xc0,                          // EndCollection\n") := by
  decide +kernel

/-! ## C13 -/

/-- **C13 (partial).** Rendering any list of constructed encodable items (newline-free names) in any of the
three formats and reading it back delivers, without error, items of the same class and value.
Missing, and false of the code: names with a newline (`C13_newline_breaks`). -/
theorem C13_formats_agree_partial (f : Formatter.Fmt) (reg : Registry) (uni : Uni) (l : List Item)
    (hm : ∀ i ∈ l, i.Made) (hn : ∀ i ∈ l, '\n' ∉ i.str) (b : List UInt8)
    (hb : Formatter.binary l = .ok b) :
    ∃ d, Formatter.render f l = .ok d ∧ (Formatter.deliver f reg uni d).2 = none ∧
      (Formatter.deliver f reg uni d).1.map Item.key = l.map Item.key := by
  have h7 := C07_stream_roundtrip reg l hm b hb
  cases f with
  | binary => exact ⟨.bytes b, by simp [Formatter.render, hb, Except.map], h7⟩
  | hex =>
    obtain ⟨t, ht⟩ := hex_ok_of_binary l b hb
    refine ⟨.text t, by simp [Formatter.render, ht, Except.map], ?_⟩
    have := C11_hex_roundtrip uni.word l t ht
    rw [hb] at this
    simp only [Except.ok.injEq] at this
    simp only [Formatter.deliver, ← this]
    exact h7
  | code =>
    obtain ⟨t, ht⟩ := code_ok_of_binary 0 l b hb
    refine ⟨.text t, by simp [Formatter.render, Formatter.code, ht, Except.map], ?_⟩
    obtain ⟨b', hb', hc⟩ := C12_code_roundtrip uni.space 0 l t hn ht
    rw [hb] at hb'
    simp only [Except.ok.injEq] at hb'
    simp only [Formatter.deliver, hc, ← hb']
    exact h7

/-- A registry whose usage names contain no newline. -/
def Registry.oneLine (reg : Registry) : Prop := ∀ u ∈ reg, '\n' ∉ u.name

theorem hexDigit_nl (n : Nat) : hexDigit n ≠ '\n' := by
  intro h
  have h1 := isHex_cases (hexDigit_isHex n)
  rw [h] at h1
  revert h1; decide

theorem hexNat_nl (n : Nat) : '\n' ∉ hexNat n := by
  induction n using Nat.strongRecOn with
  | _ n ih =>
    rw [hexNat]
    split
    · simp [(hexDigit_nl n).symm]
    · have := ih (n / 16) (by omega)
      simp [this, (hexDigit_nl (n % 16)).symm]

theorem decNat_nl (n : Nat) : '\n' ∉ decNat n := by
  induction n using Nat.strongRecOn with
  | _ n ih =>
    rw [decNat]
    split
    · simp [(hexDigit_nl n).symm]
    · have := ih (n / 10) (by omega)
      simp [this, (hexDigit_nl (n % 10)).symm]

theorem pyStr_nl (i : Int) : '\n' ∉ pyStr i := by
  unfold pyStr; split <;> simp [decNat_nl]

theorem int_nl (i : Int) : '\n' ∉ (PyVal.int i).str := pyStr_nl i

theorem pyHex_nl (i : Int) : '\n' ∉ pyHex i := by
  have h1 : '\n' ∉ tx "-0x" := by decide
  have h2 : '\n' ∉ tx "0x" := by decide
  unfold pyHex; split <;> simp [hexNat_nl, h1, h2]

theorem lookup_nl {reg : Registry} (h : reg.oneLine) {v : PyVal} (hv : '\n' ∉ v.str) :
    '\n' ∉ (Usage.lookup reg v).name := by
  unfold Usage.lookup
  repeat' split
  · exact hv
  · exact hv
  · rename_i hg; exact h _ (List.mem_of_find?_eq_some hg)
  · exact pyHex_nl _
  · exact pyHex_nl _

theorem page_nl (no : Int) : '\n' ∉ (Usage.page no).str := by
  unfold Usage.page
  simp only [PyVal.str]
  cases hf : Usage.pageName.find? (fun p => p.1 == no) with
  | none => simpa using pyStr_nl no
  | some p =>
    have h1 := List.mem_of_find?_eq_some hf
    have : ∀ p ∈ Usage.pageName, '\n' ∉ p.2 := by decide
    simpa using this p h1

theorem split_nl {u : UsageC} (h : '\n' ∉ u.name) : '\n' ∉ (Usage.split u).2.str := by
  unfold Usage.split
  split
  · rename_i p n hs
    simp only [PyVal.str]
    unfold Usage.splitName at hs
    split at hs
    · rename_i x u' hsp
      simp only [Option.some.injEq, Prod.mk.injEq] at hs
      intro hmem
      apply h
      have h2 : '\n' ∈ u.name.dropWhile (· != '.') := by rw [hsp, hs.2]; simp [hmem]
      exact (List.dropWhile_sublist _).subset h2
    · simp at hs
  · exact pyStr_nl _

theorem join_nl {l : List Text} (h : ∀ t ∈ l, '\n' ∉ t) (s : Text) (hs : '\n' ∉ s) : '\n' ∉ pyJoin s l := by
  induction l with
  | nil => simp [pyJoin]
  | cons a l ih =>
    cases l with
    | nil => simpa [pyJoin] using h a (by simp)
    | cons b l =>
      have h1 := h a (by simp)
      have h2 := ih (fun t ht => h t (List.mem_cons_of_mem _ ht))
      simp only [pyJoin, List.mem_append, not_or]
      exact ⟨⟨h1, hs⟩, h2⟩

theorem str_nl {i : Item} (h : '\n' ∉ i.val.str) : '\n' ∉ i.str := by
  have h1 : '\n' ∉ i.cls.tagName := by cases i.cls <;> decide
  have h2 : '\n' ∉ tx " (" := by decide
  have h3 : '\n' ∉ tx ")" := by decide
  unfold Item.str
  split
  · simp [h, h1, h2, h3]
  · exact h1

theorem new_val_nl {reg : Registry} (hreg : reg.oneLine) {c : Cls} {v : PyVal} {i : Item} (hv : '\n' ∉ v.str)
    (h : Item.new reg c v = .ok i) : '\n' ∉ i.val.str := by
  have hdata : ∀ k, '\n' ∉ Item.dataName k := by
    intro k
    unfold Item.dataName
    simp only
    split
    · decide
    · apply join_nl
      · intro t ht
        rw [List.mem_map] at ht
        obtain ⟨p, hp, rfl⟩ := ht
        have : ∀ p ∈ Item.dataFlags, '\n' ∉ p.2 := by decide
        exact this p (List.mem_filter.mp hp).1
      · decide
  have hcoll : ∀ n, '\n' ∉ Item.collNames.getD n [] := by
    intro n
    by_cases hn : n < 7
    · revert n; decide
    · have : Item.collNames.getD n [] = [] := by
        rw [List.getD_eq_getElem?_getD, List.getElem?_eq_none (by simp [Item.collNames]; omega)]; rfl
      rw [this]; simp
  have hunit : '\n' ∉ (Item.usualUnit v).str := by
    unfold Item.usualUnit
    split
    · rename_i hf
      have h1 := List.mem_of_find?_eq_some hf
      have : ∀ p ∈ Item.usualUnits, '\n' ∉ p.2 := by decide
      exact this _ h1
    · exact hv
  have h0 : '\n' ∉ (PyVal.int 0).str := pyStr_nl 0
  by_cases hcc : c = .collection ∧ ∃ k, v = .int k
  · obtain ⟨rfl, k, rfl⟩ := hcc
    rw [new_collection_int] at h
    repeat' split at h
    all_goals first
      | (rw [(baseInit_ok h).1]; first | exact hcoll _ | exact hv)
      | simp at h
  unfold Item.new at h
  repeat' split at h
  all_goals first
    | (exfalso; exact hcc ⟨rfl, _, rfl⟩)
    | (rw [(baseInit_ok h).1]; first
        | exact hv
        | exact hdata _
        | exact hcoll _
        | exact hunit
        | exact h0
        | exact lookup_nl hreg hv)
    | simp at h

theorem new_nl {reg : Registry} (hreg : reg.oneLine) {c : Cls} {v : PyVal} {i : Item} (hv : '\n' ∉ v.str)
    (h : Item.new reg c v = .ok i) : '\n' ∉ i.str := str_nl (new_val_nl hreg hv h)

theorem delivered_nl {reg : Registry} (hreg : reg.oneLine) (n : Nat) (page : Int) (b : List UInt8)
    (hn : b.length ≤ n) : ∀ i ∈ (Parser.blobLoop reg page b).1, '\n' ∉ i.str := by
  induction n generalizing page b with
  | zero =>
    have : b = [] := List.length_eq_zero_iff.mp (by omega)
    subst this; simp [blobLoop_nil]
  | succ n ih =>
    cases b with
    | nil => simp [blobLoop_nil]
    | cons h t =>
      rw [blobLoop_cons]
      cases hp : Parser.itemParse reg page ((h :: t).take (Parser.sliceLen h)) with
      | error e => simp
      | ok pj =>
        obtain ⟨p, j⟩ := pj
        simp only [List.mem_cons, forall_eq_or_imp]
        constructor
        · unfold Parser.itemParse at hp
          split at hp
          · rename_i i hi
            have hi' : '\n' ∉ i.str := by
              unfold Item.parse at hi
              split at hi
              · simp at hi
              · split at hi
                · simp at hi
                · simp only at hi
                  split at hi
                  · exact new_nl hreg (int_nl 0) hi
                  · split at hi
                    · rename_i v _; exact new_nl hreg (int_nl v) hi
                    · simp at hi
            unfold Parser.append at hp
            have huse : ∀ j', Item.new reg i.cls (Usage.inpage reg page i.ival) = .ok j' → '\n' ∉ j'.str := by
              intro j' hj'
              exact new_nl hreg (split_nl (lookup_nl hreg (int_nl _))) hj'
            split at hp
            · split at hp
              · rename_i j' hj'
                simp only [Except.ok.injEq, Prod.mk.injEq] at hp
                rw [← hp.2]; exact new_nl hreg (page_nl _) hj'
              · simp at hp
            all_goals first
              | (split at hp
                 · split at hp
                   · rename_i j' hj'
                     simp only [Except.ok.injEq, Prod.mk.injEq] at hp
                     rw [← hp.2]; exact huse _ hj'
                   · simp at hp
                 · simp only [Except.ok.injEq, Prod.mk.injEq] at hp
                   rw [← hp.2]; exact hi')
              | (simp only [Except.ok.injEq, Prod.mk.injEq] at hp
                 rw [← hp.2]; exact hi')
          · simp at hp
        · apply ih
          have : 0 < Parser.sliceLen h := by rw [sliceLen_eq]; omega
          simp at hn ⊢; omega

/-- Chain of conversions: read in the current format, write in the next. -/
def convertChain (reg : Registry) (uni : Uni) (f : Formatter.Fmt) : List Formatter.Fmt → Formatter.Doc → Except PyErr (Formatter.Fmt × Formatter.Doc)
  | [], d => .ok (f, d)
  | g :: gs, d =>
    match Formatter.convert f g reg uni d with
    | .ok d' => convertChain reg uni g gs d'
    | .error e => .error e

/-- **C13 (partial).** Every chain of conversions between formats succeeds and ends with a document that
delivers the original items (class and value), provided registered names contain no newline.
Missing, and false of the code: names with a newline (`C13_newline_breaks`). -/
theorem C13_any_chain_partial (reg : Registry) (hreg : reg.oneLine) (uni : Uni) (f : Formatter.Fmt)
    (gs : List Formatter.Fmt) (l : List Item) (hm : ∀ i ∈ l, i.Made) (hn : ∀ i ∈ l, '\n' ∉ i.str)
    (b : List UInt8) (hb : Formatter.binary l = .ok b) :
    ∃ d g d', Formatter.render f l = .ok d ∧ convertChain reg uni f gs d = .ok (g, d') ∧
      (Formatter.deliver g reg uni d').2 = none ∧
      (Formatter.deliver g reg uni d').1.map Item.key = l.map Item.key := by
  induction gs generalizing f l b with
  | nil =>
    obtain ⟨d, h1, h2, h3⟩ := C13_formats_agree_partial f reg uni l hm hn b hb
    exact ⟨d, f, d, h1, rfl, h2, h3⟩
  | cons g gs ih =>
    obtain ⟨d, h1, h2, h3⟩ := C13_formats_agree_partial f reg uni l hm hn b hb
    obtain ⟨l', hl'⟩ : ∃ l', Formatter.deliver f reg uni d = (l', none) := ⟨_, by rw [← h2]⟩
    rw [hl'] at h3
    have hfacts : ∃ bb, Parser.blobParse reg bb = (l', none) := by
      revert hl'
      unfold Formatter.deliver
      split
      · intro h; exact ⟨_, h⟩
      · intro h; exact ⟨[], by rw [← h]; simp [Parser.blobParse, Parser.blobLoop]⟩
      · intro h; exact ⟨_, h⟩
      · split
        · intro h; exact ⟨_, h⟩
        · intro h; simp at h
      · intro h; simp at h
    obtain ⟨bb, hbb⟩ := hfacts
    have hm' := (parsed_encodable reg bb l' hbb).1
    have hn' : ∀ i ∈ l', '\n' ∉ i.str := by
      have := delivered_nl hreg bb.length 0 bb (Nat.le_refl _)
      unfold Parser.blobParse at hbb
      rw [hbb] at this; exact this
    have hb' : Formatter.binary l' = .ok b := by rw [binary_congr hm' hm h3]; exact hb
    obtain ⟨d1, g', d', e1, e2, e3, e4⟩ := ih g l' hm' hn' b hb'
    refine ⟨d, g', d', h1, ?_, e3, by rw [e4, h3]⟩
    simp only [convertChain, Formatter.convert, hl', e1]
    exact e2

example : convertChain [] ⟨fun _ => false, fun _ => false⟩ .binary [.code, .hex, .binary]
    (.bytes [0x05, 0x01, 0x09, 0x02]) = .ok (.binary, .bytes [0x05, 0x01, 0x09, 0x02]) := by decide +kernel

/-- **C13 fails for names with a newline**: the code document of one encodable item delivers another
item after it. -/
theorem C13_newline_breaks (reg : Registry) (uni : Uni) (hu : uni.space = fun _ => false) :
    let l : List Item := [⟨.usagePage, .named (tx "a\n0xc0, //") 1⟩]
    Formatter.binary l = .ok [0x05, 0x01] ∧ (∀ i ∈ l, i.Made) ∧
      ∃ t, Formatter.render .code l = .ok (.text t) ∧
        (Formatter.deliver .code reg uni (.text t)).1.map Item.key = [(.usagePage, 1), (.endCollection, 0)] := by
  refine ⟨by decide +kernel, fun i hi => ?_, _, rfl, ?_⟩
  · rw [List.mem_singleton.1 hi]
    exact ⟨[], .named (tx "a\n0xc0, //") 1, rfl⟩
  have h1 : codeBlob uni.space
      (Formatter.codeLine 0 [0x05, 0x01] (Item.str ⟨.usagePage, .named (tx "a\n0xc0, //") 1⟩) ++ []) = .ok [0x05, 0x01, 0xc0] := by
    rw [hu]; decide +kernel
  have h2 := (C07_stream_roundtrip reg [⟨.usagePage, .named (tx "GenericDesktop") 1⟩, ⟨.endCollection, .int 0⟩]
    (fun i hi => by
      simp only [List.mem_cons, List.not_mem_nil, or_false] at hi
      rcases hi with rfl | rfl
      · exact ⟨[], .named (tx "GenericDesktop") 1, rfl⟩
      · exact ⟨[], .int 0, rfl⟩)
    [0x05, 0x01, 0xc0] (by decide +kernel)).2
  show (Formatter.deliver .code reg uni (.text (Formatter.codeLine 0 [0x05, 0x01] _ ++ []))).1.map _ = _
  simp only [Formatter.deliver]
  rw [h1]
  exact h2

end Hrdc
