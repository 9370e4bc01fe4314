import Verif.Spec.CLang
import Verif.Props.Layout
/-!
# C71: the code text in a C compiler
-/
namespace Hrdc
open Spec

theorem cRun_append (a b : Text) : ∀ s, cRun s (a ++ b) =
    match cRun s a with
    | none => none
    | some (ts, s') => (cRun s' b).map fun p => (ts ++ p.1, p.2) := by
  induction a with
  | nil => intro s; cases h : cRun s b <;> simp [cRun, h]
  | cons c a ih =>
    intro s
    rw [List.cons_append, cRun, cRun]
    cases cNext s c with
    | none => rfl
    | some p =>
      obtain ⟨ts, s'⟩ := p
      simp only [ih s']
      cases cRun s' a with
      | none => rfl
      | some q =>
        simp only [Option.map_some]
        cases cRun q.2 b <;> simp

theorem run_spaces (n : Nat) : cRun .idle (List.replicate n ' ') = some ([], .idle) := by
  induction n with
  | zero => rfl
  | succ n ih =>
    rw [List.replicate_succ, cRun, show cNext .idle ' ' = some ([], .idle) by decide]
    simp [ih]

theorem run_comment (name : Text) (h : '\n' ∉ name) : cRun .line (name ++ ['\n']) = some ([], .idle) := by
  induction name with
  | nil => decide
  | cons c r ih =>
    simp only [List.mem_cons, not_or] at h
    rw [List.cons_append, cRun, show cNext .line c = some ([], .line) by simp [cNext, Ne.symm h.1]]
    simp [ih h.2]

/-- The tokens of a byte. -/
def byteToks (b : UInt8) : List CTok := [.num (['0', 'x'] ++ digitPair b), .comma]

theorem run_byte (b : UInt8) : cRun .idle (cByte b) = some (byteToks b, .idle) := by
  have h : ∀ n : Fin 256, cRun .idle (cByte (UInt8.ofNat n)) = some (byteToks (UInt8.ofNat n), .idle) := by decide +kernel
  have := h ⟨b.toNat, b.toNat_lt⟩
  simpa using this

theorem constant_byte (b : UInt8) : cConstant (['0', 'x'] ++ digitPair b) = some b.toNat := by
  have h : ∀ n : Fin 256, cConstant (['0', 'x'] ++ digitPair (UInt8.ofNat n)) = some (UInt8.ofNat n).toNat := by decide +kernel
  have := h ⟨b.toNat, b.toNat_lt⟩
  simpa using this

theorem run_bytes (b : List UInt8) : cRun .idle ([' '].intercalate (b.map cByte)) = some (b.flatMap byteToks, .idle) := by
  induction b with
  | nil => rfl
  | cons x b ih =>
    cases b with
    | nil => simpa [List.intercalate] using run_byte x
    | cons y b =>
      have : [' '].intercalate ((x :: y :: b).map cByte) = cByte x ++ ([' '] ++ [' '].intercalate ((y :: b).map cByte)) := by
        simp [List.intercalate]
      rw [this, cRun_append, run_byte]
      simp only [Option.map_some]
      rw [cRun_append, show cRun .idle [' '] = some ([], .idle) by decide]
      simp only [ih, Option.map_some, List.nil_append]
      rfl

theorem run_head (b : List UInt8) : cRun .idle (codeHead b) = some (b.flatMap byteToks, .idle) := by
  unfold codeHead
  rw [cRun_append, cRun_append, run_spaces]
  simp only [run_bytes, Option.map_some, run_spaces]
  simp

theorem trigraphs_plain (c : Char) (hc : c ≠ '?') (r : Text) : trigraphs (c :: r) = c :: trigraphs r := by
  rw [trigraphs.eq_def]
  split
  · rename_i h; simp at h; exact absurd h.1 hc
  · rename_i h; simp at h; rw [h.1, h.2]
  · rename_i h; simp at h

theorem trigraphs_question (c : Char) (hc : c ≠ '?') (r : Text) : trigraphs ('?' :: c :: r) = '?' :: trigraphs (c :: r) := by
  rw [trigraphs.eq_def]
  split
  · rename_i h; simp at h; exact absurd h.1 hc
  · rename_i h; simp at h; rw [h.1.symm, h.2]
  · rename_i h; simp at h

/-- The end of a line is in no trigraph. -/
theorem trigraphs_line (a r : Text) : trigraphs (a ++ '\n' :: r) = trigraphs a ++ '\n' :: trigraphs r := by
  fun_induction trigraphs a with
  | case1 c a d h ih =>
    rw [List.cons_append, List.cons_append, List.cons_append, trigraphs, h]
    simp [ih]
  | case2 c a h ih =>
    rw [List.cons_append, List.cons_append, List.cons_append, trigraphs, h]
    simp only [List.cons_append] at ih
    simp [ih]
  | case3 c a h ih =>
    by_cases hc : c = '?'
    · subst hc
      cases a with
      | nil => rw [show ['?'] ++ '\n' :: r = '?' :: '\n' :: r from rfl, trigraphs_question _ (by decide),
          trigraphs_plain _ (by decide)]; rfl
      | cons e a =>
        by_cases he : e = '?'
        · subst he
          cases a with
          | nil =>
            rw [show ['?', '?'] ++ '\n' :: r = '?' :: '?' :: '\n' :: r from rfl, trigraphs,
              show trigraph '\n' = none by decide]
            simp only
            rw [trigraphs_question _ (by decide), trigraphs_plain _ (by decide)]
            rfl
          | cons f a => exact absurd rfl (h f a rfl)
        · rw [List.cons_append, List.cons_append, trigraphs_question e he, ← List.cons_append, ih]; rfl
    · rw [List.cons_append, trigraphs_plain c hc, ih]; rfl
  | case4 => rw [List.nil_append, trigraphs_plain _ (by decide)]; rfl

/-- Text without question marks stays. -/
theorem trigraphs_head (a r : Text) (h : '?' ∉ a) : trigraphs (a ++ r) = a ++ trigraphs r := by
  induction a with
  | nil => rfl
  | cons c a ih =>
    simp only [List.mem_cons, not_or] at h
    rw [List.cons_append, trigraphs_plain c (Ne.symm h.1), ih h.2]
    rfl

theorem trigraph_char {c d : Char} (h : trigraph c = some d) : d ≠ '\n' ∧ (d = '\\' → c = '/') := by
  unfold trigraph at h
  split at h <;> simp_all <;> subst h <;> decide

theorem trigraphs_newline (a : Text) (h : '\n' ∉ a) : '\n' ∉ trigraphs a := by
  fun_induction trigraphs a with
  | case1 c a d hd ih =>
    simp only [List.mem_cons, not_or] at h ⊢
    exact ⟨Ne.symm (trigraph_char hd).1, ih h.2.2.2⟩
  | case2 c a hd ih =>
    simp only [List.mem_cons, not_or] at h ih ⊢
    exact ⟨by decide, ih ⟨by decide, h.2.2⟩⟩
  | case3 c a _ ih =>
    simp only [List.mem_cons, not_or] at h ⊢
    exact ⟨h.1, ih h.2⟩
  | case4 => simp

/-- What a text ends in. -/
def Ends (a : Text) (c : Char) : Prop := ∃ b, a = b ++ [c]

theorem ends_cons {x : Char} {a : Text} {c : Char} (h : Ends (x :: a) c) : (a = [] ∧ x = c) ∨ Ends a c := by
  obtain ⟨b, hb⟩ := h
  cases b with
  | nil => simp at hb; exact .inl ⟨hb.2, hb.1⟩
  | cons y b => simp at hb; exact .inr ⟨b, hb.2⟩

theorem ends_more (x : Char) {a : Text} {c : Char} (h : Ends a c) : Ends (x :: a) c := by
  obtain ⟨b, rfl⟩ := h
  exact ⟨x :: b, rfl⟩

theorem ends_append {a b : Text} {d : Char} (hb : b ≠ []) (h : Ends (a ++ b) d) : Ends b d := by
  induction a with
  | nil => exact h
  | cons c a ih =>
    rcases ends_cons h with ⟨h, -⟩ | h
    · exact absurd (List.append_eq_nil_iff.1 h).2 hb
    · exact ih h

theorem ends_one {c d : Char} (h : Ends [c] d) : c = d := by
  rcases ends_cons h with ⟨-, h⟩ | ⟨b, hb⟩
  · exact h
  · simp at hb

/-- A backslash at the end comes from one, or from a slash. -/
theorem trigraphs_ends (a : Text) (h : Ends (trigraphs a) '\\') : Ends a '\\' ∨ Ends a '/' := by
  fun_induction trigraphs a with
  | case1 c a d hd ih =>
    rcases ends_cons h with ⟨h1, h2⟩ | h
    · have : a = [] := by
        rw [trigraphs.eq_def] at h1
        split at h1
        · split at h1 <;> simp at h1
        · simp at h1
        · rfl
      rw [this, (trigraph_char hd).2 h2]
      exact .inr ⟨['?', '?'], rfl⟩
    · exact (ih h).imp (fun h => ends_more _ (ends_more _ (ends_more _ h))) fun h => ends_more _ (ends_more _ (ends_more _ h))
  | case2 c a hd ih =>
    rcases ends_cons h with ⟨h1, h2⟩ | h
    · simp at h2
    · exact (ih h).imp (fun h => ends_more _ h) fun h => ends_more _ h
  | case3 c a _ ih =>
    rcases ends_cons h with ⟨h1, h2⟩ | h
    · have : a = [] := by
        rw [trigraphs.eq_def] at h1
        split at h1
        · split at h1 <;> simp at h1
        · simp at h1
        · rfl
      rw [this, h2]
      exact .inl ⟨[], rfl⟩
    · exact (ih h).imp (fun h => ends_more _ h) fun h => ends_more _ h
  | case4 => obtain ⟨b, hb⟩ := h; simp at hb

theorem splice_plain (c : Char) (hc : c ≠ '\\') (r : Text) : splice (c :: r) = c :: splice r := by
  rw [splice.eq_def]
  split
  · rename_i h; simp at h; exact absurd h.1 hc
  · rename_i h; simp at h; rw [h.1, h.2]
  · rename_i h; simp at h

theorem splice_next (c d : Char) (hd : d ≠ '\n') (r : Text) : splice (c :: d :: r) = c :: splice (d :: r) := by
  rw [splice.eq_def]
  split
  · rename_i h; simp at h; exact absurd h.2.1 hd
  · rename_i h; simp at h; rw [h.1, h.2]
  · rename_i h; simp at h

/-- A line that does not end in a backslash ends there. -/
theorem splice_line (a r : Text) (hn : '\n' ∉ a) (he : ¬ Ends a '\\') : splice (a ++ '\n' :: r) = a ++ '\n' :: splice r := by
  induction a with
  | nil => rw [List.nil_append, splice_plain _ (by decide)]; rfl
  | cons c a ih =>
    simp only [List.mem_cons, not_or] at hn
    have ih := ih hn.2 fun h => he (ends_more c h)
    cases a with
    | nil =>
      have : c ≠ '\\' := fun h => he ⟨[], by rw [h]; rfl⟩
      rw [List.cons_append, splice_plain c this, ih]; rfl
    | cons d a =>
      simp only [List.mem_cons, not_or] at hn
      rw [List.cons_append, List.cons_append, splice_next c d (Ne.symm hn.2.1), ← List.cons_append, ih]; rfl

theorem tagName_ends (c : Cls) : ¬ Ends c.tagName '\\' ∧ ¬ Ends c.tagName '/' := by
  have h : ∀ d, Ends c.tagName d → c.tagName.getLast? = some d := by
    rintro d ⟨b, hb⟩; rw [hb]; simp
  constructor
  · intro hd; have := h _ hd; revert this; cases c <;> decide
  · intro hd; have := h _ hd; revert this; cases c <;> decide

/-- The name shown of an item ends in a letter or a parenthesis. -/
theorem str_ends (i : Item) (p : Text) : ¬ Ends (p ++ i.str) '\\' ∧ ¬ Ends (p ++ i.str) '/' := by
  have h : ∀ d, Ends (p ++ i.str) d → Ends i.str d := by
    rintro d ⟨b, hb⟩
    have hne : i.str ≠ [] := by
      unfold Item.str
      split
      · simp [tx]
      · cases i.cls <;> decide
    exact ends_append hne ⟨b, hb⟩
  have g : ∀ d, Ends i.str d → d = ')' ∨ Ends i.cls.tagName d := by
    intro d hd
    unfold Item.str at hd
    split at hd
    · exact .inl (ends_one (ends_append (by decide) hd)).symm
    · exact .inr hd
  have t := tagName_ends i.cls
  constructor
  · intro hd; rcases g _ (h _ hd) with e | e
    · exact absurd e (by decide)
    · exact t.1 e
  · intro hd; rcases g _ (h _ hd) with e | e
    · exact absurd e (by decide)
    · exact t.2 e

theorem head_plain (b : List UInt8) : '?' ∉ codeHead b ∧ '\\' ∉ codeHead b ∧ '\n' ∉ codeHead b := by
  have h : ∀ n : Fin 256, '?' ∉ cByte (UInt8.ofNat n) ∧ '\\' ∉ cByte (UInt8.ofNat n) ∧ '\n' ∉ cByte (UInt8.ofNat n) := by
    decide +kernel
  have h : ∀ x : UInt8, '?' ∉ cByte x ∧ '\\' ∉ cByte x ∧ '\n' ∉ cByte x := by
    intro x; simpa using h ⟨x.toNat, x.toNat_lt⟩
  have g : '?' ∉ [' '].intercalate (b.map cByte) ∧ '\\' ∉ [' '].intercalate (b.map cByte) ∧
      '\n' ∉ [' '].intercalate (b.map cByte) := by
    induction b with
    | nil => simp [List.intercalate]
    | cons x b ih =>
      cases b with
      | nil => simpa [List.intercalate] using h x
      | cons y b =>
        have : [' '].intercalate ((x :: y :: b).map cByte) = cByte x ++ ([' '] ++ [' '].intercalate ((y :: b).map cByte)) := by
          simp [List.intercalate]
        rw [this]
        simp only [List.mem_append, not_or, List.mem_singleton]
        exact ⟨⟨(h x).1, by decide, ih.1⟩, ⟨(h x).2.1, by decide, ih.2.1⟩, ⟨(h x).2.2, by decide, ih.2.2⟩⟩
  unfold codeHead
  simp only [List.mem_append, not_or, List.mem_replicate]
  exact ⟨⟨⟨by simp, g.1⟩, by simp⟩, ⟨⟨by simp, g.2.1⟩, by simp⟩, ⟨⟨by simp, g.2.2⟩, by simp⟩⟩

/-- The first phases on a line of code. -/
theorem phases_line (tri : Bool) (b : List UInt8) (p : Text) (i : Item) (rest : Text) (hn : '\n' ∉ i.str)
    (hp : '\n' ∉ p) : ∃ name : Text, '\n' ∉ name ∧
      splice (if tri then trigraphs (codeHead b ++ ['/', '/'] ++ (p ++ i.str) ++ '\n' :: rest)
          else codeHead b ++ ['/', '/'] ++ (p ++ i.str) ++ '\n' :: rest) =
        codeHead b ++ ['/', '/'] ++ name ++ '\n' :: splice (if tri then trigraphs rest else rest) := by
  obtain ⟨h1, h2, h3⟩ := head_plain b
  have hps : '\n' ∉ p ++ i.str := by simp [hn, hp]
  have he := str_ends i p
  have hpre : ∀ name : Text, '\n' ∉ name → ¬ Ends name '\\' →
      '\n' ∉ codeHead b ++ ['/', '/'] ++ name ∧ ¬ Ends (codeHead b ++ ['/', '/'] ++ name) '\\' := by
    intro name hn he
    refine ⟨by simp [h3, hn], ?_⟩
    intro h
    by_cases hl : name = []
    · subst hl
      rw [List.append_nil] at h
      exact absurd (ends_one (ends_append (a := ['/']) (by decide) (ends_append (by decide) h))) (by decide)
    · exact he (ends_append hl h)
  cases tri with
  | false =>
    have := hpre _ hps he.1
    exact ⟨p ++ i.str, hps, by simp only [Bool.false_eq_true, if_false]; exact splice_line _ _ this.1 this.2⟩
  | true =>
    have ht : ¬ Ends (trigraphs (p ++ i.str)) '\\' := fun h => (trigraphs_ends _ h).elim he.1 he.2
    have := hpre _ (trigraphs_newline _ hps) ht
    refine ⟨_, trigraphs_newline _ hps, ?_⟩
    simp only [if_true]
    rw [trigraphs_line, trigraphs_head (codeHead b ++ ['/', '/']) (p ++ i.str) (by simp [h1])]
    exact splice_line _ _ this.1 this.2

theorem codeFrom_lex (tri : Bool) (indent : Int) (l : List Item) (t : Text) (b : List UInt8)
    (hn : ∀ i ∈ l, '\n' ∉ i.str) (h : Formatter.codeFrom indent l = .ok t) (hb : Formatter.binary l = .ok b) :
    cRun .idle (splice (if tri then trigraphs t else t)) = some (b.flatMap byteToks, .idle) := by
  induction l generalizing indent t b with
  | nil =>
    simp only [Formatter.codeFrom, Except.ok.injEq] at h
    simp only [Formatter.binary, Except.ok.injEq] at hb
    subst h hb
    cases tri <;> decide
  | cons i l ih =>
    simp only [Formatter.codeFrom] at h
    split at h
    · rename_i bi r hi hr
      simp only [Except.ok.injEq] at h
      rw [Formatter.binary, hi] at hb
      split at hb
      · rename_i b1 b2 e1 hb2
        simp only [Except.ok.injEq] at e1 hb
        subst e1
        have ih := ih _ r b2 (fun j hj => hn j (List.mem_cons_of_mem _ hj)) hr hb2
        have e : t = codeHead bi ++ ['/', '/'] ++
            ((' ' :: Formatter.spaces (Formatter.indentBefore indent i * 4)) ++ i.str) ++ '\n' :: r := by
          rw [← h, ← (code_head hi).1]
          simp [Formatter.codeLine]
        obtain ⟨name, h1, h2⟩ := phases_line tri bi (' ' :: Formatter.spaces (Formatter.indentBefore indent i * 4)) i r
          (hn i List.mem_cons_self) (by simp [Formatter.spaces])
        rw [e, h2, show ∀ x : Text, codeHead bi ++ ['/', '/'] ++ name ++ '\n' :: x =
          codeHead bi ++ (['/', '/'] ++ ((name ++ ['\n']) ++ x)) by intro x; simp]
        rw [cRun_append, run_head]
        simp only
        rw [cRun_append, show cRun .idle ['/', '/'] = some ([], .line) by decide]
        simp only
        rw [cRun_append, run_comment name h1]
        simp only [ih, Option.map_some, List.nil_append]
        rw [← hb, List.flatMap_append]
      · simp at hb
      · simp at hb
    · simp at h
    · simp at h

theorem values_bytes (b : List UInt8) : cValues (b.flatMap byteToks) = some (b.map UInt8.toNat) := by
  induction b with
  | nil => rfl
  | cons x b ih =>
    have : (x :: b).flatMap byteToks = .num (['0', 'x'] ++ digitPair x) :: .comma :: b.flatMap byteToks := rfl
    rw [this, cValues, constant_byte, ih]
    rfl

/-- **C71.** A C compiler that reads the text between the braces of an initializer finds exactly the bytes of the
descriptor, whatever the (newline-free) names shown, trigraphs, backslashes and comment marks in them included, and whether or
not the compiler knows trigraphs. -/
theorem C71_c_values (tri : Bool) (l : List Item) (t : Text) (b : List UInt8) (hn : ∀ i ∈ l, '\n' ∉ i.str)
    (h : Formatter.code l = .ok t) (hb : Formatter.binary l = .ok b) :
    cInitializer tri t = some (b.map UInt8.toNat) := by
  unfold cInitializer cLex
  rw [codeFrom_lex tri 0 l t b hn h hb]
  exact values_bytes b

/-- Names as awkward as can be. -/
def awkward : List Item := [⟨.usagePage, .named (tx "*/ 7, ??/") 0xffab⟩, ⟨.collection, .named (tx "// \\") 1⟩,
  ⟨.endCollection, .int 0⟩]

example : (∀ i ∈ awkward, '\n' ∉ i.str) ∧ (∃ t, Formatter.code awkward = .ok t ∧
    cInitializer true t = some [0x06, 0xab, 0xff, 0xa1, 0x01, 0xc0]) ∧
    Formatter.binary awkward = .ok [0x06, 0xab, 0xff, 0xa1, 0x01, 0xc0] :=
  ⟨by decide +kernel, ⟨_, rfl, by decide +kernel⟩, by decide +kernel⟩

/-- The reader is a real one: a line that ends in a backslash, or in the trigraph for it, takes the next with it. -/
example : cInitializer true (tx "0x01, // a??/\n0x02, // b\n0x03") = some [1, 3] ∧
    cInitializer false (tx "0x01, // a??/\n0x02, // b\n0x03") = some [1, 2, 3] ∧
    cInitializer false (tx "0x01, // a\\\n0x02, // b\n017, /* 9, ** */ 42") = some [1, 15, 42] ∧
    cInitializer true (tx "0x1e+0x2") = none ∧ cInitializer true (tx "1 2") = none := by decide +kernel

end Hrdc
