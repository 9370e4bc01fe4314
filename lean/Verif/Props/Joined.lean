import Verif.Spec.Joined
import Verif.Props.Stored
import Verif.Props.CodeText
import Verif.Props.Layout
import Verif.Props.Written
/-!
# Property C83: documents can be put together
-/
namespace Hrdc
open Parser (Uni splitChar tokenBytes codeBlob hexBlob)
open Formatter (Fmt Doc deliver)
open Spec (Joined cat)

/-! ## Bytes -/

/-- Bytes that can be read, with others behind them. -/
theorem blobLoop_then (reg : Registry) (n : Nat) : ∀ (p : Int) (a b : List UInt8), a.length ≤ n →
    (Parser.blobLoop reg p a).2 = none →
    ∃ q, Parser.blobLoop reg p (a ++ b) =
      ((Parser.blobLoop reg p a).1 ++ (Parser.blobLoop reg q b).1, (Parser.blobLoop reg q b).2) := by
  induction n with
  | zero =>
    intro p a b hn h
    have : a = [] := List.length_eq_zero_iff.1 (by omega)
    subst this
    exact ⟨p, by rw [blobLoop_nil]; rfl⟩
  | succ n ih =>
    intro p a b hn h
    cases a with
    | nil => exact ⟨p, by rw [blobLoop_nil]; rfl⟩
    | cons x t =>
      rw [blobLoop_cons] at h ⊢
      rcases itemParse_slice reg p x t with ⟨k, rest, hr, -, hrest, hsplit, -, p', j, hp, -, -⟩ | ⟨-, e, he⟩
      · rw [hp] at h ⊢
        simp only at h ⊢
        have hlen : Parser.sliceLen x ≤ (x :: t).length := by
          have hx := hr
          simp only [Spec.readItem] at hx
          rw [sliceLen_eq]
          split at hx
          · simp at hx
          · split at hx
            · simp at hx
            · simp only [List.length_cons]; omega
        rw [← hrest] at h ⊢
        obtain ⟨q, hq⟩ := ih p' rest b (by have := Spec.readItem_lt hr; simp at this hn; omega) h
        refine ⟨q, ?_⟩
        rw [List.cons_append, blobLoop_cons, ← List.cons_append, List.take_append_of_le_length hlen,
          List.drop_append_of_le_length hlen, hp, ← hrest]
        simp only [hq, List.cons_append]
      · rw [he] at h; simp at h

/-- The page in force changes neither classes and values nor the exception. -/
theorem blobLoop_page (reg : Registry) (n : Nat) : ∀ (p q : Int) (b : List UInt8), b.length ≤ n →
    (Parser.blobLoop reg p b).1.map Item.key = (Parser.blobLoop reg q b).1.map Item.key ∧
    (Parser.blobLoop reg p b).2 = (Parser.blobLoop reg q b).2 := by
  intro p q b hb
  refine ⟨by rw [(blobLoop_front reg n p b hb).1, (blobLoop_front reg n q b hb).1], ?_⟩
  induction n generalizing p q b with
  | zero =>
    have : b = [] := List.length_eq_zero_iff.1 (by omega)
    subst this
    simp [blobLoop_nil]
  | succ n ih =>
    cases b with
    | nil => simp [blobLoop_nil]
    | cons x t =>
      rw [blobLoop_cons, blobLoop_cons]
      unfold Parser.itemParse
      cases hi : Item.parse reg ((x :: t).take (Parser.sliceLen x)) with
      | error e => rfl
      | ok i =>
        obtain ⟨v, hv⟩ := parse_raw hi
        obtain ⟨p', j, e1, -, -⟩ := append_ok reg p (made_of_new hv)
        obtain ⟨q', j', e2, -, -⟩ := append_ok reg q (made_of_new hv)
        simp only [e1, e2]
        apply ih
        have : 0 < Parser.sliceLen x := by rw [sliceLen_eq]; omega
        simp only [List.length_drop, List.length_cons] at hb ⊢
        omega

/-- Bytes that begin with a Usage Page are read the same whatever the page in force. -/
theorem blobLoop_paged (reg : Registry) (p q : Int) (b : List UInt8) (v : Int)
    (h : ((Parser.blobLoop reg p b).1.map Item.key).head? = some (Cls.usagePage, v)) :
    Parser.blobLoop reg p b = Parser.blobLoop reg q b := by
  cases b with
  | nil => simp [blobLoop_nil] at h
  | cons x t =>
    rw [blobLoop_cons] at h ⊢
    rw [blobLoop_cons]
    unfold Parser.itemParse at h ⊢
    cases hi : Item.parse reg ((x :: t).take (Parser.sliceLen x)) with
    | error e => rfl
    | ok i =>
      rw [hi] at h
      obtain ⟨w, hw⟩ := parse_raw hi
      obtain ⟨p', j, e1, -, hk⟩ := append_ok reg p (made_of_new hw)
      simp only [e1, List.map_cons, List.head?_cons, Option.some.injEq] at h
      have hc : i.cls = .usagePage := by
        have : i.key.1 = Cls.usagePage := by rw [← hk, h]
        exact this
      have e2 : Parser.append reg q i = Parser.append reg p i := by
        unfold Parser.append; rw [hc]
      simp only [e2]

/-! ## Hex text -/

theorem words_join (w : Char → Bool) (c : Char) (hc : w c = false) (b : Text) (n : Nat) : ∀ a : Text, a.length ≤ n →
    Spec.words w (a ++ c :: b) = Spec.words w a ++ Spec.words w b := by
  induction n with
  | zero =>
    intro a ha
    have : a = [] := List.length_eq_zero_iff.1 (by omega)
    subst this
    rw [List.nil_append, Spec.words.eq_2, if_neg (by simp [hc]), Spec.words.eq_1, List.nil_append]
  | succ n ih =>
    intro a ha
    cases a with
    | nil => rw [List.nil_append, Spec.words.eq_2, if_neg (by simp [hc]), Spec.words.eq_1, List.nil_append]
    | cons x t =>
      have hd : ∀ t : Text, (t ++ c :: b).takeWhile w = t.takeWhile w ∧ (t ++ c :: b).dropWhile w = t.dropWhile w ++ c :: b := by
        intro t
        induction t with
        | nil => simp [hc]
        | cons y t ih =>
          simp only [List.cons_append, List.takeWhile_cons, List.dropWhile_cons]
          split
          · exact ⟨by rw [ih.1], ih.2⟩
          · exact ⟨rfl, rfl⟩
      rw [List.cons_append, Spec.words.eq_2, Spec.words.eq_2]
      split
      · rw [(hd t).1, (hd t).2, ih _ (by
          have := (List.dropWhile_sublist w (l := t)).length_le
          simp at ha; omega), List.cons_append]
      · exact ih t (by simpa using ha)

theorem hexBlob_join (uni : Char → Bool) (a b : Text) (c : Char) (hc : Spec.inWord uni c = false) :
    hexBlob uni (a ++ c :: b) = hexBlob uni a ++ hexBlob uni b := by
  rw [C15_hex_reader, C15_hex_reader, C15_hex_reader, words_join _ c hc b a.length a (Nat.le_refl _),
    List.filterMap_append]

/-! ## C text -/

theorem head_line {c d : Char} {r b : Text} (hd : d ≠ '\n') (h : ∀ s, c = '/' → r = d :: s → False) :
    ¬ (c = '/' ∧ (r ++ '\n' :: b).head? = some d) := by
  rintro ⟨rfl, h2⟩
  cases r with
  | nil => simp at h2; exact hd h2.symm
  | cons x r => simp at h2; subst h2; exact h r rfl rfl

theorem codeText_line (sp : Char → Bool) (hnl : sp '\n' = true) (b : Text) (p : Spec.Place) (a s : Text)
    (h : Spec.codeText sp p a = some s) :
    Spec.codeText sp p (a ++ '\n' :: b) = (Spec.codeText sp .code b).map (s ++ ·) := by
  fun_induction Spec.codeText sp p a generalizing s with
  | case1 =>
    simp only [Option.some.injEq] at h; subst h
    rw [List.nil_append, codeText_code_cons sp (by simp) (by simp), if_pos hnl]
    simp
  | case2 =>
    simp only [Option.some.injEq] at h; subst h
    simp [Spec.codeText]
  | case3 => simp at h
  | case4 => simp at h
  | case5 r ih => rw [List.cons_append, List.cons_append, Spec.codeText]; exact ih s h
  | case6 r ih => rw [List.cons_append, List.cons_append, Spec.codeText]; exact ih s h
  | case7 c r h1 h2 hc ih =>
    rw [List.cons_append, codeText_code_cons sp (head_line (by decide) h1) (head_line (by decide) h2), if_pos hc]
    exact ih s h
  | case8 c r h1 h2 hc ih =>
    rw [List.cons_append, codeText_code_cons sp (head_line (by decide) h1) (head_line (by decide) h2), if_neg hc]
    cases hr : Spec.codeText sp .code r with
    | none => rw [hr] at h; simp at h
    | some s' =>
      rw [hr] at h
      simp only [Option.map_some, Option.some.injEq] at h
      subst h
      rw [ih s' hr, Option.map_map]
      rfl
  | case9 q r ih =>
    rw [List.cons_append, Spec.codeText, if_pos rfl]; exact ih s h
  | case10 q c r hc ih =>
    rw [List.cons_append, Spec.codeText, if_neg hc]; exact ih s h
  | case11 r ih => rw [List.cons_append, List.cons_append, Spec.codeText]; exact ih s h
  | case12 r ih => rw [List.cons_append, List.cons_append, List.cons_append, Spec.codeText]; exact ih s h
  | case13 r h1 ih =>
    rw [List.cons_append, List.cons_append, Spec.codeText]
    · exact ih s h
    · intro r' h'
      cases r with
      | nil => simp at h'
      | cons x r => simp at h'; exact h1 r (by rw [h'.1])
  | case14 c r h1 h2 h3 ih =>
    rw [List.cons_append, codeText_block_cons sp ?_ (head_line (by decide) h1)]
    · exact ih s h
    · rintro ⟨rfl, h'⟩
      cases r with
      | nil => simp at h'
      | cons x r => simp at h'; exact h3 r rfl (by rw [h'])

/-- A newline at the end changes nothing. -/
theorem codeText_end (sp : Char → Bool) (hnl : sp '\n' = true) (p : Spec.Place) (a : Text) :
    Spec.codeText sp p (a ++ ['\n']) = Spec.codeText sp p a := by
  cases h : Spec.codeText sp p a with
  | some s => rw [codeText_line sp hnl [] p a s h]; simp [Spec.codeText]
  | none =>
    fun_induction Spec.codeText sp p a with
    | case1 => simp at h
    | case2 => simp at h
    | case3 => simp [Spec.codeText]
    | case4 => simp [Spec.codeText]
    | case5 r ih => rw [List.cons_append, List.cons_append, Spec.codeText]; exact ih h
    | case6 r ih => rw [List.cons_append, List.cons_append, Spec.codeText]; exact ih h
    | case7 c r h1 h2 hc ih =>
      rw [List.cons_append, codeText_code_cons sp (head_line (by decide) h1) (head_line (by decide) h2), if_pos hc]
      exact ih h
    | case8 c r h1 h2 hc ih =>
      rw [List.cons_append, codeText_code_cons sp (head_line (by decide) h1) (head_line (by decide) h2), if_neg hc]
      rw [ih (by simpa using h)]; rfl
    | case9 q r ih => rw [List.cons_append, Spec.codeText, if_pos rfl]; exact ih h
    | case10 q c r hc ih => rw [List.cons_append, Spec.codeText, if_neg hc]; exact ih h
    | case11 r ih => rw [List.cons_append, List.cons_append, Spec.codeText]; exact ih h
    | case12 r ih => rw [List.cons_append, List.cons_append, List.cons_append, Spec.codeText]; exact ih h
    | case13 r h1 ih =>
      rw [List.cons_append, List.cons_append, Spec.codeText]
      · exact ih h
      · intro r' h'
        cases r with
        | nil => simp at h'
        | cons x r => simp at h'; exact h1 r (by rw [h'.1])
    | case14 c r h1 h2 h3 ih =>
      rw [List.cons_append, codeText_block_cons sp ?_ (head_line (by decide) h1)]
      · exact ih h
      · rintro ⟨rfl, h'⟩
        cases r with
        | nil => simp at h'
        | cons x r => simp at h'; exact h3 r rfl (by rw [h'])

/-- On tidy texts this is the C lexer. -/
theorem codeText_tidy (sp : Char → Bool) (n : Nat) : ∀ t : Text, t.length ≤ n →
    (Spec.tidy .code t = true → Spec.codeText sp .code t = some (Spec.stripC sp .code t)) ∧
    (Spec.tidy .line t = true → Spec.codeText sp (.line false) t = some (Spec.stripC sp .line t)) ∧
    (Spec.tidy .block t = true → Spec.codeText sp .block t = some (Spec.stripC sp .block t)) := by
  induction n with
  | zero =>
    intro t ht
    have : t = [] := List.length_eq_zero_iff.1 (by omega)
    subst this
    simp [Spec.tidy, Spec.codeText, Spec.stripC]
  | succ n ih =>
    intro t ht
    cases t with
    | nil => simp [Spec.tidy, Spec.codeText, Spec.stripC]
    | cons c r =>
      have hr : r.length ≤ n := by simpa using ht
      refine ⟨fun h => ?_, fun h => ?_, fun h => ?_⟩
      · by_cases h1 : c = '/' ∧ r.head? = some '/'
        · obtain ⟨rfl, h1⟩ := h1
          obtain ⟨r', rfl⟩ := head_cons h1
          rw [Spec.tidy] at h
          rw [Spec.codeText, Spec.stripC]
          exact (ih r' (by simp at hr; omega)).2.1 h
        · by_cases h2 : c = '/' ∧ r.head? = some '*'
          · obtain ⟨rfl, h2⟩ := h2
            obtain ⟨r', rfl⟩ := head_cons h2
            rw [Spec.tidy] at h
            rw [Spec.codeText, Spec.stripC]
            exact (ih r' (by simp at hr; omega)).2.2 h
          · rw [tidy_code_cons h1 h2] at h
            rw [codeText_code_cons sp h1 h2, stripC_code_cons sp h1 h2, (ih r hr).1 h]
            split <;> rfl
      · rw [Spec.tidy] at h
        rw [Spec.codeText, Spec.stripC]
        by_cases hc : c = '\n'
        · rw [if_pos hc] at h ⊢
          rw [if_pos hc]
          exact (ih r hr).1 h
        · rw [if_neg hc] at h ⊢
          rw [if_neg hc]
          exact (ih r hr).2.1 h
      · by_cases h1 : c = '*' ∧ r.head? = some '/'
        · obtain ⟨rfl, h1⟩ := h1
          obtain ⟨r', rfl⟩ := head_cons h1
          rw [Spec.tidy] at h
          simp only [Bool.and_eq_true, bne_iff_ne, ne_eq] at h
          rw [Spec.codeText, Spec.stripC]
          · exact (ih r' (by simp at hr; omega)).1 h.2
          · intro r'' h'; exact h.1 (by rw [h']; rfl)
        · by_cases h2 : c = '/' ∧ r.head? = some '/'
          · obtain ⟨rfl, h2⟩ := h2
            obtain ⟨r', rfl⟩ := head_cons h2
            simp [Spec.tidy] at h
          · rw [tidy_block_cons h1 h2] at h
            rw [codeText_block_cons sp h1 h2, Spec.stripC, (ih r hr).2.2 h]
            intro r' e1 e2; exact h1 ⟨e1, by rw [e2]; rfl⟩

theorem splitChar_some (c : Char) (t : Text) : splitChar c t ≠ [] := by
  cases t with
  | nil => simp [splitChar]
  | cons x t => rw [splitChar]; split <;> (try split) <;> simp

theorem splitChar_join (c : Char) (a b : Text) : splitChar c (a ++ c :: b) = splitChar c a ++ splitChar c b := by
  induction a with
  | nil => simp [splitChar]
  | cons x t ih =>
    simp only [List.cons_append, splitChar]
    split
    · rw [ih]; rfl
    · rw [ih]
      cases h : splitChar c t with
      | nil => exact absurd h (splitChar_some c t)
      | cons y l => rfl

theorem tokenBytes_join (l l' : List Text) (x : List UInt8) (h : tokenBytes l = .ok x) :
    tokenBytes (l ++ l') = (tokenBytes l').map (x ++ ·) := by
  induction l generalizing x with
  | nil =>
    simp only [tokenBytes, Except.ok.injEq] at h
    subst h
    cases h : tokenBytes l' <;> simp [h, Except.map]
  | cons f l ih =>
    simp only [tokenBytes, List.cons_append] at h ⊢
    split
    · rename_i he; rw [if_pos he] at h; exact ih x h
    · rename_i he
      rw [if_neg he] at h
      split at h
      · simp at h
      · rename_i v hv
        split at h
        · rename_i hr
          split at h
          · rename_i y hy
            simp only [Except.ok.injEq] at h
            subst h
            rw [if_pos hr, ih y hy]
            cases h : tokenBytes l' <;> simp [Except.map]
          · simp at h
        · simp at h

theorem space_nl (uni : Char → Bool) : Spec.space uni '\n' = true := by
  unfold Spec.space; rw [show List.contains [9, 10, 11, 12, 13, 28, 29, 30, 31, 32] '\n'.toNat = true from by decide]; rfl

theorem space_comma (uni : Char → Bool) : Spec.space uni ',' = false := by
  unfold Spec.space
  rw [show List.contains [9, 10, 11, 12, 13, 28, 29, 30, 31, 32] ','.toNat = false from by decide]
  rfl

/-- The reader on a text, by its fields. -/
theorem codeBlob_fields (uni : Char → Bool) (t : Text) :
    (∀ x, codeBlob uni t = .ok x ↔ ∃ s, Spec.codeText (Spec.space uni) .code t = some s ∧ tokenBytes (splitChar ',' s) = .ok x) ∧
    ∀ e, codeBlob uni t = .error e → e = .value := by
  refine ⟨fun x => ?_, (C14_exact uni t).2⟩
  rw [(C14_exact uni t).1]
  constructor <;> rintro ⟨s, h1, h2⟩
  · exact ⟨s, h1, (fieldBytes_iff s x).2 h2⟩
  · exact ⟨s, h1, (fieldBytes_iff s x).1 h2⟩

/-- A text that can be read, then text on a new line whose fields begin where those of the first have ended. -/
theorem codeBlob_then (uni : Char → Bool) (a b c : Text) (x : List UInt8) (s s' : Text)
    (ha : Spec.codeText (Spec.space uni) .code a = some s) (hs : tokenBytes (splitChar ',' s) = .ok x)
    (hc : Spec.codeText (Spec.space uni) .code c = (Spec.codeText (Spec.space uni) .code b).map (s' ++ ·))
    (hs' : s' = s ++ [','] ∨ s' = s ∧ ∃ r, s = r ++ [',']) :
    codeBlob uni c = (codeBlob uni b).map (x ++ ·) := by
  have key : ∀ r, tokenBytes (splitChar ',' (s' ++ r)) = (tokenBytes (splitChar ',' r)).map (x ++ ·) := by
    intro r
    rcases hs' with rfl | ⟨rfl, r', rfl⟩
    · rw [List.append_assoc, List.singleton_append, splitChar_join, tokenBytes_join _ _ x hs]
    · rw [List.append_assoc, List.singleton_append, splitChar_join, tokenBytes_join _ _ x]
      have := splitChar_join ',' r' []
      rw [this] at hs
      cases h : tokenBytes (splitChar ',' r') with
      | ok y =>
        rw [tokenBytes_join _ _ y h] at hs
        simpa [splitChar, tokenBytes, Except.map] using hs
      | error e =>
        exfalso
        have : ∀ l : List Text, ∀ l', tokenBytes l = .error e → tokenBytes (l ++ l') = .error e := by
          intro l l' h
          induction l with
          | nil => simp [tokenBytes] at h
          | cons f l ih =>
            simp only [tokenBytes, List.cons_append] at h ⊢
            split
            · rename_i he; rw [if_pos he] at h; exact ih h
            · rename_i he
              rw [if_neg he] at h
              split at h
              · exact h
              · split at h
                · rename_i hr
                  rw [if_pos hr]
                  split at h
                  · simp at h
                  · rename_i e' he'
                    simp only [Except.error.injEq] at h
                    subst h
                    rw [ih he']
                · rename_i hr
                  rw [if_neg hr]; exact h
        rw [this _ _ h] at hs
        simp at hs
  obtain ⟨b1, b2⟩ := codeBlob_fields uni b
  obtain ⟨c1, c2⟩ := codeBlob_fields uni c
  cases hb : codeBlob uni b with
  | ok y =>
    obtain ⟨r, h1, h2⟩ := (b1 y).1 hb
    exact (c1 (x ++ y)).2 ⟨s' ++ r, by rw [hc, h1]; rfl, by rw [key, h2]; rfl⟩
  | error e =>
    have := b2 e hb
    subst this
    cases hcc : codeBlob uni c with
    | error e => rw [c2 e hcc]; rfl
    | ok z =>
      obtain ⟨r, h1, h2⟩ := (c1 z).1 hcc
      rw [hc] at h1
      cases h : Spec.codeText (Spec.space uni) .code b with
      | none => rw [h] at h1; simp at h1
      | some r' =>
        rw [h] at h1
        simp only [Option.map_some, Option.some.injEq] at h1
        subst h1
        rw [key] at h2
        cases h3 : tokenBytes (splitChar ',' r') with
        | error e => rw [h3] at h2; simp [Except.map] at h2
        | ok y =>
          have := (b1 y).2 ⟨r', h, h3⟩
          rw [this] at hb; simp at hb

theorem joined_code {uni : Uni} {a b c : Doc} (h : Joined uni .code a b c) :
    ∃ ta tb tc, a = .text ta ∧ b = .text tb ∧ c = .text tc ∧
      ∀ x, codeBlob uni.space ta = .ok x → codeBlob uni.space tc = (codeBlob uni.space tb).map (x ++ ·) := by
  cases h with
  | code a b =>
    refine ⟨_, _, _, rfl, rfl, rfl, fun x hx => ?_⟩
    obtain ⟨s, h1, h2⟩ := ((codeBlob_fields uni.space a).1 x).1 hx
    refine codeBlob_then uni.space a b _ x s (s ++ [',']) h1 h2 ?_ (Or.inl rfl)
    rw [codeText_line _ (space_nl _) _ _ a s h1, codeText_code_cons _ (by simp) (by simp), space_comma]
    simp [Option.map_map, Function.comp_def]
  | codeEnd a b s h =>
    refine ⟨_, _, _, rfl, rfl, rfl, fun x hx => ?_⟩
    obtain ⟨s', h1, h2⟩ := ((codeBlob_fields uni.space a).1 x).1 hx
    rw [h] at h1
    simp only [Option.some.injEq] at h1
    subst h1
    exact codeBlob_then uni.space a b _ x _ _ h h2 (codeText_line _ (space_nl _) _ _ a _ h) (Or.inr ⟨rfl, s, rfl⟩)

/-! ## Documents -/

/-- The bytes of the three documents. -/
theorem joined_bytes {uni : Uni} {f : Fmt} {a b c : Doc} (hj : Joined uni f a b c) (reg : Registry)
    (ha : (deliver f reg uni a).2 = none) :
    ∃ x, deliver f reg uni a = Parser.blobParse reg x ∧
      ((∃ y, deliver f reg uni b = Parser.blobParse reg y ∧ deliver f reg uni c = Parser.blobParse reg (x ++ y)) ∨
        f = .code ∧ deliver f reg uni b = ([], some .value) ∧ deliver f reg uni c = ([], some .value)) := by
  cases f with
  | binary =>
    cases hj with
    | bytes a b => exact ⟨a, rfl, Or.inl ⟨b, rfl, rfl⟩⟩
  | hex =>
    cases hj with
    | hex a b c hc =>
      refine ⟨_, rfl, Or.inl ⟨_, rfl, ?_⟩⟩
      simp only [deliver, hexBlob_join uni.word a b c hc]
  | code =>
    obtain ⟨ta, tb, tc, rfl, rfl, rfl, h⟩ := joined_code hj
    cases hx : codeBlob uni.space ta with
    | error e => simp [deliver, hx] at ha
    | ok x =>
      refine ⟨x, by simp [deliver, hx], ?_⟩
      have h := h x hx
      cases hy : codeBlob uni.space tb with
      | ok y =>
        rw [hy] at h
        exact Or.inl ⟨y, by simp [deliver, hy], by simp [deliver, h, Except.map]⟩
      | error e =>
        have := (C14_exact uni.space tb).2 e hy
        subst this
        rw [hy] at h
        exact Or.inr ⟨rfl, by simp [deliver, hy], by simp [deliver, h, Except.map]⟩

/-- **C83.** A document after one that can be read: first the items of the first document, then those of the second, of the
same classes and values, and in the end the exception of the second, if any.  C text is read as a whole before the first item:
for it the second document has to be readable, or at least to consist of bytes (`C83_code`). -/
theorem C83_read (reg : Registry) (uni : Uni) (f : Fmt) (a b c : Doc) (hj : Joined uni f a b c)
    (ha : (deliver f reg uni a).2 = none) (hb : f ≠ .code ∨ (deliver f reg uni b).2 = none) :
    (deliver f reg uni c).1.map Item.key = (deliver f reg uni a).1.map Item.key ++ (deliver f reg uni b).1.map Item.key ∧
    (deliver f reg uni c).2 = (deliver f reg uni b).2 := by
  obtain ⟨x, h1, h2⟩ := joined_bytes hj reg ha
  rcases h2 with ⟨y, h2, h3⟩ | ⟨hf, h2, -⟩
  · rw [h1] at ha
    obtain ⟨q, hq⟩ := blobLoop_then reg x.length 0 x y (Nat.le_refl _) ha
    have hp := blobLoop_page reg y.length q 0 y (Nat.le_refl _)
    rw [h3, h1, h2]
    unfold Parser.blobParse
    rw [hq]
    exact ⟨by rw [List.map_append, hp.1], hp.2⟩
  · rcases hb with hb | hb
    · exact absurd hf hb
    · rw [h2] at hb; simp at hb

/-- **C83.** C text behind C text that can be read.  If the fields of the second write bytes, then as for the other formats;
if not, ValueError before the first item of either. -/
theorem C83_code (reg : Registry) (uni : Uni) (a t : Text) (c : Doc) (hj : Joined uni .code (.text a) (.text t) c)
    (ha : (deliver .code reg uni (.text a)).2 = none) :
    ((∃ s bs, Spec.codeText (Spec.space uni.space) .code t = some s ∧ Spec.FieldBytes s bs) →
      (deliver .code reg uni c).1.map Item.key =
        (deliver .code reg uni (.text a)).1.map Item.key ++ (deliver .code reg uni (.text t)).1.map Item.key ∧
      (deliver .code reg uni c).2 = (deliver .code reg uni (.text t)).2) ∧
    ((¬ ∃ s bs, Spec.codeText (Spec.space uni.space) .code t = some s ∧ Spec.FieldBytes s bs) →
      deliver .code reg uni c = ([], some .value)) := by
  obtain ⟨ta, tb, tc, h1, h2, rfl, h⟩ := joined_code hj
  simp only [Doc.text.injEq] at h1 h2
  subst h1 h2
  obtain ⟨x, hx⟩ : ∃ x, codeBlob uni.space a = .ok x := by
    cases hx : codeBlob uni.space a with
    | ok x => exact ⟨x, rfl⟩
    | error e => simp [deliver, hx] at ha
  have h := h x hx
  constructor
  · rintro ⟨s, bs, hs⟩
    have hy := ((C14_exact uni.space t).1 bs).2 ⟨s, hs⟩
    rw [hy] at h
    simp only [Except.map] at h
    simp only [deliver, hx, hy, h] at ha ⊢
    obtain ⟨q, hq⟩ := blobLoop_then reg x.length 0 x bs (Nat.le_refl _) ha
    have hp := blobLoop_page reg bs.length q 0 bs (Nat.le_refl _)
    unfold Parser.blobParse
    rw [hq]
    exact ⟨by rw [List.map_append, hp.1], hp.2⟩
  · intro hno
    cases hy : codeBlob uni.space t with
    | ok bs =>
      obtain ⟨s, hs⟩ := ((C14_exact uni.space t).1 bs).1 hy
      exact absurd ⟨s, bs, hs⟩ hno
    | error e =>
      have := (C14_exact uni.space t).2 e hy
      subst this
      rw [hy] at h
      simp [deliver, h, Except.map]

/-- **C83.** If the second document begins with a Usage Page the items have the same names too. -/
theorem C83_names (reg : Registry) (uni : Uni) (f : Fmt) (a b c : Doc) (hj : Joined uni f a b c)
    (ha : (deliver f reg uni a).2 = none) (hb : f ≠ .code ∨ (deliver f reg uni b).2 = none)
    (v : Int) (hv : ((deliver f reg uni b).1.map Item.key).head? = some (Cls.usagePage, v)) :
    deliver f reg uni c = ((deliver f reg uni a).1 ++ (deliver f reg uni b).1, (deliver f reg uni b).2) := by
  obtain ⟨x, h1, h2⟩ := joined_bytes hj reg ha
  rcases h2 with ⟨y, h2, h3⟩ | ⟨hf, h2, -⟩
  · rw [h1] at ha
    rw [h2] at hv
    obtain ⟨q, hq⟩ := blobLoop_then reg x.length 0 x y (Nat.le_refl _) ha
    rw [h3, h1, h2]
    unfold Parser.blobParse at hv ⊢
    rw [hq, blobLoop_paged reg 0 q y v hv]
  · rcases hb with hb | hb
    · exact absurd hf hb
    · rw [h2] at hb; simp at hb

/-! ## Writing -/

theorem binary_join {l l' : List Item} {b b' : List UInt8} (h : Formatter.binary l = .ok b) (h' : Formatter.binary l' = .ok b') :
    Formatter.binary (l ++ l') = .ok (b ++ b') := by
  induction l generalizing b with
  | nil => simp only [Formatter.binary, Except.ok.injEq] at h; subst h; exact h'
  | cons i l ih =>
    obtain ⟨b1, b2, h1, h2, rfl⟩ := binary_ok h
    simp only [List.cons_append, Formatter.binary, h1, ih h2, List.append_assoc]

theorem hex_join {l l' : List Item} {t t' : Text} (h : Formatter.hex l = .ok t) (h' : Formatter.hex l' = .ok t') :
    Formatter.hex (l ++ l') = .ok (t ++ t') := by
  induction l generalizing t with
  | nil => simp only [Formatter.hex, Except.ok.injEq] at h; subst h; exact h'
  | cons i l ih =>
    simp only [Formatter.hex] at h
    split at h
    · rename_i b r hb hr
      simp only [Except.ok.injEq] at h
      subst h
      simp only [List.cons_append, Formatter.hex, hb, ih hr, List.append_assoc]
    · simp at h
    · simp at h

theorem hex_congr {l l' : List Item} (hl : ∀ i ∈ l, i.Made) (hl' : ∀ i ∈ l', i.Made)
    (h : l.map Item.key = l'.map Item.key) : Formatter.hex l = Formatter.hex l' := by
  induction l generalizing l' with
  | nil => cases l' with
    | nil => rfl
    | cons => simp at h
  | cons i l ih =>
    cases l' with
    | nil => simp at h
    | cons j l' =>
      simp only [List.map_cons, List.cons.injEq] at h
      simp only [Formatter.hex]
      rw [bytes_congr (hl i (by simp)) (hl' j (by simp)) h.1, ih (fun x hx => hl x (by simp [hx])) (fun x hx => hl' x (by simp [hx])) h.2]

theorem code_join (n : Int) {l l' : List Item} {t t' : Text} (h : Formatter.codeFrom n l = .ok t)
    (h' : Formatter.codeFrom (Formatter.finalIndent n l) l' = .ok t') : Formatter.codeFrom n (l ++ l') = .ok (t ++ t') := by
  induction l generalizing n t with
  | nil => simp only [Formatter.codeFrom, Except.ok.injEq] at h; subst h; exact h'
  | cons i l ih =>
    simp only [Formatter.codeFrom] at h
    split at h
    · rename_i b r hb hr
      simp only [Except.ok.injEq] at h
      subst h
      have := ih _ hr h'
      simp only [List.cons_append, Formatter.codeFrom, hb, this, List.append_assoc]
    · simp at h
    · simp at h

/-- **C83.** Two documents together converted to binary or hex give the two conversions together. -/
theorem C83_convert (reg : Registry) (uni : Uni) (f g : Fmt) (hg : g ≠ .code) (a b c : Doc) (hj : Joined uni f a b c)
    (ha : (deliver f reg uni a).2 = none) (hb : (deliver f reg uni b).2 = none) :
    ∃ a' b' c', Formatter.convert f g reg uni a = .ok a' ∧ Formatter.convert f g reg uni b = .ok b' ∧
      cat a' b' = some c' ∧ Formatter.convert f g reg uni c = .ok c' := by
  obtain ⟨hk, hc⟩ := C83_read reg uni f a b c hj ha (Or.inr hb)
  obtain ⟨ma, xa, ea⟩ := delivered_items f reg uni a
  obtain ⟨mb, xb, eb⟩ := delivered_items f reg uni b
  obtain ⟨mc, xc, ec⟩ := delivered_items f reg uni c
  rw [hb] at hc
  have mab : ∀ i ∈ (deliver f reg uni a).1 ++ (deliver f reg uni b).1, i.Made := by
    intro i hi
    rcases List.mem_append.1 hi with hi | hi
    · exact ma i hi
    · exact mb i hi
  rw [← List.map_append] at hk
  have da : deliver f reg uni a = ((deliver f reg uni a).1, none) := Prod.ext rfl ha
  have db : deliver f reg uni b = ((deliver f reg uni b).1, none) := Prod.ext rfl hb
  have dc : deliver f reg uni c = ((deliver f reg uni c).1, none) := Prod.ext rfl hc
  unfold Formatter.convert
  rw [da, db, dc]
  simp only
  cases g with
  | binary =>
    refine ⟨.bytes xa, .bytes xb, _, by simp [Formatter.render, ea, Except.map], by simp [Formatter.render, eb, Except.map], rfl, ?_⟩
    simp only [Formatter.render]
    rw [binary_congr mc mab hk, binary_join ea eb]
    rfl
  | hex =>
    obtain ⟨ta, ea'⟩ := hex_ok_of_binary _ _ ea
    obtain ⟨tb, eb'⟩ := hex_ok_of_binary _ _ eb
    refine ⟨.text ta, .text tb, _, by simp [Formatter.render, ea', Except.map], by simp [Formatter.render, eb', Except.map], rfl, ?_⟩
    simp only [Formatter.render]
    rw [hex_congr mc mab hk, hex_join ea' eb']
    rfl
  | code => exact absurd rfl hg

/-- **C83.** The same for conversion to C code, if the first document closes all its collections, which is when the writer
does not warn, and the second begins with a Usage Page. -/
theorem C83_convert_code (reg : Registry) (uni : Uni) (f : Fmt) (a b c : Doc) (hj : Joined uni f a b c)
    (ha : (deliver f reg uni a).2 = none) (hb : (deliver f reg uni b).2 = none)
    (hw : Formatter.codeWarns (deliver f reg uni a).1 = false)
    (v : Int) (hv : ((deliver f reg uni b).1.map Item.key).head? = some (Cls.usagePage, v)) :
    ∃ a' b' c', Formatter.convert f .code reg uni a = .ok a' ∧ Formatter.convert f .code reg uni b = .ok b' ∧
      cat a' b' = some c' ∧ Formatter.convert f .code reg uni c = .ok c' := by
  have hc := C83_names reg uni f a b c hj ha (Or.inr hb) v hv
  obtain ⟨-, xa, ea⟩ := delivered_items f reg uni a
  obtain ⟨-, xb, eb⟩ := delivered_items f reg uni b
  have da : deliver f reg uni a = ((deliver f reg uni a).1, none) := Prod.ext rfl ha
  have db : deliver f reg uni b = ((deliver f reg uni b).1, none) := Prod.ext rfl hb
  obtain ⟨ta, ea'⟩ := code_ok_of_binary 0 _ _ ea
  obtain ⟨tb, eb'⟩ := code_ok_of_binary 0 _ _ eb
  rw [hb] at hc
  unfold Formatter.convert
  rw [hc, da, db]
  refine ⟨.text ta, .text tb, _, by simp [Formatter.render, Formatter.code, ea', Except.map],
    by simp [Formatter.render, Formatter.code, eb', Except.map], rfl, ?_⟩
  simp only [Formatter.codeWarns, bne_eq_false_iff_eq] at hw
  simp only [Formatter.render, Formatter.code]
  rw [code_join 0 ea' (by rw [hw]; exact eb')]
  rfl

theorem toks_end (b : List UInt8) (h : b ≠ []) : ∃ s, toks b = s ++ [','] := by
  obtain ⟨r, x, rfl⟩ : ∃ r x, b = r ++ [x] := ⟨b.dropLast, b.getLast h, (List.dropLast_concat_getLast h).symm⟩
  exact ⟨toks r ++ ('0' :: 'x' :: hex2 x), by simp [toks]⟩

theorem code_end (n : Int) (l : List Item) (t : Text) (hne : l ≠ []) (h : Formatter.codeFrom n l = .ok t) :
    ∃ r, t = r ++ ['\n'] := by
  induction l generalizing n t with
  | nil => exact absurd rfl hne
  | cons i l ih =>
    simp only [Formatter.codeFrom] at h
    split at h
    · rename_i b r hb hr
      simp only [Except.ok.injEq] at h
      subst h
      cases l with
      | nil =>
        simp only [Formatter.codeFrom, Except.ok.injEq] at hr
        subst hr
        exact ⟨_, by rw [List.append_nil]; unfold Formatter.codeLine; rfl⟩
      | cons j l =>
        obtain ⟨r', rfl⟩ := ih _ _ (by simp) hr
        exact ⟨_, (List.append_assoc ..).symm⟩
    · simp at h
    · simp at h

/-- **C83.** What the writers have written can be put together as it is (`cat a b`), in every format. -/
theorem C83_cat (reg : Registry) (uni : Uni) (g : Fmt) (l l' : List Item) (hm : ∀ i ∈ l, i.Made) (hm' : ∀ i ∈ l', i.Made)
    (hn : ∀ i ∈ l, '\n' ∉ i.str) (hn' : ∀ i ∈ l', '\n' ∉ i.str) (a b : Doc)
    (ha : Formatter.render g l = .ok a) (hb : Formatter.render g l' = .ok b) :
    ∃ c, cat a b = some c ∧ (deliver g reg uni c).2 = none ∧
      (deliver g reg uni c).1.map Item.key = l.map Item.key ++ l'.map Item.key := by
  obtain ⟨x, hx⟩ := binary_of_render g ha
  obtain ⟨y, hy⟩ := binary_of_render g hb
  have mm : ∀ i ∈ l ++ l', i.Made := by
    intro i hi
    rcases List.mem_append.1 hi with hi | hi
    · exact hm i hi
    · exact hm' i hi
  have nn : ∀ i ∈ l ++ l', '\n' ∉ i.str := by
    intro i hi
    rcases List.mem_append.1 hi with hi | hi
    · exact hn i hi
    · exact hn' i hi
  have hxy := binary_join hx hy
  cases g with
  | binary =>
    obtain ⟨d, h1, h2, h3⟩ := C13_formats_agree_partial .binary reg uni _ mm nn _ hxy
    simp only [Formatter.render, hx, hy, hxy, Except.map, Except.ok.injEq] at ha hb h1
    subst ha hb h1
    exact ⟨_, rfl, h2, by rw [h3, List.map_append]⟩
  | hex =>
    obtain ⟨d, h1, h2, h3⟩ := C13_formats_agree_partial .hex reg uni _ mm nn _ hxy
    obtain ⟨t, ht⟩ := hex_ok_of_binary _ _ hx
    obtain ⟨t', ht'⟩ := hex_ok_of_binary _ _ hy
    simp only [Formatter.render, ht, ht', hex_join ht ht', Except.map, Except.ok.injEq] at ha hb h1
    subst ha hb h1
    exact ⟨_, rfl, h2, by rw [h3, List.map_append]⟩
  | code =>
    obtain ⟨d, a1, a2, a3⟩ := C13_formats_agree_partial .code reg uni l hm hn x hx
    obtain ⟨d', b1, b2, b3⟩ := C13_formats_agree_partial .code reg uni l' hm' hn' y hy
    rw [ha] at a1
    rw [hb] at b1
    simp only [Except.ok.injEq] at a1 b1
    subst a1 b1
    obtain ⟨t, ht⟩ := code_ok_of_binary 0 _ _ hx
    obtain ⟨t', ht'⟩ := code_ok_of_binary 0 _ _ hy
    simp only [Formatter.render, Formatter.code, ht, ht', Except.map, Except.ok.injEq] at ha hb
    subst ha hb
    refine ⟨_, rfl, ?_⟩
    by_cases hne : l = []
    · subst hne
      simp only [Formatter.codeFrom, Except.ok.injEq] at ht
      subst ht
      exact ⟨b2, b3⟩
    · obtain ⟨r, rfl⟩ := code_end 0 l t hne ht
      have hxne : x ≠ [] := by
        cases l with
        | nil => exact absurd rfl hne
        | cons i l =>
          obtain ⟨x1, x2, h1, -, rfl⟩ := binary_ok hx
          have := bytes_length h1
          intro h0
          have : x1 = [] := (List.append_eq_nil_iff.1 h0).1
          subst this
          simp at *
      obtain ⟨s, hs⟩ := toks_end x hxne
      have hc := code_text uni.space 0 l _ x hn ht hx
      rw [isSpace_spec] at hc
      have hct := (codeText_tidy (Spec.space uni.space) _ _ (Nat.le_refl _)).1 hc.1
      rw [hc.2, codeText_end _ (space_nl _), hs] at hct
      have hj := Joined.codeEnd (uni := uni) r t' s hct
      have hd : deliver .code reg uni (.text (r ++ ['\n'])) = deliver .code reg uni (.text r) := by
        simp only [deliver]
        rw [C14_same uni.space (r ++ ['\n']) r (codeText_end _ (space_nl _) _ _)]
      rw [hd] at a2 a3
      have := C83_read reg uni .code _ _ _ hj a2 (Or.inr b2)
      rw [List.append_assoc, List.singleton_append]
      exact ⟨this.2.trans b2, by rw [this.1, a3, b3]⟩

/-! ## Examples -/

/-- A mouse and a Report Count after it, each readable. -/
example (uni : Uni) : (deliver .binary [] uni (.bytes [0x05, 0x01, 0x09, 0x02])).2 = none ∧
    (deliver .binary [] uni (.bytes [0x05, 0x09, 0x95, 0x03])).2 = none ∧
    ((deliver .binary [] uni (.bytes [0x05, 0x09, 0x95, 0x03])).1.map Item.key).head? = some (Cls.usagePage, 9) := by
  have h1 : (Parser.blobParse [] [0x05, 0x01, 0x09, 0x02]).2 = none := by
    rw [Parser.blobParse, blobSteps_eq _ 20 _ _ (by decide)]; decide +kernel
  have h2 : (Parser.blobParse [] [0x05, 0x09, 0x95, 0x03]).2 = none ∧
      ((Parser.blobParse [] [0x05, 0x09, 0x95, 0x03]).1.map Item.key).head? = some (Cls.usagePage, 9) := by
    rw [Parser.blobParse, blobSteps_eq _ 20 _ _ (by decide)]; decide +kernel
  exact ⟨h1, h2⟩

/-- The character between hex documents, and the comma between C documents, are needed. -/
example : hexBlob (fun _ => false) (tx "05 01") = [5, 1] ∧ hexBlob (fun _ => false) (tx "09 02") = [9, 2] ∧
    hexBlob (fun _ => false) (tx "05 0109 02") = [5, 2] ∧ hexBlob (fun _ => false) (tx "05 01;09 02") = [5, 1, 9, 2] ∧
    codeBlob (fun _ => false) (tx "0x05, 0x01 // x\n0x09, 0x02") = .error .value ∧
    codeBlob (fun _ => false) (tx "0x05, 0x01 // x\n,0x09, 0x02") = .ok [5, 1, 9, 2] ∧
    codeBlob (fun _ => false) (tx "0x05, 0x01, // x\n0x09, 0x02") = .ok [5, 1, 9, 2] ∧
    codeBlob (fun _ => false) (tx "0x05, 0x01, // x0x09, 0x02") = .ok [5, 1] := by decide +kernel

/-- A text that ends in a comma, as those of the writer do. -/
example : Spec.codeText (Spec.space (fun _ => false)) .code (tx "0x05, 0x01, // x") = some (tx "0x05,0x01" ++ [',']) := by
  decide +kernel

end Hrdc
