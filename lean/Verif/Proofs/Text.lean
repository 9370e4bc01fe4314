import Verif.Spec.Text
import Verif.Model.Formatter
namespace Hrdc
open Parser

theorem char_le {a b : Char} : a ≤ b ↔ a.toNat ≤ b.toNat := by
  rw [Char.le_def, UInt32.le_iff_toNat_le]; rfl

theorem char_eq_of_toNat {c : Char} {n : Nat} (h : c.toNat = n) : c = Char.ofNat n := by
  rw [← h, Char.ofNat_toNat]

theorem isHex_cases {c : Char} (h : isHex c = true) : c ∈ Spec.hexTable.map (·.1) := by
  simp only [isHex, Bool.or_eq_true, Bool.and_eq_true, decide_eq_true_eq, char_le] at h
  have : (∃ k, k < 10 ∧ c.toNat = 48 + k) ∨ (∃ k, k < 6 ∧ c.toNat = 97 + k) ∨ (∃ k, k < 6 ∧ c.toNat = 65 + k) := by
    rcases h with (h | h) | h
    · left; exact ⟨c.toNat - 48, by simp at h; omega, by simp at h; omega⟩
    · right; left; exact ⟨c.toNat - 97, by simp at h; omega, by simp at h; omega⟩
    · right; right; exact ⟨c.toNat - 65, by simp at h; omega, by simp at h; omega⟩
  rcases this with ⟨k, hk, hc⟩ | ⟨k, hk, hc⟩ | ⟨k, hk, hc⟩ <;> rw [char_eq_of_toNat hc] <;> clear hc h c <;>
    revert k <;> decide

theorem digit_of_isHex {c : Char} (h : isHex c = true) : Spec.digit c = some (hexVal c) := by
  have := isHex_cases h
  revert this
  have : ∀ c ∈ Spec.hexTable.map (·.1), Spec.digit c = some (hexVal c) := by decide
  exact this c

theorem digit_not_hex {c : Char} (h : isHex c = false) : Spec.digit c = none := by
  unfold Spec.digit
  cases hf : Spec.hexTable.find? (fun p => p.1 == c) with
  | none => rfl
  | some p =>
    exfalso
    have h1 := List.mem_of_find?_eq_some hf
    have h2 := List.find?_some hf
    have h3 : ∀ p ∈ Spec.hexTable, isHex p.1 = true := by decide
    have h4 := h3 p h1
    have h5 : p.1 = c := by simpa using h2
    rw [h5, h] at h4; simp at h4

theorem isWord_of_isHex (uni : Char → Bool) {c : Char} (h : isHex c = true) : isWord uni c = true := by
  have h1 := isHex_cases h
  have : ∀ c ∈ Spec.hexTable.map (·.1), c.isAlphanum = true := by decide
  simp [isWord, this c h1]

theorem hexMatch_inside (uni : Char → Bool) {p : Char} (hp : isWord uni p = true) (t : Text) :
    hexMatch uni (some p) t = none := by
  unfold hexMatch
  split
  · rename_i hb
    have h0 : isWord uni '0' = true := by simp [isWord]
    split
    · simp [boundary, hp, h0] at hb
    · rename_i a b r _
      split
      · rename_i hh
        simp only [Bool.and_eq_true] at hh
        simp [boundary, hp, isWord_of_isHex uni hh.1.1] at hb
      · rfl
    · rfl
  · rfl

/-- The previous character is not a word character. -/
def outside (uni : Char → Bool) (prev : Option Char) : Prop := (prev.map (isWord uni)).getD false = false

theorem hexWord_none_of_length {w : Text} (h2 : w.length ≠ 2) (h4 : w.length ≠ 4) : Spec.hexWord w = none := by
  unfold Spec.hexWord
  split
  · simp at h2
  · simp at h4
  · rfl

theorem hexMatch_word (uni : Char → Bool) {prev : Option Char} (hp : outside uni prev) {c : Char}
    (hc : isWord uni c = true) (r : Text) :
    hexMatch uni prev (c :: r) =
      (Spec.hexWord (c :: r.takeWhile (isWord uni))).map
        (fun v => ((c :: r.takeWhile (isWord uni)).length, v)) := by
  have hb : boundary uni prev (c :: r).head? = true := by
    unfold outside at hp
    simp [boundary, hp, hc]
  have hx : isWord uni 'x' = true := by simp [isWord]
  have hend : ∀ (b : Char) (r' : Text), isWord uni b = true →
      (boundary uni (some b) r'.head? = true ↔ r'.takeWhile (isWord uni) = []) := by
    intro b r' hw
    cases r' with
    | nil => simp [boundary, hw]
    | cons d r'' =>
      cases hd : isWord uni d <;> simp [boundary, hw, hd]
  unfold hexMatch
  rw [if_pos hb]
  split
  · rename_i a b r' heq
    simp only [List.cons.injEq] at heq
    obtain ⟨rfl, rfl⟩ := heq
    simp only [List.takeWhile_cons, hx, if_true]
    by_cases ha : isHex a = true
    · have hwa := isWord_of_isHex uni ha
      simp only [hwa, if_true]
      by_cases hb' : isHex b = true
      · have hwb := isWord_of_isHex uni hb'
        simp only [hwb, if_true]
        by_cases he : boundary uni (some b) r'.head? = true
        · have := (hend b r' hwb).mp he
          simp [ha, hb', he, this, Spec.hexWord, digit_of_isHex]
        · have hne : r'.takeWhile (isWord uni) ≠ [] := fun h => he ((hend b r' hwb).mpr h)
          rw [hexWord_none_of_length]
          · simp [ha, hb', he]
          · simp
          · have : 0 < (r'.takeWhile (isWord uni)).length := List.length_pos_iff.mpr hne
            simp; omega
      · have hbf : isHex b = false := by simpa using hb'
        simp only [ha, hbf, Bool.and_false, Bool.false_and]
        cases hwb : isWord uni b
        · simp [Spec.hexWord]
        · simp only [if_true]
          cases htw : r'.takeWhile (isWord uni) with
          | nil => simp [Spec.hexWord, digit_not_hex hbf]
          | cons d e => simp [Spec.hexWord]
    · have haf : isHex a = false := by simpa using ha
      simp only [haf, Bool.false_and]
      cases hwa : isWord uni a
      · simp only [Bool.false_eq_true, if_false]
        have : Spec.digit 'x' = none := by decide
        simp [Spec.hexWord, this]
      · simp only [if_true]
        cases hwb : isWord uni b
        · simp [Spec.hexWord]
        · simp only [if_true]
          cases htw : r'.takeWhile (isWord uni) with
          | nil => simp [Spec.hexWord, digit_not_hex haf]
          | cons d e => simp [Spec.hexWord]
  · rename_i a b r' hno heq
    simp only [List.cons.injEq] at heq
    obtain ⟨rfl, rfl⟩ := heq
    have hshort : ∀ w : Text, c = '0' → b = 'x' → w.length < 2 → Spec.hexWord (c :: b :: w) = none := by
      intro w h1 h2 h3
      subst h1; subst h2
      have : Spec.digit 'x' = none := by decide
      match w with
      | [] => simp [Spec.hexWord, this]
      | [d] => simp [Spec.hexWord]
      | d :: e :: f => simp at h3; omega
    have hlong : ∀ w : Text, 2 ≤ w.length → ¬ (c = '0' ∧ b = 'x') → Spec.hexWord (c :: b :: w) = none := by
      intro w h1 h2
      unfold Spec.hexWord
      split
      · rename_i h; simp at h; rw [h.2.2] at h1; simp at h1
      · rename_i h; simp at h; exact absurd ⟨h.1, h.2.1⟩ h2
      · rfl
    by_cases h0x : c = '0' ∧ b = 'x'
    · have hbx : isHex b = false := by rw [h0x.2]; decide
      simp only [hbx, Bool.and_false, Bool.false_and, List.takeWhile_cons, h0x.2 ▸ hx, if_true]
      rw [hshort _ h0x.1 h0x.2]
      · simp
      · match r' with
        | [] => simp
        | [d] => simp [List.takeWhile_cons]; split <;> simp
        | d :: e :: f => exact (hno d e f h0x.1 h0x.2 rfl).elim
    · by_cases hcx : isHex c = true
      · by_cases hb' : isHex b = true
        · have hwb := isWord_of_isHex uni hb'
          simp only [List.takeWhile_cons, hwb, if_true]
          by_cases he : boundary uni (some b) r'.head? = true
          · have := (hend b r' hwb).mp he
            simp [hcx, hb', he, this, Spec.hexWord, digit_of_isHex]
          · have hne : r'.takeWhile (isWord uni) ≠ [] := fun h => he ((hend b r' hwb).mpr h)
            simp only [hcx, hb', he]
            match htw : r'.takeWhile (isWord uni) with
            | [] => exact absurd htw hne
            | [d] => simp [Spec.hexWord]
            | d :: e :: f => rw [hlong _ (by simp) h0x]; simp
        · have hbf : isHex b = false := by simpa using hb'
          simp only [hbf, Bool.and_false, Bool.false_and, List.takeWhile_cons]
          cases hwb : isWord uni b
          · simp [Spec.hexWord]
          · simp only [if_true]
            match htw : r'.takeWhile (isWord uni) with
            | [] => simp [Spec.hexWord, digit_not_hex hbf]
            | [d] => simp [Spec.hexWord]
            | d :: e :: f => rw [hlong _ (by simp) h0x]; simp
      · have hcf : isHex c = false := by simpa using hcx
        simp only [hcf, Bool.false_and, List.takeWhile_cons]
        cases hwb : isWord uni b
        · simp [Spec.hexWord]
        · simp only [if_true]
          match htw : r'.takeWhile (isWord uni) with
          | [] => simp [Spec.hexWord, digit_not_hex hcf]
          | [d] => simp [Spec.hexWord]
          | d :: e :: f => rw [hlong _ (by simp) h0x]; simp
  · rename_i h1 h2
    match r with
    | [] => simp [Spec.hexWord]
    | b :: r' => exact absurd rfl (h2 c b r')

theorem words_nil (w : Char → Bool) : Spec.words w [] = [] := by rw [Spec.words]

theorem words_cons (w : Char → Bool) (c : Char) (r : Text) :
    Spec.words w (c :: r) = if w c then (c :: r.takeWhile w) :: Spec.words w (r.dropWhile w) else Spec.words w r := by
  rw [Spec.words]

theorem dropWhile_len (w : Char → Bool) (r : Text) : (r.dropWhile w).length ≤ r.length :=
  (List.dropWhile_sublist w (l := r)).length_le

theorem hexScan_eq (uni : Char → Bool) (n : Nat) (t : Text) (hn : t.length ≤ n) :
    (∀ prev, outside uni prev → hexScan uni prev t = (Spec.words (isWord uni) t).filterMap Spec.hexWord) ∧
    (∀ p, isWord uni p = true →
      hexScan uni (some p) t = (Spec.words (isWord uni) (t.dropWhile (isWord uni))).filterMap Spec.hexWord) := by
  induction n generalizing t with
  | zero =>
    have : t = [] := List.length_eq_zero_iff.mp (by omega)
    subst this
    constructor <;> intros <;> rw [hexScan] <;> simp [words_nil]
  | succ n ih =>
    cases t with
    | nil => constructor <;> intros <;> rw [hexScan] <;> simp [words_nil]
    | cons c r =>
      have hr : r.length ≤ n := by simpa using hn
      constructor
      · intro prev hp
        rw [hexScan, words_cons]
        cases hc : isWord uni c with
        | false =>
          have hm : hexMatch uni prev (c :: r) = none := by
            unfold outside at hp
            unfold hexMatch
            rw [if_neg (by simp [boundary, hp, hc])]
          rw [hm]
          simp only [Bool.false_eq_true, if_false]
          exact (ih r hr).1 (some c) (by simp [outside, hc])
        | true =>
          rw [hexMatch_word uni hp hc]
          simp only [if_true, List.filterMap_cons]
          cases hw : Spec.hexWord (c :: r.takeWhile (isWord uni)) with
          | none =>
            simp only [Option.map_none]
            exact (ih r hr).2 c hc
          | some v =>
            simp only [Option.map_some]
            congr 1
            have hl : (c :: r.takeWhile (isWord uni)).length = (r.takeWhile (isWord uni)).length + 1 := by simp
            have hdrop : (c :: r).drop (max ((c :: r.takeWhile (isWord uni)).length) 1)
                = r.dropWhile (isWord uni) := by
              rw [hl]
              have : max ((r.takeWhile (isWord uni)).length + 1) 1 = (r.takeWhile (isWord uni)).length + 1 := by omega
              rw [this, List.drop_succ_cons]
              have : ∀ l : Text, l.drop (l.takeWhile (isWord uni)).length = l.dropWhile (isWord uni) := by
                intro l
                induction l with
                | nil => rfl
                | cons x l ih =>
                  simp only [List.takeWhile_cons, List.dropWhile_cons]
                  split
                  · simpa using ih
                  · rfl
              exact this r
            have hlast : ∃ p, (c :: r)[(c :: r.takeWhile (isWord uni)).length - 1]? = some p ∧ isWord uni p = true := by
              rw [hl]
              simp only [Nat.add_sub_cancel]
              have hlt : (r.takeWhile (isWord uni)).length < (c :: r.takeWhile (isWord uni)).length := by simp
              refine ⟨(c :: r.takeWhile (isWord uni))[(r.takeWhile (isWord uni)).length], ?_, ?_⟩
              · have e : c :: r = (c :: r.takeWhile (isWord uni)) ++ r.dropWhile (isWord uni) := by
                  simp [List.takeWhile_append_dropWhile]
                rw [e, List.getElem?_append_left hlt, List.getElem?_eq_getElem hlt]
              · have hall : ∀ x ∈ c :: r.takeWhile (isWord uni), isWord uni x = true := by
                  intro x hx
                  simp only [List.mem_cons] at hx
                  rcases hx with rfl | hx
                  · exact hc
                  · have := List.all_takeWhile (p := isWord uni) (l := r)
                    rw [List.all_eq_true] at this
                    exact this x hx
                exact hall _ (List.getElem_mem hlt)
            obtain ⟨p, hp1, hp2⟩ := hlast
            rw [hdrop, hp1]
            have := (ih (r.dropWhile (isWord uni)) (by have := dropWhile_len (isWord uni) r; omega)).2 p hp2
            rw [this]
            congr 2
            have : ∀ l : Text, (l.dropWhile (isWord uni)).dropWhile (isWord uni) = l.dropWhile (isWord uni) := by
              intro l
              induction l with
              | nil => rfl
              | cons x l ih => 
                simp only [List.dropWhile_cons]
                split
                · exact ih
                · rename_i hx; simp [List.dropWhile_cons, hx]
            exact this r
      · intro p hp
        rw [hexScan, hexMatch_inside uni hp]
        simp only [List.dropWhile_cons]
        cases hc : isWord uni c with
        | true =>
          simp only [if_true]
          exact (ih r hr).2 c hc
        | false =>
          simp only [Bool.false_eq_true, if_false]
          rw [words_cons]
          simp only [hc, Bool.false_eq_true, if_false]
          exact (ih r hr).1 (some c) (by simp [outside, hc])

/-- Maximal word at the front. -/
theorem words_word_sep (w : Char → Bool) {p : Text} (hp : p ≠ []) (hw : ∀ c ∈ p, w c = true) {s : Char}
    (hs : w s = false) (r : Text) : Spec.words w (p ++ s :: r) = p :: Spec.words w r := by
  cases p with
  | nil => exact absurd rfl hp
  | cons c p =>
    have h1 : (p ++ s :: r).takeWhile w = p := by
      rw [List.takeWhile_append_of_pos (fun x hx => hw x (by simp [hx])), List.takeWhile_cons]; simp [hs]
    have h2 : (p ++ s :: r).dropWhile w = s :: r := by
      rw [List.dropWhile_append_of_pos (fun x hx => hw x (by simp [hx])), List.dropWhile_cons]; simp [hs]
    rw [List.cons_append, words_cons, if_pos (hw c (by simp)), h1, h2, words_cons]
    simp [hs]

/-! ## C code -/

mutual
/-- `delLine`: the text after removing line comments and turning newlines to spaces. -/
def delLine : Text → Text
  | [] => [' ']
  | '/' :: '/' :: r => skipLine r
  | c :: r => (if c = '\n' then ' ' else c) :: delLine r
/-- Inside a line comment. -/
def skipLine : Text → Text
  | [] => [' ']
  | c :: r => if c = '\n' then ' ' :: delLine r else skipLine r
end

theorem splitChar_ne (s : Char) (t : Text) : splitChar s t ≠ [] := by
  cases t with
  | nil => simp [splitChar]
  | cons c r =>
    simp only [splitChar]
    split
    · simp
    · split <;> simp

theorem cutLine_cons {c : Char} {h : Text} (hne : ¬ (c = '/' ∧ h.head? = some '/')) :
    cutLine (c :: h) = c :: cutLine h := by
  rw [cutLine.eq_def]
  split
  · rename_i heq; simp at heq; exact absurd ⟨heq.1, by rw [heq.2]; rfl⟩ hne
  · rename_i heq; simp at heq; rw [heq.1, heq.2]
  · simp at *

theorem delLine_cons {c : Char} {r : Text} (hne : ¬ (c = '/' ∧ r.head? = some '/')) :
    delLine (c :: r) = (if c = '\n' then ' ' else c) :: delLine r := by
  rw [delLine.eq_def]
  split
  · simp at *
  · rename_i heq; simp at heq; exact absurd ⟨heq.1, by rw [heq.2]; rfl⟩ hne
  · rename_i heq; simp at heq; rw [heq.1, heq.2]

theorem lines_eq (n : Nat) (t : Text) (hn : t.length ≤ n) :
    ((splitChar '\n' t).flatMap (fun l => cutLine l ++ [' ']) = delLine t) ∧
    (∀ h tl, splitChar '\n' t = h :: tl →
      ' ' :: tl.flatMap (fun l => cutLine l ++ [' ']) = skipLine t) := by
  induction n generalizing t with
  | zero =>
    have : t = [] := List.length_eq_zero_iff.mp (by omega)
    subst this
    refine ⟨by simp [splitChar, cutLine, delLine], ?_⟩
    intro h tl hs; simp [splitChar] at hs; simp [hs.2, skipLine]
  | succ n ih =>
    cases t with
    | nil => 
      refine ⟨by simp [splitChar, cutLine, delLine], ?_⟩
      intro h tl hs; simp [splitChar] at hs; simp [hs.2, skipLine]
    | cons c r =>
      have hr : r.length ≤ n := by simpa using hn
      obtain ⟨i1, i2⟩ := ih r hr
      by_cases hc : c = '\n'
      · subst hc
        have e : splitChar '\n' ('\n' :: r) = [] :: splitChar '\n' r := by simp [splitChar]
        rw [e]
        refine ⟨?_, ?_⟩
        · rw [delLine_cons (by simp)]
          simp [cutLine, i1]
        · intro h tl hs
          simp at hs
          rw [← hs.2, i1, skipLine]; simp
      · cases hs : splitChar '\n' r with
        | nil => exact absurd hs (splitChar_ne _ _)
        | cons h tl =>
          have e : splitChar '\n' (c :: r) = (c :: h) :: tl := by simp [splitChar, hc, hs]
          rw [e]
          have hskip := i2 h tl hs
          have hhead : h.head? = some '/' ↔ r.head? = some '/' := by
            cases r with
            | nil => simp [splitChar] at hs; simp [← hs.1]
            | cons d r' =>
              simp only [splitChar] at hs
              split at hs
              · rename_i hd; simp at hs; simp [hs.1, hd]
              · split at hs
                · simp at hs; simp [← hs.1]
                · simp at hs; simp [← hs.1]
          refine ⟨?_, ?_⟩
          · by_cases hsl : c = '/' ∧ r.head? = some '/'
            · obtain ⟨rfl, hh⟩ := hsl
              obtain ⟨r', rfl⟩ : ∃ r', r = '/' :: r' := by
                cases r with
                | nil => simp at hh
                | cons d r' => simp at hh; exact ⟨r', by rw [hh]⟩
              have hh' := hhead.mpr rfl
              obtain ⟨h', rfl⟩ : ∃ h', h = '/' :: h' := by
                cases h with
                | nil => simp at hh'
                | cons d h' => simp at hh'; exact ⟨h', by rw [hh']⟩
              rw [delLine]
              simp only [List.flatMap_cons, cutLine, List.nil_append]
              rw [skipLine] at hskip
              simp only [show ('/' : Char) ≠ '\n' by decide, if_false] at hskip
              simpa using hskip
            · rw [delLine_cons hsl]
              simp only [hc, if_false, List.flatMap_cons]
              rw [cutLine_cons (by rw [hhead]; exact hsl)]
              rw [← i1, hs]
              simp
          · intro h2 tl2 heq
            simp at heq
            rw [← heq.2, hskip, skipLine]
            simp [hc]

theorem delLine_head_slash {r : Text} (h : (delLine r).head? = some '/') : r.head? = some '/' := by
  cases r with
  | nil => simp [delLine] at h
  | cons c r =>
    by_cases hsl : c = '/' ∧ r.head? = some '/'
    · simp [hsl.1]
    · rw [delLine_cons hsl] at h
      simp at h
      split at h
      · simp at h
      · simp [h]

theorem delLine_head_star {r : Text} (h : (delLine r).head? = some '*') : r.head? = some '*' := by
  cases r with
  | nil => simp [delLine] at h
  | cons c r =>
    by_cases hsl : c = '/' ∧ r.head? = some '/'
    · exfalso
      obtain ⟨rfl, hh⟩ := hsl
      cases r with
      | nil => simp at hh
      | cons d r' =>
        simp at hh; subst hh
        rw [delLine] at h
        have : ∀ t : Text, (skipLine t).head? = some ' ' := by
          intro t
          induction t with
          | nil => simp [skipLine]
          | cons x t ih => rw [skipLine]; split <;> simp [ih]
        rw [this] at h; simp at h
    · rw [delLine_cons hsl] at h
      simp at h
      split at h
      · simp at h
      · simp [h]

theorem afterClose_cons {c : Char} {r : Text} (hne : ¬ (c = '*' ∧ r.head? = some '/')) :
    afterClose (c :: r) = afterClose r := by
  rw [afterClose.eq_def]
  split
  · rename_i heq; simp at heq; exact absurd ⟨heq.1, by rw [heq.2]; rfl⟩ hne
  · rename_i heq; simp at heq; rw [heq.2]
  · simp at *

theorem stripC_block_cons (sp : Char → Bool) {c : Char} {r : Text} (hne : ¬ (c = '*' ∧ r.head? = some '/')) :
    Spec.stripC sp .block (c :: r) = Spec.stripC sp .block r := by
  rw [Spec.stripC.eq_def]
  split <;> simp_all

theorem stripC_code_cons (sp : Char → Bool) {c : Char} {r : Text}
    (h1 : ¬ (c = '/' ∧ r.head? = some '/')) (h2 : ¬ (c = '/' ∧ r.head? = some '*')) :
    Spec.stripC sp .code (c :: r) = if sp c then Spec.stripC sp .code r else c :: Spec.stripC sp .code r := by
  rw [Spec.stripC.eq_def]
  split <;> simp_all

theorem tidy_block_cons {c : Char} {r : Text} (h1 : ¬ (c = '*' ∧ r.head? = some '/'))
    (h2 : ¬ (c = '/' ∧ r.head? = some '/')) : Spec.tidy .block (c :: r) = Spec.tidy .block r := by
  rw [Spec.tidy.eq_def]
  split <;> simp_all

theorem tidy_code_cons {c : Char} {r : Text}
    (h1 : ¬ (c = '/' ∧ r.head? = some '/')) (h2 : ¬ (c = '/' ∧ r.head? = some '*')) :
    Spec.tidy .code (c :: r) = Spec.tidy .code r := by
  rw [Spec.tidy.eq_def]
  split <;> simp_all

theorem head_cons {r : Text} {c : Char} (h : r.head? = some c) : ∃ r', r = c :: r' := by
  cases r with
  | nil => simp at h
  | cons d r' => simp at h; exact ⟨r', by rw [h]⟩

theorem block_close (sp : Char → Bool) (t : Text) (h : Spec.tidy .block t = true) :
    ∃ r, afterClose (delLine t) = some (delLine r) ∧ Spec.tidy .code r = true ∧
      Spec.stripC sp .block t = Spec.stripC sp .code r ∧ r.length < t.length := by
  induction t with
  | nil => simp [Spec.tidy] at h
  | cons c r ih =>
    by_cases h1 : c = '*' ∧ r.head? = some '/'
    · obtain ⟨rfl, hh⟩ := h1
      obtain ⟨r', rfl⟩ := head_cons hh
      simp only [Spec.tidy, Bool.and_eq_true, bne_iff_ne, ne_eq] at h
      refine ⟨r', ?_, h.2, by rw [Spec.stripC], by simp; omega⟩
      rw [delLine_cons (by simp), delLine_cons (by simp [h.1])]
      simp [afterClose]
    · by_cases h2 : c = '/' ∧ r.head? = some '/'
      · obtain ⟨rfl, hh⟩ := h2
        obtain ⟨r', rfl⟩ := head_cons hh
        simp [Spec.tidy] at h
      · rw [tidy_block_cons h1 h2] at h
        obtain ⟨q, e1, e2, e3, e4⟩ := ih h
        refine ⟨q, ?_, e2, by rw [stripC_block_cons sp h1, e3], by simp; omega⟩
        rw [delLine_cons h2, afterClose_cons, e1]
        rintro ⟨hc, hd⟩
        have hd' := delLine_head_slash hd
        split at hc
        · simp at hc
        · exact h1 ⟨hc, hd'⟩

theorem subBlocks_cons {c : Char} {r : Text} (h : ¬ (c = '/' ∧ r.head? = some '*')) :
    subBlocks (c :: r) = c :: subBlocks r := by
  rw [subBlocks, if_neg h]

theorem strip_line (sp : Char → Bool) (hsp : sp ' ' = true) (t : Text)
    (ht : Spec.tidy .line t = true)
    (ih : ∀ r : Text, r.length < t.length → Spec.tidy .code r = true →
      (subBlocks (delLine r)).filter (fun c => !sp c) = Spec.stripC sp .code r) :
    (subBlocks (skipLine t)).filter (fun c => !sp c) = Spec.stripC sp .line t := by
  induction t with
  | nil => simp [skipLine, subBlocks, Spec.stripC, hsp]
  | cons c r ihl =>
    rw [skipLine, Spec.stripC]
    rw [Spec.tidy] at ht
    split
    · rename_i hc
      simp only [hc, if_true] at ht
      rw [subBlocks_cons (by simp), List.filter_cons]
      simp only [hsp, Bool.not_true, Bool.false_eq_true, if_false]
      exact ih r (by simp) ht
    · rename_i hc
      simp only [hc, if_false] at ht
      exact ihl ht (fun q hq hq' => ih q (by simp; omega) hq')

theorem strip_code (sp : Char → Bool) (hsp : sp ' ' = true) (hnl : sp '\n' = true) (n : Nat) (t : Text)
    (hn : t.length ≤ n) (ht : Spec.tidy .code t = true) :
    (subBlocks (delLine t)).filter (fun c => !sp c) = Spec.stripC sp .code t := by
  induction n generalizing t with
  | zero =>
    have : t = [] := List.length_eq_zero_iff.mp (by omega)
    subst this
    simp [delLine, subBlocks, Spec.stripC, hsp]
  | succ n ih =>
    cases t with
    | nil => simp [delLine, subBlocks, Spec.stripC, hsp]
    | cons c r =>
      have hr : r.length ≤ n := by simpa using hn
      by_cases h1 : c = '/' ∧ r.head? = some '/'
      · obtain ⟨rfl, hh⟩ := h1
        obtain ⟨r', rfl⟩ := head_cons hh
        rw [delLine, Spec.stripC]
        rw [Spec.tidy] at ht
        exact strip_line sp hsp r' ht (fun q hq hq' => ih q (by simp at hr; omega) hq')
      · by_cases h2 : c = '/' ∧ r.head? = some '*'
        · obtain ⟨rfl, hh⟩ := h2
          obtain ⟨r', rfl⟩ := head_cons hh
          rw [Spec.tidy] at ht
          obtain ⟨q, e1, e2, e3, e4⟩ := block_close sp r' ht
          rw [delLine_cons h1, delLine_cons (by simp), Spec.stripC, e3]
          simp only [show ('/' : Char) ≠ '\n' by decide, show ('*' : Char) ≠ '\n' by decide, if_false]
          rw [subBlocks, if_pos (by simp)]
          have e1' : afterClose (('*' :: delLine r').drop 1) = some (delLine q) := by simpa using e1
          split
          · rename_i q' hq'
            rw [e1'] at hq'
            simp only [Option.some.injEq] at hq'
            subst hq'
            exact ih q (by simp at hr; omega) e2
          · rename_i hq'; rw [e1'] at hq'; simp at hq'
        · rw [tidy_code_cons h1 h2] at ht
          rw [delLine_cons h1, stripC_code_cons sp h1 h2, subBlocks_cons, List.filter_cons, ih r hr ht]
          · by_cases hcn : c = '\n'
            · simp [hcn, hsp, hnl]
            · cases hspc : sp c <;> simp [hcn, hspc]
          · rintro ⟨hc, hd⟩
            have hd' := delLine_head_star hd
            split at hc
            · simp at hc
            · exact h2 ⟨hc, hd'⟩

end Hrdc
