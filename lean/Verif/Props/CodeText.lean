import Verif.Spec.Code
import Verif.Props.Formats
/-!
# C14, exactly
-/
namespace Hrdc
open Parser Spec

theorem codeText_code_cons (sp : Char → Bool) {c : Char} {r : Text}
    (h1 : ¬ (c = '/' ∧ r.head? = some '/')) (h2 : ¬ (c = '/' ∧ r.head? = some '*')) :
    codeText sp .code (c :: r) = if sp c then codeText sp .code r else (codeText sp .code r).map (c :: ·) := by
  rw [codeText.eq_def]
  split <;> simp_all

theorem codeText_block_cons (sp : Char → Bool) {c : Char} {r : Text}
    (h1 : ¬ (c = '*' ∧ r.head? = some '/')) (h2 : ¬ (c = '/' ∧ r.head? = some '/')) :
    codeText sp .block (c :: r) = codeText sp .block r := by
  rw [codeText.eq_def]
  split <;> simp_all

/-- What is after the end of a block comment. -/
def Closes (sp : Char → Bool) (p : Place) (t u : Text) : Prop :=
  (afterClose u = none ∧ codeText sp p t = none) ∨
    ∃ r, afterClose u = some (delLine r) ∧ codeText sp p t = codeText sp .code r ∧ r.length < t.length

theorem Closes.cons {sp : Char → Bool} {p q : Place} {t t' u : Text} {c : Char} (h : Closes sp p t u)
    (hu : afterClose (c :: u) = afterClose u) (hq : codeText sp q t' = codeText sp p t) (hl : t.length ≤ t'.length) :
    Closes sp q t' (c :: u) := by
  rcases h with ⟨h1, h2⟩ | ⟨r, h1, h2, h3⟩
  · exact Or.inl ⟨hu.trans h1, hq.trans h2⟩
  · exact Or.inr ⟨r, hu.trans h1, hq.trans h2, by omega⟩

theorem closes_line (sp : Char → Bool) (t : Text) (ih : ∀ r : Text, r.length < t.length → Closes sp .block r (delLine r)) :
    Closes sp (.line true) t (skipLine t) := by
  induction t with
  | nil => exact Or.inl ⟨by simp [skipLine, afterClose], by simp [codeText]⟩
  | cons c r ihl =>
    rw [skipLine]
    split
    · rename_i hc
      exact (ih r (by simp)).cons (afterClose_cons (by simp)) (by simp [codeText, hc]) (by simp)
    · rename_i hc
      rcases ihl (fun q hq => ih q (by simp; omega)) with ⟨h1, h2⟩ | ⟨q, h1, h2, h3⟩
      · exact Or.inl ⟨h1, by simpa [codeText, hc] using h2⟩
      · exact Or.inr ⟨q, h1, by simpa [codeText, hc] using h2, by simp; omega⟩

theorem closes_block (sp : Char → Bool) (n : Nat) : ∀ t : Text, t.length ≤ n → Closes sp .block t (delLine t) := by
  induction n with
  | zero =>
    intro t hn
    have : t = [] := List.length_eq_zero_iff.mp (by omega)
    subst this
    exact Or.inl ⟨by simp [delLine, afterClose], by simp [codeText]⟩
  | succ n ih =>
    intro t hn
    cases t with
    | nil => exact Or.inl ⟨by simp [delLine, afterClose], by simp [codeText]⟩
    | cons c r =>
      have hr : r.length ≤ n := by simpa using hn
      by_cases h2 : c = '/' ∧ r.head? = some '/'
      · obtain ⟨rfl, hh⟩ := h2
        obtain ⟨r', rfl⟩ := head_cons hh
        have := closes_line sp r' (fun q hq => ih q (by simp at hr; omega))
        rw [delLine]
        rcases this with ⟨e1, e2⟩ | ⟨q, e1, e2, e3⟩
        · exact Or.inl ⟨e1, by simpa [codeText] using e2⟩
        · exact Or.inr ⟨q, e1, by simpa [codeText] using e2, by simp; omega⟩
      · by_cases h1 : c = '*' ∧ r.head? = some '/'
        · obtain ⟨rfl, hh⟩ := h1
          obtain ⟨r', rfl⟩ := head_cons hh
          by_cases h3 : r'.head? = some '/'
          · obtain ⟨r'', rfl⟩ := head_cons h3
            have := closes_line sp r'' (fun q hq => ih q (by simp at hr; omega))
            rw [delLine_cons (by simp), delLine]
            simp only [show ('*' : Char) ≠ '\n' by decide, if_false]
            refine this.cons (afterClose_cons ?_) (by simp [codeText]) (by simp; omega)
            rintro ⟨-, h⟩
            have : ∀ t : Text, (skipLine t).head? = some ' ' := by
              intro t
              induction t with
              | nil => simp [skipLine]
              | cons x t ih => rw [skipLine]; split <;> simp [ih]
            rw [this] at h
            simp at h
          · refine Or.inr ⟨r', ?_, ?_, by simp; omega⟩
            · rw [delLine_cons (by simp), delLine_cons (by simp [h3])]
              simp [afterClose]
            · cases r' with
              | nil => simp [codeText]
              | cons d r'' =>
                have hd : d ≠ '/' := by simpa using h3
                rw [codeText.eq_def]
                split <;> simp_all <;> grind
        · rw [delLine_cons h2]
          refine (ih r hr).cons (afterClose_cons ?_) (codeText_block_cons sp h1 h2) (by simp)
          rintro ⟨hc, hd⟩
          have hd' := delLine_head_slash hd
          split at hc
          · simp at hc
          · exact h1 ⟨hc, hd'⟩

/-- What is left of a text, or that `/` is. -/
def Left (sp : Char → Bool) (o : Option Text) (u : Text) : Prop :=
  match o with
  | some s => (subBlocks u).filter (fun c => !sp c) = s
  | none => '/' ∈ subBlocks u

theorem Left.space {sp : Char → Bool} {o : Option Text} {u : Text} (hsp : sp ' ' = true) (h : Left sp o u) :
    Left sp o (' ' :: u) := by
  cases o with
  | none =>
    show '/' ∈ _
    rw [subBlocks_cons (by simp)]
    exact List.mem_cons_of_mem _ h
  | some s =>
    show List.filter _ _ = s
    rw [subBlocks_cons (by simp), List.filter_cons]
    simp only [hsp, Bool.not_true, Bool.false_eq_true, if_false]
    exact h

theorem left_line (sp : Char → Bool) (hsp : sp ' ' = true) (t : Text)
    (ih : ∀ r : Text, r.length < t.length → Left sp (codeText sp .code r) (delLine r)) :
    Left sp (codeText sp (.line false) t) (skipLine t) := by
  induction t with
  | nil => simp [skipLine, subBlocks, codeText, hsp, Left]
  | cons c r ihl =>
    rw [skipLine, codeText]
    split
    · exact (ih r (by simp)).space hsp
    · exact ihl (fun q hq => ih q (by simp; omega))

theorem left_code (sp : Char → Bool) (hsp : sp ' ' = true) (hnl : sp '\n' = true) (n : Nat) :
    ∀ t : Text, t.length ≤ n → Left sp (codeText sp .code t) (delLine t) := by
  induction n with
  | zero =>
    intro t hn
    have : t = [] := List.length_eq_zero_iff.mp (by omega)
    subst this
    simp [delLine, subBlocks, codeText, hsp, Left]
  | succ n ih =>
    intro t hn
    cases t with
    | nil => simp [delLine, subBlocks, codeText, hsp, Left]
    | cons c r =>
      have hr : r.length ≤ n := by simpa using hn
      by_cases h1 : c = '/' ∧ r.head? = some '/'
      · obtain ⟨rfl, hh⟩ := h1
        obtain ⟨r', rfl⟩ := head_cons hh
        rw [delLine, codeText]
        exact left_line sp hsp r' (fun q hq => ih q (by simp at hr; omega))
      · by_cases h2 : c = '/' ∧ r.head? = some '*'
        · obtain ⟨rfl, hh⟩ := h2
          obtain ⟨r', rfl⟩ := head_cons hh
          rw [delLine_cons h1, delLine_cons (by simp), codeText]
          simp only [show ('/' : Char) ≠ '\n' by decide, show ('*' : Char) ≠ '\n' by decide, if_false]
          have hd : ∀ u : Text, ('*' :: u).drop 1 = u := fun _ => rfl
          have key : ∀ o, Left sp o (match afterClose (delLine r') with
              | some q => q
              | none => []) → afterClose (delLine r') ≠ none → Left sp o ('/' :: '*' :: delLine r') := by
            intro o ho hne
            cases e : afterClose (delLine r') with
            | none => exact absurd e hne
            | some q =>
              rw [e] at ho
              have : subBlocks ('/' :: '*' :: delLine r') = subBlocks q := by
                rw [subBlocks, if_pos (by simp)]
                split
                · rename_i q' hq'
                  rw [hd, e] at hq'
                  simp only [Option.some.injEq] at hq'
                  rw [hq']
                · rename_i hq'; rw [hd, e] at hq'; simp at hq'
              cases o with
              | none => show '/' ∈ _; rw [this]; exact ho
              | some s => show List.filter _ _ = s; rw [this]; exact ho
          rcases closes_block sp r'.length r' (Nat.le_refl _) with ⟨e1, e2⟩ | ⟨q, e1, e2, e3⟩
          · rw [e2]
            show '/' ∈ _
            rw [subBlocks, if_pos (by simp)]
            split
            · rename_i q' hq'; rw [hd, e1] at hq'; simp at hq'
            · simp
          · rw [e2]
            refine key _ ?_ (by simp [e1])
            rw [e1]
            exact ih q (by simp at hr; omega)
        · rw [delLine_cons h1, codeText_code_cons sp h1 h2]
          have hsub : subBlocks ((if c = '\n' then ' ' else c) :: delLine r) =
              (if c = '\n' then ' ' else c) :: subBlocks (delLine r) := by
            refine subBlocks_cons ?_
            rintro ⟨hc, hd⟩
            have hd' := delLine_head_star hd
            split at hc
            · simp at hc
            · exact h2 ⟨hc, hd'⟩
          have hsc : sp (if c = '\n' then ' ' else c) = sp c := by
            by_cases hcn : c = '\n' <;> simp [hcn, hsp, hnl]
          have hi := ih r hr
          cases hs : sp c with
          | true =>
            simp only [if_true]
            cases e : codeText sp .code r with
            | none =>
              rw [e] at hi
              show '/' ∈ _
              rw [hsub]
              exact List.mem_cons_of_mem _ hi
            | some s =>
              rw [e] at hi
              show List.filter _ _ = s
              rw [hsub, List.filter_cons, hsc, hs]
              exact hi
          | false =>
            have hcn : c ≠ '\n' := by rintro rfl; rw [hnl] at hs; simp at hs
            cases e : codeText sp .code r with
            | none =>
              rw [e] at hi
              show '/' ∈ _
              rw [hsub]
              exact List.mem_cons_of_mem _ hi
            | some s =>
              rw [e] at hi
              show List.filter _ _ = c :: s
              rw [hsub, List.filter_cons, hsc, hs, if_neg hcn]
              simp only [Bool.not_false, if_true, List.cons.injEq, true_and]
              exact hi

theorem tokenBytes_error {l : List Text} {e : PyErr} (h : tokenBytes l = .error e) : e = .value := by
  induction l with
  | nil => simp [tokenBytes] at h
  | cons x l ih =>
    rw [tokenBytes] at h
    split at h
    · exact ih h
    · split at h
      · rename_i e' he
        simp only [int16] at he
        split at he
        · simp at he
        · simp at he h; rw [← h, ← he]
      · split at h
        · split at h
          · simp at h
          · rename_i e' he
            simp at h
            exact ih (h ▸ he)
        · simp at h; exact h.symm

theorem numeral_slash {t : Text} {v : Int} (h : Numeral t v) : '/' ∉ t := by
  obtain ⟨sign, pre, groups, hs, hp, -, hg, rfl, -⟩ := h
  have key : ∀ gs : List (List (Char × Nat)), (∀ g ∈ gs, g ≠ [] ∧ ∀ p ∈ g, p ∈ hexTable) →
      '/' ∉ ['_'].intercalate (gs.map (·.map (·.1))) := by
    intro gs hgs hc
    have h2 : ∀ c ∈ ['_'].intercalate (gs.map (·.map (·.1))), c = '_' ∨ ∃ g ∈ gs, ∃ p ∈ g, p.1 = c := by
      intro c hc
      rw [List.intercalate] at hc
      obtain ⟨l, hl, hcl⟩ := List.mem_flatten.1 hc
      have : ∀ (xs : List Text), l ∈ List.intersperse ['_'] xs → l = ['_'] ∨ l ∈ xs := by
        intro xs
        induction xs with
        | nil => simp
        | cons x xs ih =>
          cases xs with
          | nil => simp [List.intersperse]; exact Or.inr
          | cons y ys =>
            intro h
            simp only [List.intersperse, List.mem_cons] at h ih ⊢
            rcases h with h | h | h
            · exact Or.inr (Or.inl h)
            · exact Or.inl h
            · rcases ih h with h | h
              · exact Or.inl h
              · exact Or.inr (Or.inr h)
      rcases this _ hl with rfl | h
      · simp at hcl; exact Or.inl hcl
      · obtain ⟨g, hg, rfl⟩ := List.mem_map.1 h
        obtain ⟨p, hp, rfl⟩ := List.mem_map.1 hcl
        exact Or.inr ⟨g, hg, p, hp, rfl⟩
    rcases h2 _ hc with h | ⟨g, hg, p, hp, h⟩
    · simp at h
    · have := (hgs g hg).2 p hp
      have h3 : ∀ p ∈ hexTable, p.1 ≠ '/' := by decide
      exact h3 p this h
  intro hc
  simp only [List.mem_append] at hc
  rcases hc with (hc | hc) | hc
  · rcases hs with rfl | rfl | rfl <;> simp at hc
  · rcases hp with rfl | rfl | rfl | rfl | rfl <;> simp at hc
  · exact key _ hg hc

theorem fieldBytes_slash {t : Text} {bs : List UInt8} (h : FieldBytes t bs) : '/' ∉ t := by
  obtain ⟨fs, rfl, hf, h⟩ := h
  have h1 : ∀ f ∈ fs, '/' ∉ f := by
    clear hf
    induction fs generalizing bs with
    | nil => simp
    | cons f fs ih =>
      intro g hg
      by_cases he : f.isEmpty
      · rw [List.filter_cons, if_neg (by simp [he])] at h
        rcases List.mem_cons.1 hg with rfl | hg
        · simp at he; simp [he]
        · exact ih h g hg
      · rw [List.filter_cons, if_pos (by simpa using he)] at h
        cases bs with
        | nil => exact h.elim
        | cons b bs =>
          rcases List.mem_cons.1 hg with rfl | hg
          · exact numeral_slash h.1
          · exact ih h.2 g hg
  intro hc
  have h2 := h1
  clear h hf
  induction fs with
  | nil => simp [List.intercalate] at hc
  | cons f fs ih =>
    cases fs with
    | nil => simp [List.intercalate] at hc; exact h1 f (by simp) hc
    | cons g gs =>
      simp only [List.intercalate, List.intersperse, List.flatten_cons, List.mem_append, List.mem_singleton] at hc
      rcases hc with hc | hc | hc
      · exact h1 f (by simp) hc
      · simp at hc
      · exact ih (fun f hf => h1 f (by simp [hf])) hc (fun f hf => h1 f (by simp [hf]))

/-- **C14, exactly.** What the reader makes of every text: `codeText` removes comments and white space, with `//` taken for
a comment inside block comments as well; the bytes are what the comma-separated fields of the rest write in base 16.
Texts with a block comment that is never closed and fields that write no byte raise ValueError. -/
theorem C14_exact (uni : Char → Bool) (t : Text) :
    (∀ bs, codeBlob uni t = .ok bs ↔ ∃ s, codeText (space uni) .code t = some s ∧ FieldBytes s bs) ∧
    ∀ e, codeBlob uni t = .error e → e = .value := by
  have hl := left_code (isSpace uni) (isSpace_space uni) (isSpace_nl uni) t.length t (Nat.le_refl _)
  rw [← isSpace_spec]
  have hb : codeBlob uni t = tokenBytes (splitChar ',' ((subBlocks (delLine t)).filter (fun c => !isSpace uni c))) := by
    unfold codeBlob
    simp only
    rw [(lines_eq t.length t (Nat.le_refl _)).1]
  refine ⟨fun bs => ?_, fun e he => tokenBytes_error (hb.symm.trans he)⟩
  rw [hb, fieldBytes_iff]
  cases h : codeText (isSpace uni) .code t with
  | none =>
    rw [h] at hl
    constructor
    · intro hf
      refine absurd ?_ (fieldBytes_slash hf)
      exact List.mem_filter.2 ⟨hl, by simp [isSpace]⟩
    · rintro ⟨s, h', -⟩
      simp at h'
  | some s =>
    rw [h] at hl
    rw [show (subBlocks (delLine t)).filter (fun c => !isSpace uni c) = s from hl]
    simp

/-- **C14, exactly.** Texts with the same text between comments and white space read the same. -/
theorem C14_same (uni : Char → Bool) (t t' : Text) (h : codeText (space uni) .code t = codeText (space uni) .code t') :
    codeBlob uni t = codeBlob uni t' := by
  have h1 := C14_exact uni t
  have h2 := C14_exact uni t'
  cases e : codeBlob uni t with
  | ok bs =>
    have := (h1.1 bs).1 e
    rw [h] at this
    exact ((h2.1 bs).2 this).symm
  | error x =>
    cases e' : codeBlob uni t' with
    | ok bs =>
      have := (h2.1 bs).1 e'
      rw [← h] at this
      rw [(h1.1 bs).2 this] at e
      simp at e
    | error y => rw [h1.2 x e, h2.2 y e']

/-- **C14, exactly.** The texts that are read as the claim has it. -/
theorem C14_iff (uni : Char → Bool) (t : Text) :
    (∀ bs, codeBlob uni t = .ok bs ↔ FieldBytes (stripC (space uni) .code t) bs) ↔
      ∀ bs, (∃ s, codeText (space uni) .code t = some s ∧ FieldBytes s bs) ↔ FieldBytes (stripC (space uni) .code t) bs := by
  constructor
  · intro h bs; rw [← (C14_exact uni t).1 bs, h bs]
  · intro h bs; rw [(C14_exact uni t).1 bs, h bs]

/-- A URL in a block comment, a block comment ending in `*//`, one that is never closed. -/
example : codeText (space (fun _ => false)) .code (tx "0x05, /* see http://x */ 0x01,\n0x09, /* mouse */ 0x02") =
      some (tx "0x05,0x02") ∧
    codeText (space (fun _ => false)) .code (tx "0x05, /* a *// 0x01\n 0x02 */ 0x03 // x") = some (tx "0x05,0x03") ∧
    codeText (space (fun _ => false)) .code (tx "0x05, /* a // */") = none ∧
    codeBlob (fun _ => false) (tx "0x05, /* a *// 0x01\n 0x02 */ 0x03 // x") = .ok [5, 3] ∧
    codeBlob (fun _ => false) (tx "0x05, /* a // */") = .error .value := by decide +kernel

end Hrdc
