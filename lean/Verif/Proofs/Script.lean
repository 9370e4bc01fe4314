import Verif.Spec.Script
/-!
# Reading scripts piece by piece
-/
namespace Hrdc.Spec.Script

/-! ## Words -/

/-- A text followed by a character that ends words. -/
theorem lex_append (m : Mode) (t r : Text) (c : Char) (hc : wordChar c = false) (a b : List Tok)
    (ha : lex m t = some a) (hb : lex .idle (c :: r) = some b) : lex m (t ++ c :: r) = some (a ++ b) := by
  induction t generalizing m a with
  | nil =>
    simp only [lex] at ha hb
    have hi : char .idle c = start c := by
      unfold char
      cases h : start c with
      | none => simp [flush, h]
      | some p => obtain ⟨m', k⟩ := p; simp [flush, h]
    rw [hi] at hb
    cases hs : start c with
    | none => rw [hs] at hb; simp at hb
    | some p =>
      obtain ⟨m', k⟩ := p
      rw [hs] at hb
      simp only at hb
      have hch : char m c = some (m', a ++ k) := by
        unfold char; rw [if_neg (by simp [hc]), ha, hs]
      simp only [List.nil_append, lex, hch]
      cases hl : lex m' r with
      | none => rw [hl] at hb; simp at hb
      | some q =>
        rw [hl] at hb
        simp only [Option.some.injEq] at hb ⊢
        rw [← hb, List.append_assoc]
  | cons d t ih =>
    simp only [lex] at ha
    simp only [List.cons_append, lex]
    cases hd : char m d with
    | none => rw [hd] at ha; simp at ha
    | some p =>
      obtain ⟨m', k⟩ := p
      rw [hd] at ha
      simp only at ha ⊢
      cases hl : lex m' t with
      | none => rw [hl] at ha; simp at ha
      | some q =>
        rw [hl] at ha
        simp only [Option.some.injEq] at ha
        rw [ih m' q hl]
        simp only [← ha, List.append_assoc]

/-- Reading without ending the last word. -/
def lexM (m : Mode) : Text → Option (Mode × List Tok)
  | [] => some (m, [])
  | c :: r =>
    match char m c with
    | none => none
    | some (m', a) =>
      match lexM m' r with
      | none => none
      | some (m'', b) => some (m'', a ++ b)

/-- Reading in two parts. -/
theorem lex_of_lexM (m m' : Mode) (t r : Text) (a b : List Tok) (ha : lexM m t = some (m', a))
    (hb : lex m' r = some b) : lex m (t ++ r) = some (a ++ b) := by
  induction t generalizing m a with
  | nil => simp only [lexM, Option.some.injEq, Prod.mk.injEq] at ha; obtain ⟨rfl, rfl⟩ := ha; simpa using hb
  | cons d t ih =>
    simp only [lexM] at ha
    simp only [List.cons_append, lex]
    cases hd : char m d with
    | none => rw [hd] at ha; simp at ha
    | some p =>
      obtain ⟨m1, k⟩ := p
      rw [hd] at ha
      simp only at ha ⊢
      cases hl : lexM m1 t with
      | none => rw [hl] at ha; simp at ha
      | some q =>
        obtain ⟨m2, q⟩ := q
        rw [hl] at ha
        simp only [Option.some.injEq, Prod.mk.injEq] at ha
        obtain ⟨rfl, rfl⟩ := ha
        rw [ih m1 q hl]
        simp

/-- A text that reads as `k` whatever follows. -/
def Whole (t : Text) (k : List Tok) : Prop :=
  ∀ r b, lex .idle r = some b → lex .idle (t ++ r) = some (k ++ b)

/-- A text that reads as `k` when the next character ends words. -/
def Wordy (t : Text) (k : List Tok) : Prop :=
  ∀ c r b, wordChar c = false → lex .idle (c :: r) = some b → lex .idle (t ++ c :: r) = some (k ++ b)

theorem Whole.append {t s : Text} {k l : List Tok} (h : Whole t k) (h' : Whole s l) :
    Whole (t ++ s) (k ++ l) := by
  intro r b hb
  rw [List.append_assoc, List.append_assoc]
  exact h _ _ (h' r b hb)

theorem Whole.nil : Whole [] [] := by intro r b hb; simpa using hb

theorem Whole.wordy {t : Text} {k : List Tok} (h : Whole t k) : Wordy t k :=
  fun _ _ b _ hb => h _ b hb

theorem Wordy.of_lex {t : Text} {k : List Tok} (h : lex .idle t = some k) : Wordy t k :=
  fun c r b hc hb => lex_append .idle t r c hc k b h hb

theorem Whole.of_lexM {t : Text} {k : List Tok} (h : lexM .idle t = some (.idle, k)) : Whole t k :=
  fun r b hb => lex_of_lexM .idle .idle t r k b h hb

theorem Whole.lex {t : Text} {k : List Tok} (h : Whole t k) : lex .idle t = some k := by
  have := h [] [] rfl
  simpa using this

/-- A word and the text after it. -/
theorem Wordy.whole {t s : Text} {k l : List Tok} {c : Char} (h : Wordy t k) (hc : wordChar c = false)
    (h' : Whole (c :: s) l) : Whole (t ++ c :: s) (k ++ l) := by
  intro r b hb
  rw [List.append_assoc, List.append_assoc]
  exact h c (s ++ r) (l ++ b) hc (h' r b hb)

theorem Whole.wordy_append {t s : Text} {k l : List Tok} (h : Whole t k) (h' : Wordy s l) :
    Wordy (t ++ s) (k ++ l) := by
  intro c r b hc hb
  rw [List.append_assoc, List.append_assoc]
  exact h _ _ (h' c r b hc hb)

/-- Blanks. -/
theorem Whole.blanks (n : Nat) : Whole (List.replicate n ' ') [] := by
  induction n with
  | zero => exact Whole.nil
  | succ n ih =>
    have h1 : Whole [' '] [] := Whole.of_lexM (by decide +kernel)
    have := h1.append ih
    simpa [List.replicate_succ] using this

/-! ## Numbers -/

theorem lexM_num (w t : Text) (h : t.all wordChar = true) : lexM (.num w) t = some (.num (w ++ t), []) := by
  induction t generalizing w with
  | nil => simp [lexM]
  | cons c r ih =>
    simp only [List.all_cons, Bool.and_eq_true] at h
    simp only [lexM, char]
    rw [if_pos ⟨by simp, h.1⟩]
    simp only [Mode.more]
    rw [ih _ h.2]
    simp

theorem lexM_word (w t : Text) (h : t.all wordChar = true) : lexM (.word w) t = some (.word (w ++ t), []) := by
  induction t generalizing w with
  | nil => simp [lexM]
  | cons c r ih =>
    simp only [List.all_cons, Bool.and_eq_true] at h
    simp only [lexM, char]
    rw [if_pos ⟨by simp, h.1⟩]
    simp only [Mode.more]
    rw [ih _ h.2]
    simp

theorem lex_eq_lexM (m m' : Mode) (t : Text) (a b : List Tok) (h : lexM m t = some (m', a))
    (hf : flush m' = some b) : lex m t = some (a ++ b) := by
  have := lex_of_lexM m m' t [] a b h (by simpa [lex] using hf)
  simpa using this

/-- A word that starts with a digit. -/
theorem lex_digits (c : Char) (t : Text) (n : Nat) (hc : c.isDigit = true) (h : t.all wordChar = true)
    (hn : intWord (c :: t) = some n) : lex .idle (c :: t) = some [.int n] := by
  have hs : start c = some (.num [c], []) := by
    unfold start
    have ha : c.isAlpha = false := by
      simp only [Char.isDigit, Char.isAlpha, Char.isUpper, Char.isLower, Bool.and_eq_true, decide_eq_true_eq] at hc ⊢
      obtain ⟨h1, h2⟩ := hc
      have h1 : 48 ≤ c.val.toNat := UInt32.le_iff_toNat_le.mp h1
      have h2 : c.val.toNat ≤ 57 := UInt32.le_iff_toNat_le.mp h2
      simp [UInt32.le_iff_toNat_le]
      have : c.toNat = c.val.toNat := rfl
      omega
    have hu : c ≠ '_' := by rintro rfl; simp at hc
    simp [ha, hc, hu]
  have hch : char .idle c = some (.num [c], []) := by
    unfold char
    rw [if_neg (by simp), hs]
    simp [flush]
  have hl : lexM .idle (c :: t) = some (.num (c :: t), []) := by
    simp only [lexM, hch]
    rw [lexM_num _ _ h]
    simp
  have := lex_eq_lexM .idle _ (c :: t) [] [.int n] hl (by simp [flush, hn])
  simpa using this

theorem hexDigit_word (n : Nat) : wordChar (hexDigit n) = true := by
  unfold hexDigit; split <;> decide

theorem hexDigit_isDigit (n : Nat) (h : n < 10) : (hexDigit n).isDigit = true := by
  have : ∀ k : Fin 10, (hexDigit k.val).isDigit = true := by decide
  exact this ⟨n, h⟩

theorem digit_hexDigit (n : Nat) (h : n < 16) : digit (hexDigit n) = some n := by
  have : ∀ k : Fin 16, digit (hexDigit k.val) = some k.val := by decide +kernel
  exact this ⟨n, h⟩

theorem number_append (base acc : Nat) (t : Text) (c : Char) (v d : Nat)
    (h : number base acc t = some v) (hd : digit c = some d) (hb : d < base) :
    number base acc (t ++ [c]) = some (v * base + d) := by
  induction t generalizing acc with
  | nil =>
    simp only [number, Option.some.injEq] at h
    subst h
    simp [number, hd, hb]
  | cons e t ih =>
    simp only [List.cons_append, number] at h ⊢
    split at h
    · split at h
      · rename_i hlt
        rw [if_pos hlt]
        exact ih _ h
      · simp at h
    · simp at h

theorem number_decNat (n : Nat) : number 10 0 (decNat n) = some n := by
  induction n using Nat.strongRecOn with
  | _ n ih =>
    rw [decNat]
    split
    · rename_i h
      simp [number, digit_hexDigit n (by omega), h]
    · rename_i h
      rw [number_append 10 0 _ _ (n / 10) (n % 10) (ih _ (by omega)) (digit_hexDigit _ (by omega)) (by omega)]
      congr 1; omega

theorem number_hexNat (n : Nat) : number 16 0 (hexNat n) = some n := by
  induction n using Nat.strongRecOn with
  | _ n ih =>
    rw [hexNat]
    split
    · rename_i h
      simp [number, digit_hexDigit n (by omega), h]
    · rename_i h
      rw [number_append 16 0 _ _ (n / 16) (n % 16) (ih _ (by omega)) (digit_hexDigit _ (by omega)) (by omega)]
      congr 1; omega

theorem decNat_words (n : Nat) : (decNat n).all wordChar = true := by
  induction n using Nat.strongRecOn with
  | _ n ih =>
    rw [decNat]
    split
    · simp [hexDigit_word]
    · simp only [List.all_append, ih _ (by omega : n / 10 < n), Bool.true_and]
      simp [hexDigit_word]

theorem hexNat_words (n : Nat) : (hexNat n).all wordChar = true := by
  induction n using Nat.strongRecOn with
  | _ n ih =>
    rw [hexNat]
    split
    · simp [hexDigit_word]
    · simp only [List.all_append, ih _ (by omega : n / 16 < n), Bool.true_and]
      simp [hexDigit_word]

/-- The first decimal digit; 0 only for the number 0. -/
theorem decNat_head (n : Nat) : ∃ d r, decNat n = hexDigit d :: r ∧ d < 10 ∧ (d = 0 → n = 0 ∧ r = []) := by
  induction n using Nat.strongRecOn with
  | _ n ih =>
    rw [decNat]
    split
    · rename_i h
      exact ⟨n, [], rfl, h, fun h => ⟨h, rfl⟩⟩
    · rename_i h
      obtain ⟨d, r, hr, hd, h0⟩ := ih (n / 10) (by omega)
      refine ⟨d, r ++ [hexDigit (n % 10)], by simp [hr], hd, fun e => ?_⟩
      have := (h0 e).1
      omega

theorem hexNat_head (n : Nat) : ∃ c r, hexNat n = c :: r := by
  rw [hexNat]
  split
  · exact ⟨_, _, rfl⟩
  · cases h : hexNat (n / 16) with
    | nil => exact ⟨_, _, rfl⟩
    | cons c r => exact ⟨c, _, rfl⟩

theorem hexDigit_zero (d : Nat) (h : d < 10) : hexDigit d = '0' ↔ d = 0 := by
  have : ∀ k : Fin 10, hexDigit k.val = '0' ↔ k.val = 0 := by decide
  exact this ⟨d, h⟩

theorem intWord_dec (n : Nat) : intWord (decNat n) = some n := by
  obtain ⟨d, r, hr, hd, h0⟩ := decNat_head n
  have hn := number_decNat n
  rw [hr] at hn ⊢
  by_cases e : d = 0
  · obtain ⟨rfl, rfl⟩ := h0 e
    subst e
    rfl
  · have hz : hexDigit d ≠ '0' := fun h => e ((hexDigit_zero d hd).mp h)
    unfold intWord
    split
    · rename_i h; simp at h; exact absurd h.1 hz
    · rename_i h; simp at h; exact absurd h.1 hz
    · rename_i h; simp at h; exact absurd h.1 hz
    · exact hn

/-- Decimal numbers. -/
theorem lex_decNat (n : Nat) : lex .idle (decNat n) = some [.int n] := by
  obtain ⟨d, r, hr, hd, h0⟩ := decNat_head n
  have hw := decNat_words n
  have hi := intWord_dec n
  rw [hr] at hw hi ⊢
  simp only [List.all_cons, Bool.and_eq_true] at hw
  exact lex_digits _ _ n (hexDigit_isDigit d hd) hw.2 hi

/-- Hexadecimal numbers. -/
theorem lex_hexNat (n : Nat) : lex .idle (tx "0x" ++ hexNat n) = some [.int n] := by
  obtain ⟨c, r, hr⟩ := hexNat_head n
  refine lex_digits '0' ('x' :: hexNat n) n (by decide) ?_ ?_
  · simp only [List.all_cons, hexNat_words, Bool.and_true]
    decide
  · have hn := number_hexNat n
    rw [hr] at hn ⊢
    exact hn

/-- The words of an integer. -/
def intToks (i : Int) : List Tok := if i < 0 then [.op '-', .int i.natAbs] else [.int i.natAbs]

theorem lex_neg (t : Text) (k : List Tok) (h : lex .idle t = some k) :
    lex .idle ('-' :: t) = some (.op '-' :: k) := by
  have h1 : lexM .idle ['-'] = some (.idle, [.op '-']) := by decide +kernel
  exact lex_of_lexM .idle .idle ['-'] t _ _ h1 h

theorem lex_pyStr (i : Int) : lex .idle (pyStr i) = some (intToks i) := by
  unfold pyStr intToks
  split
  · exact lex_neg _ _ (lex_decNat _)
  · exact lex_decNat _

theorem lex_pyHex (i : Int) : lex .idle (pyHex i) = some (intToks i) := by
  unfold pyHex intToks
  split
  · exact lex_neg _ _ (lex_hexNat _)
  · exact lex_hexNat _

/-! ## Expressions in argument position -/

theorem run_append (env : Env) (st : State) (a b : List Tok) :
    run env st (a ++ b) = (run env st a).bind (fun s => run env s b) := by
  induction a generalizing st with
  | nil => simp [run]
  | cons t a ih =>
    simp only [List.cons_append, run]
    cases step env st t with
    | none => rfl
    | some s => exact ih s

/-- The open brackets of an expression when it stands in an argument with keyword `k` inside the
brackets `fs`. -/
def embF (k : Option Text) (fs : List Frame) : List Frame → List Frame
  | [] => fs
  | [f] => { f with saved := { f.saved with kw := k } } :: fs
  | f :: g :: r => f :: embF k fs (g :: r)

/-- The evaluation state of an expression in such an argument. -/
def emb (k : Option Text) (fs : List Frame) (s : State) : State where
  frames := embF k fs s.frames
  slot := if s.frames.isEmpty then { s.slot with kw := k } else s.slot
  done := false

theorem embF_cons (k : Option Text) (fs : List Frame) (f g : Frame) (r : List Frame)
    (hs : f.saved = g.saved) :
    ∃ sv : Slot, embF k fs (f :: r) = { f with saved := sv } :: embF k fs r ∧
      embF k fs (g :: r) = { g with saved := sv } :: embF k fs r ∧
      sv = (if r.isEmpty then { f.saved with kw := k } else f.saved) := by
  cases r with
  | nil => exact ⟨_, rfl, by simp [embF, hs], rfl⟩
  | cons h r => exact ⟨f.saved, by simp [embF], by simp [embF, hs], rfl⟩

theorem Frame.add_saved (f f' : Frame) (kw : Option Text) (o : Obj) (h : f.add kw o = some f') :
    f'.saved = f.saved ∧ f'.callee = f.callee := by
  unfold Frame.add at h
  split at h
  · split at h
    · simp only [Option.some.injEq] at h; subst h; exact ⟨rfl, rfl⟩
    · simp at h
  · split at h
    · simp at h
    · simp only [Option.some.injEq] at h; subst h; exact ⟨rfl, rfl⟩

theorem Frame.add_with (f f' : Frame) (kw : Option Text) (o : Obj) (sv : Slot)
    (h : f.add kw o = some f') : Frame.add { f with saved := sv } kw o = some { f' with saved := sv } := by
  unfold Frame.add at h ⊢
  split at h
  · split at h
    · rename_i hh; simp only [Option.some.injEq] at h; subst h; simp [hh]
    · simp at h
  · split at h
    · simp at h
    · rename_i hh; simp only [Option.some.injEq] at h; subst h; simp [hh]

theorem Frame.last_with (f f' : Frame) (s : Slot) (sv : Slot)
    (h : f.last s = some f') : Frame.last { f with saved := sv } s = some { f' with saved := sv } ∧
      f'.saved = f.saved ∧ f'.callee = f.callee := by
  unfold Frame.last at h ⊢
  split at h
  · simp only [Option.some.injEq] at h; subst h; rename_i hh; simp [hh]
  · rename_i hh
    split at h
    · simp at h
    · rename_i o ho
      have := Frame.add_with _ _ _ _ sv h
      have h2 := Frame.add_saved _ _ _ _ h
      simp [hh, this, h2]

theorem Slot.finish_kw (s : Slot) (k : Option Text) : Slot.finish { s with kw := k } = s.finish := rfl

theorem emb_slot_finish (k : Option Text) (fs : List Frame) (s : State) :
    (emb k fs s).slot.finish = s.slot.finish := by
  unfold emb; simp only; split <;> rfl

theorem emb_slot_cur (k : Option Text) (fs : List Frame) (s : State) :
    (emb k fs s).slot.cur = s.slot.cur := by
  unfold emb; simp only; split <;> rfl

theorem emb_slot_neg (k : Option Text) (fs : List Frame) (s : State) :
    (emb k fs s).slot.neg = s.slot.neg := by
  unfold emb; simp only; split <;> rfl

/-- Replacing the operand. -/
theorem emb_set (k : Option Text) (fs : List Frame) (s : State) (l : Option Int) (n : Bool) (c : Cur) :
    emb k fs { s with slot := { s.slot with left := l, neg := n, cur := c } } =
      { emb k fs s with slot := { (emb k fs s).slot with left := l, neg := n, cur := c } } := by
  unfold emb
  simp only
  split <;> simp_all

theorem emb_open (k : Option Text) (fs : List Frame) (s : State) (c : Option Obj) :
    emb k fs { s with frames := { callee := c, saved := s.slot } :: s.frames, slot := {} } =
      { emb k fs s with frames := { callee := c, saved := (emb k fs s).slot } :: (emb k fs s).frames, slot := {} } := by
  unfold emb
  simp only
  cases h : s.frames with
  | nil => simp [embF]
  | cons f r => simp [embF]

theorem close_emb (k : Option Text) (fs : List Frame) (b : Bool) (s s' : State)
    (h : close b s = some s') : close b (emb k fs s) = some (emb k fs s') := by
  unfold close at h
  cases hf : s.frames with
  | nil => rw [hf] at h; simp at h
  | cons f r =>
    rw [hf] at h
    simp only at h
    split at h
    · rename_i hb
      cases hl : f.last s.slot with
      | none => rw [hl] at h; simp at h
      | some f' =>
        rw [hl] at h
        simp only at h
        cases hr : f'.result with
        | none => rw [hr] at h; simp at h
        | some o =>
          rw [hr] at h
          simp only [Option.some.injEq] at h
          subst h
          obtain ⟨sv, h1, -, h3⟩ := embF_cons k fs f f r rfl
          obtain ⟨l1, l2, l3⟩ := Frame.last_with f f' s.slot sv hl
          have hslot : (emb k fs s).slot = s.slot := by simp [emb, hf]
          have hframes : (emb k fs s).frames = { f with saved := sv } :: embF k fs r := by
            simp only [emb, hf]; exact h1
          unfold close
          rw [hframes]
          simp only [hb, if_true, hslot, l1]
          have hres : Frame.result { f' with saved := sv } = f'.result := rfl
          rw [hres, hr]
          simp only [Option.some.injEq]
          simp only [emb, h3, l2]
          cases r <;> simp
    · simp at h

theorem punct_emb (k : Option Text) (fs : List Frame) (c : Char) (s s' : State)
    (h : punct s c = some s') : punct (emb k fs s) c = some (emb k fs s') := by
  unfold punct at h ⊢
  by_cases c1 : c = '.'
  · simp only [c1, if_true, emb_slot_cur] at h ⊢
    cases hc : s.slot.cur.get with
    | none => rw [hc] at h; simp at h
    | some o =>
      rw [hc] at h
      simp only [Option.some.injEq] at h ⊢
      subst h
      simp only [emb]; split <;> simp
  simp only [c1, if_false] at h ⊢
  by_cases c2 : c = '-'
  · simp only [c2, if_true, emb_slot_cur, emb_slot_neg] at h ⊢
    split at h
    · simp only [Option.some.injEq] at h
      subst h
      rename_i h1 h2
      simp only [h1, h2]
      simp only [Option.some.injEq, emb]; split <;> simp
    · simp at h
  simp only [c2, if_false] at h ⊢
  by_cases c3 : c = '|'
  · simp only [c3, if_true, emb_slot_finish] at h ⊢
    split at h
    · rename_i hv
      simp only [Option.some.injEq] at h
      subst h
      simp only [Option.some.injEq, emb]; split <;> simp
    · simp at h
  simp only [c3, if_false] at h ⊢
  by_cases c4 : c = '('
  · simp only [c4, if_true, emb_slot_cur] at h ⊢
    cases hc : s.slot.cur.get with
    | none => rw [hc] at h; simp at h
    | some o =>
      rw [hc] at h
      simp only [Option.some.injEq] at h ⊢
      subst h
      exact (emb_open k fs s (some o)).symm
  simp only [c4, if_false] at h ⊢
  by_cases c5 : c = '['
  · simp only [c5, if_true, emb_slot_cur] at h ⊢
    split at h
    · rename_i hc
      simp only [Option.some.injEq] at h
      subst h
      rw [Option.some.injEq]
      exact (emb_open k fs s none).symm
    · simp at h
  simp only [c5, if_false] at h ⊢
  by_cases c6 : c = '='
  · simp only [c6, if_true] at h ⊢
    split at h
    · rename_i s0 f r hs hf
      split at h
      · rename_i hcal
        simp only [Option.some.injEq] at h
        subst h
        obtain ⟨sv, h1, -, h3⟩ := embF_cons k fs f f r rfl
        have hslot : (emb k fs s).slot = s.slot := by simp [emb, hf]
        have hframes : (emb k fs s).frames = { f with saved := sv } :: embF k fs r := by
          simp only [emb, hf]; exact h1
        rw [hslot, hs, hframes]
        simp only [hcal, if_true]
        simp [emb, hf, h1]
      · simp at h
    · simp at h
  simp only [c6, if_false] at h ⊢
  by_cases c7 : c = ','
  · simp only [c7, if_true] at h ⊢
    cases hf : s.frames with
    | nil => rw [hf] at h; simp at h
    | cons f r =>
      rw [hf] at h
      simp only at h
      cases hfin : s.slot.finish with
      | none => rw [hfin] at h; simp at h
      | some o =>
        rw [hfin] at h
        simp only at h
        cases ha : f.add s.slot.kw o with
        | none => rw [ha] at h; simp at h
        | some f' =>
          rw [ha] at h
          simp only [Option.some.injEq] at h
          subst h
          have hsv := (Frame.add_saved _ _ _ _ ha).1
          obtain ⟨sv, h1, h2, -⟩ := embF_cons k fs f f' r hsv.symm
          have hslot : (emb k fs s).slot = s.slot := by simp [emb, hf]
          have hframes : (emb k fs s).frames = { f with saved := sv } :: embF k fs r := by
            simp only [emb, hf]; exact h1
          rw [hframes]
          simp only [hslot, hfin, Frame.add_with _ _ _ _ sv ha]
          simp [emb, h2]
  simp only [c7, if_false] at h ⊢
  by_cases c8 : c = ')'
  · simp only [c8, if_true] at h ⊢
    exact close_emb k fs _ s s' h
  simp only [c8, if_false] at h ⊢
  by_cases c9 : c = ']'
  · simp only [c9, if_true] at h ⊢
    exact close_emb k fs _ s s' h
  simp only [c9, if_false] at h
  simp at h

theorem step_emb (env : Env) (k : Option Text) (fs : List Frame) (hfs : fs ≠ []) (t : Tok) (s s' : State)
    (h : step env s t = some s') : step env (emb k fs s) t = some (emb k fs s') := by
  have hne : ∀ r, (embF k fs r).isEmpty = false := by
    intro r
    cases r with
    | nil => simp [embF, hfs]
    | cons f r =>
      obtain ⟨sv, h1, -, -⟩ := embF_cons k fs f f r rfl
      rw [h1]; rfl
  cases t with
  | nl =>
    simp only [step] at h ⊢
    rw [if_neg (by simp [emb, hne])]
    split at h <;> (simp only [Option.some.injEq] at h; subst h; rfl)
  | int n =>
    simp only [step, number1] at h ⊢
    rw [if_neg (by simp [emb])]
    split at h
    · simp at h
    · rw [emb_slot_cur]
      split at h
      · simp only [Option.some.injEq] at h
        subst h
        simp only [emb]; split <;> simp
      · simp at h
  | name w =>
    simp only [step, name1] at h ⊢
    rw [if_neg (by simp [emb])]
    split at h
    · simp at h
    · rw [emb_slot_cur]
      split at h
      · simp only [Option.some.injEq] at h
        subst h
        simp only [emb]; split <;> simp
      · rename_i o hc
        cases ha : attr env o w with
        | none => rw [ha] at h; simp at h
        | some o' =>
          rw [ha] at h
          simp only [Option.some.injEq] at h
          subst h
          simp only [ha]
          simp only [emb]; split <;> simp
      · simp at h
  | op c =>
    simp only [step] at h ⊢
    split at h
    · simp at h
    · have := punct_emb k fs c s s' h
      simp [this]
      simp [emb]

theorem run_emb (env : Env) (k : Option Text) (fs : List Frame) (hfs : fs ≠ []) (l : List Tok) (s s' : State)
    (h : run env s l = some s') : run env (emb k fs s) l = some (emb k fs s') := by
  induction l generalizing s with
  | nil => simp only [run, Option.some.injEq] at h ⊢; rw [h]
  | cons t l ih =>
    simp only [run] at h ⊢
    cases ht : step env s t with
    | none => rw [ht] at h; simp at h
    | some s1 =>
      rw [ht] at h
      rw [step_emb env k fs hfs t s s1 ht]
      exact ih s1 h

/-- The words `l` denote `o`. -/
def Reads (env : Env) (l : List Tok) (o : Obj) : Prop :=
  ∃ st, run env {} l = some st ∧ st.frames = [] ∧ st.slot.finish = some o

/-- The text denotes `o`. -/
theorem eval_iff (env : Env) (t : Text) (o : Obj) :
    eval env t = some o ↔ ∃ l, lex .idle t = some l ∧ Reads env l o := by
  unfold eval
  constructor
  · intro h
    cases hl : lex .idle t with
    | none => rw [hl] at h; simp at h
    | some l =>
      rw [hl] at h
      simp only at h
      cases hr : run env {} l with
      | none => rw [hr] at h; simp at h
      | some st =>
        rw [hr] at h
        simp only at h
        split at h
        · rename_i hf
          exact ⟨l, rfl, st, hr, by simpa using hf, h⟩
        · simp at h
  · rintro ⟨l, hl, st, hr, hf, hs⟩
    simp [hl, hr, hf, hs]

/-- Complete arguments up to one that is read but not ended. -/
def Pend (f : Frame) (fs : List Frame) (st : State) : Prop :=
  ∃ (f0 : Frame) (s : Slot) (o : Obj), st = ⟨f0 :: fs, s, false⟩ ∧ s.finish = some o ∧
    f0.add s.kw o = some f

/-- Reading an expression as an argument. -/
theorem Reads.pend {env : Env} {l : List Tok} {o : Obj} (h : Reads env l o) (f f' : Frame)
    (fs : List Frame) (k : Option Text) (hadd : f.add k o = some f') :
    ∃ st, run env ⟨f :: fs, { kw := k }, false⟩ l = some st ∧ Pend f' fs st := by
  obtain ⟨st, hr, hf, hs⟩ := h
  have := run_emb env k (f :: fs) (by simp) l _ _ hr
  refine ⟨_, this, f, { st.slot with kw := k }, o, ?_, hs, hadd⟩
  simp [emb, hf, embF]

theorem Pend.comma {env : Env} {f : Frame} {fs : List Frame} {st : State} (h : Pend f fs st) :
    step env st (.op ',') = some ⟨f :: fs, {}, false⟩ := by
  obtain ⟨f0, s, o, rfl, hs, ha⟩ := h
  simp [step, punct, hs, ha]

theorem Slot.fresh_of_finish {s : Slot} {o : Obj} (h : s.finish = some o) : s.fresh = false := by
  unfold Slot.fresh
  split
  · rename_i h1
    simp [Slot.finish, h1, Cur.get] at h
  · rfl

theorem Pend.close {env : Env} {f : Frame} {fs : List Frame} {st : State} (h : Pend f fs st)
    (g : Obj) (hc : f.callee = some g) (o : Obj) (ho : f.result = some o) :
    step env st (.op ')') = some ⟨fs, { f.saved with cur := .obj o }, false⟩ := by
  obtain ⟨f0, s, o', rfl, hs, ha⟩ := h
  have h1 := (Frame.add_saved _ _ _ _ ha).2
  simp [step, punct, Script.close, Frame.last, Slot.fresh_of_finish hs, hs, ha, ho, ← h1, hc]

/-- Closing a bracket right after a comma or the opening bracket. -/
theorem close_fresh {env : Env} (f : Frame) (fs : List Frame) (g : Obj) (hc : f.callee = some g)
    (o : Obj) (ho : f.result = some o) :
    step env ⟨f :: fs, {}, false⟩ (.op ')') = some ⟨fs, { f.saved with cur := .obj o }, false⟩ := by
  simp [step, punct, Script.close, Frame.last, Slot.fresh, ho, hc]

theorem close_list {env : Env} (f : Frame) (fs : List Frame) (hc : f.callee = none)
    (o : Obj) (ho : f.result = some o) :
    step env ⟨f :: fs, {}, false⟩ (.op ']') = some ⟨fs, { f.saved with cur := .obj o }, false⟩ := by
  simp [step, punct, Script.close, Frame.last, Slot.fresh, ho, hc]

/-! ## Fewer constants -/

/-- What can be evaluated without usage constants can be evaluated with them. -/
theorem attr_mono (env : Env) (o o' : Obj) (s : Text) (h : attr (fun _ _ => none) o s = some o') :
    attr env o s = some o' := by
  unfold attr at h ⊢
  split at h
  · exact h
  · exact h
  · exact h
  · split at h
    · rename_i hh; simp only [hh, and_self, if_true]; exact h
    · rename_i h1
      rw [if_neg h1]
      split at h
      · rename_i hh; rw [if_pos hh]; exact h
      · simp at h
  · simp at h

theorem step_mono (env : Env) (st st' : State) (t : Tok) (h : step (fun _ _ => none) st t = some st') :
    step env st t = some st' := by
  cases t with
  | name s =>
    simp only [step, name1] at h ⊢
    split at h
    · simp at h
    · rename_i hd
      rw [if_neg hd]
      split at h
      · exact h
      · rename_i o ho
        cases ha : attr (fun _ _ => none) o s with
        | none => rw [ha] at h; simp at h
        | some o' => rw [ha] at h; rw [attr_mono env o o' s ha]; exact h
      · simp at h
  | _ => exact h

theorem run_mono (env : Env) (st st' : State) (l : List Tok) (h : run (fun _ _ => none) st l = some st') :
    run env st l = some st' := by
  induction l generalizing st with
  | nil => exact h
  | cons t l ih =>
    simp only [run] at h ⊢
    cases ht : step (fun _ _ => none) st t with
    | none => rw [ht] at h; simp at h
    | some s => rw [ht] at h; rw [step_mono env st s t ht]; exact ih s h

theorem eval_mono (env : Env) (t : Text) (o : Obj) (h : eval (fun _ _ => none) t = some o) :
    eval env t = some o := by
  rw [eval_iff] at h ⊢
  obtain ⟨l, hl, st, hr, hs⟩ := h
  exact ⟨l, hl, st, run_mono env _ _ l hr, hs⟩

theorem denotes_mono (env : Env) (t : Text) (i : Int) (h : denotes (fun _ _ => none) t i = true) :
    denotes env t i = true := by
  unfold denotes at h ⊢
  cases he : eval (fun _ _ => none) t with
  | none => rw [he] at h; simp at h
  | some o => rw [eval_mono env t o he]; rw [he] at h; exact h

theorem denotes_iff (env : Env) (t : Text) (i : Int) :
    denotes env t i = true ↔ ∃ v, eval env t = some (.val v) ∧ v.toInt = i := by
  unfold denotes
  constructor
  · intro h
    split at h
    · rename_i v hv; exact ⟨v, hv, by simpa using h⟩
    · simp at h
  · rintro ⟨v, hv, rfl⟩
    simp [hv]

theorem reads_int (env : Env) (i : Int) : Reads env (intToks i) (.val (.int i)) := by
  unfold intToks
  split
  · refine ⟨_, rfl, rfl, ?_⟩
    simp only [Slot.finish, Cur.get, if_true, negate, PyVal.toInt, Option.some.injEq, Obj.val.injEq,
      PyVal.int.injEq]
    omega
  · refine ⟨_, rfl, rfl, ?_⟩
    simp only [Slot.finish, Cur.get, if_false, Bool.false_eq_true, Option.some.injEq, Obj.val.injEq,
      PyVal.int.injEq]
    omega

/-- Decimal numbers denote themselves. -/
theorem eval_pyStr (env : Env) (i : Int) : eval env (pyStr i) = some (.val (.int i)) :=
  (eval_iff _ _ _).mpr ⟨_, lex_pyStr i, reads_int env i⟩

/-- Hexadecimal numbers denote themselves. -/
theorem eval_pyHex (env : Env) (i : Int) : eval env (pyHex i) = some (.val (.int i)) :=
  (eval_iff _ _ _).mpr ⟨_, lex_pyHex i, reads_int env i⟩

end Hrdc.Spec.Script
