import Verif.Proofs.Text
/-!
# Numbers in base 16
-/
namespace Hrdc
open Parser Spec

theorem hexTable_hex {p : Char × Nat} (h : p ∈ hexTable) : isHex p.1 = true ∧ hexVal p.1 = p.2 := by
  have : ∀ p ∈ hexTable, isHex p.1 = true ∧ hexVal p.1 = p.2 := by decide
  exact this p h

theorem isHex_table {c : Char} (h : isHex c = true) : (c, hexVal c) ∈ hexTable := by
  have h1 := isHex_cases h
  have : ∀ c ∈ hexTable.map (·.1), (c, hexVal c) ∈ hexTable := by decide
  exact this c h1

theorem underscore_not_hex {c : Char} (h : isHex c = true) : c ≠ '_' := by
  intro hc; subst hc; revert h; decide

/-- The text of digit groups. -/
def groupsText (gs : List (List (Char × Nat))) : Text := ['_'].intercalate (gs.map (·.map (·.1)))

/-- Groups of digits. -/
def GroupsOK (gs : List (List (Char × Nat))) : Prop :=
  gs ≠ [] ∧ ∀ g ∈ gs, g ≠ [] ∧ ∀ p ∈ g, p ∈ hexTable

theorem groupsText_single (g : List (Char × Nat)) : groupsText [g] = g.map (·.1) := by
  simp [groupsText, List.intercalate]

theorem groupsText_cons (g h : List (Char × Nat)) (gs : List (List (Char × Nat))) :
    groupsText (g :: h :: gs) = g.map (·.1) ++ '_' :: groupsText (h :: gs) := by
  simp [groupsText, List.intercalate]

theorem ofDigits_acc (acc : Nat) (ds : List Nat) (d : Nat) :
    (d :: ds).foldl (fun n d => 16 * n + d) acc = ds.foldl (fun n d => 16 * n + d) (16 * acc + d) := rfl

/-- The digit reader accepts the text of digit groups. -/
theorem digits16_groups (gs : List (List (Char × Nat))) (h : GroupsOK gs) (acc : Nat) :
    digits16 acc (groupsText gs)
      = some ((gs.flatten.map (·.2)).foldl (fun n d => 16 * n + d) acc) := by
  obtain ⟨hne, hg⟩ := h
  induction gs generalizing acc with
  | nil => exact absurd rfl hne
  | cons g gs ih =>
    obtain ⟨hgne, hgd⟩ := hg g (by simp)
    -- the digits of the first group
    induction g generalizing acc with
    | nil => exact absurd rfl hgne
    | cons p g ihg =>
      obtain ⟨hp1, hp2⟩ := hexTable_hex (hgd p (by simp))
      cases g with
      | nil =>
        cases gs with
        | nil => simp [groupsText_single, digits16, hp1, hp2]
        | cons g' gs =>
          rw [groupsText_cons]
          simp only [List.map_cons, List.map_nil, List.cons_append, List.nil_append]
          rw [digits16.eq_def]
          simp only [hp1, if_true]
          rw [ih _ (by simp) (fun x hx => hg x (by simp [hx]))]
          simp [hp2]
      | cons q g =>
        have hq := (hexTable_hex (hgd q (by simp))).1
        have hu := underscore_not_hex hq
        have e : ∃ r, groupsText ((p :: q :: g) :: gs) = p.1 :: q.1 :: r ∧
            groupsText ((q :: g) :: gs) = q.1 :: r := by
          cases gs with
          | nil => exact ⟨g.map (·.1), by simp [groupsText_single], by simp [groupsText_single]⟩
          | cons g' gs =>
            exact ⟨g.map (·.1) ++ '_' :: groupsText (g' :: gs), by simp [groupsText_cons],
              by simp [groupsText_cons]⟩
        obtain ⟨r, e1, e2⟩ := e
        rw [e1, digits16.eq_def]
        split
        · simp_all
        · simp_all
        · simp_all
        · rename_i c d r' _ heq
          obtain ⟨rfl, rfl, rfl⟩ := by simpa using heq
          have := ihg (16 * acc + hexVal p.1) (by simp) (by
            intro x hx
            rcases List.mem_cons.1 hx with rfl | hx
            · exact ⟨by simp, fun y hy => hgd y (by simp [hy])⟩
            · exact hg x (by simp [hx])) (by simp) (fun y hy => hgd y (by simp [hy]))
          rw [e2] at this
          rw [hp1, if_pos rfl, this]
          simp [hp2]

/-- What the digit reader accepts is the text of digit groups. -/
theorem groups_of_digits16 (t : Text) (acc n : Nat) (h : digits16 acc t = some n) :
    ∃ gs, GroupsOK gs ∧ t = groupsText gs ∧
      n = (gs.flatten.map (·.2)).foldl (fun n d => 16 * n + d) acc := by
  fun_induction digits16 acc t with
  | case1 => simp at h
  | case2 acc c hc =>
    simp at h
    exact ⟨[[(c, hexVal c)]], ⟨by simp, by simp [isHex_table hc]⟩, by simp [groupsText_single],
      by simp [← h]⟩
  | case3 => simp at h
  | case4 acc c r hc ih =>
    obtain ⟨gs, ⟨hne, hg⟩, ht, hn⟩ := ih h
    cases gs with
    | nil => exact absurd rfl hne
    | cons g gs =>
      refine ⟨[(c, hexVal c)] :: g :: gs, ⟨by simp, ?_⟩, ?_, ?_⟩
      · intro x hx
        rcases List.mem_cons.1 hx with rfl | hx
        · simp [isHex_table hc]
        · exact hg x hx
      · rw [groupsText_cons, ← ht]; rfl
      · rw [hn]; rfl
  | case5 => simp at h
  | case6 acc c d r _ hc ih =>
    obtain ⟨gs, ⟨hne, hg⟩, ht, hn⟩ := ih h
    cases gs with
    | nil => exact absurd rfl hne
    | cons g gs =>
      refine ⟨((c, hexVal c) :: g) :: gs, ⟨by simp, ?_⟩, ?_, ?_⟩
      · intro x hx
        rcases List.mem_cons.1 hx with rfl | hx
        · refine ⟨by simp, fun p hp => ?_⟩
          rcases List.mem_cons.1 hp with rfl | hp
          · exact isHex_table hc
          · exact (hg g (by simp)).2 p hp
        · exact hg x (by simp [hx])
      · rw [ht]
        cases gs with
        | nil => simp [groupsText_single]
        | cons g' gs => simp [groupsText_cons]
      · rw [hn]; rfl
  | case7 => simp at h

/-- Texts of digit groups have no sign and no prefix. -/
theorem groups_start {gs : List (List (Char × Nat))} (h : GroupsOK gs) :
    ∃ c r, groupsText gs = c :: r ∧ isHex c = true ∧ ∀ d ∈ groupsText gs, isHex d = true ∨ d = '_' := by
  obtain ⟨hne, hg⟩ := h
  have hall : ∀ gs : List (List (Char × Nat)), (∀ g ∈ gs, g ≠ [] ∧ ∀ p ∈ g, p ∈ hexTable) →
      ∀ d ∈ groupsText gs, isHex d = true ∨ d = '_' := by
    intro gs
    induction gs with
    | nil => intro _ d hd; simp [groupsText, List.intercalate] at hd
    | cons g gs ih =>
      intro hg d hd
      have h1 : ∀ d ∈ g.map (·.1), isHex d = true := by
        intro d hd
        obtain ⟨p, hp, rfl⟩ := List.mem_map.1 hd
        exact (hexTable_hex ((hg g (by simp)).2 p hp)).1
      cases gs with
      | nil => rw [groupsText_single] at hd; exact Or.inl (h1 d hd)
      | cons g' gs =>
        rw [groupsText_cons] at hd
        rcases List.mem_append.1 hd with hd | hd
        · exact Or.inl (h1 d hd)
        · rcases List.mem_cons.1 hd with hd | hd
          · exact Or.inr hd
          · exact ih (fun x hx => hg x (by simp [hx])) d hd
  cases gs with
  | nil => exact absurd rfl hne
  | cons g gs =>
    obtain ⟨hgne, hgd⟩ := hg g (by simp)
    cases g with
    | nil => exact absurd rfl hgne
    | cons p g =>
      refine ⟨p.1, ?_, ?_, (hexTable_hex (hgd p (by simp))).1, hall _ hg⟩
      · exact match gs with
          | [] => g.map (·.1)
          | g' :: gs => g.map (·.1) ++ '_' :: groupsText (g' :: gs)
      · cases gs with
        | nil => simp [groupsText_single]
        | cons g' gs => simp [groupsText_cons]

/-- The part of `int(x, 16)` after the sign. -/
def unprefix (t : Text) : Text :=
  match t with
  | '0' :: 'x' :: '_' :: r => r
  | '0' :: 'X' :: '_' :: r => r
  | '0' :: 'x' :: r => r
  | '0' :: 'X' :: r => r
  | r => r

theorem unprefix_groups {gs : List (List (Char × Nat))} (h : GroupsOK gs) (pre : Text)
    (hp : pre = [] ∨ pre = ['0', 'x'] ∨ pre = ['0', 'X'] ∨ pre = ['0', 'x', '_'] ∨ pre = ['0', 'X', '_']) :
    unprefix (pre ++ groupsText gs) = groupsText gs := by
  obtain ⟨c, r, e, hc, hall⟩ := groups_start h
  have hu := underscore_not_hex hc
  rw [e] at hall ⊢
  have hx : ∀ d ∈ c :: r, d ≠ 'x' ∧ d ≠ 'X' := by
    intro d hd
    rcases hall d hd with h | h
    · constructor <;> intro h' <;> subst h' <;> revert h <;> decide
    · subst h; decide
  rcases hp with rfl | rfl | rfl | rfl | rfl
  · simp only [List.nil_append]
    unfold unprefix
    split
    · rename_i heq; have := hx 'x' (by rw [heq]; simp); simp at this
    · rename_i heq; have := hx 'X' (by rw [heq]; simp); simp at this
    · rename_i heq; have := hx 'x' (by rw [heq]; simp); simp at this
    · rename_i heq; have := hx 'X' (by rw [heq]; simp); simp at this
    · rfl
  · simp only [List.cons_append, List.nil_append]
    unfold unprefix
    split
    · rename_i heq; simp at heq; exact absurd heq.1 hu
    · rename_i heq; simp at heq
    · rename_i heq; simpa using heq.symm
    · rename_i heq; simp at heq
    · rename_i h _; exact absurd rfl (h _)
  · simp only [List.cons_append, List.nil_append]
    unfold unprefix
    split
    · rename_i heq; simp at heq
    · rename_i heq; simp at heq; exact absurd heq.1 hu
    · rename_i heq; simp at heq
    · rename_i heq; simpa using heq.symm
    · rename_i h; exact absurd rfl (h _)
  · rfl
  · rfl

theorem prefix_unprefix (t : Text) : ∃ pre : Text,
    (pre = [] ∨ pre = ['0', 'x'] ∨ pre = ['0', 'X'] ∨ pre = ['0', 'x', '_'] ∨ pre = ['0', 'X', '_']) ∧
    t = pre ++ unprefix t := by
  unfold unprefix
  split
  · exact ⟨['0', 'x', '_'], by simp, rfl⟩
  · exact ⟨['0', 'X', '_'], by simp, rfl⟩
  · exact ⟨['0', 'x'], by simp, rfl⟩
  · exact ⟨['0', 'X'], by simp, rfl⟩
  · exact ⟨[], by simp, rfl⟩

/-- The sign of `int(x, 16)`. -/
def unsign (t : Text) : Bool × Text :=
  match t with
  | '-' :: r => (true, r)
  | '+' :: r => (false, r)
  | r => (false, r)

theorem int16_eq (t : Text) : int16 t =
    match digits16 0 (unprefix (unsign t).2) with
    | some n => .ok (if (unsign t).1 then -(n : Int) else n)
    | none => .error .value := rfl

/-- `int(x, 16)` reads exactly the numerals. -/
theorem int16_iff (t : Text) (v : Int) : int16 t = .ok v ↔ Numeral t v := by
  rw [int16_eq]
  constructor
  · intro h
    split at h
    · rename_i n hn
      obtain ⟨gs, hok, ht, hnv⟩ := groups_of_digits16 _ _ _ hn
      obtain ⟨pre, hpre, hpt⟩ := prefix_unprefix (unsign t).2
      simp only [Except.ok.injEq] at h
      have hs : ∃ sign : Text, (sign = [] ∨ sign = ['+'] ∨ sign = ['-']) ∧ t = sign ++ (unsign t).2 ∧
          ((unsign t).1 = true ↔ sign = ['-']) := by
        unfold unsign
        split
        · exact ⟨['-'], by simp, rfl, by simp⟩
        · exact ⟨['+'], by simp, rfl, by simp⟩
        · exact ⟨[], by simp, rfl, by simp⟩
      obtain ⟨sign, hsign, hst, hneg⟩ := hs
      refine ⟨sign, pre, gs, hsign, hpre, hok.1, hok.2, ?_, ?_⟩
      · rw [hst, List.append_assoc]
        congr 1
        rw [hpt, ht]; rfl
      · rw [← h, hnv]
        by_cases hb : (unsign t).1 = true
        · rw [if_pos hb, if_pos (hneg.1 hb)]; simp [ofDigits]
        · rw [if_neg hb, if_neg (fun h => hb (hneg.2 h))]; simp [ofDigits]
    · simp at h
  · rintro ⟨sign, pre, gs, hsign, hpre, hne, hg, rfl, rfl⟩
    have hok : GroupsOK gs := ⟨hne, hg⟩
    change (match digits16 0 (unprefix (unsign (sign ++ pre ++ groupsText gs)).2) with
      | some n => Except.ok (if (unsign (sign ++ pre ++ groupsText gs)).1 then -(n : Int) else n)
      | none => .error PyErr.value) = _
    have hu : unsign (sign ++ pre ++ groupsText gs) = (decide (sign = ['-']), pre ++ groupsText gs) := by
      obtain ⟨c, r, e, hc, hall⟩ := groups_start hok
      have hs : ∀ d ∈ pre ++ groupsText gs, d ≠ '-' ∧ d ≠ '+' := by
        intro d hd
        rcases List.mem_append.1 hd with hd | hd
        · rcases hpre with rfl | rfl | rfl | rfl | rfl <;> simp at hd <;>
            (repeat' rcases hd with rfl | hd) <;> first | decide | (subst hd; decide)
        · rcases hall d hd with h | h
          · constructor <;> intro h' <;> subst h' <;> revert h <;> decide
          · subst h; decide
      rw [List.append_assoc]
      rcases hsign with rfl | rfl | rfl
      · simp only [List.nil_append]
        unfold unsign
        split
        · rename_i heq; have := hs '-' (by rw [heq]; simp); simp at this
        · rename_i heq; have := hs '+' (by rw [heq]; simp); simp at this
        · rfl
      · rfl
      · rfl
    rw [hu]
    simp only [unprefix_groups hok pre hpre, digits16_groups gs hok, decide_eq_true_eq]
    by_cases hb : sign = ['-']
    · simp [hb, ofDigits]
    · simp [hb, ofDigits]

/-! ## Comma-separated bytes -/

theorem splitChar_spec (s : Char) (t : Text) :
    t = [s].intercalate (splitChar s t) ∧ ∀ f ∈ splitChar s t, s ∉ f := by
  induction t with
  | nil => simp [splitChar, List.intercalate]
  | cons c r ih =>
    simp only [splitChar]
    by_cases hc : c = s
    · subst hc
      rw [if_pos rfl]
      cases hs : splitChar c r with
      | nil => exact absurd hs (splitChar_ne _ _)
      | cons h tl =>
        rw [hs] at ih
        refine ⟨?_, ?_⟩
        · conv => lhs; rw [ih.1]
          simp [List.intercalate]
        · intro f hf
          rcases List.mem_cons.1 hf with rfl | hf
          · simp
          · exact ih.2 f hf
    · rw [if_neg hc]
      cases hs : splitChar s r with
      | nil => exact absurd hs (splitChar_ne _ _)
      | cons h tl =>
        rw [hs] at ih
        refine ⟨?_, ?_⟩
        · conv => lhs; rw [ih.1]
          cases tl <;> simp [List.intercalate]
        · intro f hf
          rcases List.mem_cons.1 hf with rfl | hf
          · simp only [List.mem_cons, not_or]
            exact ⟨fun h => hc h.symm, ih.2 h (by simp)⟩
          · exact ih.2 f (by simp [hf])

theorem splitChar_field (s : Char) (f : Text) (hf : s ∉ f) : splitChar s f = [f] := by
  induction f with
  | nil => rfl
  | cons c r ih =>
    simp only [List.mem_cons, not_or] at hf
    simp only [splitChar]
    rw [if_neg (fun h => hf.1 h.symm), ih hf.2]

theorem splitChar_append' (s : Char) (p r : Text) (hp : s ∉ p) :
    splitChar s (p ++ s :: r) = p :: splitChar s r := by
  induction p with
  | nil => simp [splitChar]
  | cons c p ih =>
    simp only [List.mem_cons, not_or] at hp
    have : c ≠ s := fun h => hp.1 h.symm
    simp [splitChar, this, ih hp.2]

theorem splitChar_intercalate (s : Char) (fs : List Text) (hne : fs ≠ []) (h : ∀ f ∈ fs, s ∉ f) :
    splitChar s ([s].intercalate fs) = fs := by
  induction fs with
  | nil => exact absurd rfl hne
  | cons f fs ih =>
    cases fs with
    | nil => simpa [List.intercalate] using splitChar_field s f (h f (by simp))
    | cons g fs =>
      have e : [s].intercalate (f :: g :: fs) = f ++ s :: [s].intercalate (g :: fs) := by
        simp [List.intercalate]
      rw [e, splitChar_append' s f _ (h f (by simp)), ih (by simp) (fun x hx => h x (by simp [hx]))]

theorem tokenBytes_iff (fs : List Text) (bs : List UInt8) :
    tokenBytes fs = .ok bs ↔
      Numerals (fs.filter (fun f => !f.isEmpty)) bs := by
  induction fs generalizing bs with
  | nil =>
    simp only [tokenBytes, List.filter_nil, Except.ok.injEq]
    constructor
    · rintro rfl; trivial
    · intro h
      cases bs with
      | nil => rfl
      | cons b bs => exact absurd h (by simp [Numerals])
  | cons f fs ih =>
    simp only [tokenBytes]
    by_cases he : f.isEmpty = true
    · rw [if_pos he, List.filter_cons_of_neg (by simp [he]), ih]
    · rw [if_neg he, List.filter_cons_of_pos (by simp [he])]
      constructor
      · intro h
        split at h
        · simp at h
        · rename_i v hv
          split at h
          · rename_i hr
            split at h
            · rename_i r hr'
              simp only [Except.ok.injEq] at h
              subst h
              refine ⟨?_, (ih r).1 hr'⟩
              have : ((UInt8.ofNat v.toNat).toNat : Int) = v := by
                simp only [UInt8.toNat_ofNat']
                omega
              rw [this]
              exact (int16_iff f v).1 hv
            · simp at h
          · simp at h
      · intro h
        cases bs with
        | nil => exact absurd h (by simp [Numerals])
        | cons b bs =>
          obtain ⟨h1, h2⟩ := h
          rw [(int16_iff _ _).2 h1]
          have hb := b.toNat_lt
          simp only [(ih bs).2 h2]
          rw [if_pos (by omega)]
          simp

/-- The comma-separated bytes of a text. -/
theorem fieldBytes_iff (t : Text) (bs : List UInt8) :
    tokenBytes (splitChar ',' t) = .ok bs ↔ FieldBytes t bs := by
  rw [tokenBytes_iff]
  constructor
  · intro h
    exact ⟨_, (splitChar_spec ',' t).1, (splitChar_spec ',' t).2, h⟩
  · rintro ⟨fs, rfl, hf, h⟩
    cases fs with
    | nil => exact h
    | cons f fs => rw [splitChar_intercalate _ _ (by simp) hf]; exact h

end Hrdc
