import Verif.Spec.Layout
import Verif.Props.Streams
import Verif.Props.Formats
/-!
# C71: the texts written
-/
namespace Hrdc
open Parser

theorem hex2_pair (b : UInt8) : hex2 b = Spec.digitPair b := by
  have h : ∀ n : Fin 256, hex2 (UInt8.ofNat n) = Spec.digitPair (UInt8.ofNat n) := by decide +kernel
  have := h ⟨b.toNat, b.toNat_lt⟩
  simpa using this

theorem pyJoin_intercalate (s : Text) (l : List Text) : pyJoin s l = s.intercalate l := by
  induction l with
  | nil => rfl
  | cons a l ih =>
    cases l with
    | nil => simp [pyJoin, List.intercalate]
    | cons b l =>
      rw [pyJoin, ih]
      simp [List.intercalate, List.intersperse]

/-- The bytes of each item. -/
def Parts : List Item → List (List UInt8) → Prop
  | [], [] => True
  | i :: l, b :: bs => i.bytes = .ok b ∧ Parts l bs
  | _, _ => False

/-- **C71.** The hex text is one line per item: two lower-case digits per byte, single spaces between. -/
theorem C71_hex (l : List Item) (t : Text) :
    Formatter.hex l = .ok t ↔ ∃ bs, Parts l bs ∧ t = (bs.map Spec.hexRow).flatten := by
  have e : ∀ b : List UInt8, pyJoin [' '] (b.map hex2) ++ ['\n'] = Spec.hexRow b := by
    intro b
    rw [pyJoin_intercalate, Spec.hexRow]
    congr 3
    exact funext hex2_pair
  induction l generalizing t with
  | nil =>
    simp only [Formatter.hex, Except.ok.injEq]
    constructor
    · rintro rfl; exact ⟨[], trivial, rfl⟩
    · rintro ⟨bs, h, rfl⟩
      cases bs with
      | nil => rfl
      | cons => exact h.elim
  | cons i l ih =>
    simp only [Formatter.hex]
    constructor
    · intro h
      split at h
      · rename_i b r hb hr
        obtain ⟨bs, h1, h2⟩ := (ih r).1 hr
        refine ⟨b :: bs, ⟨hb, h1⟩, ?_⟩
        simp only [Except.ok.injEq] at h
        rw [← h, h2, List.map_cons, List.flatten_cons, ← e]
        simp
      · simp at h
      · simp at h
    · rintro ⟨bs, h, rfl⟩
      cases bs with
      | nil => exact h.elim
      | cons b bs =>
        rw [h.1, (ih _).2 ⟨bs, h.2, rfl⟩]
        simp only [Except.ok.injEq, List.map_cons, List.flatten_cons, ← e]
        simp

theorem bytes_length {i : Item} {b : List UInt8} (h : i.bytes = .ok b) : 1 ≤ b.length ∧ b.length ≤ 5 := by
  obtain ⟨-, ⟨-, rfl⟩ | ⟨p, h0, hp, rfl⟩⟩ := bytes_ok h
  · simp
  · have : p.length = Item.payloadLen i.sizeCode := by
      unfold Item.pack at hp
      split at hp <;> split at hp <;> simp at hp <;> rw [← hp] <;> simp [leBytes_length]
    have : Item.payloadLen i.sizeCode ≤ 4 := by unfold Item.payloadLen; split <;> omega
    simp; omega

theorem code_bytes (b : List UInt8) (hb : b ≠ []) :
    pyJoin [',', ' '] (b.map (fun x => '0' :: 'x' :: hex2 x)) ++ [','] = [' '].intercalate (b.map Spec.cByte) := by
  induction b with
  | nil => exact absurd rfl hb
  | cons x b ih =>
    cases b with
    | nil => simp [pyJoin, List.intercalate, Spec.cByte, hex2_pair]
    | cons y b =>
      have := ih (by simp)
      rw [← pyJoin_intercalate] at this ⊢
      simp only [List.map_cons, pyJoin] at this ⊢
      rw [← this]
      simp [Spec.cByte, hex2_pair]

theorem code_bytes_length (b : List UInt8) (hb : b ≠ []) :
    ([' '].intercalate (b.map Spec.cByte)).length = 6 * b.length - 1 := by
  rw [← pyJoin_intercalate]
  induction b with
  | nil => exact absurd rfl hb
  | cons x b ih =>
    cases b with
    | nil => simp [pyJoin, Spec.cByte, Spec.digitPair]
    | cons y b =>
      have := ih (by simp)
      simp only [List.map_cons, List.length_cons] at this ⊢
      rw [pyJoin, List.length_append, List.length_append, this]
      simp [Spec.cByte, Spec.digitPair]
      omega

/-- The part of a line before the comment. -/
theorem code_head {i : Item} {b : List UInt8} (h : i.bytes = .ok b) :
    List.replicate 5 ' ' ++ Formatter.ljust 30 (pyJoin [',', ' '] (b.map (fun x => '0' :: 'x' :: hex2 x)) ++ [',']) ++ [' ']
      = Spec.codeHead b ∧ (Spec.codeHead b).length = 36 := by
  have hl := bytes_length h
  have hne : b ≠ [] := by intro h0; subst h0; simp at hl
  have hn := code_bytes_length b hne
  rw [code_bytes b hne]
  unfold Spec.codeHead Formatter.ljust
  constructor
  · have e : 31 - ([' '].intercalate (b.map Spec.cByte)).length =
        (30 - ([' '].intercalate (b.map Spec.cByte)).length) + 1 := by omega
    simp only [e, List.replicate_succ']
    simp
  · simp only [List.length_append, List.length_replicate, hn]
    omega

theorem code_layout (indent : Int) (l : List Item) (t : Text) (h : Formatter.codeFrom indent l = .ok t) :
    ∃ lines : List Text, lines.flatten = t ∧ lines.length = l.length ∧
      ∀ k, (hk : k < l.length) → ∃ b, l[k].bytes = .ok b ∧ (Spec.codeHead b).length = 36 ∧
        lines[k]? = some (Spec.codeHead b ++ ['/', '/', ' ']
          ++ List.replicate (4 * (indent + Spec.shownDepth (l.take k) l[k])).toNat ' ' ++ l[k].str ++ ['\n']) := by
  induction l generalizing indent t with
  | nil => simp [Formatter.codeFrom] at h; subst h; exact ⟨[], rfl, rfl, by simp⟩
  | cons i l ih =>
    simp only [Formatter.codeFrom] at h
    split at h
    · rename_i b r hb hr
      simp only [Except.ok.injEq] at h
      obtain ⟨lines, h1, h2, h3⟩ := ih _ _ hr
      refine ⟨Formatter.codeLine (Formatter.indentBefore indent i) b i.str :: lines, by simp [h1, h], by simp [h2], ?_⟩
      intro k hk
      cases k with
      | zero =>
        obtain ⟨c1, c2⟩ := code_head hb
        refine ⟨b, by simpa using hb, c2, ?_⟩
        have e : Formatter.indentBefore indent i * 4 = 4 * (indent + Spec.shownDepth ((i :: l).take 0) i) := by
          simp only [Formatter.indentBefore, Spec.shownDepth, List.take_zero, Spec.openCount,
            List.filter_nil, List.length_nil]
          split <;> omega
        rw [← c1]
        simp only [Formatter.codeLine, Formatter.spaces, e, List.getElem?_cons_zero, List.getElem_cons_zero]
        simp
      | succ k =>
        obtain ⟨b', e1, e2, e3⟩ := h3 k (by simpa using hk)
        refine ⟨b', by simpa using e1, e2, ?_⟩
        simp only [List.getElem?_cons_succ, List.getElem_cons_succ, List.take_succ_cons]
        rw [e3]
        congr 4
        unfold Spec.shownDepth Formatter.indentAfter Formatter.indentBefore
        rw [openCount_cons]
        by_cases c1 : i.cls = .collection
        · simp [c1]; split <;> omega
        · by_cases c2 : i.cls = .endCollection
          · simp [c2]; split <;> omega
          · simp [c1, c2]
    · simp at h
    · simp at h

/-- **C71.** The code text is one line per item: its bytes from column 5, as C constants each followed by a comma,
and from column 36 a comment that shows the item, indented by four columns per open collection. -/
theorem C71_code (l : List Item) (t : Text) (h : Formatter.code l = .ok t) :
    ∃ lines : List Text, lines.flatten = t ∧ lines.length = l.length ∧
      ∀ k, (hk : k < l.length) → ∃ b, l[k].bytes = .ok b ∧ (Spec.codeHead b).length = 36 ∧
        lines[k]? = some (Spec.codeHead b ++ ['/', '/', ' ']
          ++ List.replicate (4 * Spec.shownDepth (l.take k) l[k]).toNat ' ' ++ l[k].str ++ ['\n']) := by
  simpa using code_layout 0 l t h

/-- **C71.** For a C compiler, which drops comments and white space, the text is exactly the list of the bytes. -/
theorem C71_c_initializer (uni : Char → Bool) (l : List Item) (t : Text) (b : List UInt8)
    (hn : ∀ i ∈ l, '\n' ∉ i.str) (h : Formatter.code l = .ok t) (hb : Formatter.binary l = .ok b) :
    Spec.tidy .code t = true ∧ Spec.stripC (Spec.space uni) .code t = b.flatMap Spec.cByte := by
  have := code_text uni 0 l t b hn h hb
  rw [isSpace_spec] at this
  refine ⟨this.1, this.2.trans ?_⟩
  unfold toks
  congr 1
  funext x
  simp [Spec.cByte, hex2_pair]

example : Formatter.hex [⟨.usagePage, .int 0xffab⟩, ⟨.endCollection, .int 0⟩] = .ok (tx "06 ab ff\nc0\n") ∧
    Parts [⟨.usagePage, .int 0xffab⟩, ⟨.endCollection, .int 0⟩] [[0x06, 0xab, 0xff], [0xc0]] := by
  constructor
  · decide +kernel
  · exact ⟨by decide +kernel, by decide +kernel, trivial⟩

example : Spec.codeHead [0x06, 0xab, 0xff] = tx "     0x06, 0xab, 0xff,              " := by decide +kernel

example : (∀ i ∈ [(⟨.usagePage, .int 0xffab⟩ : Item)], '\n' ∉ i.str) ∧
    (∃ t, Formatter.code [⟨.usagePage, .int 0xffab⟩] = .ok t) ∧
    Formatter.binary [⟨.usagePage, .int 0xffab⟩] = .ok [0x06, 0xab, 0xff] :=
  ⟨by decide +kernel, ⟨_, rfl⟩, by decide +kernel⟩

end Hrdc
