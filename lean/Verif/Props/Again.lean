import Verif.Proofs.Again7
import Verif.Props.Rewritten
import Verif.Props.Written
/-!
# C73: rebuilding settles with the third rebuild, for every document

`Props/Settle.lean` shows that most documents settle with the first rebuild, and documents that do not.  Whatever the
document, nothing changes after the third one.
-/
namespace Hrdc
open Spec Extractor Streamer
open Spec.Script (runScript)

/-- The items after `n` rebuilds, if all of them succeed. -/
def rebuiltItems (known : Int → Bool) : Nat → List SItem → Option (List SItem)
  | 0, xs => some xs
  | n + 1, xs => (rewritten known xs).bind (rebuiltItems known n)

/-- **C73, every stream.** From the third rebuild on, rebuilding gives the same items every time, or does not succeed. -/
theorem C73_third_items (known : Int → Bool) (xs : List SItem) (n : Nat) (hn : 3 ≤ n) :
    rebuiltItems known n xs = rebuiltItems known 3 xs := by
  obtain ⟨n, rfl⟩ : ∃ m, n = m + 3 := ⟨n - 3, by omega⟩
  simp only [rebuiltItems]
  cases h1 : rewritten known xs with
  | none => rfl
  | some r1 =>
    cases h2 : rewritten known r1 with
    | none => simp [h2]
    | some r2 =>
      cases h3 : rewritten known r2 with
      | none => simp [h2, h3]
      | some r3 =>
        simp only [h2, h3, Option.bind_some]
        have h := Thrice.third h1 h2 h3
        induction n with
        | zero => rfl
        | succ n ih => rw [rebuiltItems, h, Option.bind_some, ih (by omega)]

/-- **C73, is there a third one.** After two rebuilds a third succeeds if and only if a collection is left. -/
theorem C73_third_items_iff (known : Int → Bool) (xs r1 r2 : List SItem) (h1 : rewritten known xs = some r1)
    (h2 : rewritten known r1 = some r2) : (∃ r3, rewritten known r2 = some r3) ↔ ∃ x ∈ r2, x.1 = .endCollection :=
  Thrice.goes_on h1 h2

/-- Decompiling a document in format `f` and compiling the tree without optimization in format `g`, if both succeed. -/
def rebuiltDoc (reg reg' : Registry) (f g : Formatter.Fmt) (uni : Parser.Uni) (d : Formatter.Doc) : Option Formatter.Doc :=
  match Formatter.deliver f reg uni d with
  | (xs, none) =>
    match extract reg xs with
    | .ok t =>
      match Compiler.main reg' g false t with
      | .ok d' => some d'
      | .error _ => none
    | .error _ => none
  | _ => none

theorem rebuiltDoc_some {reg reg' : Registry} {f g : Formatter.Fmt} {uni : Parser.Uni} {d d' : Formatter.Doc}
    (h : rebuiltDoc reg reg' f g uni d = some d') : ∃ t, (Formatter.deliver f reg uni d).2 = none ∧
      extract reg (Formatter.deliver f reg uni d).1 = .ok t ∧ Compiler.main reg' g false t = .ok d' := by
  unfold rebuiltDoc at h
  split at h
  · rename_i xs hd
    split at h
    · rename_i t ht
      split at h
      · rename_i e he
        simp only [Option.some.injEq] at h
        subst h
        exact ⟨t, by rw [hd], by rw [hd]; exact ht, he⟩
      · simp at h
    · simp at h
  · simp at h

/-- **C73, every document.** Rebuild a document, in any format, to bytes or hex, and rebuild the result twice more: when this
succeeds, rebuilding once more gives the very same document. -/
theorem C73_third (reg reg' : Registry) (f g : Formatter.Fmt) (hg : g ≠ .code) (uni : Parser.Uni) (d d1 d2 d3 : Formatter.Doc)
    (h1 : rebuiltDoc reg reg' f g uni d = some d1) (h2 : rebuiltDoc reg reg' g g uni d1 = some d2)
    (h3 : rebuiltDoc reg reg' g g uni d2 = some d3) : rebuiltDoc reg reg' g g uni d3 = some d3 := by
  obtain ⟨t1, -, x1, c1⟩ := rebuiltDoc_some h1
  obtain ⟨t2, -, x2, c2⟩ := rebuiltDoc_some h2
  obtain ⟨t3, -, x3, c3⟩ := rebuiltDoc_some h3
  obtain ⟨k1, a1, -, a3, -⟩ := C73_iff reg reg' f g hg uni d t1 x1 d1 c1
  obtain ⟨k2, b1, -, b3, -⟩ := C73_iff reg reg' g g hg uni d1 t2 x2 d2 c2
  obtain ⟨k3, e1, e2, e3, e4⟩ := C73_iff reg reg' g g hg uni d2 t3 x3 d3 c3
  rw [a3] at b1
  rw [b3] at e1
  obtain ⟨t, q1, q2⟩ := e4.2 (Thrice.third a1 b1 e1)
  unfold rebuiltDoc
  have hd : Formatter.deliver g reg uni d3 = ((Formatter.deliver g reg uni d3).1, none) := by rw [← e2]
  rw [hd]
  simp only [q1, q2]

/-- The document after `n` more rebuilds. -/
def rebuiltDocs (reg reg' : Registry) (g : Formatter.Fmt) (uni : Parser.Uni) : Nat → Formatter.Doc → Option Formatter.Doc
  | 0, d => some d
  | n + 1, d => (rebuiltDoc reg reg' g g uni d).bind (rebuiltDocs reg reg' g uni n)

/-- **C73, every document, however often.** From the third rebuild on the document stays the same, or there is none. -/
theorem C73_third_on (reg reg' : Registry) (f g : Formatter.Fmt) (hg : g ≠ .code) (uni : Parser.Uni) (d : Formatter.Doc) (n : Nat)
    (hn : 2 ≤ n) : (rebuiltDoc reg reg' f g uni d).bind (rebuiltDocs reg reg' g uni n) =
      (rebuiltDoc reg reg' f g uni d).bind (rebuiltDocs reg reg' g uni 2) := by
  obtain ⟨n, rfl⟩ : ∃ m, n = m + 2 := ⟨n - 2, by omega⟩
  cases h1 : rebuiltDoc reg reg' f g uni d with
  | none => rfl
  | some d1 =>
    simp only [rebuiltDocs, Option.bind_some]
    cases h2 : rebuiltDoc reg reg' g g uni d1 with
    | none => rfl
    | some d2 =>
      cases h3 : rebuiltDoc reg reg' g g uni d2 with
      | none => simp [h3]
      | some d3 =>
        simp only [h3, Option.bind_some]
        have h := C73_third reg reg' f g hg uni d d1 d2 d3 h1 h2 h3
        induction n with
        | zero => rfl
        | succ n ih => rw [rebuiltDocs, h, Option.bind_some, ih (by omega)]

/-- What rebuilding may add fits in 32 bits. -/
theorem small_fits : Thrice.Small (fun k => Spec.Fits k.1 4 k.2) where
  count := by rw [fits_unsigned (by decide)]; decide
  size g h0 h8 := by
    show Spec.Fits .reportSize 4 g
    rw [fits_unsigned (by decide)]
    simp only [unsigned32, Bool.and_eq_true, decide_eq_true_eq]
    omega
  pad w hw := by
    cases w <;> simp [Cls.isData] at hw <;> (rw [fits_unsigned (by decide)]; decide)
  shut := fits_zero _

/-- **C73, is there a third one, documents.** Rebuild a document, in any format, to bytes or hex, and rebuild the result.  A
third rebuild succeeds if and only if the document has a collection left.  (Numbers are never in the way: a third rebuild
writes none that was not there.) -/
theorem C73_third_iff (reg reg' : Registry) (f g : Formatter.Fmt) (hg : g ≠ .code) (uni : Parser.Uni) (d d1 d2 : Formatter.Doc)
    (h1 : rebuiltDoc reg reg' f g uni d = some d1) (h2 : rebuiltDoc reg reg' g g uni d1 = some d2) :
    (∃ d3, rebuiltDoc reg reg' g g uni d2 = some d3) ↔ ∃ i ∈ (Formatter.deliver g reg uni d2).1, i.cls = .endCollection := by
  obtain ⟨t1, -, x1, c1⟩ := rebuiltDoc_some h1
  obtain ⟨t2, -, x2, c2⟩ := rebuiltDoc_some h2
  obtain ⟨k1, a1, -, a3, -⟩ := C73_iff reg reg' f g hg uni d t1 x1 d1 c1
  obtain ⟨k2, b1, b2, b3, -⟩ := C73_iff reg reg' g g hg uni d1 t2 x2 d2 c2
  rw [a3] at b1
  have hgo := Thrice.goes_on a1 b1
  have hends : (∃ x ∈ k2, x.1 = .endCollection) ↔ ∃ i ∈ (Formatter.deliver g reg uni d2).1, i.cls = .endCollection := by
    rw [← b3]
    simp only [keys, List.mem_map]
    constructor
    · rintro ⟨x, ⟨i, hi, rfl⟩, hx⟩; exact ⟨i, hi, hx⟩
    · rintro ⟨i, hi, hx⟩; exact ⟨i.key, ⟨i, hi, rfl⟩, hx⟩
  rw [← hends, ← hgo]
  constructor
  · rintro ⟨d3, h3⟩
    obtain ⟨t3, -, x3, c3⟩ := rebuiltDoc_some h3
    obtain ⟨k3, e1, -⟩ := C73_iff reg reg' g g hg uni d2 t3 x3 d3 c3
    rw [b3] at e1
    exact ⟨k3, e1⟩
  · rintro ⟨k3, e1⟩
    have hfit : ∀ x ∈ k2, Spec.Fits x.1 4 x.2 := by
      obtain ⟨is, m1, m2⟩ := main_items c2
      obtain ⟨b, hb⟩ := binary_of_render g m2
      rw [← b3, (render_delivers (reg := reg) (compile_made m1) hg uni m2).2]
      exact readAll_fits b.length b (Nat.le_refl _) (readAll_binary (compile_made m1) hb)
    have hfit := Thrice.adds_none small_fits a1 b1 e1 hfit
    have h4 := C42_document_items_iff reg reg' g uni d2 k3
    simp only at h4
    rw [b3] at h4
    obtain ⟨t, is, q1, q2, q3⟩ := h4.2 e1
    obtain ⟨b, hb⟩ := binary_of_fits (compile_made q2) (fun i hi => hfit i.key (q3 ▸ List.mem_map_of_mem hi))
    obtain ⟨d3, hd3⟩ := render_of_binary g hb
    refine ⟨d3, ?_⟩
    unfold rebuiltDoc
    have hd : Formatter.deliver g reg uni d2 = ((Formatter.deliver g reg uni d2).1, none) := by rw [← b2]
    rw [hd]
    have : Compiler.main reg' g false t = .ok d3 := by
      unfold Compiler.main
      rw [q2]
      simpa using hd3
    simp only [q1, this]

/-- **C73, what becomes of every document.** Of a document that can be rebuilt twice either no collection is left, and it cannot
be rebuilt any more, or rebuilding it any number of times more gives one and the same document. -/
theorem C73_outcome (reg reg' : Registry) (f g : Formatter.Fmt) (hg : g ≠ .code) (uni : Parser.Uni) (d d1 d2 : Formatter.Doc)
    (h1 : rebuiltDoc reg reg' f g uni d = some d1) (h2 : rebuiltDoc reg reg' g g uni d1 = some d2) :
    ((∀ i ∈ (Formatter.deliver g reg uni d2).1, i.cls ≠ .endCollection) ∧ rebuiltDoc reg reg' g g uni d2 = none) ∨
    ((∃ i ∈ (Formatter.deliver g reg uni d2).1, i.cls = .endCollection) ∧
      ∃ d3, ∀ n, rebuiltDocs reg reg' g uni (n + 1) d2 = some d3) := by
  have hiff := C73_third_iff reg reg' f g hg uni d d1 d2 h1 h2
  cases h3 : rebuiltDoc reg reg' g g uni d2 with
  | none =>
    left
    refine ⟨fun i hi he => ?_, rfl⟩
    obtain ⟨d3, hd3⟩ := hiff.2 ⟨i, hi, he⟩
    rw [h3] at hd3
    simp at hd3
  | some d3 =>
    right
    refine ⟨hiff.1 ⟨d3, h3⟩, d3, fun n => ?_⟩
    rw [rebuiltDocs, h3, Option.bind_some]
    have h := C73_third reg reg' f g hg uni d d1 d2 d3 h1 h2 h3
    induction n with
    | zero => rfl
    | succ n ih => rw [rebuiltDocs, h, Option.bind_some, ih]

/-- Decompiling a document, running the script and compiling what it describes without optimization. -/
def commandsDoc (reg reg' : Registry) (f g : Formatter.Fmt) (uni : Parser.Uni) (d : Formatter.Doc) : Option Formatter.Doc :=
  match Decompiler.main reg f uni d with
  | .ok s =>
    match runScript UsageTable.lookup s with
    | some m =>
      match Compiler.main reg' g false m with
      | .ok d' => some d'
      | .error _ => none
    | none => none
  | .error _ => none

/-- The script of the document expresses what was decompiled. -/
def Told (reg : Registry) (f : Formatter.Fmt) (uni : Parser.Uni) (d : Formatter.Doc) : Prop :=
  ∀ t, extract reg (Formatter.deliver f reg uni d).1 = .ok t → ∀ k ∈ tokens t, Expressible k

theorem commandsDoc_eq (reg reg' : Registry) (hreg : Imported reg) (f g : Formatter.Fmt) (hg : g ≠ .code) (uni : Parser.Uni)
    (d : Formatter.Doc) (he : Told reg f uni d) : commandsDoc reg reg' f g uni d = rebuiltDoc reg reg f g uni d := by
  unfold commandsDoc rebuiltDoc
  cases hd : Formatter.deliver f reg uni d with
  | mk xs e =>
    cases e with
    | some e =>
      have : ∃ e', Decompiler.main reg f uni d = .error e' := by
        unfold Decompiler.main
        rw [hd]
        cases runFrom reg {} xs with
        | error e' => exact ⟨e', rfl⟩
        | ok st => exact ⟨e, rfl⟩
      obtain ⟨e', h⟩ := this
      rw [h]
    | none =>
      simp only
      cases hx : extract reg xs with
      | error e =>
        have : Decompiler.main reg f uni d = .error e := by rw [main_delivered reg f uni d xs hd, hx]
        rw [this]
      | ok t =>
        obtain ⟨s, g1, m, g2, -, g5⟩ := C44_command_partial reg hreg f uni d xs hd t hx (he t (by rw [hd]; exact hx))
        rw [g1]
        simp only [g2, g5 reg' g false hg]

/-- **C73, every document, the commands.** Decompile a document, run the script and compile it without optimization, to bytes or
hex; do this three times.  When the scripts express what was decompiled, doing it once more gives the very same document. -/
theorem C73_commands_third (reg reg' : Registry) (hreg : Imported reg) (f g : Formatter.Fmt) (hg : g ≠ .code) (uni : Parser.Uni)
    (d d1 d2 d3 : Formatter.Doc) (e0 : Told reg f uni d) (e1 : Told reg g uni d1) (e2 : Told reg g uni d2) (e3 : Told reg g uni d3)
    (h1 : commandsDoc reg reg' f g uni d = some d1) (h2 : commandsDoc reg reg' g g uni d1 = some d2)
    (h3 : commandsDoc reg reg' g g uni d2 = some d3) : commandsDoc reg reg' g g uni d3 = some d3 := by
  rw [commandsDoc_eq reg reg' hreg f g hg uni d e0] at h1
  rw [commandsDoc_eq reg reg' hreg g g hg uni d1 e1] at h2
  rw [commandsDoc_eq reg reg' hreg g g hg uni d2 e2] at h3
  rw [commandsDoc_eq reg reg' hreg g g hg uni d3 e3]
  exact C73_third reg reg f g hg uni d d1 d2 d3 h1 h2 h3

/-! ## Examples -/

/-- A field with two usages and one value, in a NamedArray collection: first the second usage is lost; then the field looks
like a named array, and is read as one; then its usage turns out to be unknown. -/
def threefold : List SItem := [(.usage, 0x10030), (.collection, 4), (.reportCount, 1), (.usage, 0x10031), (.usage, 0x10032),
  (.input, 2), (.endCollection, 0)]

/-- **C73, two rebuilds do not do.** Here three are needed. -/
theorem C73_two_break : ∃ r2 r3, rebuiltItems (fun _ => false) 2 threefold = some r2 ∧
    rebuiltItems (fun _ => false) 3 threefold = some r3 ∧ r2 ≠ r3 :=
  ⟨_, _, rfl, rfl, by decide +kernel⟩

/-- No character is a letter or a space outside ASCII. -/
def plainUni : Parser.Uni := ⟨fun _ => false, fun _ => false⟩

/-- The document of these items, rebuilt twice and three times. -/
def twiceThrice (xs : List SItem) : Option (Formatter.Doc × Formatter.Doc) :=
  match Formatter.render .binary (build! xs) with
  | .ok d =>
    match rebuiltDocs [] [] .binary plainUni 2 d, rebuiltDocs [] [] .binary plainUni 3 d with
    | some a, some b => some (a, b)
    | _, _ => none
  | .error _ => none

/-- **C73, two rebuilds do not do, documents.** All three rebuilds of this document succeed (so it meets the hypotheses of
`C73_third`), and the third still changes it. -/
theorem C73_two_break_document : (match twiceThrice threefold with
    | some (a, b) => decide (a ≠ b)
    | none => false) = true := by
  decide +kernel

/-- The document of these items cannot be rebuilt `n` times. -/
def refusedAt (xs : List SItem) (n : Nat) : Bool :=
  match Formatter.render .binary (build! xs) with
  | .ok d => (rebuiltDocs [] [] .binary plainUni n d).isNone
  | .error _ => false

/-- A document whose only collection holds a padding of no bits: the collection is lost with the second rebuild. -/
def losing : List SItem := [(.reportCount, 2), (.input, 0), (.usage, 0x10030), (.collection, 1), (.input, 1), (.endCollection, 0)]

/-- **C73 counterexample.** Two rebuilds succeed, the third does not. -/
theorem C73_lost_breaks : (build! losing).length = losing.length ∧ refusedAt losing 2 = false ∧ refusedAt losing 3 = true := by
  decide +kernel

/-- Two fields in a NamedArray collection: each is written on its own, and looks like a named array that is not alone. -/
def crowded : List SItem := [(.usage, 0x10031), (.reportCount, 2), (.collection, 4), (.usage, 0x10030), (.input, 2),
  (.endCollection, 0)]

/-- **C73 counterexample.** After one rebuild a collection is left, and yet there is no second: `C73_third_iff` needs two. -/
theorem C73_crowded_breaks : (build! crowded).length = crowded.length ∧ refusedAt crowded 1 = false ∧
    refusedAt crowded 2 = true ∧
    (match rebuiltItems (fun _ => false) 1 crowded with
      | some r => r.any (fun x => x.1 == .endCollection)
      | none => false) = true := by
  decide +kernel

end Hrdc
