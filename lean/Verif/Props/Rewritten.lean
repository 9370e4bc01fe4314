import Verif.Proofs.Rewritten
import Verif.Props.Recompile
import Verif.Props.Settle
import Verif.Props.Scripts
import Verif.Props.Joined
/-!
# C42, C73: the items a rebuilt document consists of

`written` and `rewritten` (`Spec/Rewritten.lean`) say item by item what a decompiled stream is compiled to, for every stream.
-/
namespace Hrdc
open Spec Extractor Streamer
open Spec.Script (runScript)

theorem written_of {reg reg' : Registry} {xs : List Item} (hm : ∀ i ∈ xs, i.Made) (hu : KindsOf reg xs) (ks : List SItem) :
    (∃ t items, extract reg xs = .ok t ∧ compile reg' t = .ok items ∧ keys items = ks) ↔
      rewritten (arrayUsage reg) (keys xs) = some ks := by
  have h := extract_written xs hm hu
  unfold rewritten
  cases hb : blocks (arrayUsage reg) (keys xs) with
  | error e =>
    rw [hb] at h
    have h : extract reg xs = .error e.raised := h
    simp [h]
  | ok bs =>
    rw [hb] at h
    obtain ⟨t, h1, -, h2, h3⟩ := h
    constructor
    · rintro ⟨t', items, e1, e2, rfl⟩
      rw [h1] at e1
      cases e1
      have := (C59_compiles_iff reg' t).1 ⟨items, e2⟩
      rw [h2] at this
      simp only
      rw [if_pos this, h3 reg' items e2]
    · intro h
      simp only at h
      split at h
      · rename_i hall
        simp only [Option.some.injEq] at h
        obtain ⟨items, hi⟩ := (C59_compiles_iff reg' t).2 (h2.trans hall)
        exact ⟨t, items, h1, hi, (h3 reg' items hi).trans h⟩
      · simp at h

/-- **C42, exactly, item by item.** A stream that is decompiled and compiled without optimization succeeds, and gives these
items, in exactly the cases `rewritten` says. -/
theorem C42_items_iff (reg reg' : Registry) (xs : List Item) (hm : ∀ i ∈ xs, i.Made)
    (hk : ∀ i ∈ xs, i.cls = .usage → kindKnown reg i.val = true) (ks : List SItem) :
    (∃ t items, extract reg xs = .ok t ∧ compile reg' t = .ok items ∧ keys items = ks) ↔
      rewritten (arrayUsage reg) (keys xs) = some ks :=
  written_of hm (kinds_of hk) ks

/-- **C42, exactly, item by item, documents.** The same for what is read from any document, in any format. -/
theorem C42_document_items_iff (reg reg' : Registry) (f : Formatter.Fmt) (uni : Parser.Uni) (d : Formatter.Doc) (ks : List SItem) :
    let xs := (Formatter.deliver f reg uni d).1
    (∃ t items, extract reg xs = .ok t ∧ compile reg' t = .ok items ∧ keys items = ks) ↔
      rewritten (arrayUsage reg) (keys xs) = some ks :=
  written_of (fun i hi => (deliver_read f reg uni d i hi).2) (read_kinds (fun i hi => (deliver_read f reg uni d i hi).1)) ks

/-- A document written from items is read as these. -/
theorem render_delivers {reg : Registry} {is : List Item} (hmade : ∀ i ∈ is, i.Made) {g : Formatter.Fmt} (hg : g ≠ .code)
    (uni : Parser.Uni) {d' : Formatter.Doc} (hd' : Formatter.render g is = .ok d') :
    (Formatter.deliver g reg uni d').2 = none ∧ keys (Formatter.deliver g reg uni d').1 = keys is := by
  cases g with
  | code => exact absurd rfl hg
  | binary =>
    simp only [Formatter.render] at hd'
    cases hb : Formatter.binary is with
    | error e => rw [hb] at hd'; simp [Except.map] at hd'
    | ok b =>
      rw [hb] at hd'
      simp only [Except.map, Except.ok.injEq] at hd'
      subst hd'
      exact C07_stream_roundtrip reg is hmade b hb
  | hex =>
    simp only [Formatter.render] at hd'
    cases hb : Formatter.hex is with
    | error e => rw [hb] at hd'; simp [Except.map] at hd'
    | ok b =>
      rw [hb] at hd'
      simp only [Except.map, Except.ok.injEq] at hd'
      subst hd'
      exact C07_stream_roundtrip reg is hmade _ (C11_hex_roundtrip uni.word is b hb)

theorem render_same {is js : List Item} (hi : ∀ i ∈ is, i.Made) (hj : ∀ i ∈ js, i.Made) (h : keys is = keys js)
    {g : Formatter.Fmt} (hg : g ≠ .code) : Formatter.render g is = Formatter.render g js := by
  cases g with
  | code => exact absurd rfl hg
  | binary => rw [Formatter.render, Formatter.render, binary_congr hi hj h]
  | hex => rw [Formatter.render, Formatter.render, hex_congr hi hj h]

/-- The document a tree is compiled to, as items. -/
theorem main_items {reg : Registry} {g : Formatter.Fmt} {t : Node} {d' : Formatter.Doc}
    (h : Compiler.main reg g false t = .ok d') : ∃ is, compile reg t = .ok is ∧ Formatter.render g is = .ok d' := by
  unfold Compiler.main at h
  cases hc : compile reg t with
  | error e => rw [hc] at h; simp at h
  | ok is =>
    rw [hc] at h
    exact ⟨is, rfl, by simpa using h⟩

/-- **C73, exactly.** Decompile any document, in any format, and compile the tree without optimization, to bytes or hex: the
document that is written reads as the items `rewritten` says; decompiling and compiling this again gives the same document
if and only if `rewritten` leaves these items alone. -/
theorem C73_iff (reg reg' : Registry) (f g : Formatter.Fmt) (hg : g ≠ .code) (uni : Parser.Uni) (d : Formatter.Doc) (t : Node)
    (h : extract reg (Formatter.deliver f reg uni d).1 = .ok t) (d' : Formatter.Doc)
    (hc : Compiler.main reg' g false t = .ok d') :
    ∃ ks, rewritten (arrayUsage reg) (keys (Formatter.deliver f reg uni d).1) = some ks ∧
      (Formatter.deliver g reg uni d').2 = none ∧ keys (Formatter.deliver g reg uni d').1 = ks ∧
      ((∃ t', extract reg (Formatter.deliver g reg uni d').1 = .ok t' ∧ Compiler.main reg' g false t' = .ok d') ↔
        rewritten (arrayUsage reg) ks = some ks) := by
  obtain ⟨is, hc, hr⟩ := main_items hc
  have h1 := (C42_document_items_iff reg reg' f uni d (keys is)).1 ⟨t, is, h, hc, rfl⟩
  obtain ⟨h2, h3⟩ := render_delivers (reg := reg) (compile_made hc) hg uni hr
  refine ⟨keys is, h1, h2, h3, ?_⟩
  have h4 := C42_document_items_iff reg reg' g uni d' (keys is)
  simp only at h4
  rw [h3] at h4
  rw [← h4]
  constructor
  · rintro ⟨t', e1, e2⟩
    obtain ⟨is', e3, e4⟩ := main_items e2
    refine ⟨t', is', e1, e3, ?_⟩
    rw [← (render_delivers (reg := reg) (compile_made e3) hg uni e4).2, h3]
  · rintro ⟨t', is', e1, e2, e3⟩
    refine ⟨t', e1, ?_⟩
    unfold Compiler.main
    rw [e2]
    simp only [Bool.false_eq_true, if_false]
    rw [render_same (compile_made e2) (compile_made hc) e3 hg]
    exact hr

/-- **C73, exactly, the commands.** Decompile a document, run the script and compile it without optimization, to bytes or hex,
twice: when the scripts express what was decompiled, the second document is the first one again if and only if `rewritten`
leaves the items of the first alone. -/
theorem C73_commands_iff (reg reg' : Registry) (hreg : Imported reg) (f g : Formatter.Fmt) (hg : g ≠ .code) (uni : Parser.Uni)
    (d : Formatter.Doc) (xs : List Item) (hd : Formatter.deliver f reg uni d = (xs, none)) (t : Node) (h : extract reg xs = .ok t)
    (he : ∀ k ∈ tokens t, Expressible k) :
    ∃ s m, Decompiler.main reg f uni d = .ok s ∧ runScript UsageTable.lookup s = some m ∧
      ∀ d', Compiler.main reg' g false m = .ok d' →
        (∀ t', extract reg (Formatter.deliver g reg uni d').1 = .ok t' → ∀ k ∈ tokens t', Expressible k) →
        ∃ ks, rewritten (arrayUsage reg) (keys xs) = some ks ∧
        ((∃ s' m', Decompiler.main reg g uni d' = .ok s' ∧ runScript UsageTable.lookup s' = some m' ∧
          Compiler.main reg' g false m' = .ok d') ↔ rewritten (arrayUsage reg) ks = some ks) := by
  obtain ⟨s, g1, m, g2, -, g5⟩ := C44_command_partial reg hreg f uni d xs hd t h he
  refine ⟨s, m, g1, g2, ?_⟩
  intro d' hd' he'
  rw [g5 reg' g false hg] at hd'
  have hx : (Formatter.deliver f reg uni d).1 = xs := by rw [hd]
  obtain ⟨ks, k1, k2, k3, k4⟩ := C73_iff reg reg f g hg uni d t (by rw [hx]; exact h) d' hd'
  rw [hx] at k1
  refine ⟨ks, k1, ?_⟩
  rw [← k4]
  have hdl : Formatter.deliver g reg uni d' = ((Formatter.deliver g reg uni d').1, none) := by rw [← k2]
  constructor
  · rintro ⟨s', m', e1, e2, e3⟩
    cases hx' : extract reg (Formatter.deliver g reg uni d').1 with
    | error e =>
      rw [main_delivered reg g uni d' _ hdl, hx'] at e1
      simp at e1
    | ok t' =>
      obtain ⟨s'', q1, m'', q2, -, q5⟩ := C44_command_partial reg hreg g uni d' _ hdl t' hx' (he' t' hx')
      rw [q1] at e1
      cases e1
      rw [q2] at e2
      cases e2
      exact ⟨t', rfl, by rw [← q5 reg' g false hg]; exact e3⟩
  · rintro ⟨t', e1, e2⟩
    obtain ⟨s'', q1, m'', q2, -, q5⟩ := C44_command_partial reg hreg g uni d' _ hdl t' e1 (he' t' e1)
    exact ⟨s'', m'', q1, q2, by rw [q5 reg' g false hg]; exact e2⟩

/-! ## Examples -/

/-- Whether rebuilding leaves what it made alone. -/
def leftAlone (ks : List SItem) : Option Bool :=
  (rewritten (fun _ => false) ks).map (fun js => decide (rewritten (fun _ => false) js = some js))

/-- Rebuilding adds padding once, and then leaves the items alone; report 0 after report 1 becomes part of report 1, and
the next rebuild puts the Report ID before the collection. -/
example : leftAlone (keys misaligned) = some true ∧
    rewritten (fun _ => false) (keys misaligned) ≠ some (keys misaligned) ∧
    leftAlone [(.usage, 0x10002), (.collection, 1), (.logMin, 0), (.logMax, 1), (.reportSize, 8), (.reportCount, 1),
      (.reportID, 1), (.usage, 0x10030), (.input, 2), (.reportID, 0), (.usage, 0x10031), (.input, 2),
      (.endCollection, 0)] = some false := by
  decide +kernel

/-- The items of `misaligned` meet the conditions of `C42_items_iff`. -/
example : (∀ i ∈ misaligned, i.Made) ∧ ∀ i ∈ misaligned, i.cls = .usage → kindKnown [] i.val = true :=
  ⟨build!_made _, by decide +kernel⟩

end Hrdc
