import Verif.Proofs.Recompile
import Verif.Props.Reading
import Verif.Props.Success
import Verif.Props.Extract3
/-!
# C41, C42, exactly

What a decompiled descriptor is laid out as, whether it compiles, and what it compiles to, for every stream: `blocks`, `laid`
and `recompiled` (`Spec/Rebuild.lean`) are readings of streams that refer neither to the decompiler nor to the compiler.
-/
namespace Hrdc
open Spec Extractor Streamer

/-- No bit in any report. -/
abbrev atStart : Offsets := fun _ _ => 0

theorem recompiled_of {reg reg' : Registry} {rule : PageRule} {xs : List Item} (hm : ∀ i ∈ xs, i.Made) (hu : KindsOf reg xs) :
    match blocks (arrayUsage reg) (keys xs) with
    | .error e => extract reg xs = .error e.raised
    | .ok bs => ∃ t, extract reg xs = .ok t ∧ treeMeaning t = laid atStart bs ∧
        ((∃ items, compile reg' t = .ok items) ↔ bs.all Block.compiles = true) ∧
        ∀ items, compile reg' t = .ok items → meaning rule (keys items) = recompiled atStart 0 bs := by
  have h := extract_recompiled xs hm hu
  cases hb : blocks (arrayUsage reg) (keys xs) with
  | error e => rw [hb] at h; exact h
  | ok bs =>
    rw [hb] at h
    obtain ⟨t, h1, -, h2, h3, h4⟩ := h
    refine ⟨t, h1, h2, ?_, h4 reg' rule⟩
    rw [C59_compiles_iff, h3]

/-- **C42, exactly.** For every stream of items: which error the decompiler raises, or what the tree means, whether it
compiles, and what the compiled stream means.  Fields that do not start at a multiple of their size (or of 8 bits) are
moved, report 0 is merged into the report before, only the first of buffered bytes is counted, and named arrays with a
usage become Variable fields.  See `C42_iff` for when nothing changes. -/
theorem C42_exact (reg reg' : Registry) (rule : PageRule) (xs : List Item) (hm : ∀ i ∈ xs, i.Made)
    (hk : ∀ i ∈ xs, i.cls = .usage → kindKnown reg i.val = true) :
    match blocks (arrayUsage reg) (keys xs) with
    | .error e => extract reg xs = .error e.raised
    | .ok bs => ∃ t, extract reg xs = .ok t ∧ treeMeaning t = laid atStart bs ∧
        ((∃ items, compile reg' t = .ok items) ↔ bs.all Block.compiles = true) ∧
        ∀ items, compile reg' t = .ok items → meaning rule (keys items) = recompiled atStart 0 bs :=
  recompiled_of hm (kinds_of hk)

/-- **C42, exactly, documents.** The same for what is read from any document, in any format. -/
theorem C42_document_exact (reg reg' : Registry) (rule : PageRule) (f : Formatter.Fmt) (uni : Parser.Uni) (d : Formatter.Doc) :
    let xs := (Formatter.deliver f reg uni d).1
    match blocks (arrayUsage reg) (keys xs) with
    | .error e => extract reg xs = .error e.raised
    | .ok bs => ∃ t, extract reg xs = .ok t ∧ treeMeaning t = laid atStart bs ∧
        ((∃ items, compile reg' t = .ok items) ↔ bs.all Block.compiles = true) ∧
        ∀ items, compile reg' t = .ok items → meaning rule (keys items) = recompiled atStart 0 bs :=
  recompiled_of (fun i hi => (deliver_read f reg uni d i hi).2)
    (read_kinds (fun i hi => (deliver_read f reg uni d i hi).1))

theorem recompiled_iff {reg reg' : Registry} {rule : PageRule} {xs : List Item} (hm : ∀ i ∈ xs, i.Made) (hu : KindsOf reg xs)
    (es : List Event) :
    (∃ t items, extract reg xs = .ok t ∧ compile reg' t = .ok items ∧ meaning rule (keys items) = es) ↔
      ∃ bs, blocks (arrayUsage reg) (keys xs) = .ok bs ∧ bs.all Block.compiles = true ∧ recompiled atStart 0 bs = es := by
  have h := recompiled_of (reg' := reg') (rule := rule) hm hu
  cases hb : blocks (arrayUsage reg) (keys xs) with
  | error e => rw [hb] at h; simp only at h; simp [h]
  | ok bs =>
    rw [hb] at h
    obtain ⟨t, h1, -, h2, h3⟩ := h
    constructor
    · rintro ⟨t', items, h4, h5, h6⟩
      rw [h1] at h4
      simp only [Except.ok.injEq] at h4
      subst h4
      exact ⟨bs, rfl, h2.1 ⟨items, h5⟩, (h3 items h5).symm.trans h6⟩
    · rintro ⟨bs', h4, h5, h6⟩
      simp only [Except.ok.injEq] at h4
      subst h4
      obtain ⟨items, h7⟩ := h2.2 h5
      exact ⟨t, items, h1, h7, (h3 items h7).trans h6⟩

/-- **C42, exactly.** The streams that, decompiled and compiled, keep their meaning. -/
theorem C42_iff (reg reg' : Registry) (rule : PageRule) (xs : List Item) (hm : ∀ i ∈ xs, i.Made)
    (hk : ∀ i ∈ xs, i.cls = .usage → kindKnown reg i.val = true) :
    (∃ t items, extract reg xs = .ok t ∧ compile reg' t = .ok items ∧ meaning rule (keys items) = meaning rule (keys xs)) ↔
      ∃ bs, blocks (arrayUsage reg) (keys xs) = .ok bs ∧ bs.all Block.compiles = true ∧
        recompiled atStart 0 bs = meaning rule (keys xs) :=
  recompiled_iff hm (kinds_of hk) _

/-- **C42, exactly, documents.** The documents that, decompiled and compiled, keep their meaning. -/
theorem C42_document_iff (reg reg' : Registry) (rule : PageRule) (f : Formatter.Fmt) (uni : Parser.Uni) (d : Formatter.Doc) :
    let xs := (Formatter.deliver f reg uni d).1
    (∃ t items, extract reg xs = .ok t ∧ compile reg' t = .ok items ∧ meaning rule (keys items) = meaning rule (keys xs)) ↔
      ∃ bs, blocks (arrayUsage reg) (keys xs) = .ok bs ∧ bs.all Block.compiles = true ∧
        recompiled atStart 0 bs = meaning rule (keys xs) :=
  recompiled_iff (fun i hi => (deliver_read f reg uni d i hi).2)
    (read_kinds (fun i hi => (deliver_read f reg uni d i hi).1)) _

theorem laid_iff {reg : Registry} {xs : List Item} (hm : ∀ i ∈ xs, i.Made) (hu : KindsOf reg xs) (es : List Event) :
    (∃ t, extract reg xs = .ok t ∧ treeMeaning t = es) ↔
      ∃ bs, blocks (arrayUsage reg) (keys xs) = .ok bs ∧ laid atStart bs = es := by
  have h := recompiled_of (reg' := reg) (rule := .atMain) hm hu
  cases hb : blocks (arrayUsage reg) (keys xs) with
  | error e => rw [hb] at h; simp only at h; simp [h]
  | ok bs =>
    rw [hb] at h
    obtain ⟨t, h1, h2, -⟩ := h
    simp [h1, h2]

/-- **C41, exactly.** The descriptors that are compiled to a stream that is decompiled to a tree of the same meaning. -/
theorem C41_iff (reg reg' : Registry) (n : Node) (items : List Item) (h : compile reg n = .ok items)
    (hk : ∀ i ∈ items, i.cls = .usage → kindKnown reg' i.val = true) :
    (∃ t, extract reg' items = .ok t ∧ treeMeaning t = treeMeaning n) ↔
      ∃ bs, blocks (arrayUsage reg') (keys items) = .ok bs ∧ laid atStart bs = treeMeaning n :=
  laid_iff (compile_made h) (kinds_of hk) _

/-- **C41, exactly, bytes.** The same for the bytes the compiler writes, with or without optimization, and any usage table
the decompiler may have.  No condition is left. -/
theorem C41_bytes_iff (reg reg' : Registry) (opt : Bool) (n : Node) (b : List UInt8)
    (h : Compiler.main reg .binary opt n = .ok (.bytes b)) :
    (Parser.blobParse reg' b).2 = none ∧
    ∃ ks, readAll b = some ks ∧
      ((∃ t, extract reg' (Parser.blobParse reg' b).1 = .ok t ∧ treeMeaning t = treeMeaning n) ↔
        ∃ bs, blocks (arrayUsage reg') ks = .ok bs ∧ laid atStart bs = treeMeaning n) := by
  have key : ∀ is : List Item, (∀ i ∈ is, i.Made) → Formatter.binary is = .ok b →
      (Parser.blobParse reg' b).2 = none ∧
      ∃ ks, readAll b = some ks ∧
        ((∃ t, extract reg' (Parser.blobParse reg' b).1 = .ok t ∧ treeMeaning t = treeMeaning n) ↔
          ∃ bs, blocks (arrayUsage reg') ks = .ok bs ∧ laid atStart bs = treeMeaning n) := by
    intro is hmade hb
    obtain ⟨e1, e2⟩ := C07_stream_roundtrip reg' is hmade b hb
    refine ⟨e1, _, readAll_binary hmade hb, ?_⟩
    have := laid_iff (reg := reg') (xs := (Parser.blobParse reg' b).1) (parsed_items reg' b).1
      (read_kinds (fun i hi => (blob_read reg' 0 b i hi).1)) (treeMeaning n)
    rw [show keys (Parser.blobParse reg' b).1 = is.map Item.key from e2] at this
    exact this
  unfold Compiler.main at h
  split at h
  · simp at h
  · rename_i items hi
    cases opt with
    | true =>
      simp only [if_true, Formatter.render] at h
      cases hb : Formatter.binary (Optimizer.optimize reg items) with
      | error e => rw [hb] at h; simp [Except.map] at h
      | ok b' =>
        rw [hb] at h
        simp [Except.map] at h
        subst h
        exact key _ (optimize_made reg items (compile_made hi)) hb
    | false =>
      simp only [Formatter.render, Bool.false_eq_true, if_false] at h
      cases hb : Formatter.binary items with
      | error e => rw [hb] at h; simp [Except.map] at h
      | ok b' =>
        rw [hb] at h
        simp [Except.map] at h
        subst h
        exact key _ (compile_made hi) hb

/-- What becomes of a stream: how long its meaning is, how long that of the decompiled tree, whether it compiles, how long the
meaning is then, and whether it is the same. -/
def remade (xs : List Item) : Option (Nat × Nat × Bool × Nat × Bool) :=
  match blocks (arrayUsage []) (keys xs) with
  | .ok bs => some ((meaning .atMain (keys xs)).length, (laid atStart bs).length, bs.all Block.compiles,
      (recompiled atStart 0 bs).length, decide (recompiled atStart 0 bs = meaning .atMain (keys xs)))
  | .error _ => none

/-- Two axes. -/
example : remade (build! [(.usage, 0x10002), (.collection, 1), (.logMax, 1), (.reportSize, 8), (.reportCount, 2),
    (.usage, 0x10030), (.usage, 0x10031), (.input, 2), (.endCollection, 0)]) = some (4, 4, true, 4, true) := by decide +kernel

/-- Buffered fields, only the first of which is counted, and a byte that is moved. -/
example : remade (build! [(.usage, 0x10002), (.collection, 1), (.logMax, 1), (.reportSize, 3), (.reportCount, 2),
    (.usage, 0x10030), (.input, 258), (.reportSize, 8), (.reportCount, 1), (.usage, 0x10031), (.input, 2),
    (.endCollection, 0)]) = some (5, 7, true, 10, false) := by decide +kernel

/-- A collection without usage does not compile. -/
example : remade (build! [(.collection, 1), (.logMax, 1), (.reportSize, 8), (.reportCount, 2), (.usage, 0x10030),
    (.usage, 0x10031), (.input, 2), (.endCollection, 0)]) = some (4, 4, false, 4, true) := by decide +kernel

example : remade roughItems = some (20, 11, true, 11, false) := by decide +kernel

/-- Whether the compiled bytes of a tree are decompiled to a tree of the same meaning, in the reading of `C41_bytes_iff`. -/
def comesBack (opt : Bool) (n : Node) : Option Bool :=
  match Compiler.main [] .binary opt n with
  | .ok (.bytes b) =>
    match readAll b with
    | some ks =>
      match blocks (arrayUsage []) ks with
      | .ok bs => some (decide (laid atStart bs = treeMeaning n))
      | .error _ => none
    | none => none
  | _ => none

example : comesBack true sampleTree = some true ∧ comesBack false sampleTree = some true ∧
    comesBack true (app [.value (mk (button 1)), .value (mk { axis 0x10030 with alignment := some 1 })]) = some false := by
  decide +kernel

end Hrdc
