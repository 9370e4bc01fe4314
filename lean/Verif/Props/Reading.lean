import Verif.Proofs.Rebuild
import Verif.Proofs.Read
import Verif.Proofs.Named3
import Verif.Props.Named
import Verif.Props.Nesting
/-!
# C38, C39, C43, C72, exactly

What the decompiler makes of any stream: `rebuilt` is a reading of streams that does not refer to the decompiler.  All the
claims about decompiled trees can be read off it, for streams of any sort.
-/
namespace Hrdc
open Spec Extractor

/-- Usages of a document are those of the table. -/
theorem read_kinds {reg : Registry} {xs : List Item} (h : ∀ i ∈ xs, ReadItem reg i) : KindsOf reg xs := by
  intro i hi hc hl
  rcases h i hi with hr | hr | hr
  · obtain ⟨k, hp⟩ := hr
    rw [hc] at hp
    simp only [Item.new, Item.baseInit] at hp
    split at hp
    · simp only [Except.ok.injEq] at hp
      rw [← hp]
      exact testKind_known (Streamer.lookup_kind reg k)
    · simp at hp
  · rw [hc] at hr; simp at hr
  · exact absurd hr.2 hl

/-- **C39, exactly.** For every stream of items: what the decompiled tree describes, or which error is raised.  Push and Pop
do nothing, the last bounds of a range count when there is no single index, arrays with other than one usage for each value
are left with one usage, strings and designators of collections are dropped, collections with nothing inside too, fields
alone in their collection may become named arrays, and nothing after the last end of an outermost collection is in the
tree.  See `C39_iff` for when that is the meaning of the stream. -/
theorem C39_exact (reg : Registry) (xs : List Item) (hm : ∀ i ∈ xs, i.Made)
    (hk : ∀ i ∈ xs, i.cls = .usage → kindKnown reg i.val = true) :
    match rebuilt (arrayUsage reg) (keys xs) with
    | .error e => extract reg xs = .error e.raised
    | .ok es => ∃ t, extract reg xs = .ok t ∧ bareMeaning t = es :=
  extract_rebuilt xs hm (kinds_of hk)

/-- **C39, exactly, documents.** The same for what is read from any document, in any format. -/
theorem C39_document_exact (reg : Registry) (f : Formatter.Fmt) (uni : Parser.Uni) (d : Formatter.Doc) :
    let xs := (Formatter.deliver f reg uni d).1
    match rebuilt (arrayUsage reg) (keys xs) with
    | .error e => extract reg xs = .error e.raised
    | .ok es => ∃ t, extract reg xs = .ok t ∧ bareMeaning t = es :=
  extract_rebuilt _ (fun i hi => (deliver_read f reg uni d i hi).2)
    (read_kinds (fun i hi => (deliver_read f reg uni d i hi).1))

/-- **C39, exactly.** The streams that are decompiled to a tree of the same meaning. -/
theorem C39_iff (reg : Registry) (rule : PageRule) (xs : List Item) (hm : ∀ i ∈ xs, i.Made)
    (hk : ∀ i ∈ xs, i.cls = .usage → kindKnown reg i.val = true) :
    (∃ t, extract reg xs = .ok t ∧ bareMeaning t = meaning rule (keys xs)) ↔
      rebuilt (arrayUsage reg) (keys xs) = .ok (meaning rule (keys xs)) := by
  have h := C39_exact reg xs hm hk
  cases e : rebuilt (arrayUsage reg) (keys xs) with
  | error e' =>
    rw [e] at h
    simp only at h
    simp [h]
  | ok es =>
    rw [e] at h
    obtain ⟨t, h1, h2⟩ := h
    constructor
    · rintro ⟨t', h3, h4⟩
      rw [h1] at h3
      simp only [Except.ok.injEq] at h3
      rw [← h4, ← h3, h2]
    · intro h3
      simp only [Except.ok.injEq] at h3
      exact ⟨t, h1, h2.trans h3⟩

/-- **C38, exactly.** The streams that are decompiled, and the error for each that is not. -/
theorem C38_exact (reg : Registry) (xs : List Item) (hm : ∀ i ∈ xs, i.Made)
    (hk : ∀ i ∈ xs, i.cls = .usage → kindKnown reg i.val = true) :
    ((∃ t, extract reg xs = .ok t) ↔ ∃ es, rebuilt (arrayUsage reg) (keys xs) = .ok es) ∧
    ∀ e, extract reg xs = .error e ↔ ∃ r, rebuilt (arrayUsage reg) (keys xs) = .error r ∧ r.raised = e := by
  have h := C39_exact reg xs hm hk
  cases e : rebuilt (arrayUsage reg) (keys xs) with
  | error e' =>
    rw [e] at h
    simp only at h
    simp [h]
  | ok es =>
    rw [e] at h
    obtain ⟨t, h1, -⟩ := h
    simp [h1]

/-- **C43, exactly.** The streams of which every collection is in the decompiled tree, in the same order and nesting, with its
kind and usage. -/
theorem C43_iff (reg : Registry) (xs : List Item) (hm : ∀ i ∈ xs, i.Made)
    (hk : ∀ i ∈ xs, i.cls = .usage → kindKnown reg i.val = true) :
    (∃ t, extract reg xs = .ok t ∧
      (bareMeaning t).filter Event.bracket = (meaning .atMain (keys xs)).filter Event.bracket) ↔
    ∃ es, rebuilt (arrayUsage reg) (keys xs) = .ok es ∧
      es.filter Event.bracket = (meaning .atMain (keys xs)).filter Event.bracket := by
  have h := C39_exact reg xs hm hk
  cases e : rebuilt (arrayUsage reg) (keys xs) with
  | error e' =>
    rw [e] at h
    simp only at h
    simp [h]
  | ok es =>
    rw [e] at h
    obtain ⟨t, h1, h2⟩ := h
    simp [h1, h2]

/-- **C72, exactly.** The streams of which named arrays, and nothing else, are recognised. -/
theorem C72_iff (reg : Registry) (xs : List Item) (hm : ∀ i ∈ xs, i.Made)
    (hk : ∀ i ∈ xs, i.cls = .usage → kindKnown reg i.val = true) :
    (∃ t, extract reg xs = .ok t ∧
      bareMeaning t = (asArrays (arrayUsage reg) 0 (recs .atMain {} (keys xs))).flatMap MainRec.events) ↔
    rebuilt (arrayUsage reg) (keys xs) =
      .ok ((asArrays (arrayUsage reg) 0 (recs .atMain {} (keys xs))).flatMap MainRec.events) := by
  have h := C39_exact reg xs hm hk
  cases e : rebuilt (arrayUsage reg) (keys xs) with
  | error e' =>
    rw [e] at h
    simp only at h
    simp [h]
  | ok es =>
    rw [e] at h
    obtain ⟨t, h1, h2⟩ := h
    simp [h1, h2]

/-- The reading agrees with a host's on streams of `NamedExtractable`, but for named arrays. -/
theorem rebuilt_named (reg : Registry) (xs : List Item) (hm : ∀ i ∈ xs, i.Made)
    (hk : ∀ i ∈ xs, i.cls = .usage → kindKnown reg i.val = true) (he : NamedExtractable (arrayUsage reg) (keys xs)) :
    rebuilt (arrayUsage reg) (keys xs) =
      .ok ((asArrays (arrayUsage reg) 0 (recs .atMain {} (keys xs))).flatMap MainRec.events) :=
  (C72_iff reg xs hm hk).1 (C72_named_partial reg xs hm hk he)

/-- Push, two ranges, a NamedArray collection, an array of fewer usages than values, the string of a collection, an empty
collection, an outermost collection that is never closed. -/
def roughItems : List Item :=
  build! [(.usage, 0x10002), (.strIndex, 3), (.collection, 1), (.logMin, 1), (.logMax, 2), (.reportSize, 8), (.reportCount, 1),
    (.usage, 0x10003), (.collection, 4), (.usage, 0x10030), (.usage, 0x10031), (.input, 2), (.endCollection, 0),
    (.push, 0), (.reportID, 3), (.usageMin, 0x90001), (.usageMax, 0x90003), (.usageMin, 0x90002), (.reportCount, 3),
    (.input, 2), (.pop, 0), (.logMax, 30), (.usage, 0x10030), (.usage, 0x10031), (.input, 0), (.collection, 0),
    (.endCollection, 0), (.endCollection, 0), (.collection, 1), (.input, 3)]

/-- The outcome of the reading: how many events, or the error. -/
def verdictOf (xs : List Item) : Nat ⊕ PyErr :=
  match rebuilt (arrayUsage []) (keys xs) with
  | .ok es => .inl es.length
  | .error e => .inr e.raised

example : roughItems.length = 30 ∧ verdictOf roughItems = .inl 11 ∧ (meaning .atMain (keys roughItems)).length = 20 ∧
    (∀ i ∈ roughItems, i.cls = .usage → kindKnown [] i.val = true) ∧
    verdictOf (roughItems ++ build! [(.endCollection, 0), (.endCollection, 0)]) = .inr .index ∧
    verdictOf (build! [(.usage, 0x10002), (.collection, 1)]) = .inr .attribute ∧
    verdictOf nestedNamed = .inr .index := by decide +kernel

end Hrdc
