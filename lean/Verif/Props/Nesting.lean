import Verif.Proofs.Leaves
/-!
# C38, all streams
-/
namespace Hrdc
open Spec Extractor

/-- **C38 (partial).** Whatever the ranges, arrays, Push and Pop items and empty collections of a stream, as
long as no data item is taken for a named array where it should not be (`calm`): the decompiler raises an
error when an EndCollection closes nothing; otherwise it has a root exactly when all collections are closed at
some EndCollection.  Missing, and false of the code: a single field with as many usages as logical values
outside all collections (`C38_top_breaks`), beside others in a NamedArray collection (`C38_nested_breaks`,
`C38_beside_breaks`), in a Logical collection without usage (`C38_no_usage_breaks`), arrays of no logical value
(`C38_no_value_breaks`). -/
theorem C38_nesting_partial (reg : Registry) (xs : List Item) (hc : calm [] false {} (keys xs) = true) :
    (∃ t, extract reg xs = .ok t) ↔
      Spec.depth 0 (xs.map Item.cls) ≠ none ∧ closesAll 0 (xs.map Item.cls) = true := by
  constructor
  · rintro ⟨t, ht⟩
    have hd : Spec.depth 0 (xs.map Item.cls) ≠ none := by
      intro h
      obtain ⟨e, he⟩ := C38_surplus_end reg xs h
      rw [ht] at he; simp at he
    refine ⟨hd, ?_⟩
    obtain ⟨st, h1, h2, -⟩ := run_calm reg xs {} [] false {} _ [] (tally_init _) framed_init (by simp) hc hd
    unfold extract at ht
    rw [h1] at ht
    simp only at ht
    cases hr : st.root with
    | none => rw [hr] at ht; simp at ht
    | some n => rw [hr] at h2; simpa using h2.symm
  · rintro ⟨hd, hcl⟩
    obtain ⟨st, h1, h2, -⟩ := run_calm reg xs {} [] false {} _ [] (tally_init _) framed_init (by simp) hc hd
    unfold extract
    rw [h1]
    simp only
    cases hr : st.root with
    | none =>
      rw [hr] at h2
      have hcl' : closesAll (List.length ([] : List (Int × Bool))) (xs.map Item.cls) = true := hcl
      rw [hcl'] at h2
      simp at h2
    | some n => exact ⟨n, rfl⟩

/-- Without a root the error is the missing attribute. -/
theorem C38_no_root_partial (reg : Registry) (xs : List Item) (hc : calm [] false {} (keys xs) = true)
    (hd : Spec.depth 0 (xs.map Item.cls) ≠ none) (hcl : closesAll 0 (xs.map Item.cls) = false) :
    extract reg xs = .error .attribute := by
  obtain ⟨st, h1, h2, -⟩ := run_calm reg xs {} [] false {} _ [] (tally_init _) framed_init (by simp) hc hd
  unfold extract
  rw [h1]
  simp only
  have hcl' : closesAll (List.length ([] : List (Int × Bool))) (xs.map Item.cls) = false := hcl
  rw [hcl'] at h2
  cases hr : st.root with
  | none => rfl
  | some n => rw [hr] at h2; simp at h2

/-- **C38, C43 (partial).** The nesting of the tree, for the same streams: the brackets of the collections that
have something inside, up to the last end of an outermost collection. -/
theorem C38_rebuilt_partial (reg : Registry) (xs : List Item) (hc : calm [] false {} (keys xs) = true) (t : Node)
    (h : extract reg xs = .ok t) :
    (bareMeaning t).filterMap Event.kindOf = outline [{}] {} [] (keys xs) := by
  have hd : Spec.depth 0 (xs.map Item.cls) ≠ none := fun h0 => by
    obtain ⟨e, he⟩ := C38_surplus_end reg xs h0
    rw [h] at he; simp at he
  obtain ⟨st, h1, -, h3⟩ := run_calm reg xs {} [] false {} _ [] (tally_init _) framed_init (by simp) hc hd
  unfold extract at h
  rw [h1] at h
  simp only at h
  cases hr : st.root with
  | none => rw [hr] at h; simp at h
  | some n =>
    rw [hr] at h
    simp only [Except.ok.injEq] at h
    subst h
    exact h3 n hr

/-- **C43 (partial).** All collections of a stream are in the decompiled tree, with their kinds and nesting,
when each has something inside and all are closed.  Ranges, Push and Pop items, arrays, strings are as they
like, as long as no data item is taken for a named array where it should not be (`calm`).  Missing, and false
of the code: empty collections (`C43_empty_lost`), NamedArray collections around a Variable item
(`C43_named_lost`). -/
theorem C43_kinds_partial (reg : Registry) (xs : List Item) (hc : calm [] false {} (keys xs) = true)
    (hs : solid [] {} (keys xs) = true) (t : Node) (h : extract reg xs = .ok t) :
    (bareMeaning t).filterMap Event.kindOf = brackets (keys xs) := by
  rw [C38_rebuilt_partial reg xs hc t h, outline_solid _ [] [{}] {} [] rfl (fun _ => rfl) hs]
  rfl

/-- **C40.** Every value of a stream ends up in a Report with the ID in force where it was read, in order:
whatever the items of the stream, as long as its collections are closed, direction and report ID of the
elements of the tree, up to the last EndCollection, are those of the data items. -/
theorem C40_stream (reg : Registry) (xs : List Item) (hd : Spec.depth 0 (xs.map Item.cls) = some 0) (t : Node)
    (h : extract reg xs = .ok t) :
    (pieces 0 t).filterMap leafKey = leafKeys {} [] [] (keys xs) := by
  unfold extract at h
  cases hr : runFrom reg {} xs with
  | error e => rw [hr] at h; simp at h
  | ok st =>
    rw [hr] at h
    simp only at h
    cases hrt : st.root with
    | none => rw [hrt] at h; simp at h
    | some n =>
      rw [hrt] at h
      simp only [Except.ok.injEq] at h
      subst h
      exact run_leaves reg xs {} st 0 {} [] (fun _ => rfl) (by simp [State.open']) hd (by simp) hr n hrt

/-- Two reports, Push, an array, buffered bytes, padding, a value outside of all collections. -/
example : let xs := build! [(.usage, 0x10002), (.collection, 1), (.logMin, 1), (.logMax, 2), (.reportSize, 8), (.reportCount, 2),
      (.reportID, 1), (.usage, 0x10030), (.input, 2), (.push, 0), (.reportID, 2), (.usage, 0x10003), (.collection, 0), (.feature, 0),
      (.pop, 0), (.input, 3), (.usage, 0x10031), (.output, 0x102), (.endCollection, 0), (.endCollection, 0), (.input, 2)]
    Spec.depth 0 (xs.map Item.cls) = some 0 ∧ xs.length = 21 ∧
    (match extract [] xs with | .ok _ => true | .error _ => false) = true ∧
    leafKeys {} [] [] (keys xs) = [(.input, 1), (.input, 1), (.feature, 2), (.feature, 2), (.input, 2), (.output, 2)] := by
  decide +kernel

/-- The stream below: its empty collection is dropped, and the unclosed one; without them it is solid. -/
example :
    (let xs := build! [(.usage, 0x10002), (.collection, 1), (.logMin, 1), (.logMax, 2), (.reportSize, 8), (.reportCount, 1),
      (.usage, 0x10003), (.collection, 2), (.usage, 0x10030), (.usage, 0x10031), (.input, 0), (.endCollection, 0),
      (.push, 0), (.usageMin, 0x90001), (.usageMax, 0x90003), (.usageMin, 0x90005), (.reportCount, 3), (.input, 2), (.pop, 0),
      (.logMax, 30), (.usage, 0x10030), (.input, 0), (.collection, 0), (.endCollection, 0), (.endCollection, 0), (.collection, 1)]
     calm [] false {} (keys xs) = true ∧ outline [{}] {} [] (keys xs) = [some 1, some 2, none, none] ∧
     solid [] {} (keys xs) = false) ∧
    (let xs := build! [(.usage, 0x10002), (.collection, 1), (.logMin, 1), (.logMax, 2), (.reportSize, 8), (.reportCount, 1),
      (.usage, 0x10003), (.collection, 2), (.usage, 0x10030), (.usage, 0x10031), (.input, 0), (.endCollection, 0),
      (.push, 0), (.usageMin, 0x90001), (.usageMax, 0x90003), (.usageMin, 0x90005), (.reportCount, 3), (.input, 2), (.pop, 0),
      (.logMax, 30), (.usage, 0x10030), (.input, 0), (.endCollection, 0)]
     calm [] false {} (keys xs) = true ∧ solid [] {} (keys xs) = true ∧ closesAll 0 (xs.map Item.cls) = true) := by
  decide +kernel

/-- The sample compiled, and a stream with an array in a Logical collection, Push, two ranges, an array of
fewer usages than values, an empty collection and an unclosed one. -/
example : calm [] false {} (keys sampleItems) = true ∧ closesAll 0 (sampleItems.map Item.cls) = true ∧
    (let xs := build! [(.usage, 0x10002), (.collection, 1), (.logMin, 1), (.logMax, 2), (.reportSize, 8), (.reportCount, 1),
      (.usage, 0x10003), (.collection, 2), (.usage, 0x10030), (.usage, 0x10031), (.input, 0), (.endCollection, 0),
      (.push, 0), (.usageMin, 0x90001), (.usageMax, 0x90003), (.usageMin, 0x90005), (.reportCount, 3), (.input, 2), (.pop, 0),
      (.logMax, 30), (.usage, 0x10030), (.input, 0), (.collection, 0), (.endCollection, 0), (.endCollection, 0), (.collection, 1)]
     calm [] false {} (keys xs) = true ∧ Spec.depth 0 (xs.map Item.cls) = some 1 ∧ closesAll 0 (xs.map Item.cls) = true) := by
  decide +kernel

/-- Whether the decompiler raises this error. -/
def raises (reg : Registry) (xs : List Item) (e : PyErr) : Bool :=
  match extract reg xs with
  | .error e' => e' == e
  | .ok _ => false

/-- A single field before the first collection. -/
theorem C38_top_breaks : let xs := build! [(.logMin, 1), (.logMax, 1), (.reportSize, 8), (.reportCount, 1),
      (.usage, 0x10030), (.input, 2), (.usage, 0x10002), (.collection, 1), (.endCollection, 0)]
    Spec.depth 0 (xs.map Item.cls) = some 0 ∧ closesAll 0 (xs.map Item.cls) = true ∧ raises [] xs .attribute = true := by
  decide +kernel

/-- A single field after another in a NamedArray collection. -/
theorem C38_beside_breaks : let xs := build! [(.logMin, 1), (.logMax, 1), (.reportSize, 8), (.reportCount, 1),
      (.usage, 0x10002), (.collection, 4), (.usage, 0x10030), (.input, 0), (.usage, 0x10030), (.input, 2), (.endCollection, 0)]
    Spec.depth 0 (xs.map Item.cls) = some 0 ∧ closesAll 0 (xs.map Item.cls) = true ∧ raises [] xs .assertion = true := by
  decide +kernel

/-- A single field in a Logical collection without usage. -/
theorem C38_no_usage_breaks : let xs := build! [(.logMin, 1), (.logMax, 1), (.reportSize, 8), (.reportCount, 1),
      (.collection, 2), (.usage, 0x10030), (.input, 2), (.endCollection, 0)]
    Spec.depth 0 (xs.map Item.cls) = some 0 ∧ closesAll 0 (xs.map Item.cls) = true ∧ raises [] xs .type = true := by
  decide +kernel

/-- An array whose logical maximum is just below the minimum. -/
theorem C38_no_value_breaks : let xs := build! [(.logMin, 1), (.logMax, 0), (.reportSize, 8), (.reportCount, 2),
      (.usage, 0x10002), (.collection, 1), (.input, 0), (.endCollection, 0)]
    Spec.depth 0 (xs.map Item.cls) = some 0 ∧ closesAll 0 (xs.map Item.cls) = true ∧ raises [] xs .value = true := by
  decide +kernel

end Hrdc
