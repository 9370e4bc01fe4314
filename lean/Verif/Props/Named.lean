import Verif.Props.Extract2
import Verif.Proofs.Named3
/-!
# C72, C39, C41: named arrays in the decompiler
-/
namespace Hrdc
open Spec Extractor Streamer

theorem kinds_of {reg : Registry} {xs : List Item} (h : ∀ i ∈ xs, i.cls = .usage → kindKnown reg i.val = true) :
    KindsOf reg xs := fun i hi hc _ => testKind_known (h i hi hc)

/-- **C72 (partial).** A collection with nothing but one field inside, which lists one usage for each of its values, is
read back as a named array when it is Logical and the usage table lists its usage as that of named arrays, or when it is a
NamedArray collection and the field is a Variable one: an Array field that chooses among the usages, inside a Logical
collection when the collection has a usage, and without unit or physical range.  All other main items of the stream keep
their meaning.  The streams are those of `NamedExtractable`.  `C72_iff` is for all streams; for some the claim is
false (`C72_second_breaks`: a second field in the collection of a named array). -/
theorem C72_named_partial (reg : Registry) (xs : List Item) (hm : ∀ i ∈ xs, i.Made)
    (hk : ∀ i ∈ xs, i.cls = .usage → kindKnown reg i.val = true) (he : NamedExtractable (arrayUsage reg) (keys xs)) :
    ∃ t, extract reg xs = .ok t ∧
      bareMeaning t = (asArrays (arrayUsage reg) 0 (recs .atMain {} (keys xs))).flatMap MainRec.events := by
  obtain ⟨t, h1, h2, -⟩ := extract_named reg xs hm (kinds_of hk) he (fun _ => True) trivial (fun _ _ _ _ _ => trivial)
  exact ⟨t, h1, h2⟩

/-- Without named arrays nothing is read differently. -/
theorem C72_plain {known : Int → Bool} {rs : List MainRec} (h : ∀ c d e, c ∈ rs → d ∈ rs → namedArray known c d e = false) :
    asArrays known 0 rs = rs := by
  induction rs with
  | nil => rfl
  | cons r rs ih =>
    have ha : arrayAhead known r rs = none := by
      unfold arrayAhead
      split
      · rw [if_neg]
        rw [h _ _ _ (by simp) (by simp)]; simp
      · rfl
    rw [asArrays, ha]
    simp only
    rw [ih (fun c d e hc hd => h c d e (by simp [hc]) (by simp [hd]))]

/-- **C39 (partial).** `C39_values_partial` where the collections that look like named arrays to the decompiler may be
there, as long as what they hold does not: in a Logical collection the usage table does not list, arrays and single
fields with a usage for each value keep their meaning. -/
theorem C39_named_partial (reg : Registry) (xs : List Item) (hm : ∀ i ∈ xs, i.Made)
    (hk : ∀ i ∈ xs, i.cls = .usage → kindKnown reg i.val = true) (he : NamedExtractable (arrayUsage reg) (keys xs))
    (hn : ∀ c d e, c ∈ recs .atMain {} (keys xs) → d ∈ recs .atMain {} (keys xs) →
      namedArray (arrayUsage reg) c d e = false) :
    ∃ t, extract reg xs = .ok t ∧ bareMeaning t = meaning .atMain (keys xs) := by
  obtain ⟨t, h1, h2⟩ := C72_named_partial reg xs hm hk he
  rw [C72_plain hn] at h2
  exact ⟨t, h1, h2⟩

/-- Trees with named arrays that survive compilation and decompilation. -/
structure NamedRoundTrip (reg : Registry) (n : Node) : Prop where
  /-- the usage table lists the usages for named arrays that are -/
  known : (tokens n).all (tokKnown reg) = true
  /-- every value reads back as such, every collection has something inside -/
  readable : namedReadable (arrayUsage reg) [] (tokens n) = true
  /-- the last element is in a collection -/
  ends : endsClosed false (tokens n) = true
  /-- fields start at multiples of their size, or of 8 bits -/
  aligned : ∀ v, Leaf.value v ∈ leaves n → selfAligned v = true

theorem namedRoundTrip_iff (reg : Registry) (n : Node) : NamedRoundTrip reg n ↔
    (tokens n).all (tokKnown reg) = true ∧ namedReadable (arrayUsage reg) [] (tokens n) = true ∧
    endsClosed false (tokens n) = true ∧
    (leaves n).all (fun l => match l with | .value v => selfAligned v | _ => true) = true := by
  rw [List.all_eq_true (l := leaves n)]
  constructor
  · intro h
    refine ⟨h.1, h.2, h.3, ?_⟩
    intro l hl
    cases l with
    | value v => exact h.4 v hl
    | align w b => rfl
    | padding w s => rfl
  · rintro ⟨k, a, b, c⟩
    exact ⟨k, a, b, fun v hv => c _ hv⟩

instance (reg : Registry) (n : Node) : Decidable (NamedRoundTrip reg n) :=
  decidable_of_iff _ (namedRoundTrip_iff reg n).symm

/-- **C41 (partial).** `C41_roundtrip_partial` for trees whose named arrays may have a usage, as a rule of named arrays
does: compiled, they are Variable fields in a Logical collection (`C45_usage_breaks`), yet a decompiler with the same
usage table reads them back as the named arrays they were.  Missing: the trees left out by `C41_roundtrip_partial`, and
named arrays with a usage that the usage table does not list as one of theirs (`C41_unlisted_breaks`) or of more than one
field. -/
theorem C41_named_partial (reg : Registry) (n : Node) (items : List Item) (h : compile reg n = .ok items)
    (hm : TreeMade n) (hk : KindsOK n) (hr : ReportsLast n) (a : Nat) (hf : CountsFit a n) (ht : NamedRoundTrip reg n) :
    ∃ t, extract reg items = .ok t ∧ treeMeaning t = treeMeaning n := by
  obtain ⟨hex, hco, hev⟩ := tree_namedExtractable (arrayUsage reg) h hk (fun v hv => hm v (mem_leaves.2 hv)) hr a
    (fun l hl => by
      have := hf l (mem_leaves.2 hl)
      cases l <;> exact this) ht.readable ht.ends
  have hkinds : KindsOf reg items := fun i hi hc _ => compile_known ht.known h i hi hc
  obtain ⟨t, h1, h2, h3⟩ := extract_named reg items (compile_made h) hkinds hex (fun c => 0 < c) (by decide) (by
    intro r hr hd hc _
    rcases hco r hr hd with hc' | hc'
    · exact hc'
    · rw [hc] at hc'; simp at hc')
  rw [hev] at h2
  refine ⟨t, h1, ?_⟩
  have hal : aligned (treeMeaning n) = true := by
    refine place_alignedN _ _ _ (fun _ _ => rfl) ?_
    intro id v hv
    rw [pieces_eq] at hv
    have hv' := scope_leaf _ _ _ _ hv
    exact ⟨sane_sizes _ _ _ (compile_exact .atUsage h).2 v hv', ht.aligned v (mem_leaves.2 hv')⟩
  rw [← h2] at hal ⊢
  exact place_bareN (C := fun c => 0 < c) (fun _ h => h) _ _ _ (fun _ _ => rfl) h3 hal

/-- A usage table with one usage of named arrays. -/
def arrayReg : Registry := [⟨tx "consumer.Power", 0xc0030, [.NAry]⟩, ⟨tx "desktop.X", 0x10030, [.DV]⟩]

/-- A named array with a usage, as in `/repo/doc/descriptor.rst`. -/
def powerArray : ValueArgs :=
  { way := .input, usage := some (.int 0xc0030), size := 8,
    namedArray := some (.list [.int 0xc0031, .int 0xc0032, .int 0xc0033]) }

/-- A descriptor with a named array that has a usage, beside other fields. -/
def namedTree1 : Node := app [.report 1 [.value (mk (axis 0x10030)), .value (mk powerArray),
  .coll (.int 2) (some (.int 0x10001)) [.value (mk keyArray)]]]

example : NamedRoundTrip arrayReg namedTree1 ∧ ReportsLast namedTree1 ∧
    (compile arrayReg namedTree1).toOption.isSome = true := by decide +kernel

example : ¬ NoNamedCollection namedTree1 := by
  intro h
  have := h (mk powerArray) (by simp [namedTree1, app, leaves, tokens, tokensL]) (by decide +kernel)
  revert this
  decide +kernel

/-- Its items, for C72. -/
def namedItems : List Item := ((compile arrayReg namedTree1).toOption).getD []

example : (∀ i ∈ namedItems, i.cls = .usage → kindKnown arrayReg i.val = true) ∧
    NamedExtractable (arrayUsage arrayReg) (keys namedItems) ∧ ¬ Extractable (keys namedItems) ∧
    (asArrays (arrayUsage arrayReg) 0 (recs .atMain {} (keys namedItems))).flatMap MainRec.events ≠
      meaning .atMain (keys namedItems) := by decide +kernel

/-- A named array with a usage that the table does not list is read back as a Variable field. -/
theorem C41_unlisted_breaks : RoundTripBreaks id (app [.value (mk powerArray)]) = true := by decide +kernel

/-- A second field in the collection of a named array changes what the decompiler makes of the first. -/
theorem C72_second_breaks :
    let xs := build! [(.usage, 0x10002), (.collection, 1), (.usage, 0x10001), (.collection, 4), (.usage, 0x10030),
      (.logMin, 1), (.logMax, 1), (.reportSize, 8), (.reportCount, 1), (.input, 2), (.usage, 0x10031), (.logMin, 0),
      (.logMax, 5), (.input, 2), (.endCollection, 0), (.endCollection, 0)]
    (match extract [] xs with
      | .ok t => decide (bareMeaning t ≠ (asArrays (arrayUsage []) 0 (recs .atMain {} (keys xs))).flatMap MainRec.events)
      | .error _ => false) = true := by decide +kernel

end Hrdc
