import Verif.Props.Extract
/-!
# C40 to C42: round trips between descriptors and streams
-/
namespace Hrdc
open Spec Extractor Streamer

/-- **C40.** Whatever the items, in the decompiled tree every value stands in exactly one Report, no
Report is empty. -/
theorem C40_reports (reg : Registry) (xs : List Item) (t : Node) (h : extract reg xs = .ok t) : Grouped t :=
  extract_grouped h

example : (extract [] sampleItems).toOption.isSome = true := by decide +kernel

theorem sane_sizes (ts : List Tok) (c : Count) (last : Int) (h : Sane c last ts) :
    ∀ v, Tok.leaf (.value v) ∈ ts → 0 ≤ v.size := by
  induction ts generalizing c last with
  | nil => simp
  | cons t ts ih =>
    intro v hv
    rcases List.mem_cons.1 hv with rfl | hv'
    · exact (h.2.1 v rfl).1
    · cases t with
      | leaf l => exact ih _ _ h.2.2 v hv'
      | report i => exact ih _ _ h v hv'
      | endReport => exact ih _ _ h v hv'
      | enter k u => exact ih _ _ h v hv'
      | leave => exact ih _ _ h v hv'

theorem scope_leaf (ids : List Int) (ts : List Tok) (id : Int) (l : Leaf) (h : Piece.leaf id l ∈ inScope ids ts) :
    Tok.leaf l ∈ ts := by
  induction ts generalizing ids with
  | nil => simp [inScope] at h
  | cons t ts ih =>
    cases t with
    | report i => exact List.mem_cons_of_mem _ (ih _ h)
    | endReport => exact List.mem_cons_of_mem _ (ih _ h)
    | enter k u =>
      rw [inScope, List.mem_cons] at h
      rcases h with h | h
      · simp at h
      · exact List.mem_cons_of_mem _ (ih _ h)
    | leave =>
      rw [inScope, List.mem_cons] at h
      rcases h with h | h
      · simp at h
      · exact List.mem_cons_of_mem _ (ih _ h)
    | leaf l' =>
      rw [inScope, List.mem_cons] at h
      rcases h with h | h
      · simp only [Piece.leaf.injEq] at h; rw [h.2]; exact List.mem_cons_self
      · exact List.mem_cons_of_mem _ (ih _ h)

theorem leaf_scope (ids : List Int) (ts : List Tok) (l : Leaf) (h : Tok.leaf l ∈ ts) :
    ∃ id, Piece.leaf id l ∈ inScope ids ts := by
  induction ts generalizing ids with
  | nil => simp at h
  | cons t ts ih =>
    rcases List.mem_cons.1 h with rfl | h'
    · exact ⟨_, by rw [inScope]; exact List.mem_cons_self⟩
    · cases t with
      | report i => exact ih _ h'
      | endReport => exact ih _ h'
      | enter k u => obtain ⟨id, hid⟩ := ih ids h'; exact ⟨id, List.mem_cons_of_mem _ hid⟩
      | leave => obtain ⟨id, hid⟩ := ih ids h'; exact ⟨id, List.mem_cons_of_mem _ hid⟩
      | leaf l' => obtain ⟨id, hid⟩ := ih ids h'; exact ⟨id, List.mem_cons_of_mem _ hid⟩

theorem enter_scope (ids : List Int) (ts : List Tok) (k : PyVal) (u : Option PyVal) (h : Tok.enter k u ∈ ts) :
    Piece.enter k u ∈ inScope ids ts := by
  induction ts generalizing ids with
  | nil => simp at h
  | cons t ts ih =>
    rcases List.mem_cons.1 h with rfl | h'
    · rw [inScope]; exact List.mem_cons_self
    · cases t with
      | report i => exact ih _ h'
      | endReport => exact ih _ h'
      | enter k u => exact List.mem_cons_of_mem _ (ih ids h')
      | leave => exact List.mem_cons_of_mem _ (ih ids h')
      | leaf l' => exact List.mem_cons_of_mem _ (ih ids h')

/-! ## C41 -/

/-- Trees that survive compilation and decompilation. -/
structure RoundTrip (n : Node) : Prop where
  /-- every value reads back as such, every collection has something inside -/
  readable : readable [] (tokens n) = true
  /-- the last element is in a collection -/
  ends : endsClosed false (tokens n) = true
  /-- fields start at multiples of their size, or of 8 bits -/
  aligned : ∀ v, Leaf.value v ∈ leaves n → selfAligned v = true

/-- **C41 (partial).** A descriptor compiled without optimization and decompiled again describes the same
collections, controls and padding, with the same reports, attributes, usages, strings and designators,
at the same places.  The conditions are those of C29 and `RoundTrip`.  Missing, and false of the code:
empty collections (`C41_empty_breaks`), arrays with a unit (`C41_unit_breaks`), values of a single
logical value in a NamedArray collection (`C41_single_breaks`), fields at other places
(`C41_alignment_breaks`), optimized streams (`C41_optimized_partial`, `C41_optimized_breaks`). -/
theorem C41_roundtrip_partial (reg reg' : Registry) (n : Node) (items : List Item)
    (h : compile reg n = .ok items) (hm : TreeMade n) (hn : NoNamedCollection n) (hk : KindsOK n)
    (hr : ReportsLast n) (a : Nat) (hf : CountsFit a n) (ht : RoundTrip n) :
    ∃ t, extract reg' items = .ok t ∧ treeMeaning t = treeMeaning n := by
  have hvals : ∀ v, Tok.leaf (.value v) ∈ tokens n → v.Made ∧
      (arrayUsages v.namedArray ≠ [] → usageOf v.usage = none) := fun v hv =>
    ⟨hm v (mem_leaves.2 hv), hn v (mem_leaves.2 hv)⟩
  obtain ⟨hex, hco⟩ := tree_extractable h hk hvals ht.readable ht.ends
  obtain ⟨t, h1, -, h2, h3, -⟩ := extract_ok reg' items (compile_made h) hex (fun c => 0 < c) (by decide) (by
    intro r hr hd hc _
    rcases hco r hr hd with hc' | hc'
    · exact hc'
    · rw [hc] at hc'; simp at hc')
  refine ⟨t, h1, ?_⟩
  rw [C29_compile_meaning_partial reg .atMain n items h hm hn hk hr a hf] at h2
  rw [tree_bare (C := fun c => 0 < c) (fun _ h => h) h3, h2]
  rw [h2]
  refine place_aligned _ _ _ (fun _ _ => rfl) ?_
  intro id v hv
  rw [pieces_eq] at hv
  have hv' := scope_leaf _ _ _ _ hv
  exact ⟨sane_sizes _ _ _ (compile_exact .atUsage h).2 v hv', ht.aligned v (mem_leaves.2 hv'), (hvals v hv').2⟩

theorem roundTrip_iff (n : Node) : RoundTrip n ↔ readable [] (tokens n) = true ∧
    endsClosed false (tokens n) = true ∧
    (leaves n).all (fun l => match l with | .value v => selfAligned v | _ => true) = true := by
  rw [List.all_eq_true]
  constructor
  · intro h
    refine ⟨h.1, h.2, ?_⟩
    intro l hl
    cases l with
    | value v => exact h.3 v hl
    | align w b => rfl
    | padding w s => rfl
  · rintro ⟨a, b, c⟩
    exact ⟨a, b, fun v hv => c _ hv⟩

instance (n : Node) : Decidable (RoundTrip n) := decidable_of_iff _ (roundTrip_iff n).symm

example : RoundTrip sampleTree := by decide +kernel

/-- Decompiling what the tree compiles to, through `f`, gives a tree of other meaning. -/
def RoundTripBreaks (f : List Item → List Item) (n : Node) : Bool :=
  match compile [] n with
  | .ok items =>
    match extract [] (f items) with
    | .ok t => decide (treeMeaning t ≠ treeMeaning n)
    | .error _ => false
  | .error _ => false

/-- An empty collection is lost. -/
theorem C41_empty_breaks : RoundTripBreaks id (app [.coll (.int 0) (some (.int 0x10001)) [],
    .value (mk (axis 0x10030))]) = true := by decide +kernel

/-- The unit of an array is lost. -/
theorem C41_unit_breaks : RoundTripBreaks id (app [.value (mk { keyArray with unit := .int 0x11 })]) = true := by
  decide +kernel

/-- The collection around a value of a single logical value is taken for a named array. -/
theorem C41_single_breaks : RoundTripBreaks id (app [.coll (.int 4) (some (.int 0x10001))
    [.value (mk { axis 0x10030 with flags := .int 2, logicalMin := some 1, logicalMax := some 1 })]]) = true := by
  decide +kernel

/-- A byte that is not aligned is moved to a byte boundary. -/
theorem C41_alignment_breaks : RoundTripBreaks id (app [.value (mk (button 1)),
    .value (mk { axis 0x10030 with alignment := some 1 })]) = true := by decide +kernel

/-- Optimized values of two pages in one item are all put on the last page. -/
theorem C41_optimized_breaks : RoundTripBreaks (Optimizer.new [] 0 100 Pass.sink).run (app [
    .value (mk (button 1)), .value (mk { button 1 with usage := some (.int 0x10030) })]) = true := by
  decide +kernel

/-! ## C42 -/

/-- **C42 (partial).** A decompiled stream compiles, if at all, to a stream of the same meaning.
Missing, and false of the code: streams that are not extractable (see C39), streams that use report 0
after others, buffered bytes of more than one field (the compiler counts the first only), and fields
that do not start at a multiple of their size or of 8 bits (`C42_alignment_breaks`). -/
theorem C42_decompile_partial (reg reg' : Registry) (rule : PageRule) (xs : List Item)
    (hm : ∀ i ∈ xs, i.Made) (he : Extractable (keys xs)) (hz : ∀ i ∈ xs, i.cls = .reportID → i.ival ≠ 0)
    (hb : ∀ r ∈ recs .atMain {} (keys xs), r.cls.isData = true → r.isConst = false → r.val / 256 % 2 = 1 →
      r.g .reportCount = 1)
    (ha : aligned (meaning .atMain (keys xs)) = true) :
    ∃ t, extract reg xs = .ok t ∧ ∀ items, compile reg' t = .ok items →
      meaning rule (keys items) = meaning .atMain (keys xs) := by
  obtain ⟨t, h1, -, h2, h3, h4⟩ := extract_ok reg xs hm he (fun c => c = 1) rfl hb
  refine ⟨t, h1, ?_⟩
  intro items hi
  have hval : ∀ v, Leaf.value v ∈ leaves t → ValueOK (fun c => c = 1) v := by
    intro v hv
    obtain ⟨id, hid⟩ := leaf_scope [] _ _ (mem_leaves.1 hv)
    rw [← pieces_eq] at hid
    exact h3 _ hid
  have hmade : TreeMade t := fun v hv => (hval v hv).1
  have hnn : NoNamedCollection t := by
    intro v hv hne
    rw [(hval v hv).2.2.2.2.1 hne]; rfl
  have hkinds : KindsOK t := by
    intro k u hku
    have := enter_scope [] _ _ _ hku
    rw [← pieces_eq] at this
    exact h3 _ this
  have hcf : CountsFit 0 t := countsFit_single (fun v hv => (hval v hv).2.2.2.2.2)
  have hrl := grouped_reportsLast (extract_grouped h1) (h4 hz)
  rw [C29_compile_meaning_partial reg' rule t items hi hmade hnn hkinds hrl 0 hcf,
    tree_bare (C := fun c => c = 1) (by intro c hc; omega) h3 (by rw [h2]; exact ha), h2]

example : Extractable (keys rangeItems) ∧ (∀ i ∈ rangeItems, i.cls = .reportID → i.ival ≠ 0) ∧
    (recs .atMain {} (keys rangeItems)).all (fun r => r.val / 256 % 2 != 1) = true ∧
    aligned (meaning .atMain (keys rangeItems)) = true ∧
    (match extract [] rangeItems with | .ok t => (compile [] t).toOption.isSome | .error _ => false) = true := by
  decide +kernel

/-- Compiling what the items decompile to gives a stream of other meaning. -/
def RebuildBreaks (rule : PageRule) (cs : List (Cls × Int)) : Bool :=
  match extract [] (build! cs) with
  | .ok t =>
    match compile [] t with
    | .ok items => decide (Extractable (keys (build! cs))) &&
        decide (meaning rule (keys items) ≠ meaning rule (keys (build! cs)))
    | .error _ => false
  | .error _ => false

/-- A byte after three bits is moved to a byte boundary. -/
theorem C42_alignment_breaks (rule : PageRule) : RebuildBreaks rule [(.usage, 0x10002), (.collection, 1),
    (.logMin, 0), (.logMax, 1), (.reportSize, 3), (.reportCount, 1), (.usage, 0x10030), (.input, 2),
    (.reportSize, 8), (.usage, 0x10031), (.input, 2), (.endCollection, 0)] = true := by
  cases rule <;> decide +kernel

/-- Report 0 after report 1 is lost. -/
theorem C42_report_breaks (rule : PageRule) : RebuildBreaks rule [(.usage, 0x10002), (.collection, 1),
    (.logMin, 0), (.logMax, 1), (.reportSize, 8), (.reportCount, 1), (.reportID, 1), (.usage, 0x10030),
    (.input, 2), (.reportID, 0), (.usage, 0x10031), (.input, 2), (.endCollection, 0)] = true := by
  cases rule <;> decide +kernel

end Hrdc
