import Verif.Proofs.OptTree2
import Verif.Props.Compile2
/-!
# C30: the optimizer on compiled trees
-/
namespace Hrdc
open Spec Streamer

/-- Trees whose optimized compilation is proved to keep its meaning. -/
structure OptTree (n : Node) : Prop where
  /-- consecutive values that look alike fit together -/
  alike : alikeFit none 0 (tokens n) = true
  /-- values with and without physical bounds of their own -/
  phys : physBack false (tokens n) = true
  /-- the last element is in a collection -/
  ends : endsClosed true (tokens n) = true

theorem optTree_iff (n : Node) : OptTree n ↔ alikeFit none 0 (tokens n) = true ∧
    physBack false (tokens n) = true ∧ endsClosed true (tokens n) = true :=
  ⟨fun h => ⟨h.1, h.2, h.3⟩, fun ⟨a, b, c⟩ => ⟨a, b, c⟩⟩

instance (n : Node) : Decidable (OptTree n) := decidable_of_iff _ (optTree_iff n).symm

theorem sane_counts (ts : List Tok) (c : Count) (last : Int) (h : Sane c last ts) :
    ∀ v, Tok.leaf (.value v) ∈ ts → 0 ≤ v.count := by
  induction ts generalizing c last with
  | nil => simp
  | cons t ts ih =>
    intro v hv
    rcases List.mem_cons.1 hv with rfl | hv'
    · exact (h.2.1 v rfl).2
    · cases t with
      | leaf l => exact ih _ _ h.2.2 v hv'
      | report i => exact ih _ _ h v hv'
      | endReport => exact ih _ _ h v hv'
      | enter k u => exact ih _ _ h v hv'
      | leave => exact ih _ _ h v hv'

theorem compiled_base {reg : Registry} {n : Node} {items : List Item} (h : compile reg n = .ok items) :
    NoPushPop items ∧ FullUsages items ∧ (∀ i ∈ items, isDesig0 i = false) ∧
      rangesClosed .atUsage {} (keys items) = true := by
  have hkeys := compile_keys h
  have hplain : ∀ k ∈ keys items, Plain ((tokens n).flatMap tokUsages) k := by
    rw [hkeys]
    exact treeKeys_plain _ _ _ _ (fun t ht u hu => List.mem_flatMap.2 ⟨t, ht, hu⟩)
  have hitem : ∀ i ∈ items, Plain ((tokens n).flatMap tokUsages) i.key := fun i hi =>
    hplain _ (List.mem_map.2 ⟨i, hi, rfl⟩)
  refine ⟨?_, ?_, ?_, ?_⟩
  · intro i hi
    have := hitem i hi
    constructor <;> intro hc <;> simp [Plain, hc] at this
  · refine Or.inr (fun i hi => ⟨fun hu => ?_, fun hc => ?_⟩)
    · refine made_local (compile_made h i hi) ?_
      cases hc : i.cls <;> rw [hc] at hu <;> simp [Optimizer.usageLike] at hu <;> rfl
    · have := hitem i hi
      simp [Plain, hc] at this
  · intro i hi
    have := hitem i hi
    by_cases hc : i.cls = .desigIndex
    · simp only [Plain, key_fst, hc, key_snd] at this
      simp [isDesig0, this]
    · simp [isDesig0, hc]
  · exact rangesClosed_plain _ _ hplain {} rfl rfl rfl

theorem compiled_safe {reg : Registry} {n : Node} {items : List Item}
    (h : compile reg n = .ok items) (ho : OptTree n) : OptSafe items := by
  have hkeys := compile_keys h
  obtain ⟨b1, b2, b3, b4⟩ := compiled_base h
  refine ⟨b1, b2, b3, ?_, b4, ?_, ?_⟩
  · rw [hkeys]
    exact tree_merge (tokens n) _ 0 {} none none ⟨rfl, rfl, rfl, rfl⟩ ho.alike
      (sane_counts _ _ _ (compile_exact .atUsage h).2) (by simp)
  · rw [physSafe_keys, hkeys]
    exact tree_phys (tokens n) _ 0 .zero false (by simp) ho.phys
  · rw [trailing_keys, hkeys]
    exact tree_trailing (tokens n) _ 0 true ho.ends

/-- **C30 (partial).** The optimizer keeps the meaning of what a descriptor compiles to, whatever the
values and reports of the tree, whatever passes are selected.  Missing, and false of the code: hosts
resolving pages at main items (`C30_pages_break`) and trees that are not `OptTree`
(`C30_arrays_break`, `C30_strings_break`, `C30_physical_breaks`, `C30_trailing_breaks`). -/
theorem C30_optimized_exact_partial (reg : Registry) (min max : Int) (n : Node) (items : List Item)
    (h : compile reg n = .ok items) (ho : OptTree n) :
    meaning .atUsage (keys ((Optimizer.new reg min max Pass.sink).run items)) =
      meaning .atUsage (keys items) ∧
    meaning .atUsage (keys items) = exact (fun _ _ => 0) 0 0 (tokens n) :=
  ⟨optimizer_meaning reg min max items (compiled_safe h ho), (compile_exact .atUsage h).1⟩

/-- **C30 (partial).** The optimized items have exactly the meaning of the tree.  Missing: as in
`C30_optimized_exact_partial` and for C29. -/
theorem C30_optimized_meaning_partial (reg : Registry) (min max : Int) (n : Node) (items : List Item)
    (h : compile reg n = .ok items) (hm : TreeMade n) (hn : NoNamedCollection n) (hk : KindsOK n)
    (hr : ReportsLast n) (a : Nat) (hf : CountsFit a n) (ho : OptTree n) :
    meaning .atUsage (keys ((Optimizer.new reg min max Pass.sink).run items)) = treeMeaning n := by
  rw [optimizer_meaning reg min max items (compiled_safe h ho)]
  exact C29_compile_meaning_partial reg .atUsage n items h hm hn hk hr a hf

/-- **C30 (partial).** Hosts resolving pages at main items understand the optimized items in the same
way when no page changes between a usage and its main item. -/
theorem C30_optimized_steady_partial (reg : Registry) (min max : Int) (n : Node) (items : List Item)
    (h : compile reg n = .ok items) (hm : TreeMade n) (hn : NoNamedCollection n) (hk : KindsOK n)
    (hr : ReportsLast n) (a : Nat) (hf : CountsFit a n) (ho : OptTree n)
    (hs : pageSteady false (keys ((Optimizer.new reg min max Pass.sink).run items)) = true) :
    meaning .atMain (keys ((Optimizer.new reg min max Pass.sink).run items)) = treeMeaning n := by
  rw [meaning_steady .atMain .atUsage _ hs]
  exact C30_optimized_meaning_partial reg min max n items h hm hn hk hr a hf ho

/-- **C31 (partial).** The bytes written by `compile_main` with its default optimization decode to
items having the meaning of the tree. -/
theorem C31_optimized_bytes_partial (reg : Registry) (n : Node) (b : List UInt8)
    (h : Compiler.main reg .binary true n = .ok (.bytes b)) (hm : TreeMade n)
    (hn : NoNamedCollection n) (hk : KindsOK n) (hr : ReportsLast n) (a : Nat) (hf : CountsFit a n)
    (ho : OptTree n) : ∃ ks, readAll b = some ks ∧ meaning .atUsage ks = treeMeaning n := by
  unfold Compiler.main at h
  split at h
  · simp at h
  · rename_i items hi
    simp only [if_true, Formatter.render] at h
    cases hb : Formatter.binary (Optimizer.optimize reg items) with
    | error e => rw [hb] at h; simp [Except.map] at h
    | ok b' =>
      rw [hb] at h
      simp [Except.map] at h
      subst h
      exact ⟨_, readAll_binary (optimize_made reg items (compile_made hi)) hb,
        C30_optimized_meaning_partial reg 0 100 n items hi hm hn hk hr a hf ho⟩

example : OptTree sampleTree := by decide +kernel

/-- Usages of page 0 need no other condition. -/
example : OptTree (.coll (.named (tx "Application") 1) (some (.int 2))
      [.value (mk (button 1)), .value (mk (axis 7)), .value (mk (axis 0x10030))]) := by
  decide +kernel

example : (Compiler.main [] .binary true sampleTree).toOption.isSome ∧
    ∀ items, compile [] sampleTree = .ok items →
      pageSteady false (keys ((Optimizer.new [] 0 100 Pass.sink).run items)) = true ∧
      ((Optimizer.new [] 0 100 Pass.sink).run items).length < items.length := by
  refine ⟨by decide +kernel, ?_⟩
  have hd : (match compile [] sampleTree with
    | .ok items => pageSteady false (keys ((Optimizer.new [] 0 100 Pass.sink).run items)) &&
        decide (((Optimizer.new [] 0 100 Pass.sink).run items).length < items.length)
    | .error _ => true) = true := by decide +kernel
  intro items hi
  rw [hi] at hd
  simpa using hd

/-! ### Where C30 fails -/

/-- `n` compiles without optimization, and hosts of sort `rule` understand the optimized bytes in
another way. -/
def OptBreaks (rule : PageRule) (n : Node) : Bool :=
  match Compiler.main [] .binary false n, Compiler.main [] .binary true n with
  | .ok (.bytes a), .ok (.bytes b) =>
    (readAll a).isSome && (readAll b).isSome &&
      decide ((readAll a).map (meaning rule) ≠ (readAll b).map (meaning rule))
  | _, _ => false

/-- Collection around some values. -/
def app (ms : List Node) : Node := .coll (.named (tx "Application") 1) (some (.int 0x10002)) ms

/-- Modifier keys given as a named array. -/
def keyArray : ValueArgs :=
  { way := .input, usage := none, size := 8, namedArray := some (.list [.int 0x70004, .int 0x70005]) }

/-- Two arrays of the same shape in a row become one, in which both fields choose among the usages of
both. -/
theorem C30_arrays_break (rule : PageRule) :
    OptBreaks rule (app [.value (mk keyArray), .value (mk keyArray)]) = true := by
  cases rule <;> decide +kernel

/-- The string of the second of two values is given to both. -/
theorem C30_strings_break (rule : PageRule) :
    OptBreaks rule (app [.value (mk (button 1)), .value (mk { button 2 with string := 5 })]) = true := by
  cases rule <;> decide +kernel

/-- A value whose logical and physical bounds are (0, 0) after one with physical bounds. -/
theorem C30_physical_breaks (rule : PageRule) :
    OptBreaks rule (app [
      .value (mk { axis 0x10030 with physicalMin := some (-5), physicalMax := some 5 }),
      .value (mk { axis 0x10031 with logicalMin := some 0, logicalMax := some 0 })]) = true := by
  cases rule <;> decide +kernel

/-- Values after the last collection, or without any collection, lose their report count. -/
theorem C30_trailing_breaks (rule : PageRule) :
    OptBreaks rule (.top [.value (mk (button 1)), .value (mk (button 2))]) = true := by
  cases rule <;> decide +kernel

/-- Values on different pages become one item, whose usages a host resolving pages at main items puts
all on the last page. -/
theorem C30_pages_break :
    OptBreaks .atMain (app [.value (mk (axis 0x10030)), .value (mk (axis 0xc0238))]) = true ∧
    OptTree (app [.value (mk (axis 0x10030)), .value (mk (axis 0xc0238))]) := by
  decide +kernel

/-- Left out of C31, and false: the bytes of a value that follows a Report put it in that report. -/
theorem C31_report_breaks :
    let n := Node.top [.report 1 [.value (mk (button 1))], .value (mk (button 2))]
    (match Compiler.main [] .binary false n with
      | .ok (.bytes b) => (readAll b).any (fun ks =>
          decide (∀ rule ∈ [PageRule.atUsage, .atMain], meaning rule ks ≠ treeMeaning n))
      | _ => false) = true := by
  decide +kernel

end Hrdc
