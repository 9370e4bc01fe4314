import Verif.Proofs.Neighbours2
import Verif.Props.Pipeline
/-!
# C30, C31, C41, C42, C44: with optimization, for all hosts
-/
namespace Hrdc
open Spec Optimizer MR Extractor Streamer
open Spec.Script (runScript)

/-! ## Pages of compiled descriptors -/

/-- **C30 (partial).** The optimized items have exactly the meaning of the tree for both sorts of host, when each value
has its usages on one page, and so have neighbouring values that differ in usages only.  Missing, and false of the code: trees
that are not `OptTree` (`C30_*_breaks`), and usages on several pages for hosts resolving pages at main items
(`C30_pages_break`). -/
theorem C30_optimized_pages_partial (reg : Registry) (rule : PageRule) (n : Node) (items : List Item)
    (h : compile reg n = .ok items) (hm : TreeMade n) (hn : NoNamedCollection n) (hk : KindsOK n)
    (hr : ReportsLast n) (a : Nat) (hf : CountsFit a n) (ho : OptTree n) (hp : pagesFit none 0 (tokens n) = true) :
    meaning rule (keys (optimize reg items)) = treeMeaning n := by
  rw [meaning_steady rule .atUsage _ (compiled_steady h ho hp)]
  exact C30_optimized_meaning_partial reg 0 100 n items h hm hn hk hr a hf ho

/-- **C31 (partial).** Both sorts of host read the meaning of the tree from the bytes written by `compile_main` with its
default optimization. -/
theorem C31_optimized_pages_partial (reg : Registry) (rule : PageRule) (n : Node) (b : List UInt8)
    (h : Compiler.main reg .binary true n = .ok (.bytes b)) (hm : TreeMade n)
    (hn : NoNamedCollection n) (hk : KindsOK n) (hr : ReportsLast n) (a : Nat) (hf : CountsFit a n)
    (ho : OptTree n) (hp : pagesFit none 0 (tokens n) = true) :
    ∃ ks, readAll b = some ks ∧ meaning rule ks = treeMeaning n := by
  unfold Compiler.main at h
  split at h
  · simp at h
  · rename_i items hi
    simp only [if_true, Formatter.render] at h
    cases hb : Formatter.binary (Optimizer.optimize reg items) with
    | error e => rw [hb] at h; simp [Except.map] at h
    | ok b' =>
      rw [hb] at h
      simp [Except.map] at h
      subst h
      exact ⟨_, readAll_binary (optimize_made reg items (compile_made hi)) hb,
        C30_optimized_pages_partial reg rule n items hi hm hn hk hr a hf ho hp⟩

/-- **C41 (partial).** Compiling with optimization and decompiling keeps the meaning; all conditions are on the tree. -/
theorem C41_optimized_pages_partial (reg reg' : Registry) (n : Node) (items : List Item)
    (h : compile reg n = .ok items) (hm : TreeMade n) (hn : NoNamedCollection n) (hk : KindsOK n)
    (hr : ReportsLast n) (a : Nat) (hf : CountsFit a n) (ht : OptRoundTrip n)
    (hp : pagesFit none 0 (tokens n) = true) :
    ∃ t, extract reg' (optimize reg items) = .ok t ∧ treeMeaning t = treeMeaning n :=
  C41_optimized_partial reg reg' n items h hm hn hk hr a hf ht (compiled_steady h ht.opt hp)

/-- **C41 (partial).** The same for bytes. -/
theorem C41_optimized_pages_bytes_partial (reg reg' : Registry) (n : Node) (b : List UInt8)
    (h : Compiler.main reg .binary true n = .ok (.bytes b)) (hm : TreeMade n) (hn : NoNamedCollection n)
    (hk : KindsOK n) (hr : ReportsLast n) (a : Nat) (hf : CountsFit a n) (ht : OptRoundTrip n)
    (hp : pagesFit none 0 (tokens n) = true) :
    (Parser.blobParse reg' b).2 = none ∧
      ∃ t, extract reg' (Parser.blobParse reg' b).1 = .ok t ∧ treeMeaning t = treeMeaning n := by
  refine C41_optimized_bytes_partial reg reg' n b h hm hn hk hr a hf ht ?_
  intro ks hks
  unfold Compiler.main at h
  split at h
  · simp at h
  · rename_i items hi
    simp only [if_true, Formatter.render] at h
    cases hb : Formatter.binary (Optimizer.optimize reg items) with
    | error e => rw [hb] at h; simp [Except.map] at h
    | ok b' =>
      rw [hb] at h
      simp [Except.map] at h
      subst h
      rw [readAll_binary (optimize_made reg items (compile_made hi)) hb, Option.some.injEq] at hks
      subst hks
      exact compiled_steady hi ht.opt hp

/-- Met by buttons, axes and keys of two reports. -/
example : OptRoundTrip sampleTree ∧ pagesFit none 0 (tokens sampleTree) = true := by decide +kernel

/-- Two pages in neighbouring values that could be one item are left out, two pages elsewhere are not. -/
example : pagesFit none 0 (tokens (app [.value (mk (axis 0x10030)), .value (mk (axis 0xc0238))])) = false ∧
    pagesFit none 0 (tokens (app [.value (mk (axis 0x10030)), .value (mk (button 1))])) = true := by decide +kernel

/-! ## Decompiling and compiling with optimization -/

/-- Optimizing what a decompiled stream compiles to. -/
theorem rebuilt_optimized {reg reg' : Registry} (rule : PageRule) {xs : List Item} {t : Node} {items : List Item}
    (hm : ∀ i ∈ xs, i.Made) (he : Extractable (keys xs)) (hid : ∀ i ∈ xs, i.cls = .reportID → i.ival < 256)
    (hb : ∀ r ∈ recs .atMain {} (keys xs), r.cls.isData = true → r.isConst = false → r.val / 256 % 2 = 1 →
      r.g .reportCount = 1)
    (h : extract reg xs = .ok t) (hc : compile reg' t = .ok items)
    (hM : meaning .atUsage (keys items) = meaning .atMain (keys xs))
    (hj : alikeJoin (meaning .atMain (keys xs)) = true) (hbk : boundsBack false (meaning .atMain (keys xs)) = true)
    (hp : rule = .atUsage ∨ alikePages (meaning .atMain (keys xs)) = true) :
    meaning rule (keys (optimize reg' items)) = meaning .atMain (keys xs) := by
  obtain ⟨t', h1, -, h3, h4, -⟩ := extract_ok reg xs hm he (fun c => c = 1) rfl hb
  rw [h] at h1
  cases h1
  have hok := extract_toks reg xs hm hid h
  have hval : ∀ k ∈ tokens t, TokValueOK k := by
    rintro k hk v rfl
    obtain ⟨id, hin⟩ := leaf_scope [] _ _ hk
    rw [← pieces_eq] at hin
    exact h4 _ hin
  have hkeys := compile_keys hc
  have hshape : ∀ r ∈ recs .atUsage {} (keys items), RecShape r := by
    rw [hkeys]; exact tree_shape (tokens t) _ 0 {} ⟨rfl, rfl, rfl, rfl⟩ hval
  have hev : (recs .atUsage {} (keys items)).flatMap MainRec.events = meaning .atMain (keys xs) := hM
  have hbare : (inScope [] (tokens t)).flatMap bare = meaning .atMain (keys xs) := by
    rw [← pieces_eq]; exact h3
  have htrail : trailing true items = true := by
    rw [trailing_keys, hkeys]
    refine tree_trailing (tokens t) _ 0 true ?_
    rw [events_ends (tokens t) [] true hok hval, hbare]
    have hends := he.ends
    unfold endsClosedRec at hends
    split at hends
    · rename_i r hr
      obtain ⟨l, hl⟩ := List.getLast?_eq_some_iff.1 hr
      have hrc : r.cls = .endCollection := by simpa using hends
      unfold meaning eventsFrom
      rw [hl, List.flatMap_append, evEnds_append]
      simp [MainRec.events, hrc, evEnds]
    · simp at hends
  obtain ⟨b1, b2, b3, b4⟩ := compiled_base hc
  have hsafe : OptSafe items := by
    refine ⟨b1, b2, b3, ?_, b4, ?_, htrail⟩
    · exact events_merge _ hshape (by rw [hev]; exact hj)
    · rw [physSafe_keys, hkeys]
      refine tree_phys (tokens t) _ 0 .zero false (by simp) ?_
      rw [events_bounds (tokens t) [] false hok hval, hbare]; exact hbk
  have hU : meaning .atUsage (keys (optimize reg' items)) = meaning .atMain (keys xs) := by
    rw [← hM]; exact optimizer_meaning reg' 0 100 items hsafe
  rcases hp with rfl | hp
  · exact hU
  · rw [meaning_steady rule .atUsage, hU]
    have hplain : ∀ k ∈ keys items, Streamer.Plain ((tokens t).flatMap tokUsages) k := by
      rw [hkeys]
      exact treeKeys_plain _ _ _ _ (fun t ht u hu => List.mem_flatMap.2 ⟨t, ht, hu⟩)
    refine optimize_steady reg' items ?_ b3 b4 ?_ htrail (events_pages _ hshape (by rw [hev]; exact hj) (by rw [hev]; exact hp))
    · intro i hi hc
      have := hplain i.key (mem_keys.2 ⟨i, hi, rfl⟩)
      simp only [List.mem_cons, List.not_mem_nil, or_false] at hc
      rcases hc with hc | hc | hc | hc | hc <;> simp [Streamer.Plain, key_fst, hc] at this
    · rw [hkeys]; exact tree_taken _ _ _

/-- **C42 (partial).** The same with the compiler's default optimization: a decompiled stream compiles to a stream of the
same meaning.  Beyond the conditions without optimization, neighbouring controls that look alike can be described by one
item (`C42_optimized_keyboard_breaks`), all-zero bounds do not follow physical bounds (`C42_optimized_bounds_breaks`), and
for hosts resolving pages at main items, usages of one control or of neighbours that look alike are on one page
(`C42_optimized_pages_breaks`). -/
theorem C42_optimized_partial (reg reg' : Registry) (rule : PageRule) (xs : List Item)
    (hm : ∀ i ∈ xs, i.Made) (he : Extractable (keys xs))
    (hz : ∀ i ∈ xs, i.cls = .reportID → i.ival ≠ 0 ∧ i.ival < 256)
    (hb : ∀ r ∈ recs .atMain {} (keys xs), r.cls.isData = true → r.isConst = false → r.val / 256 % 2 = 1 →
      r.g .reportCount = 1)
    (hu : ∀ k w, Event.enter k w ∈ meaning .atMain (keys xs) → w.usage ≠ none)
    (ha : aligned (meaning .atMain (keys xs)) = true)
    (hj : alikeJoin (meaning .atMain (keys xs)) = true) (hbk : boundsBack false (meaning .atMain (keys xs)) = true)
    (hp : rule = .atUsage ∨ alikePages (meaning .atMain (keys xs)) = true) :
    ∃ t items, extract reg xs = .ok t ∧ compile reg' t = .ok items ∧
      meaning rule (keys (optimize reg' items)) = meaning .atMain (keys xs) := by
  obtain ⟨t, items, h1, h2, h3⟩ := C42_rebuild_partial reg reg' .atUsage xs hm he hz hb hu ha
  exact ⟨t, items, h1, h2, rebuilt_optimized rule hm he (fun i hi hc => (hz i hi hc).2) hb h1 h2 h3 hj hbk hp⟩

/-- A mouse with buttons and axes, and one key. -/
def mixedItems : List Item :=
  build! [(.usagePage, 1), (.usage, 2), (.collection, 1), (.reportID, 1), (.usagePage, 9),
    (.usageMin, 1), (.usageMax, 3), (.logMin, 0), (.logMax, 1), (.reportSize, 1), (.reportCount, 3),
    (.input, 2), (.reportCount, 5), (.input, 3), (.usagePage, 1), (.usage, 0x30), (.usage, 0x31),
    (.logMin, -127), (.logMax, 127), (.reportSize, 8), (.reportCount, 2), (.input, 6),
    (.reportID, 2), (.usagePage, 7), (.usageMin, 0), (.usageMax, 3), (.logMin, 0), (.logMax, 3),
    (.reportCount, 1), (.input, 0), (.endCollection, 0)]

/-- All conditions are met; the buttons and the axes get merged again. -/
example : Extractable (keys mixedItems) ∧ aligned (meaning .atMain (keys mixedItems)) = true ∧
    alikeJoin (meaning .atMain (keys mixedItems)) = true ∧ boundsBack false (meaning .atMain (keys mixedItems)) = true ∧
    alikePages (meaning .atMain (keys mixedItems)) = true ∧ (meaning .atMain (keys mixedItems)).length = 13 := by decide +kernel

/-- Optimizing what the items decompile and compile to gives a stream of other meaning, though without optimization the
meaning is kept. -/
def OptRebuildBreaks (rule : PageRule) (cs : List (Cls × Int)) : Bool :=
  match extract [] (build! cs) with
  | .ok t =>
    match compile [] t with
    | .ok items => decide (Extractable (keys (build! cs))) &&
        decide (meaning rule (keys items) = meaning .atMain (keys (build! cs))) &&
        decide (meaning rule (keys (optimize [] items)) ≠ meaning .atMain (keys (build! cs)))
    | .error _ => false
  | .error _ => false

/-- The key array of a keyboard: the fields become one item that lists the keys once for each field. -/
theorem C42_optimized_keyboard_breaks (rule : PageRule) : OptRebuildBreaks rule [(.usagePage, 1), (.usage, 6), (.collection, 1),
    (.usagePage, 7), (.logMin, 0), (.logMax, 2), (.reportSize, 8), (.reportCount, 2), (.usageMin, 0), (.usageMax, 2),
    (.input, 0), (.endCollection, 0)] = true := by
  cases rule <;> decide +kernel

/-- A control with bounds (0, 0) after one with physical bounds gets those. -/
theorem C42_optimized_bounds_breaks (rule : PageRule) : OptRebuildBreaks rule [(.usage, 0x10002), (.collection, 1),
    (.logMin, -1), (.logMax, 1), (.physMin, -5), (.physMax, 5), (.reportSize, 8), (.reportCount, 1), (.usage, 0x10030), (.input, 2),
    (.logMin, 0), (.logMax, 0), (.physMin, 0), (.physMax, 0), (.usage, 0x10031), (.input, 2), (.endCollection, 0)] = true := by
  cases rule <;> decide +kernel

/-- Two controls on different pages become one item; hosts resolving pages at main items put both on the second page. -/
theorem C42_optimized_pages_breaks : OptRebuildBreaks .atMain [(.usage, 0x10002), (.collection, 1),
    (.logMin, 0), (.logMax, 1), (.reportSize, 8), (.reportCount, 1), (.usage, 0x10030), (.input, 2),
    (.usage, 0xc0238), (.input, 2), (.endCollection, 0)] = true := by
  decide +kernel

/-- **C44, C42 (partial), there and back with optimization.** Decompile a document that can be read, in any format; run the
script; compile with the default optimization: bytes are written, and have the meaning of the document.  Missing, and false of
the code: as in `C44_there_and_back_partial` and `C42_optimized_partial`. -/
theorem C44_optimized_partial (reg reg' : Registry) (hreg : Imported reg) (rule : PageRule) (f : Formatter.Fmt)
    (uni : Parser.Uni) (d : Formatter.Doc) (xs : List Item) (hd : Formatter.deliver f reg uni d = (xs, none))
    (he : Extractable (keys xs)) (hz : ∀ i ∈ xs, i.cls = .reportID → i.ival ≠ 0 ∧ i.ival < 256)
    (hb : ∀ r ∈ recs .atMain {} (keys xs), r.cls.isData = true → r.isConst = false → r.val / 256 % 2 = 1 →
      r.g .reportCount = 1)
    (ha : aligned (meaning .atMain (keys xs)) = true)
    (hs : ∀ e ∈ meaning .atMain (keys xs), e.sayable wrongNames = true)
    (hlen : (meaning .atMain (keys xs)).length < 2 ^ 32)
    (hj : alikeJoin (meaning .atMain (keys xs)) = true) (hbk : boundsBack false (meaning .atMain (keys xs)) = true)
    (hp : rule = .atUsage ∨ alikePages (meaning .atMain (keys xs)) = true) :
    ∃ t m b ks, Decompiler.main reg f uni d = .ok t ∧ runScript UsageTable.lookup t = some m ∧
      Compiler.main reg' .binary true m = .ok (.bytes b) ∧ readAll b = some ks ∧
      meaning rule ks = meaning .atMain (keys xs) := by
  have hread := deliver_read f reg uni d
  rw [hd] at hread
  have hm : ∀ i ∈ xs, i.Made := fun i hi => (hread i hi).2
  have hx : ∀ i ∈ xs, ReadItem reg i := fun i hi => (hread i hi).1
  obtain ⟨n, h1, -, h3, h4, -⟩ := extract_ok reg xs hm he (fun c => c = 1) rfl hb
  have hok := extract_toks reg xs hm (fun i hi hc => (hz i hi hc).2) h1
  obtain ⟨hsay, hnone⟩ := tree_sayable (xs := xs) (extract_from hx h1) hok h3 h4 hs hlen
  obtain ⟨t, g1, m, g2, -, g5⟩ := C44_command_partial reg hreg f uni d xs hd n h1 (fun k hk => (hsay k hk).1)
  obtain ⟨w, hw⟩ := C66_written reg .binary n (legal_of_toks _ 0 (by decide) hok hnone) (fun k hk => (hsay k hk).2)
  have hval : ∀ k ∈ tokens n, TokValueOK k := by
    rintro k hk v rfl
    obtain ⟨id, hin⟩ := leaf_scope [] _ _ hk
    rw [← pieces_eq] at hin
    exact h4 _ hin
  obtain ⟨n', h1', hmean⟩ := C42_decompile_partial reg reg .atUsage xs hm he (fun i hi hc => (hz i hi hc).1) hb ha
  rw [h1] at h1'
  cases h1'
  cases hc : Streamer.compile reg n with
  | error e => rw [Compiler.main, hc] at hw; simp at hw
  | ok items =>
    have hM := hmean items hc
    have hopt := rebuilt_optimized rule hm he (fun i hi hc => (hz i hi hc).2) hb h1 hc hM hj hbk hp
    have hw0 := hw
    rw [Compiler.main, hc] at hw
    simp only [Bool.false_eq_true, if_false, Formatter.render] at hw
    cases hbi : Formatter.binary items with
    | error e => rw [hbi] at hw; simp [Except.map] at hw
    | ok b0 =>
      rw [hbi] at hw
      simp [Except.map] at hw
      subst hw
      obtain ⟨hsame, hsane⟩ := compile_exact .atUsage hc
      obtain ⟨c1, c2⟩ := tree_counts (tokens n) _ 0 0 hsane hok hval
      rw [← hsame, hM, ← compile_keys hc] at c1
      rw [← compile_keys hc] at c2
      obtain ⟨w', hw'⟩ := C64_compile .binary reg n b0 (keys items) hw0 (readAll_binary (compile_made hc) hbi) (by
        intro k hk hkc
        rw [c2 k hk hkc]
        omega)
      have hw'' := hw'
      rw [Compiler.main, hc] at hw'
      simp only [if_true, Formatter.render] at hw'
      cases hbo : Formatter.binary (Optimizer.optimize reg items) with
      | error e => rw [hbo] at hw'; simp [Except.map] at hw'
      | ok b1 =>
        rw [hbo] at hw'
        simp [Except.map] at hw'
        subst hw'
        rw [← g5 reg' .binary true (by simp)] at hw''
        exact ⟨t, m, b1, _, g1, g2, hw'', readAll_binary (optimize_made reg items (compile_made hc)) hbo, hopt⟩

/-- The mouse meets the conditions. -/
example : (match Parser.blobParse UsageTable.registry mouse with
    | (xs, none) => decide (Extractable (keys xs)) && aligned (meaning .atMain (keys xs)) &&
        (meaning .atMain (keys xs)).all (Event.sayable wrongNames) && alikeJoin (meaning .atMain (keys xs)) &&
        boundsBack false (meaning .atMain (keys xs)) && alikePages (meaning .atMain (keys xs))
    | _ => false) = true := by
  rw [Parser.blobParse, blobSteps_eq _ 60 0 mouse (by decide)]
  decide +kernel

end Hrdc
