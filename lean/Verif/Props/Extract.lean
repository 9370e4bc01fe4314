import Verif.Proofs.Extract6
import Verif.Props.Compile3
/-!
# C38, C39, C40, C43: the decompiler
-/
namespace Hrdc
open Spec Extractor

/-- Items of a list of constructor calls. -/
def build! (cs : List (Cls × Int)) : List Item :=
  ((Streamer.emit [] (cs.map (fun c => (c.1, .int c.2)))).toOption).getD []

/-- Items of the sample tree. -/
def sampleItems : List Item := ((Streamer.compile [] sampleTree).toOption).getD []

/-! ## C38 -/

/-- Open collections the extractor will close: its stack, and the one replaced by a named array. -/
def Extractor.State.open' (st : State) : Nat := st.stack.length + (if st.inNamed then 1 else 0)

theorem addMany_open (st st' : State) (as : List ValueArgs) (h : st.addMany as = .ok st') :
    st'.stack = st.stack ∧ st'.inNamed = st.inNamed := by
  induction as generalizing st with
  | nil => simp [State.addMany] at h; subst h; exact ⟨rfl, rfl⟩
  | cons a as ih =>
    rw [State.addMany, State.addNew] at h
    cases hv : Value.new a with
    | error e => rw [hv] at h; simp at h
    | ok v =>
      rw [hv] at h
      simp only at h
      obtain ⟨h1, h2⟩ := ih _ h
      exact ⟨h1, h2⟩

theorem addNew_open (st st' : State) (a : ValueArgs) (h : st.addNew a = .ok st') :
    st'.stack = st.stack ∧ st'.inNamed = st.inNamed := by
  rw [State.addNew] at h
  cases hv : Value.new a with
  | error e => rw [hv] at h; simp at h
  | ok v => rw [hv] at h; simp at h; subst h; exact ⟨rfl, rfl⟩

theorem leave_open (st st' : State) (b : Bool) (h : st.leave b = .ok st') :
    st.stack.length = st'.stack.length + 1 ∧ st'.inNamed = st.inNamed := by
  unfold State.leave at h
  split at h
  · simp at h
  · rename_i p r hs
    split at h
    · simp at h
    · split at h <;> (simp only [Except.ok.injEq] at h; subst h; exact ⟨by simp [hs], rfl⟩)

theorem data_open (reg : Registry) (st st' : State) (i : Item) (h : st.data reg i = .ok st') :
    st'.open' ≤ st.open' := by
  unfold State.data at h
  have same : ∀ s : State, s.stack = st.stack ∧ s.inNamed = st.inNamed → s.open' ≤ st.open' := by
    intro s hs; unfold State.open'; rw [hs.1, hs.2]; omega
  split at h
  · rw [padding_ok] at h
    simp only [Except.ok.injEq] at h
    subst h
    exact same _ ⟨rfl, rfl⟩
  · split at h
    · simp at h
    · split at h
      · simp at h
      · rename_i s hl
        split at h
        · obtain ⟨h1, h2⟩ := addNew_open _ _ _ h
          obtain ⟨h3, h4⟩ := leave_open _ _ _ hl
          unfold State.open'
          rw [h1, h2, h4]
          simp at h3 ⊢
          omega
        · simp at h
    · split at h
      · exact same _ (addMany_open _ _ _ h)
      · split at h
        · exact same _ (addNew_open _ _ _ h)
        · exact same _ (addMany_open _ _ _ h)

theorem run_open (reg : Registry) (xs : List Item) : ∀ (st st' : State) (d : Nat), st.open' ≤ d →
    runFrom reg st xs = .ok st' → ∃ d', Spec.depth d (xs.map Item.cls) = some d' ∧ st'.open' ≤ d' := by
  induction xs with
  | nil =>
    intro st st' d hd h
    simp [runFrom] at h; subst h
    exact ⟨d, rfl, hd⟩
  | cons i xs ih =>
    intro st st' d hd h
    rw [runFrom] at h
    cases hs : step reg st i with
    | error e => rw [hs] at h; simp at h
    | ok st1 =>
      rw [hs] at h
      simp only at h
      rw [List.map_cons]
      unfold step at hs
      by_cases hc : i.cls = .collection
      · rw [hc] at hs
        simp only [Cls.kind, Except.ok.injEq] at hs
        rw [hc]
        refine ih st1 st' (d + 1) ?_ h
        subst hs
        unfold State.open' at hd ⊢
        show st.stack.length + 1 + (if st.inNamed then 1 else 0) ≤ d + 1
        cases hin : st.inNamed <;> simp only [hin] at hd <;> simp at hd ⊢ <;> omega
      · by_cases he : i.cls = .endCollection
        · rw [he] at hs
          simp only [Cls.kind] at hs
          split at hs
          · simp at hs
          · rename_i s hcl
            simp only [Except.ok.injEq] at hs
            have hopen : s.open' + 1 ≤ d := by
              unfold State.close at hcl
              split at hcl
              · simp at hcl
              · rename_i s1 hs1
                have h1 : s1.open' + 1 ≤ d := by
                  split at hs1
                  · rename_i hn
                    simp only [Except.ok.injEq] at hs1
                    subst hs1
                    have hn' : st.inNamed = true := hn
                    simp only [State.open', hn', if_true] at hd
                    simp only [State.open', Bool.false_eq_true, if_false, State.expandAll]
                    omega
                  · rename_i hn
                    obtain ⟨h3, h4⟩ := leave_open _ _ _ hs1
                    have hn' : st.inNamed = false := by
                      have : st.expandAll.inNamed = st.inNamed := rfl
                      rw [← this]; simpa using hn
                    have h3' : st.stack.length = s1.stack.length + 1 := h3
                    have h4' : s1.inNamed = st.inNamed := h4
                    simp only [State.open', hn', h4'] at hd ⊢
                    omega
                split at hcl <;> (simp only [Except.ok.injEq] at hcl; subst hcl; exact h1)
            rw [he]
            cases d with
            | zero => omega
            | succ d =>
              refine ih st1 st' d ?_ h
              subst hs
              exact Nat.le_of_succ_le_succ hopen
        · rw [depth_cons_other d i.cls _ hc he]
          refine ih st1 st' d ?_ h
          refine Nat.le_trans ?_ hd
          cases hk : i.cls.kind with
          | global => rw [hk] at hs; simp at hs; subst hs; exact Nat.le_refl _
          | loc =>
            rw [hk] at hs; simp only [Except.ok.injEq] at hs
            subst hs
            split <;> exact Nat.le_refl _
          | main =>
            rw [hk] at hs
            have hd' : ∃ s, st.expandAll.data reg i = .ok s ∧ st1 = s.clear := by
              cases hcl : i.cls <;> rw [hcl] at hk hc he hs <;> simp [Cls.kind] at hk hc he <;> simp only at hs
              all_goals
                split at hs
                · simp at hs
                · rename_i s hdat
                  simp only [Except.ok.injEq] at hs
                  exact ⟨s, hdat, hs.symm⟩
            obtain ⟨s, hdat, rfl⟩ := hd'
            exact data_open reg st.expandAll s i hdat

/-- **C38.** Whatever the items, the decompiler raises an error as soon as an EndCollection closes
nothing. -/
theorem C38_surplus_end (reg : Registry) (xs : List Item)
    (h : Spec.depth 0 (xs.map Item.cls) = none) : ∃ e, extract reg xs = .error e := by
  unfold extract
  cases hr : runFrom reg {} xs with
  | error e => exact ⟨e, rfl⟩
  | ok st =>
    obtain ⟨d, hd, -⟩ := run_open reg xs {} st 0 (by simp [State.open']) hr
    rw [h] at hd; simp at hd

example : Spec.depth 0 ((build! [(.usage, 0x10002), (.collection, 1), (.endCollection, 0),
    (.endCollection, 0)]).map Item.cls) = none := by decide +kernel

/-- **C38 (partial).** On a stream of plain items the decompiler never raises an error, and has a root
exactly when at some point all collections are closed.  Missing: streams with arrays, buffered bytes,
ranges or empty collections outside `walk`; nested named arrays are refused (`C38_nested_breaks`). -/
theorem C38_root_partial (reg : Registry) (xs : List Item) (hm : ∀ i ∈ xs, i.Made)
    (hp : ∀ i ∈ keys xs, i.1 ≠ .push ∧ i.1 ≠ .pop)
    (hu : oneRange (.usage, .usageMin, .usageMax) false none none (keys xs) = true)
    (hs : oneRange (.strIndex, .strMin, .strMax) false none none (keys xs) = true)
    (hd : oneRange (.desigIndex, .desigMin, .desigMax) false none none (keys xs) = true)
    (ops : List (Int × Bool)) (hw : walk [] (recs .atMain {} (keys xs)) = some ops) :
    (everClosed [] (recs .atMain {} (keys xs)) = true → ∃ t, extract reg xs = .ok t) ∧
    (everClosed [] (recs .atMain {} (keys xs)) = false → extract reg xs = .error .attribute) := by
  obtain ⟨st', new, mu', ms', md', e1, -, -, -, -, -, -, -, e9⟩ := run_sim reg xs hm
    (fun i hi => hp i.key (mem_keys.2 ⟨i, hi, rfl⟩)) (fun _ => True) trivial {} {} [] ops {} {} {} sim_init
    ⟨hu, hs, hd⟩ hw (fun _ _ _ _ _ => trivial)
  unfold extract
  rw [e1]
  simp only
  have e9' : st'.root.isSome = everClosed [] (recs .atMain {} (keys xs)) := by rw [e9]; rfl
  rw [← e9']
  cases st'.root with
  | none => simp
  | some t => simp

example : walk [] (recs .atMain {} (keys sampleItems)) = some [] ∧
    everClosed [] (recs .atMain {} (keys sampleItems)) = true := by decide +kernel

/-- A NamedArray collection in a NamedArray collection, each with its data item. -/
def nestedNamed : List Item :=
  build! [(.logMin, 1), (.logMax, 1), (.reportSize, 8), (.reportCount, 1),
    (.usage, 0x10002), (.collection, 4), (.usage, 0x10030), (.input, 2),
    (.usage, 0x10003), (.collection, 4), (.usage, 0x10031), (.input, 2),
    (.endCollection, 0), (.endCollection, 0)]

/-- The collections of the stream are balanced, yet closing the last one raises `IndexError`. -/
theorem C38_nested_breaks : Spec.depth 0 (nestedNamed.map Item.cls) = some 0 ∧
    (match extract [] nestedNamed with | .error e => e == .index | .ok _ => false) = true := by
  decide +kernel

/-! ## C39 -/

/-- **C39 (partial).** An extractable stream is decompiled, and the tree describes the same
collections, controls and padding in the same order, with the same reports, attributes, usages,
strings and designators.  Missing, and false of the code: arrays whose usages are fewer or more than
their logical values (`C39_array_breaks`), Push and Pop (`C39_push_breaks`), strings of collections
(`C39_strings_break`), several ranges (`C39_ranges_break`), empty collections (`C43_empty_lost`),
hosts resolving pages at usage items when a page changes in between (`C39_pages_break`). -/
theorem C39_values_partial (reg : Registry) (xs : List Item) (hm : ∀ i ∈ xs, i.Made)
    (he : Extractable (keys xs)) :
    ∃ t, extract reg xs = .ok t ∧ bareMeaning t = meaning .atMain (keys xs) := by
  obtain ⟨t, h1, -, h2, -⟩ := extract_ok reg xs hm he (fun _ => True) trivial (fun _ _ _ _ _ => trivial)
  exact ⟨t, h1, h2⟩

/-- **C39 (partial).** The same for both sorts of hosts, when no Usage Page item stands between a usage
and its main item. -/
theorem C39_hosts_partial (reg : Registry) (rule : PageRule) (xs : List Item) (hm : ∀ i ∈ xs, i.Made)
    (he : Extractable (keys xs)) (hs : pageSteady false (keys xs) = true) :
    ∃ t, extract reg xs = .ok t ∧ bareMeaning t = meaning rule (keys xs) := by
  rw [meaning_steady rule .atMain _ hs]
  exact C39_values_partial reg xs hm he

theorem build!_made (cs : List (Cls × Int)) : ∀ i ∈ build! cs, i.Made := by
  unfold build!
  cases h : Streamer.emit [] (cs.map (fun c => (c.1, .int c.2))) with
  | error e => simp [Except.toOption]
  | ok is => simpa [Except.toOption] using Streamer.emit_made h

theorem sampleItems_made : ∀ i ∈ sampleItems, i.Made := by
  unfold sampleItems
  cases h : Streamer.compile [] sampleTree with
  | error e => simp [Except.toOption]
  | ok is => simpa [Except.toOption] using compile_made h

/-- A stream with pages, ranges and a reused page, such as the optimizer writes. -/
def rangeItems : List Item :=
  build! [(.usagePage, 1), (.usage, 2), (.collection, 1), (.reportID, 1), (.usagePage, 9),
    (.usageMin, 1), (.usageMax, 3), (.logMin, 0), (.logMax, 1), (.reportSize, 1), (.reportCount, 3),
    (.input, 2), (.reportCount, 5), (.input, 3), (.usagePage, 1), (.usage, 0x30), (.usage, 0x31),
    (.logMin, -127), (.logMax, 127), (.reportSize, 8), (.reportCount, 2), (.input, 6),
    (.reportID, 2), (.usagePage, 7), (.usageMin, 0), (.usageMax, 0xdd), (.logMin, 0), (.logMax, 0xdd),
    (.reportCount, 6), (.input, 0), (.endCollection, 0)]

example : Extractable (keys sampleItems) ∧ Extractable (keys rangeItems) ∧
    pageSteady false (keys rangeItems) = true ∧ (meaning .atMain (keys rangeItems)).length = 18 := by
  decide +kernel

/-- The decompiled stream describes something else. -/
def ExtractBreaks (rule : PageRule) (cs : List (Cls × Int)) : Bool :=
  match extract [] (build! cs) with
  | .ok t => (build! cs).length == cs.length && decide (bareMeaning t ≠ meaning rule (keys (build! cs)))
  | .error _ => false

/-- An array field of two usages and logical values 0 to 5 is left with the first usage only. -/
theorem C39_array_breaks (rule : PageRule) : ExtractBreaks rule [(.usage, 0x10002), (.collection, 1),
    (.usage, 0x70004), (.usage, 0x70005), (.logMin, 0), (.logMax, 5), (.reportSize, 8),
    (.reportCount, 1), (.input, 0), (.endCollection, 0)] = true := by
  cases rule <;> decide +kernel

/-- Pop does not restore what Push saved. -/
theorem C39_push_breaks (rule : PageRule) : ExtractBreaks rule [(.usage, 0x10002), (.collection, 1),
    (.logMin, 0), (.logMax, 1), (.reportSize, 8), (.reportCount, 1), (.push, 0), (.logMax, 5), (.pop, 0),
    (.usage, 0x10030), (.input, 2), (.endCollection, 0)] = true := by
  cases rule <;> decide +kernel

/-- The string of a collection is dropped. -/
theorem C39_strings_break (rule : PageRule) : ExtractBreaks rule [(.usage, 0x10002), (.strIndex, 4),
    (.collection, 1), (.logMin, 0), (.logMax, 1), (.reportSize, 8), (.reportCount, 1),
    (.usage, 0x10030), (.input, 2), (.endCollection, 0)] = true := by
  cases rule <;> decide +kernel

/-- Of two ranges only the last is used. -/
theorem C39_ranges_break (rule : PageRule) : ExtractBreaks rule [(.usage, 0x10002), (.collection, 1),
    (.logMin, 0), (.logMax, 1), (.reportSize, 1), (.reportCount, 2),
    (.usageMin, 0x90001), (.usageMax, 0x90001), (.usageMin, 0x90005), (.usageMax, 0x90005), (.input, 2),
    (.endCollection, 0)] = true := by
  cases rule <;> decide +kernel

/-- A usage is put on the page in force at the main item. -/
theorem C39_pages_break : ExtractBreaks .atUsage [(.usage, 0x10002), (.collection, 1),
    (.logMin, 0), (.logMax, 1), (.reportSize, 8), (.reportCount, 1), (.usagePage, 1), (.usage, 0x30),
    (.usagePage, 9), (.input, 2), (.endCollection, 0)] = true ∧
    Extractable (keys (build! [(.usage, 0x10002), (.collection, 1),
    (.logMin, 0), (.logMax, 1), (.reportSize, 8), (.reportCount, 1), (.usagePage, 1), (.usage, 0x30),
    (.usagePage, 9), (.input, 2), (.endCollection, 0)])) := by
  decide +kernel

/-! ## C40 -/

mutual
/-- An element under construction as text, every value with the report ID it was read under. -/
def Spec.ownPieces : XNode → List Piece
  | .leaf i n => pieces i n
  | .coll k u ms => .enter k u :: Spec.ownPiecesL ms ++ [.leave]
/-- A list of elements. -/
def Spec.ownPiecesL : List XNode → List Piece
  | [] => []
  | x :: xs => Spec.ownPieces x ++ Spec.ownPiecesL xs
end

mutual
theorem ownPieces_eq : ∀ x : XNode, Spec.ownPieces x = x.pieces
  | .leaf i n => rfl
  | .coll k u ms => by rw [Spec.ownPieces, XNode.pieces, ownPiecesL_eq ms]
theorem ownPiecesL_eq : ∀ xs : List XNode, Spec.ownPiecesL xs = xpiecesL xs
  | [] => rfl
  | x :: xs => by rw [Spec.ownPiecesL, xpiecesL, ownPieces_eq x, ownPiecesL_eq xs]
end

/-- **C40.** Grouping into reports keeps all collections and values of the tree in order, and every
value ends up in a Report with its own ID: read from left to right, with the ID of the innermost
Report around each value, the grouped tree is the tree read with each value's own ID, whatever ID
(`outer`) a value outside any Report would be given. -/
theorem C40_grouping (outer : Int) (xs : List XNode) :
    pieces outer (ended { members := xs }) = Spec.ownPiecesL xs := by
  rw [ended_pieces, ownPiecesL_eq]

/-- Values of different reports in one collection, and in the collections inside it. -/
def mixedReports : List XNode :=
  [.coll (.int 1) (some (.int 0x10002)) [.leaf 1 (.padding .input 1), .leaf 1 (.padding .input 2),
    .coll (.int 0) (some (.int 0x10001)) [.leaf 1 (.padding .input 3)], .leaf 2 (.padding .input 4),
    .coll (.int 0) (some (.int 0x10001)) [.leaf 2 (.padding .input 5), .leaf 3 (.padding .input 6)]]]

example : (tokens (ended { members := mixedReports })).length = 20 ∧
    (pieces 7 (ended { members := mixedReports })).length = 12 := by decide +kernel

/-! ## C43 -/

/-- Openings and closings of collections. -/
def Spec.Event.bracket : Event → Bool
  | .enter _ _ => true
  | .leave => true
  | _ => false

/-- **C43 (partial).** Every collection of an extractable stream is in the decompiled tree, in the same
order and nesting, with its kind and usage.  Missing, and false of the code: empty collections
(`C43_empty_lost`), collections around a named array, which become a value (`C43_named_lost`). -/
theorem C43_collections_partial (reg : Registry) (xs : List Item) (hm : ∀ i ∈ xs, i.Made)
    (he : Extractable (keys xs)) :
    ∃ t, extract reg xs = .ok t ∧
      (bareMeaning t).filter Event.bracket = (meaning .atMain (keys xs)).filter Event.bracket := by
  obtain ⟨t, h1, h2⟩ := C39_values_partial reg xs hm he
  exact ⟨t, h1, by rw [h2]⟩

/-- **C43 fails.** Whatever was read before, a collection closed right after it was opened leaves no
trace in the levels. -/
theorem C43_empty_lost (reg : Registry) (st st' : State) (i e : Item) (hi : i.cls = .collection)
    (he : e.cls = .endCollection) (hn : st.inNamed = false)
    (h : runFrom reg st [i, e] = .ok st') : st'.level = st.level ∧ st'.stack = st.stack := by
  obtain ⟨c, v⟩ := i
  obtain ⟨c', v'⟩ := e
  simp only at hi he
  subst hi he
  simp only [runFrom, step, Cls.kind, State.close, State.leave, State.clear, State.enter, State.expandAll, hn,
    Bool.false_eq_true, if_false, List.isEmpty_nil, Bool.not_true, Bool.and_false] at h
  by_cases hst : st.stack.isEmpty = true
  · simp only [hst, if_true, Except.ok.injEq] at h
    rw [← h]; exact ⟨rfl, rfl⟩
  · simp only [hst, Bool.false_eq_true, if_false, Except.ok.injEq] at h
    rw [← h]; exact ⟨rfl, rfl⟩

example : ExtractBreaks .atUsage [(.usage, 0x10002), (.collection, 1), (.usage, 0x10001), (.collection, 0),
    (.endCollection, 0), (.reportSize, 8), (.reportCount, 1), (.input, 3), (.endCollection, 0)] = true := by
  decide +kernel

/-- The stream is decompiled, and the collections of the tree are not those of the stream. -/
def BracketsBreak (cs : List (Cls × Int)) : Bool :=
  match extract [] (build! cs) with
  | .ok t => (build! cs).length == cs.length &&
      decide ((bareMeaning t).filter Event.bracket ≠ (meaning .atMain (keys (build! cs))).filter Event.bracket)
  | .error _ => false

/-- **C43 fails.** A NamedArray collection with a Variable item in the stream is a value in the decompiled tree, which describes
a Logical collection. -/
theorem C43_named_lost : BracketsBreak [(.usage, 0x10002), (.collection, 1), (.logMin, 1), (.logMax, 2),
    (.reportSize, 8), (.reportCount, 1), (.usage, 0x10003), (.collection, 4), (.usage, 0x10030),
    (.usage, 0x10031), (.input, 2), (.endCollection, 0), (.endCollection, 0)] = true := by
  decide +kernel

end Hrdc
