import Verif.Proofs.Legal2
import Verif.Props.Extract2
/-!
# Property C59: which descriptors compile
-/
namespace Hrdc
open Spec
open Streamer

/-- **C59.** A descriptor compiles exactly when it is legal (`Spec.legal`). -/
theorem C59_compiles_iff (reg : Registry) (n : Node) :
    (∃ items, compile reg n = .ok items) ↔ legal 0 (tokens n) = true := by
  have h := toks_legal reg (tokens n) {} (by decide)
  rw [show ({} : State).id = 0 from rfl] at h
  rw [← h, compile, node_toks]
  cases toks reg {} (tokens n) with
  | error e => simp
  | ok p => simp

/-- A descriptor that is not legal makes the whole compilation fail: `compile_main` writes nothing, in
whatever format. -/
theorem C59_command (reg : Registry) (fmt : Formatter.Fmt) (optim : Bool) (n : Node)
    (h : legal 0 (tokens n) = false) : ∃ e, Compiler.main reg fmt optim n = .error e := by
  unfold Compiler.main
  cases hc : compile reg n with
  | error e => exact ⟨e, rfl⟩
  | ok items => rw [(C59_compiles_iff reg n).1 ⟨items, hc⟩] at h; simp at h

/-- Report 256, negative sizes, collections without usage are refused; other elements of the same tree
do not matter. -/
example : legal 0 (tokens sampleTree) = true ∧
    legal 0 (tokens (.top [sampleTree, .report 256 [.value (mk (button 1))]])) = false ∧
    legal 0 (tokens (.top [sampleTree, .report 256 [.padding .input 0]])) = true ∧
    legal 0 (tokens (app [.value (mk { button 1 with size := -1 })])) = false ∧
    legal 0 (tokens (.coll (.int 1) none [])) = false ∧
    legal 0 (tokens (.coll (.int (-1)) (some (.int 1)) [])) = true ∧
    legal 0 (tokens (.coll (.int (-8)) (some (.int 1)) [])) = false := by decide +kernel

/-! ## C42 -/

open Extractor

/-- Decompiled descriptors compile when every collection has a usage and no Report ID is above 255,
whatever else the stream is like. -/
theorem C42_compiles (reg reg' : Registry) (xs : List Item) (hm : ∀ i ∈ xs, i.Made) (t : Node)
    (h : extract reg xs = .ok t) (hid : ∀ i ∈ xs, i.cls = .reportID → i.ival < 256)
    (hu : ∀ k, Tok.enter k none ∉ tokens t) : ∃ items, compile reg' t = .ok items :=
  (C59_compiles_iff reg' t).2 (legal_of_toks _ 0 (by decide) (extract_toks reg xs hm hid h) hu)

/-- **C42 (partial).** A decompiled stream compiles to a stream of the same meaning.  Missing, and false
of the code: as in `C42_decompile_partial`, collections without usage (`C42_no_usage_breaks`) and Report
IDs above 255 (`C42_wide_report_breaks`), which do not compile. -/
theorem C42_rebuild_partial (reg reg' : Registry) (rule : PageRule) (xs : List Item)
    (hm : ∀ i ∈ xs, i.Made) (he : Extractable (keys xs))
    (hz : ∀ i ∈ xs, i.cls = .reportID → i.ival ≠ 0 ∧ i.ival < 256)
    (hb : ∀ r ∈ recs .atMain {} (keys xs), r.cls.isData = true → r.isConst = false → r.val / 256 % 2 = 1 →
      r.g .reportCount = 1)
    (hu : ∀ k w, Event.enter k w ∈ meaning .atMain (keys xs) → w.usage ≠ none)
    (ha : aligned (meaning .atMain (keys xs)) = true) :
    ∃ t items, extract reg xs = .ok t ∧ compile reg' t = .ok items ∧
      meaning rule (keys items) = meaning .atMain (keys xs) := by
  obtain ⟨t, h1, h2⟩ := C42_decompile_partial reg reg' rule xs hm he (fun i hi hc => (hz i hi hc).1) hb ha
  obtain ⟨t', h1', -, h3, -⟩ := extract_ok reg xs hm he (fun c => c = 1) rfl hb
  rw [h1] at h1'
  cases h1'
  obtain ⟨items, hi⟩ := C42_compiles reg reg' xs hm t h1 (fun i hi hc => (hz i hi hc).2) (by
    intro k hk
    have hp := enter_scope [] _ _ _ hk
    rw [← pieces_eq] at hp
    refine hu k.toInt ⟨none, 0, 0⟩ ?_ rfl
    rw [← h3]
    exact List.mem_flatMap.2 ⟨_, hp, by simp [bare]⟩)
  exact ⟨t, items, h1, hi, h2 items hi⟩

example : (keys rangeItems).all (fun i => i.1 != .reportID || decide (i.2 ≠ 0 ∧ i.2 < 256)) = true ∧
    (meaning .atMain (keys rangeItems)).all (fun e => match e with
      | .enter _ w => w.usage.isSome
      | _ => true) = true := by decide +kernel

/-- The items decompile to a descriptor that does not compile. -/
def RebuildFails (cs : List (Cls × Int)) : Bool :=
  match extract [] (build! cs) with
  | .ok t => decide (Extractable (keys (build! cs))) && !(compile [] t).toOption.isSome
  | .error _ => false

/-- A collection without usage. -/
theorem C42_no_usage_breaks : RebuildFails [(.collection, 1), (.logMin, 0), (.logMax, 1), (.reportSize, 8),
    (.reportCount, 1), (.usage, 0x10030), (.input, 2), (.endCollection, 0)] = true := by decide +kernel

/-- Report 256. -/
theorem C42_wide_report_breaks : RebuildFails [(.usage, 0x10002), (.collection, 1), (.reportID, 256), (.logMin, 0),
    (.logMax, 1), (.reportSize, 8), (.reportCount, 1), (.usage, 0x10030), (.input, 2), (.endCollection, 0)] = true := by
  decide +kernel

end Hrdc
