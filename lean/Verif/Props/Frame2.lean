import Verif.Props.Frame
import Verif.Props.AlignExact
/-!
# The layout of reports in the bytes written by default

The compiler optimizes what it writes.  Optimizing keeps frames (C81), so alignment, padding and report IDs are in these
bytes as they are in the items of the tree (C32, C33, C35, C79), whatever happens to names.
-/
namespace Hrdc
open Spec Optimizer Streamer

/-- The bytes written have the frame of the items, optimized or not. -/
theorem bytes_frames {reg : Registry} {opt : Bool} {n : Node} {b : List UInt8}
    (h : Compiler.main reg .binary opt n = .ok (.bytes b)) :
    ∃ ks items, readAll b = some ks ∧ compile reg n = .ok items ∧
      ∀ rule, frames (meaning rule ks) = frames (meaning rule (keys items)) := by
  obtain ⟨items, h1, h2⟩ := compile_bytes h
  refine ⟨_, items, h2, h1, fun rule => ?_⟩
  cases opt
  · rfl
  · exact C81_compile reg 0 100 rule n items h1

theorem frame_bits (w : Cls) (id : Int) (e : Event) : e.frame.bits w id = e.bits w id := by
  cases e <;> rfl

theorem frames_bits {a b : List Event} (h : frames a = frames b) (w : Cls) (id : Int) :
    reportBits w id a = reportBits w id b := by
  have key : ∀ l, reportBits w id (frames l) = reportBits w id l := by
    intro l
    unfold reportBits frames
    rw [List.map_map]
    congr 2
    funext e
    exact frame_bits w id e
  rw [← key a, h, key b]

theorem frames_split {l a b : List Event} (h : frames l = frames (a ++ b)) :
    ∃ a' b', l = a' ++ b' ∧ frames a' = frames a ∧ frames b' = frames b := by
  rw [frames_append] at h
  obtain ⟨a', b', rfl, h1, h2⟩ := List.map_eq_append_iff.1 h
  exact ⟨a', b', rfl, h1, h2⟩

theorem frames_pads {l : List Event} {k : Nat} {w : Cls} {id : Int}
    (h : frames l = frames (List.replicate k (.padBit w id))) : l = List.replicate k (.padBit w id) := by
  induction k generalizing l with
  | zero => cases l with
    | nil => rfl
    | cons => simp [frames] at h
  | succ k ih => cases l with
    | nil => simp [frames] at h
    | cons e l =>
      rw [List.replicate_succ] at h ⊢
      simp only [frames, List.map_cons, List.cons.injEq] at h
      rw [ih h.2]
      congr 1
      cases e <;> simp [Event.frame] at h ⊢
      exact h.1

theorem frames_reports {a b : List Event} (h : frames a = frames b) : a.map Event.report = b.map Event.report := by
  have key : ∀ l, (frames l).map Event.report = l.map Event.report := by
    intro l
    unfold frames
    rw [List.map_map]
    congr 1
    funext e
    cases e <;> rfl
  rw [← key a, h, key b]

/-- **C32, C33.** In the bytes written, with the default optimization too: where the fields of every element with a boundary
are, how many bits of padding are in front of them, exactly which elements are aligned, where the padding is the least
possible and where there is none.  Left out: Report(0) after another report (`C32_zero_report_breaks`,
`C33_zero_report_breaks`). -/
theorem C32_bytes_iff (reg : Registry) (rule : PageRule) (opt : Bool) (n : Node) (b : List UInt8)
    (h : Compiler.main reg .binary opt n = .ok (.bytes b))
    (hz : NoZeroReport n)
    (pre post : List Tok) (l : Leaf) (hs : tokens n = pre ++ .leaf l :: post) (hb : l.boundary > 1) :
    let id := lastReport 0 pre
    ∃ ks before own after, ∃ pad : Nat, readAll b = some ks ∧
      meaning rule ks = before ++ List.replicate pad (.padBit l.way.cls id) ++ own ++ after ∧
      frames before = frames (exact (fun _ _ => 0) 0 0 pre) ∧ frames own = frames (ownEvents id l) ∧
      (l.boundary ∣ (reportBits l.way.cls id before + pad : Int) ↔ l.boundary ∣ further l.way id 0 pre) ∧
      ((pad : Int) = (-(reportBits l.way.cls id before : Int)) % l.boundary ↔ l.boundary ∣ further l.way id 0 pre) ∧
      (pad = 0 ↔ l.boundary ∣ reportBits l.way.cls id before - further l.way id 0 pre) := by
  intro id
  obtain ⟨ks, items, h1, h2, h3⟩ := bytes_frames h
  obtain ⟨pad, after, e, -, e2, e3, e4⟩ := align_exact reg rule n items h2 hz pre post l hs hb
  have hf := h3 rule
  rw [e] at hf
  obtain ⟨x, after', hx, f1, -⟩ := frames_split hf
  obtain ⟨y, own', rfl, f2, f3⟩ := frames_split f1
  obtain ⟨before', p, rfl, f4, f5⟩ := frames_split f2
  have hp := frames_pads f5
  subst hp
  rw [← frames_bits f4] at e2 e3 e4
  exact ⟨ks, before', own', after', pad, h1, hx, f4, f3, e2, e3, e4⟩

/-- **C33.** The bound of the padding, likewise, for every element. -/
theorem C33_bytes_bound (reg : Registry) (rule : PageRule) (opt : Bool) (n : Node) (b : List UInt8)
    (h : Compiler.main reg .binary opt n = .ok (.bytes b))
    (pre post : List Tok) (l : Leaf) (hs : tokens n = pre ++ .leaf l :: post) :
    let id := lastReport 0 pre
    ∃ ks before own after, ∃ pad : Nat, readAll b = some ks ∧
      meaning rule ks = before ++ List.replicate pad (.padBit l.way.cls id) ++ own ++ after ∧
      frames before = frames (exact (fun _ _ => 0) 0 0 pre) ∧ frames own = frames (ownEvents id l) ∧
      match l with
      | .padding _ s => (pad : Int) = s
      | _ => (l.boundary ≤ 1 → pad = 0) ∧ (1 < l.boundary → (pad : Int) < l.boundary) := by
  intro id
  obtain ⟨ks, items, h1, h2, h3⟩ := bytes_frames h
  obtain ⟨pad, after, e, e2⟩ := C33_padding_bound reg rule n items h2 pre post l hs
  have hf := h3 rule
  rw [e] at hf
  obtain ⟨x, after', hx, f1, -⟩ := frames_split hf
  obtain ⟨y, own', rfl, f2, f3⟩ := frames_split f1
  obtain ⟨before', p, rfl, f4, f5⟩ := frames_split f2
  have hp := frames_pads f5
  subst hp
  exact ⟨ks, before', own', after', pad, h1, hx, f4, f3, e2⟩

/-- **C35.** In the bytes written, with the default optimization too: what an element describes is in the report entered
last before it, and exactly when this is the report of the innermost Report around it is it in that. -/
theorem C35_bytes_iff (reg : Registry) (rule : PageRule) (opt : Bool) (n : Node) (b : List UInt8)
    (h : Compiler.main reg .binary opt n = .ok (.bytes b))
    (pre post : List Tok) (l : Leaf) (hs : tokens n = pre ++ .leaf l :: post) :
    ∃ ks before own after c, readAll b = some ks ∧ meaning rule ks = before ++ own ++ after ∧
      frames before = frames (exact (fun _ _ => 0) 0 0 pre) ∧
      frames own = frames (exactLeaf (Spec.lastReport 0 pre) c l) ∧
      ((∀ e ∈ own, ∀ r, e.report = some r → r = Spec.openReport [] pre) ↔
        Spec.lastReport 0 pre = Spec.openReport [] pre ∨ ∀ e ∈ own, e.report = none) := by
  obtain ⟨ks, items, h1, h2, h3⟩ := bytes_frames h
  obtain ⟨own, after, c, e, e1, e2⟩ := C35_iff reg rule n items h2 pre post l hs
  have hf := h3 rule
  rw [e] at hf
  obtain ⟨x, after', hx, f1, -⟩ := frames_split hf
  obtain ⟨before', own', rfl, f2, f3⟩ := frames_split f1
  refine ⟨ks, before', own', after', c, h1, hx, f2, by rw [f3, e1], ?_⟩
  have hr := frames_reports f3
  have key : ∀ P : Option Int → Prop, (∀ e ∈ own', P e.report) ↔ ∀ e ∈ own, P e.report := by
    intro P
    have : (∀ r ∈ own'.map Event.report, P r) ↔ ∀ r ∈ own.map Event.report, P r := by rw [hr]
    simpa using this
  rw [key fun o => ∀ r, o = some r → r = Spec.openReport [] pre, key fun o => o = none]
  exact e2

/-- **C79 (partial).** The fields of a report, without names, depend on the elements of that report only, in the bytes written
with and without optimization; no condition on strings, arrays, pages or physical bounds. -/
theorem C79_frames_partial (reg reg' : Registry) (rule : PageRule) (opt opt' : Bool) (w : Way) (id : Int) (n m : Node)
    (b c : List UInt8)
    (hn : Compiler.main reg .binary opt n = .ok (.bytes b)) (hm : Compiler.main reg' .binary opt' m = .ok (.bytes c))
    (zn : NoZeroReport n) (zm : NoZeroReport m)
    (he : elementsEntered w id 0 (tokens n) = elementsEntered w id 0 (tokens m)) :
    ∃ ks ls, readAll b = some ks ∧ readAll c = some ls ∧
      frames (reportOf w id (meaning rule ks)) = frames (reportOf w id (meaning rule ls)) := by
  obtain ⟨ks, is, h1, h2, h3⟩ := bytes_frames hn
  obtain ⟨ls, js, g1, g2, g3⟩ := bytes_frames hm
  refine ⟨ks, ls, h1, g1, ?_⟩
  rw [frames_report, frames_report, h3, g3, ← frames_report, ← frames_report,
    C79_entered_partial reg reg' rule w id n m is js h2 g2 zn zm he]

/-- The trees of `C79_physical_breaks`: the report differs by its physical bounds only. -/
example : NoZeroReport physReports.1 ∧ NoZeroReport physReports.2 ∧
    elementsEntered .input 2 0 (tokens physReports.1) = elementsEntered .input 2 0 (tokens physReports.2) ∧
    (Compiler.main [] .binary true physReports.1).toOption.isSome ∧
    (Compiler.main [] .binary true physReports.2).toOption.isSome := by
  refine ⟨?_, ?_, rfl, by decide +kernel, by decide +kernel⟩
  all_goals
    unfold NoZeroReport
    decide +kernel

/-- The tree of `renamedTree` has aligned elements and no Report(0). -/
example : NoZeroReport renamedTree ∧ (mk keyArray).alignment = 8 ∧
    tokens renamedTree = [.enter (.named (tx "Application") 1) (some (.int 0x10002)), .leaf (.value (mk (button 1))),
      .leaf (.value (mk { button 2 with string := 5 }))] ++ .leaf (.value (mk keyArray)) ::
        ((tokens renamedTree).drop 4) := by
  refine ⟨?_, by decide +kernel, rfl⟩
  unfold NoZeroReport
  decide +kernel

end Hrdc
