import Verif.Props.Composite
import Verif.Props.Edited2
/-!
# Property C76 in the bytes written
-/
namespace Hrdc
open Spec Streamer

/-- **C76.** Without optimization the bytes of merged descriptors are those of each, one after the other. -/
theorem C76_bytes (reg : Registry) (a b : Node) (h : Composable a b) (x y : List UInt8)
    (ha : Compiler.main reg .binary false a = .ok (.bytes x)) (hb : Compiler.main reg .binary false b = .ok (.bytes y)) :
    Compiler.main reg .binary false (.top [a, b]) = .ok (.bytes (x ++ y)) := by
  unfold Compiler.main at ha hb ⊢
  cases h1 : compile reg a with
  | error e => rw [h1] at ha; simp at ha
  | ok la =>
    cases h2 : compile reg b with
    | error e => rw [h2] at hb; simp at hb
    | ok lb =>
      rw [h1] at ha
      rw [h2] at hb
      simp only [Bool.false_eq_true, if_false, Formatter.render] at ha hb
      have hi := C76_items reg a b h
      rw [(trace_ok reg a la).2 h1, (trace_ok reg b lb).2 h2] at hi
      rw [(trace_ok reg _ _).1 hi]
      simp only [Bool.false_eq_true, if_false, Formatter.render]
      cases e1 : Formatter.binary la with
      | error e => rw [e1] at ha; simp [Except.map] at ha
      | ok x' =>
        cases e2 : Formatter.binary lb with
        | error e => rw [e2] at hb; simp [Except.map] at hb
        | ok y' =>
          rw [e1] at ha
          rw [e2] at hb
          simp only [Except.map, Except.ok.injEq, Formatter.Doc.bytes.injEq] at ha hb
          subst ha hb
          rw [binary_join e1 e2]
          rfl

/-- **C76.** With the default optimization, or without, a host finds in the merged descriptor the fields it finds in each,
one after the other, whichever way these are written; with their names where optimizing keeps the meaning. -/
theorem C76_fields (reg : Registry) (rule : PageRule) (o oa ob : Bool) (a b : Node) (h : Composable a b) (x y z : List UInt8)
    (hc : Compiler.main reg .binary o (.top [a, b]) = .ok (.bytes z))
    (ha : Compiler.main reg .binary oa a = .ok (.bytes x)) (hb : Compiler.main reg .binary ob b = .ok (.bytes y)) :
    ∃ kx ky kz, readAll x = some kx ∧ readAll y = some ky ∧ readAll z = some kz ∧
      frames (meaning rule kz) = frames (meaning rule kx) ++ frames (meaning rule ky) ∧
      ((o = true → OptTree (.top [a, b]) ∧ (rule = .atUsage ∨ pagesFit none 0 (tokens (.top [a, b])) = true)) →
        (oa = true → OptTree a ∧ (rule = .atUsage ∨ pagesFit none 0 (tokens a) = true)) →
        (ob = true → OptTree b ∧ (rule = .atUsage ∨ pagesFit none 0 (tokens b) = true)) →
        meaning rule kz = meaning rule kx ++ meaning rule ky) := by
  obtain ⟨kx, ia, a1, a2, a3⟩ := bytes_frames ha
  obtain ⟨ky, ib, b1, b2, b3⟩ := bytes_frames hb
  obtain ⟨kz, ic, c1, c2, c3⟩ := bytes_frames hc
  have hm : meaning rule (keys ic) = meaning rule (keys ia) ++ meaning rule (keys ib) := by
    obtain ⟨l, h1, h2⟩ := C76_meaning reg rule a b ia ib h a2 b2
    rw [c2] at h1
    cases h1
    exact h2
  refine ⟨kx, ky, kz, a1, b1, c1, by rw [c3, a3, b3, hm, frames_append], fun g1 g2 g3 => ?_⟩
  obtain ⟨k1, i1, d1, d2, d3⟩ := bytes_meaning (rule := rule) hc g1
  obtain ⟨k2, i2, e1, e2, e3⟩ := bytes_meaning (rule := rule) ha g2
  obtain ⟨k3, i3, f1, f2, f3⟩ := bytes_meaning (rule := rule) hb g3
  rw [c1] at d1; rw [c2] at d2; rw [a1] at e1; rw [a2] at e2; rw [b1] at f1; rw [b2] at f2
  cases d1; cases d2; cases e1; cases e2; cases f1; cases f2
  rw [d3, e3, f3, hm]

/-- A signed axis in Report 1, in centimeters. -/
def besideAxis : Node := .report 1 [.value
  { way := .input, flags := .int 6, usage := some (.int 0x10030), size := 8, alignment := 8, logicalMin := some (-127),
    logicalMax := some 127, physicalMin := some (-127), physicalMax := some 127, namedArray := none, unit := .int 0x11,
    unitExponent := 0, designator := 0, string := 0, count := 1 }]

/-- A button in Report 2. -/
def besideButton : Node := .report 2 [.value
  { way := .input, flags := .int 2, usage := some (.int 0x90001), size := 1, alignment := 1, logicalMin := some 0,
    logicalMax := some 1, physicalMin := some 0, physicalMax := some 1, namedArray := none, unit := .int 0,
    unitExponent := 0, designator := 0, string := 0, count := 1 }]

/-- Written without optimization, they can be concatenated. -/
example : Composable besideAxis besideButton ∧
    (Compiler.main [] .binary false besideAxis).toOption =
      some (.bytes [133, 1, 11, 48, 0, 1, 0, 53, 0, 69, 0, 21, 129, 37, 127, 101, 17, 85, 0, 149, 1, 117, 8, 129, 6]) ∧
    (Compiler.main [] .binary false besideButton).toOption =
      some (.bytes [133, 2, 11, 1, 0, 9, 0, 53, 0, 69, 0, 21, 0, 37, 1, 101, 0, 85, 0, 149, 1, 117, 1, 129, 2]) := by
  decide +kernel

/-- **C76 needs documents written without optimization**: the optimized document of the second descriptor leaves out
what a host starts with, so behind that of the first its button is in centimeters; optimized together it is not. -/
theorem C76_optimized_apart :
    (Compiler.main [] .binary true besideAxis).toOption =
      some (.bytes [133, 1, 21, 129, 37, 127, 101, 17, 149, 1, 117, 8, 5, 1, 9, 48, 129, 6]) ∧
    (Compiler.main [] .binary true besideButton).toOption =
      some (.bytes [133, 2, 21, 0, 37, 1, 149, 1, 117, 1, 5, 9, 9, 1, 129, 2]) ∧
    ∀ rule,
      (readAll [133, 1, 21, 129, 37, 127, 101, 17, 149, 1, 117, 8, 5, 1, 9, 48, 129, 6]).map (fun ks => frames (meaning rule ks)) =
        some [.control .input 6 1 ⟨8, -127, 127, 0, 0, 17, 0⟩ []] ∧
      (readAll [133, 2, 21, 0, 37, 1, 149, 1, 117, 1, 5, 9, 9, 1, 129, 2]).map (fun ks => frames (meaning rule ks)) =
        some [.control .input 2 2 ⟨1, 0, 1, 0, 0, 0, 0⟩ []] ∧
      (readAll ([133, 1, 21, 129, 37, 127, 101, 17, 149, 1, 117, 8, 5, 1, 9, 48, 129, 6] ++
          [133, 2, 21, 0, 37, 1, 149, 1, 117, 1, 5, 9, 9, 1, 129, 2])).map (fun ks => frames (meaning rule ks)) =
        some [.control .input 6 1 ⟨8, -127, 127, 0, 0, 17, 0⟩ [],
          .control .input 2 2 ⟨1, 0, 1, 0, 0, 17, 0⟩ []] := by
  refine ⟨by decide +kernel, by decide +kernel, fun rule => ?_⟩
  cases rule <;> decide +kernel

end Hrdc
