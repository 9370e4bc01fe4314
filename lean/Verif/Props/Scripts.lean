import Verif.Proofs.Dumper4
import Verif.Props.Dumper
/-!
# C44: exactly the scripts that rebuild a decompiled descriptor
-/
namespace Hrdc
open Spec Extractor
open Spec.Script (runScript Same strayNames)

/-- **C44, decompiled descriptors, exactly.** A script is written for every decompiled descriptor.  It runs
exactly when all its elements are `Legible`: no usage with one of the four stray names, no unit 0xf011, no
collection kind above 6.  It rebuilds the descriptor exactly when they are `Accurate` as well: no value
with a usage written `0x0`, no flags above 511. -/
theorem C44_exact (reg : Registry) (hreg : Imported reg) (xs : List Item) (hx : ∀ i ∈ xs, ReadItem reg i) (n : Node)
    (h : extract reg xs = .ok n) :
    ∃ t, Dumper.dump reg n = .ok t ∧
      ((runScript UsageTable.lookup t).isSome = true ↔ ∀ tk ∈ tokens n, Legible reg tk) ∧
      (Rebuilds UsageTable.lookup reg n t ↔ ∀ tk ∈ tokens n, Legible reg tk ∧ Accurate reg tk) := by
  have hf := extract_from hx h
  obtain ⟨ms, rfl⟩ := ended_root h
  obtain ⟨t, h1, h2, h3⟩ := dump_exact hreg hf
  refine ⟨t, h1, h2, ⟨fun ⟨m, hm, hs, _⟩ => h3.mp ⟨m, hm, hs⟩, fun he => ?_⟩⟩
  obtain ⟨m, hm, hs⟩ := h3.mpr he
  refine ⟨m, hm, hs, fun reg' f opt hf' => (same_bytes reg reg' hs ?_ f hf' opt).symm⟩
  intro k u hku
  rcases (hf _ hku).1 with ⟨j, -, rfl⟩ | ⟨j, hj, rfl⟩
  · exact Int.natCast_nonneg j
  · show 0 ≤ j
    omega

/-- **C44, the command, exactly.** The same of the script `hrdc.decompiler` writes for a document that can be
read, in any format. -/
theorem C44_command_exact (reg : Registry) (hreg : Imported reg) (f : Formatter.Fmt) (uni : Parser.Uni)
    (d : Formatter.Doc) (xs : List Item) (hd : Formatter.deliver f reg uni d = (xs, none)) (n : Node)
    (h : extract reg xs = .ok n) :
    ∃ t, Decompiler.main reg f uni d = .ok t ∧
      ((runScript UsageTable.lookup t).isSome = true ↔ ∀ tk ∈ tokens n, Legible reg tk) ∧
      (Rebuilds UsageTable.lookup reg n t ↔ ∀ tk ∈ tokens n, Legible reg tk ∧ Accurate reg tk) := by
  have hx : ∀ i ∈ xs, ReadItem reg i := by
    have := deliver_read f reg uni d
    rw [hd] at this
    exact fun i hi => (this i hi).1
  obtain ⟨t, h1, h2⟩ := C44_exact reg hreg xs hx n h
  refine ⟨t, ?_, h2⟩
  rw [main_delivered reg f uni d xs hd, h]
  exact h1

/-! ## Cases -/

instance (reg : Registry) (t : Tok) : Decidable (Legible reg t) :=
  match t with
  | .leaf (.value v) =>
    decidable_of_iff ((∀ u ∈ v.usage.toList, Dumper.usageStr reg u ∉ strayNames) ∧
      (∀ u ∈ arrayVals v.namedArray, u.str ∉ strayNames) ∧ v.unit.toInt ≠ 0xf011) (by simp [Legible])
  | .enter k u =>
    decidable_of_iff (k.toInt < 7 ∧ ∀ x ∈ u.toList, Dumper.usageStr reg x ∉ strayNames) (by simp [Legible])
  | .leaf (.align _ _) => isTrue trivial
  | .leaf (.padding _ _) => isTrue trivial
  | .report _ => isTrue trivial
  | .endReport => isTrue trivial
  | .leave => isTrue trivial

instance (reg : Registry) (t : Tok) : Decidable (Accurate reg t) :=
  match t with
  | .leaf (.value v) =>
    decidable_of_iff ((∀ u ∈ v.usage.toList, Dumper.usageStr reg u ≠ tx "0x0") ∧ v.flags.toInt < 512) (by simp [Accurate])
  | .enter _ _ => isTrue trivial
  | .leaf (.align _ _) => isTrue trivial
  | .leaf (.padding _ _) => isTrue trivial
  | .report _ => isTrue trivial
  | .endReport => isTrue trivial
  | .leave => isTrue trivial

/-- All elements of a decompiled tree legible, all accurate. -/
def scriptVerdict (reg : Registry) (cs : List (Cls × Int)) : Option (Bool × Bool) :=
  match Streamer.emit reg (cs.map (fun c => (c.1, .int c.2))) with
  | .error _ => none
  | .ok xs =>
    match extract reg xs with
    | .error _ => none
    | .ok n => some ((tokens n).all (fun t => decide (Legible reg t)), (tokens n).all (fun t => decide (Accurate reg t)))

/-- Each case occurs: a field that is rebuilt, a usage with a stray name, unit cm/s, a vendor-defined kind,
flags above bit 8, usage 0. -/
example : scriptVerdict UsageTable.registry (one 0x10030 0x11 2 0) = some (true, true) := by decide +kernel
example : scriptVerdict UsageTable.registry (one 0x10009 0 2 0) = some (false, true) := by decide +kernel
example : scriptVerdict UsageTable.registry (one 0x10030 0xf011 2 0) = some (false, true) := by decide +kernel
example : scriptVerdict UsageTable.registry (one 0x10030 0 2 0x80) = some (false, true) := by decide +kernel
example : scriptVerdict UsageTable.registry (one 0x10030 0 0x202 0) = some (true, false) := by decide +kernel
example : scriptVerdict UsageTable.registry (one 0 0 2 0) = some (true, false) := by decide +kernel

end Hrdc
