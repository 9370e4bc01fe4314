import Verif.Check.RepoTests
import Verif.Props.OptExact
import Verif.Props.Extract2
import Verif.Props.Registry
import Verif.Props.Written
/-!
# The repository's own descriptors meet the conditions of the theorems

The trees of `examples/` and `tests/`, and the theorems on compiling, optimizing and decompiling applied
to each of them: hosts understand the bytes written, optimized or not, as the tree says, and the
decompiler gets the tree back.
-/
namespace Hrdc
namespace Examples
open Spec Streamer Extractor Optimizer RepoTests

set_option maxRecDepth 20000

/-- A tree whose values come from accepted arguments `as`, in order. -/
structure Fine (a : Nat) (as : List ValueArgs) (n : Node) : Prop where
  args : leaves n = as.map (fun x => Leaf.value (mk x))
  accepted : as.all (fun x => (Value.new x).toOption.isSome) = true
  unnamed : as.all (fun x => (arrayUsages (mk x).namedArray).isEmpty || (usageOf (mk x).usage).isNone) = true
  kinds : (tokens n).all (fun t => match t with | .enter k _ => decide (0 ≤ k.toInt) | _ => true) = true
  last : ReportsLast n
  fit : as.all (fun x => (!decide ((mk x).alignment > 1) || decide ((mk x).alignment ∣ (a : Int))) &&
    decide ((a : Int) ∣ (mk x).size * ((mk x).count - 1))) = true
  opt : OptTree n
  back : RoundTrip n
  written : (Compiler.main [] .binary false n).toOption.isSome ∧ (Compiler.main [] .binary true n).toOption.isSome

theorem Fine.leaf {a : Nat} {as : List ValueArgs} {n : Node} (h : Fine a as n) {l : Leaf} (hl : l ∈ leaves n) :
    ∃ x ∈ as, l = .value (Hrdc.mk x) := by
  rw [h.args] at hl
  obtain ⟨x, hx, rfl⟩ := List.mem_map.1 hl
  exact ⟨x, hx, rfl⟩

theorem Fine.value {a : Nat} {as : List ValueArgs} {n : Node} (h : Fine a as n) {v : Value}
    (hl : Leaf.value v ∈ leaves n) : ∃ x ∈ as, v = Hrdc.mk x := by
  obtain ⟨x, hx, e⟩ := h.leaf hl
  exact ⟨x, hx, by simpa using e⟩

theorem Fine.conditions {a : Nat} {as : List ValueArgs} {n : Node} (h : Fine a as n) :
    TreeMade n ∧ NoNamedCollection n ∧ KindsOK n ∧ CountsFit a n := by
  refine ⟨?_, ?_, ?_, ?_⟩
  · intro v hv
    obtain ⟨x, hx, rfl⟩ := h.value hv
    exact mk_made (List.all_eq_true.1 h.accepted x hx)
  · intro v hv hne
    obtain ⟨x, hx, rfl⟩ := h.value hv
    have := List.all_eq_true.1 h.unnamed x hx
    simp only [Bool.or_eq_true, List.isEmpty_iff, Option.isNone_iff_eq_none] at this
    exact this.resolve_left hne
  · intro k u hk
    have := List.all_eq_true.1 h.kinds _ hk
    simpa using this
  · intro l hl
    obtain ⟨x, hx, rfl⟩ := h.leaf hl
    have := List.all_eq_true.1 h.fit x hx
    simp only [Bool.and_eq_true, Bool.or_eq_true, Bool.not_eq_true', decide_eq_false_iff_not, decide_eq_true_eq]
      at this
    exact ⟨fun hg => this.1.resolve_left (fun hn => hn hg), this.2⟩

/-- All that is proved of such a tree, whatever usages are registered: both ways of writing it give bytes that
hosts understand as the tree says; decompiling gives the tree back. -/
theorem Fine.all {a : Nat} {as : List ValueArgs} {n : Node} (h : Fine a as n) (reg reg' : Registry) :
    (∃ b ks, Compiler.main reg .binary false n = .ok (.bytes b) ∧ readAll b = some ks ∧
      meaning .atMain ks = treeMeaning n ∧ meaning .atUsage ks = treeMeaning n) ∧
    (∃ b ks, Compiler.main reg .binary true n = .ok (.bytes b) ∧ readAll b = some ks ∧
      meaning .atUsage ks = treeMeaning n) ∧
    (∃ items t, compile reg n = .ok items ∧ extract reg' items = .ok t ∧ treeMeaning t = treeMeaning n) := by
  obtain ⟨hm, hn, hk, hf⟩ := h.conditions
  have bytes : ∀ o, (Compiler.main [] .binary o n).toOption.isSome →
      ∃ b, Compiler.main reg .binary o n = .ok (.bytes b) := by
    intro o ho
    have hreg : ∀ d, Compiler.main [] .binary o n = .ok d → Compiler.main reg .binary o n = .ok d := by
      intro d hd
      rw [← C62_compile_success] at hd ⊢
      rw [(C65_compile .binary o reg [] n).1 (by decide)]
      exact hd
    cases hc : Compiler.main [] .binary o n with
    | error e => rw [hc] at ho; simp [Except.toOption] at ho
    | ok d =>
      cases d with
      | bytes b => exact ⟨b, hreg _ hc⟩
      | text t =>
        unfold Compiler.main at hc
        split at hc
        · simp at hc
        · simp only [Formatter.render] at hc
          rename_i items _
          cases hb : Formatter.binary (if o then optimize [] items else items) <;>
            simp_all [Except.map]
  obtain ⟨b, hb⟩ := bytes false h.written.1
  refine ⟨?_, ?_, ?_⟩
  · obtain ⟨ks, h1, h2⟩ := C31_bytes_meaning_partial reg .atMain n b hb hm hn hk h.last a hf
    obtain ⟨ks', h1', h2'⟩ := C31_bytes_meaning_partial reg .atUsage n b hb hm hn hk h.last a hf
    rw [h1] at h1'; cases h1'
    exact ⟨b, ks, hb, h1, h2, h2'⟩
  · obtain ⟨b, hb⟩ := bytes true h.written.2
    obtain ⟨ks, h1, h2⟩ := C31_optimized_bytes_partial reg n b hb hm hn hk h.last a hf h.opt
    exact ⟨b, ks, hb, h1, h2⟩
  · cases hc : compile reg n with
    | error e => rw [Compiler.main, hc] at hb; simp at hb
    | ok items =>
      obtain ⟨t, h1, h2⟩ := C41_roundtrip_partial reg reg' n items hc hm hn hk h.last a hf h.back
      exact ⟨items, t, rfl, h1, h2⟩

/-- A one-bit value, `examples/keyboard.py:4-8`. -/
def flag (w : Way) (us : PyVal) : ValueArgs :=
  { way := w, usage := some us, size := 1, logicalMin := some 0, logicalMax := some 1 }

/-- `Collection(Collection.Application, ...)` of values only. -/
def application (us : PyVal) (as : List ValueArgs) : Node :=
  .coll (.named (chars "Application") 1) (some us) (as.map (fun a => .value (mk a)))

theorem tokensL_values (as : List ValueArgs) :
    tokensL (as.map (fun a => Node.value (mk a))) = as.map (fun a => Tok.leaf (.value (mk a))) := by
  induction as with
  | nil => rfl
  | cons a as ih => simp [tokensL, tokens, ih]

/-- `examples/mouse.py:4-17`, `tests/issue_6/description.py:6-19`. -/
def mouseArgs : List ValueArgs :=
  [{ way := .input, usage := some (u (chars "desktop") (chars "X")), size := 8, flags := .int 6,
     logicalMin := some (-127), logicalMax := some 127 },
   { way := .input, usage := some (u (chars "desktop") (chars "Y")), size := 8, flags := .int 6,
     logicalMin := some (-127), logicalMax := some 127 },
   flag .input (.usage (Button 1)), flag .input (.usage (Button 2)), flag .input (.usage (Button 3))]

def mouse : Node := application (u (chars "desktop") (chars "Mouse")) mouseArgs

/-- `examples/keyboard.py:4-31`. -/
def keyboardArgs : List ValueArgs :=
  [flag .input (u (chars "keyboard") (chars "LeftControl")), flag .input (u (chars "keyboard") (chars "LeftShift")),
   flag .input (u (chars "keyboard") (chars "LeftAlt")), flag .input (u (chars "keyboard") (chars "LeftGui")),
   flag .input (u (chars "keyboard") (chars "RightControl")), flag .input (u (chars "keyboard") (chars "RightShift")),
   flag .input (u (chars "keyboard") (chars "RightAlt")), flag .input (u (chars "keyboard") (chars "RightGui")),
   { way := .input, usage := none, size := 8, logicalMin := some 0, count := 6,
     namedArray := some (.range ⟨u (chars "keyboard") (chars "NoEvent"),
       u (chars "keyboard") (chars "KeypadHexadecimal")⟩) },
   flag .output (u (chars "led") (chars "NumLock")), flag .output (u (chars "led") (chars "CapsLock")),
   flag .output (u (chars "led") (chars "ScrollLock"))]

def keyboard : Node := application (u (chars "desktop") (chars "Keyboard")) keyboardArgs

/-- `examples/battery.py:4-9`. -/
def batteryArgs : List ValueArgs :=
  [{ way := .input, usage := some (u (chars "device") (chars "BatteryStrength")), size := 8, logicalMin := some 0,
     logicalMax := some 100 }]

def battery : Node :=
  .coll (.named (chars "Application") 1) (some (u (chars "consumer") (chars "ConsumerControl")))
    [.coll (.named (chars "Logical") 2) (some (u (chars "desktop") (chars "Keyboard")))
      (batteryArgs.map (fun a => .value (mk a)))]

/-- `tests/issue_7/test.py:6-22`. -/
def sensorArgs : List ValueArgs :=
  [{ way := .input, usage := some (u (chars "sensors") (chars "EnvironmentalHumidity")), size := 16,
     logicalMin := some 0, logicalMax := some 1400 },
   { way := .input, usage := some (u (chars "sensors") (chars "EnvironmentalTemperature")), size := 8,
     logicalMin := some 0, logicalMax := some 100, count := 2 },
   { way := .input, usage := some (u (chars "sensors") (chars "EnvironmentalAtmosphericPressure")), size := 8,
     logicalMin := some 0, logicalMax := some 100 }]

def sensor : Node :=
  .coll (.named (chars "Application") 1) (some (u (chars "sensors") (chars "Environmental")))
    [.coll (.named (chars "Physical") 0) (some (u (chars "sensors") (chars "Environmental")))
      [.report 1 (sensorArgs.map (fun a => .value (mk a)))]]

/-- All of the above holds of `examples/mouse.py`. -/
theorem mouse_fine : Fine 8 mouseArgs mouse :=
  ⟨by simp [leaves, mouse, application, tokens, tokensL_values, Function.comp_def], by decide +kernel, by decide +kernel, by decide +kernel, by decide +kernel, by decide +kernel, by decide +kernel,
    by decide +kernel, by decide +kernel, by decide +kernel⟩

/-- All of the above holds of `examples/keyboard.py`. -/
theorem keyboard_fine : Fine 8 keyboardArgs keyboard :=
  ⟨by simp [leaves, keyboard, application, tokens, tokensL_values, Function.comp_def], by decide +kernel, by decide +kernel, by decide +kernel, by decide +kernel, by decide +kernel, by decide +kernel,
    by decide +kernel, by decide +kernel, by decide +kernel⟩

/-- All of the above holds of `examples/battery.py`. -/
theorem battery_fine : Fine 8 batteryArgs battery :=
  ⟨by simp [leaves, battery, tokens, tokensL, tokensL_values, Function.comp_def], by decide +kernel, by decide +kernel, by decide +kernel, by decide +kernel, by decide +kernel, by decide +kernel,
    by decide +kernel, by decide +kernel, by decide +kernel⟩

/-- All of the above holds of `tests/issue_7/test.py`. -/
theorem sensor_fine : Fine 8 sensorArgs sensor :=
  ⟨by simp [leaves, sensor, tokens, tokensL, tokensL_values, Function.comp_def], by decide +kernel, by decide +kernel, by decide +kernel, by decide +kernel, by decide +kernel, by decide +kernel,
    by decide +kernel, by decide +kernel, by decide +kernel⟩

end Examples
end Hrdc
