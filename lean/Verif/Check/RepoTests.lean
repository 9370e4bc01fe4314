import Verif.Model.Compiler
import Verif.Model.UsageTable
/-!
# The repository's own tests, run on the model

These are tests of the reading of `/repo` into the model, not properties: the descriptors and the expected
bytes of `tests/`, evaluated by the kernel.
-/
namespace Hrdc
namespace RepoTests

/-- `module.attr` after `from hrdc.usage import *`. -/
def u (m a : Text) : PyVal :=
  match UsageTable.lookup m a with
  | some c => .usage c
  | none => .int (-1)

/-- Members built by constructor calls, in order. -/
def build : List (Except PyErr Node) → Except PyErr (List Node)
  | [] => .ok []
  | x :: xs =>
    match x, build xs with
    | .ok n, .ok ns => .ok (n :: ns)
    | .error e, _ => .error e
    | _, .error e => .error e

/-- `Value(...)`. -/
def val (a : ValueArgs) : Except PyErr Node :=
  match Value.new a with
  | .ok v => .ok (.value v)
  | .error e => .error e

/-- `Collection(kind, usage, ...)`. -/
def coll (k : Text) (kv : Int) (us : PyVal) (ms : List (Except PyErr Node)) : Except PyErr Node :=
  match build ms with
  | .ok ns => .ok (.coll (.named k kv) (some us) ns)
  | .error e => .error e

/-- `Report(id, ...)`. -/
def report (id : Int) (ms : List (Except PyErr Node)) : Except PyErr Node :=
  match build ms with
  | .ok ns => .ok (.report id ns)
  | .error e => .error e

/-- `descriptor_expected`, `hrdc/descriptor/test.py:1-9`.  Registered usages do not change the outcome (C65): none are
taken here. -/
def expected (d : Except PyErr Node) (bytes : List UInt8) : Bool :=
  match d with
  | .error _ => false
  | .ok n =>
    match Streamer.compile [] n with
    | .error _ => false
    | .ok l => decide (Formatter.compareFrom bytes 0 (Optimizer.optimize [] l) = .ok ())

set_option maxRecDepth 20000

/-- `tests/test_basic.py:7-31`. -/
example : expected
    (coll (chars "Application") 1 (u (chars "consumer") (chars "ConsumerControl")) [
      coll (chars "Logical") 2 (u (chars "desktop") (chars "Keyboard")) [
        val { way := .input, usage := some (u (chars "device") (chars "BatteryStrength")), size := 8,
              logicalMin := some 0, logicalMax := some 100 }]])
    [0x05, 0x0c, 0x09, 0x01, 0xa1, 0x01, 0x05, 0x01, 0x09, 0x06, 0xa1, 0x02, 0x15, 0x00, 0x25, 0x64, 0x75, 0x08,
     0x95, 0x01, 0x05, 0x06, 0x09, 0x20, 0x81, 0x02, 0xc0, 0xc0] = true := by decide +kernel

/-- A one-bit value, `tests/test_basic.py:34-38`. -/
def bit (w : Way) (us : PyVal) : Except PyErr Node :=
  val { way := w, usage := some us, size := 1, logicalMin := some 0, logicalMax := some 1 }

/-- `tests/test_basic.py:33-87`. -/
example : expected
    (coll (chars "Application") 1 (u (chars "desktop") (chars "Keyboard")) [
      bit .input (u (chars "keyboard") (chars "LeftControl")),
      bit .input (u (chars "keyboard") (chars "LeftShift")),
      bit .input (u (chars "keyboard") (chars "LeftAlt")),
      bit .input (u (chars "keyboard") (chars "LeftGui")),
      bit .input (u (chars "keyboard") (chars "RightControl")),
      bit .input (u (chars "keyboard") (chars "RightShift")),
      bit .input (u (chars "keyboard") (chars "RightAlt")),
      bit .input (u (chars "keyboard") (chars "RightGui")),
      val { way := .input, usage := none, size := 8, logicalMin := some 0, count := 6,
            namedArray := some (.range ⟨u (chars "keyboard") (chars "NoEvent"),
              u (chars "keyboard") (chars "KeypadHexadecimal")⟩) },
      bit .output (u (chars "led") (chars "NumLock")),
      bit .output (u (chars "led") (chars "CapsLock")),
      bit .output (u (chars "led") (chars "ScrollLock"))])
    [0x05, 0x01, 0x09, 0x06, 0xa1, 0x01, 0x15, 0x00, 0x25, 0x01, 0x75, 0x01, 0x95, 0x08, 0x05, 0x07, 0x19, 0xe0,
     0x29, 0xe7, 0x81, 0x02, 0x26, 0xdd, 0x00, 0x75, 0x08, 0x95, 0x06, 0x19, 0x00, 0x29, 0xdd, 0x81, 0x00, 0x25, 0x01,
     0x75, 0x01, 0x95, 0x03, 0x05, 0x08, 0x19, 0x01, 0x29, 0x03, 0x91, 0x02, 0xc0] = true := by decide +kernel

/-- `tests/test_basic.py:89-125`. -/
example : expected
    (coll (chars "Application") 1 (u (chars "desktop") (chars "Mouse")) [
      val { way := .input, usage := some (u (chars "desktop") (chars "X")), size := 8, flags := .int 6,
            logicalMin := some (-127), logicalMax := some 127 },
      val { way := .input, usage := some (u (chars "desktop") (chars "Y")), size := 8, flags := .int 6,
            logicalMin := some (-127), logicalMax := some 127 },
      bit .input (.usage (Button 1)), bit .input (.usage (Button 2)), bit .input (.usage (Button 3))])
    [0x05, 0x01, 0x09, 0x02, 0xa1, 0x01, 0x15, 0x81, 0x25, 0x7f, 0x75, 0x08, 0x95, 0x02, 0x09, 0x30, 0x09, 0x31, 0x81,
     0x06, 0x15, 0x00, 0x25, 0x01, 0x75, 0x01, 0x95, 0x03, 0x05, 0x09, 0x19, 0x01, 0x29, 0x03, 0x81, 0x02, 0xc0]
      = true := by decide +kernel

/-- `tests/issue_7/test.py:6-41`. -/
example : expected
    (coll (chars "Application") 1 (u (chars "sensors") (chars "Environmental")) [
      coll (chars "Physical") 0 (u (chars "sensors") (chars "Environmental")) [
        report 1 [
          val { way := .input, usage := some (u (chars "sensors") (chars "EnvironmentalHumidity")), size := 16,
                logicalMin := some 0, logicalMax := some 1400 },
          val { way := .input, usage := some (u (chars "sensors") (chars "EnvironmentalTemperature")), size := 8,
                logicalMin := some 0, logicalMax := some 100, count := 2 },
          val { way := .input, usage := some (u (chars "sensors") (chars "EnvironmentalAtmosphericPressure")),
                size := 8, logicalMin := some 0, logicalMax := some 100 }]]])
    [0x05, 0x20, 0x09, 0x30, 0xa1, 0x01, 0x09, 0x30, 0xa1, 0x00, 0x85, 0x01, 0x15, 0x00, 0x26, 0x78, 0x05, 0x75, 0x10,
     0x95, 0x01, 0x09, 0x32, 0x81, 0x02, 0x25, 0x64, 0x75, 0x08, 0x95, 0x02, 0x09, 0x33, 0x81, 0x02, 0x95, 0x01, 0x09,
     0x31, 0x81, 0x02, 0xc0, 0xc0] = true := by decide +kernel

/-- `cls(v).bytes() == b`. -/
def encodes (c : Cls) (v : PyVal) (b : List UInt8) : Bool :=
  match Item.new [] c v with
  | .ok i => decide (i.bytes = .ok b)
  | .error _ => false

/-- `tests/test_item.py:6-26`. -/
example : (encodes .usage (.int 6) [0x09, 0x06] && encodes .usage (.int 0xff) [0x09, 0xff] &&
    encodes .usage (.int 0xffff) [0x0a, 0xff, 0xff] && encodes .usage (.int 0x8000) [0x0a, 0x00, 0x80] &&
    encodes .logMin (.int 0) [0x15, 0x00] && encodes .logMin (.int 6) [0x15, 0x06] &&
    encodes .logMin (.int (-5)) [0x15, 0xfb] && encodes .logMin (.int 0xffff) [0x17, 0xff, 0xff, 0x00, 0x00] &&
    encodes .logMin (.int (-32768)) [0x16, 0x00, 0x80] && encodes .logMin (.int 32767) [0x16, 0xff, 0x7f] &&
    encodes .logMin (.int 32768) [0x17, 0x00, 0x80, 0x00, 0x00] &&
    encodes .endCollection (.int 0) [0xc0] && encodes .input (.named (chars "Variable") 2) [0x81, 0x02] &&
    encodes .output (.named (chars "Variable") 2) [0x91, 0x02] &&
    encodes .feature (.named (chars "Variable") 2) [0xb1, 0x02]) = true := by decide +kernel

end RepoTests
end Hrdc
