import Verif.Check.RepoTests
import Verif.Model.Converter
import Verif.Model.Decompiler
import Verif.Model.Constant
/-!
# The documentation's examples, run on the model

Like `Check/RepoTests.lean`, these are tests of the reading of `/repo` into the model, not properties: commands and
listings of `README.rst` and `doc/*.rst`, evaluated by the kernel.  Listings are taken without the indentation the
documentation puts around them.
-/
namespace Hrdc
namespace Docs
open RepoTests

set_option maxRecDepth 40000

/-- The usages the documentation's listings name, out of the registered ones. -/
def names : Registry := [
  ⟨chars "desktop.Pointer", 0x10001, [.CP]⟩,
  ⟨chars "desktop.Mouse", 0x10002, [.CA]⟩,
  ⟨chars "desktop.Gamepad", 0x10005, [.CA]⟩,
  ⟨chars "desktop.X", 0x10030, [.DV]⟩,
  ⟨chars "desktop.Y", 0x10031, [.DV]⟩,
  ⟨chars "desktop.Z", 0x10032, [.DV]⟩,
  ⟨chars "desktop.Rz", 0x10035, [.DV]⟩,
  ⟨chars "desktop.Slider", 0x10036, [.DV]⟩,
  ⟨chars "desktop.HatSwitch", 0x10039, [.DV]⟩,
  ⟨chars "simulation.Accelerator", 0x200c4, [.DV]⟩,
  ⟨chars "simulation.Brake", 0x200c5, [.DV]⟩] ++
  (List.range 16).map (fun (k : Nat) => Button ((k : Int) + 1))

/-- They are what `hrdc.usage` defines (`hrdc/usage/desktop.py`, `hrdc/usage/simulation.py`). -/
example : [UsageTable.lookup (chars "desktop") (chars "Pointer"),
    UsageTable.lookup (chars "desktop") (chars "Mouse"),
    UsageTable.lookup (chars "desktop") (chars "Gamepad"),
    UsageTable.lookup (chars "desktop") (chars "X"),
    UsageTable.lookup (chars "desktop") (chars "Y"),
    UsageTable.lookup (chars "desktop") (chars "Z"),
    UsageTable.lookup (chars "desktop") (chars "Rz"),
    UsageTable.lookup (chars "desktop") (chars "Slider"),
    UsageTable.lookup (chars "desktop") (chars "HatSwitch"),
    UsageTable.lookup (chars "simulation") (chars "Accelerator"),
    UsageTable.lookup (chars "simulation") (chars "Brake")] =
    (names.take 11).map some := by decide +kernel

/-- No byte outside ASCII is written in these documents. -/
def ascii : Parser.Uni := ⟨fun _ => false, fun _ => false⟩

/-- `python3 -m hrdc.converter -i f -o g`, no `-O`. -/
def convert (f g : Formatter.Fmt) (t : Text) : Except PyErr Formatter.Doc :=
  match Formatter.deliver f names ascii (.text t) with
  | (xs, none) => Formatter.render g xs
  | (_, some e) => .error e

/-- A listing came out as expected. -/
def listed (r : Except PyErr Formatter.Doc) (t : Text) : Bool :=
  match r with
  | .ok (.text s) => s == t
  | _ => false

/-- `mouse.hex`, `doc/usage.rst:71-72`. -/
def mouseHex : Text := chars "05 01 09 02 a1 01 15 81 25 7f 75 08 95 02 09 30 09 31 81 06 15 00 25\n\
    01 75 01 95 03 05 09 19 01 29 03 81 02 c0\n"

/-- `doc/usage.rst:71-102`: the mouse, from hexadecimal to C code.  The documentation prints `UsagePage (desktop)` and
`UsagePage (button)`; the code names the pages of parsed items after `hrdc/usage/usage.py:25-43`, and prints what is
written here. -/
example : listed (convert .hex .code mouseHex) (chars "     0x05, 0x01,                    // UsagePage (GenericDesktop)\n     \
    0x09, 0x02,                    // Usage (Mouse)\n     \
    0xa1, 0x01,                    // Collection (Application)\n     \
    0x15, 0x81,                    //     LogicalMinimum (-127)\n     \
    0x25, 0x7f,                    //     LogicalMaximum (127)\n     \
    0x75, 0x08,                    //     ReportSize (8)\n     \
    0x95, 0x02,                    //     ReportCount (2)\n     \
    0x09, 0x30,                    //     Usage (X)\n     \
    0x09, 0x31,                    //     Usage (Y)\n     \
    0x81, 0x06,                    //     Input (Variable|Relative)\n     \
    0x15, 0x00,                    //     LogicalMinimum (0)\n     \
    0x25, 0x01,                    //     LogicalMaximum (1)\n     \
    0x75, 0x01,                    //     ReportSize (1)\n     \
    0x95, 0x03,                    //     ReportCount (3)\n     \
    0x05, 0x09,                    //     UsagePage (Button)\n     \
    0x19, 0x01,                    //     UsageMinimum (Button(1))\n     \
    0x29, 0x03,                    //     UsageMaximum (Button(3))\n     \
    0x81, 0x02,                    //     Input (Variable)\n     \
    0xc0,                          // EndCollection\n") = true := by decide +kernel

/-- `Value(Value.Input, desktop.a, 8, flags = Value.Variable | Value.Relative, logicalMin = -127, logicalMax = 127)`. -/
def axis (a : Text) : Except PyErr Node :=
  val { way := .input, usage := some (u (chars "desktop") a), size := 8, flags := .int 6,
        logicalMin := some (-127), logicalMax := some 127 }

/-- `Value(Value.Input, button.Button(n), 1, logicalMin = 0, logicalMax = 1)`. -/
def key (n : Int) : Except PyErr Node :=
  val { way := .input, usage := some (.usage (Button n)), size := 1, logicalMin := some 0, logicalMax := some 1 }

/-- `mouse.py`, `doc/usage.rst:180-192`. -/
def mouse : Except PyErr Node :=
  coll (chars "Application") 1 (u (chars "desktop") (chars "Mouse"))
    [axis (chars "X"), axis (chars "Y"), key 1, key 2, key 3]

/-- `python3 mouse.py -o code`, with `-N` when `o` is false. -/
def compiled (o : Bool) : Except PyErr Formatter.Doc :=
  match mouse with
  | .ok n => Compiler.main names .code o n
  | .error e => .error e

/-- `doc/usage.rst:222-274`: the mouse compiled with `-N`. -/
example : listed (compiled false) (chars "     0x0b, 0x02, 0x00, 0x01, 0x00,  // Usage (desktop.Mouse)\n     \
    0xa1, 0x01,                    // Collection (Application)\n     \
    0x0b, 0x30, 0x00, 0x01, 0x00,  //     Usage (desktop.X)\n     \
    0x35, 0x00,                    //     PhysicalMinimum (0)\n     \
    0x45, 0x00,                    //     PhysicalMaximum (0)\n     \
    0x15, 0x81,                    //     LogicalMinimum (-127)\n     \
    0x25, 0x7f,                    //     LogicalMaximum (127)\n     \
    0x65, 0x00,                    //     Unit (0)\n     \
    0x55, 0x00,                    //     UnitExponent (0)\n     \
    0x95, 0x01,                    //     ReportCount (1)\n     \
    0x75, 0x08,                    //     ReportSize (8)\n     \
    0x81, 0x06,                    //     Input (Variable|Relative)\n     \
    0x0b, 0x31, 0x00, 0x01, 0x00,  //     Usage (desktop.Y)\n     \
    0x35, 0x00,                    //     PhysicalMinimum (0)\n     \
    0x45, 0x00,                    //     PhysicalMaximum (0)\n     \
    0x15, 0x81,                    //     LogicalMinimum (-127)\n     \
    0x25, 0x7f,                    //     LogicalMaximum (127)\n     \
    0x65, 0x00,                    //     Unit (0)\n     \
    0x55, 0x00,                    //     UnitExponent (0)\n     \
    0x95, 0x01,                    //     ReportCount (1)\n     \
    0x75, 0x08,                    //     ReportSize (8)\n     \
    0x81, 0x06,                    //     Input (Variable|Relative)\n     \
    0x0b, 0x01, 0x00, 0x09, 0x00,  //     Usage (button.Button(1))\n     \
    0x35, 0x00,                    //     PhysicalMinimum (0)\n     \
    0x45, 0x00,                    //     PhysicalMaximum (0)\n     \
    0x15, 0x00,                    //     LogicalMinimum (0)\n     \
    0x25, 0x01,                    //     LogicalMaximum (1)\n     \
    0x65, 0x00,                    //     Unit (0)\n     \
    0x55, 0x00,                    //     UnitExponent (0)\n     \
    0x95, 0x01,                    //     ReportCount (1)\n     \
    0x75, 0x01,                    //     ReportSize (1)\n     \
    0x81, 0x02,                    //     Input (Variable)\n     \
    0x0b, 0x02, 0x00, 0x09, 0x00,  //     Usage (button.Button(2))\n     \
    0x35, 0x00,                    //     PhysicalMinimum (0)\n     \
    0x45, 0x00,                    //     PhysicalMaximum (0)\n     \
    0x15, 0x00,                    //     LogicalMinimum (0)\n     \
    0x25, 0x01,                    //     LogicalMaximum (1)\n     \
    0x65, 0x00,                    //     Unit (0)\n     \
    0x55, 0x00,                    //     UnitExponent (0)\n     \
    0x95, 0x01,                    //     ReportCount (1)\n     \
    0x75, 0x01,                    //     ReportSize (1)\n     \
    0x81, 0x02,                    //     Input (Variable)\n     \
    0x0b, 0x03, 0x00, 0x09, 0x00,  //     Usage (button.Button(3))\n     \
    0x35, 0x00,                    //     PhysicalMinimum (0)\n     \
    0x45, 0x00,                    //     PhysicalMaximum (0)\n     \
    0x15, 0x00,                    //     LogicalMinimum (0)\n     \
    0x25, 0x01,                    //     LogicalMaximum (1)\n     \
    0x65, 0x00,                    //     Unit (0)\n     \
    0x55, 0x00,                    //     UnitExponent (0)\n     \
    0x95, 0x01,                    //     ReportCount (1)\n     \
    0x75, 0x01,                    //     ReportSize (1)\n     \
    0x81, 0x02,                    //     Input (Variable)\n     \
    0xc0,                          // EndCollection\n") = true := by decide +kernel

/-- `README.rst:66-84`: the mouse compiled. -/
example : listed (compiled true) (chars "     0x05, 0x01,                    // UsagePage (desktop)\n     \
    0x09, 0x02,                    // Usage (Mouse)\n     \
    0xa1, 0x01,                    // Collection (Application)\n     \
    0x15, 0x81,                    //     LogicalMinimum (-127)\n     \
    0x25, 0x7f,                    //     LogicalMaximum (127)\n     \
    0x75, 0x08,                    //     ReportSize (8)\n     \
    0x95, 0x02,                    //     ReportCount (2)\n     \
    0x09, 0x30,                    //     Usage (X)\n     \
    0x09, 0x31,                    //     Usage (Y)\n     \
    0x81, 0x06,                    //     Input (Variable|Relative)\n     \
    0x15, 0x00,                    //     LogicalMinimum (0)\n     \
    0x25, 0x01,                    //     LogicalMaximum (1)\n     \
    0x75, 0x01,                    //     ReportSize (1)\n     \
    0x95, 0x03,                    //     ReportCount (3)\n     \
    0x05, 0x09,                    //     UsagePage (button)\n     \
    0x19, 0x01,                    //     UsageMinimum (Button(1))\n     \
    0x29, 0x03,                    //     UsageMaximum (Button(3))\n     \
    0x81, 0x02,                    //     Input (Variable)\n     \
    0xc0,                          // EndCollection\n") = true := by decide +kernel

/-- `python3 -m hrdc.descriptor.extractor -i hex`. -/
def decompiled (t : Text) : Except PyErr Formatter.Doc :=
  match Decompiler.main names .hex ascii (.text t) with
  | .ok s => .ok (.text s)
  | .error e => .error e

/-- `doc/why.rst:33-38` and `147-184`: the sample gamepad decompiled. -/
example : listed (decompiled (chars "05 01 09 05 A1 01 85 01 05 09 19 01 29 0F 15 00 25 01 95 0F 75 01 81\n\
    02 75 01 95 01 81 03 05 01 09 39 15 01 25 08 35 00 46 3B 01 66 14 00\n\
    75 04 95 01 81 42 75 04 95 01 81 03 05 01 09 01 A1 00 09 30 09 31 15\n\
    00 26 FF FF 35 00 46 FF FF 95 02 75 10 81 02 C0 09 32 09 35 15 00 26\n\
    FF FF 35 00 46 FF FF 95 02 75 10 81 02 05 02 09 C5 09 C4 15 00 26 FF\n\
    FF 35 00 46 FF FF 95 02 75 10 81 02 C0\n"))
    (chars "from hrdc.usage import *\n\
    from hrdc.descriptor import *\n\
    \n\
    descriptor = TopLevel(\n    \
    Report(1,\n        \
    Collection(Collection.Application, desktop.Gamepad,\n            \
    Value(Value.Input, button.Button(1), 1, logicalMin = 0, logicalMax = 1),\n            \
    Value(Value.Input, button.Button(2), 1, logicalMin = 0, logicalMax = 1),\n            \
    Value(Value.Input, button.Button(3), 1, logicalMin = 0, logicalMax = 1),\n            \
    Value(Value.Input, button.Button(4), 1, logicalMin = 0, logicalMax = 1),\n            \
    Value(Value.Input, button.Button(5), 1, logicalMin = 0, logicalMax = 1),\n            \
    Value(Value.Input, button.Button(6), 1, logicalMin = 0, logicalMax = 1),\n            \
    Value(Value.Input, button.Button(7), 1, logicalMin = 0, logicalMax = 1),\n            \
    Value(Value.Input, button.Button(8), 1, logicalMin = 0, logicalMax = 1),\n            \
    Value(Value.Input, button.Button(9), 1, logicalMin = 0, logicalMax = 1),\n            \
    Value(Value.Input, button.Button(10), 1, logicalMin = 0, logicalMax = 1),\n            \
    Value(Value.Input, button.Button(11), 1, logicalMin = 0, logicalMax = 1),\n            \
    Value(Value.Input, button.Button(12), 1, logicalMin = 0, logicalMax = 1),\n            \
    Value(Value.Input, button.Button(13), 1, logicalMin = 0, logicalMax = 1),\n            \
    Value(Value.Input, button.Button(14), 1, logicalMin = 0, logicalMax = 1),\n            \
    Value(Value.Input, button.Button(15), 1, logicalMin = 0, logicalMax = 1),\n            \
    Padding(Value.Input, 1),\n            \
    Value(Value.Input, desktop.HatSwitch, 4, flags = Value.Variable|Value.NullState, logicalMax = 8, physicalMin = 0, physicalMax = 315, unit = Unit.Degree),\n            \
    Padding(Value.Input, 4),\n            \
    Collection(Collection.Physical, desktop.Pointer,\n                \
    Value(Value.Input, desktop.X, 16, logicalMin = 0, logicalMax = -1, unit = Unit.Degree),\n                \
    Value(Value.Input, desktop.Y, 16, logicalMin = 0, logicalMax = -1, unit = Unit.Degree),\n            \
    ),\n            \
    Value(Value.Input, desktop.Z, 16, logicalMin = 0, logicalMax = -1, unit = Unit.Degree),\n            \
    Value(Value.Input, desktop.Rz, 16, logicalMin = 0, logicalMax = -1, unit = Unit.Degree),\n            \
    Value(Value.Input, simulation.Brake, 16, logicalMin = 0, logicalMax = -1, unit = Unit.Degree),\n            \
    Value(Value.Input, simulation.Accelerator, 16, logicalMin = 0, logicalMax = -1, unit = Unit.Degree),\n        \
    ),\n    \
    ),\n\
    )\n\
    \n\
    if __name__ == \"__main__\":\n    \
    compile_main(descriptor)\n") = true := by decide +kernel

/-- `doc/why.rst:200-204` and `273-308`: the other gamepad decompiled. -/
example : listed (decompiled (chars "05 01 09 05 a1 01 05 01 09 01 a1 00 05 09 19 01 29 0c 15 00 25 01 75\n\
    01 95 0c 81 02 75 08 95 01 81 01 05 01 09 39 25 07 35 00 46 0e 01 66\n\
    40 00 75 04 81 42 09 30 09 31 15 80 25 7f 46 ff 00 66 00 00 75 08 95\n\
    02 81 02 09 35 95 01 81 02 09 36 16 00 00 26 ff 00 81 02 09 bb 15 00\n\
    26 ff 00 35 00 46 ff 00 75 08 95 04 91 02 c0 c0\n"))
    (chars "from hrdc.usage import *\n\
    from hrdc.descriptor import *\n\
    \n\
    descriptor = TopLevel(\n    \
    Report(0,\n        \
    Collection(Collection.Application, desktop.Gamepad,\n            \
    Collection(Collection.Physical, desktop.Pointer,\n                \
    Value(Value.Input, button.Button(1), 1, logicalMin = 0, logicalMax = 1),\n                \
    Value(Value.Input, button.Button(2), 1, logicalMin = 0, logicalMax = 1),\n                \
    Value(Value.Input, button.Button(3), 1, logicalMin = 0, logicalMax = 1),\n                \
    Value(Value.Input, button.Button(4), 1, logicalMin = 0, logicalMax = 1),\n                \
    Value(Value.Input, button.Button(5), 1, logicalMin = 0, logicalMax = 1),\n                \
    Value(Value.Input, button.Button(6), 1, logicalMin = 0, logicalMax = 1),\n                \
    Value(Value.Input, button.Button(7), 1, logicalMin = 0, logicalMax = 1),\n                \
    Value(Value.Input, button.Button(8), 1, logicalMin = 0, logicalMax = 1),\n                \
    Value(Value.Input, button.Button(9), 1, logicalMin = 0, logicalMax = 1),\n                \
    Value(Value.Input, button.Button(10), 1, logicalMin = 0, logicalMax = 1),\n                \
    Value(Value.Input, button.Button(11), 1, logicalMin = 0, logicalMax = 1),\n                \
    Value(Value.Input, button.Button(12), 1, logicalMin = 0, logicalMax = 1),\n                \
    Padding(Value.Input, 8),\n                \
    Value(Value.Input, desktop.HatSwitch, 4, flags = Value.Variable|Value.NullState, logicalMin = 0, logicalMax = 7, physicalMin = 0, physicalMax = 270, unit = 64),\n                \
    Value(Value.Input, desktop.X, 8, logicalMin = -128, logicalMax = 127, physicalMin = 0, physicalMax = 255),\n                \
    Value(Value.Input, desktop.Y, 8, logicalMin = -128, logicalMax = 127, physicalMin = 0, physicalMax = 255),\n                \
    Value(Value.Input, desktop.Rz, 8, logicalMin = -128, logicalMax = 127, physicalMin = 0, physicalMax = 255),\n                \
    Value(Value.Input, desktop.Slider, 8, logicalMin = 0, logicalMax = 255),\n                \
    Value(Value.Output, 0x100bb, 8, logicalMin = 0, logicalMax = 255),\n                \
    Value(Value.Output, 0x100bb, 8, logicalMin = 0, logicalMax = 255),\n                \
    Value(Value.Output, 0x100bb, 8, logicalMin = 0, logicalMax = 255),\n                \
    Value(Value.Output, 0x100bb, 8, logicalMin = 0, logicalMax = 255),\n            \
    ),\n        \
    ),\n    \
    ),\n\
    )\n\
    \n\
    if __name__ == \"__main__\":\n    \
    compile_main(descriptor)\n") = true := by decide +kernel

/-- `doc/usage.rst:109-120`: items are written in their shortest form. -/
example : listed (convert .code .code (chars "0x26, 0x01, 0x00,\n"))
    (chars "     0x25, 0x01,                    // LogicalMaximum (1)\n") = true := by decide +kernel

/-- `doc/descriptor.rst`, usage constants. -/
example : UsageTable.lookup (chars "desktop") (chars "X") = some ⟨chars "desktop.X", 0x10030, [.DV]⟩ := by
  decide +kernel

/-- `doc/descriptor.rst`, `Usage.lookup(0x10031)`. -/
example : (Usage.lookup names (.int 0x10031)).name = chars "desktop.Y" := by decide +kernel

/-- The two ways `doc/descriptor.rst` gives of having two buttons on two consecutive bytes put them there. -/
def padded (p : Except PyErr Node) : Except PyErr Node :=
  coll (chars "Application") 1 (u (chars "desktop") (chars "Mouse")) [key 1, p, key 2]

/-- What is written, if anything. -/
def bytesOf (d : Except PyErr Node) : List (List UInt8) :=
  match d with
  | .error _ => []
  | .ok n =>
    match Compiler.main names .binary true n with
    | .ok (.bytes b) => [b]
    | _ => []

example : (bytesOf (padded (Align.new .input 8))).length = 1 ∧
    bytesOf (padded (Align.new .input 8)) = bytesOf (padded (Padding.new .input 7)) := by
  decide +kernel

end Docs
end Hrdc
