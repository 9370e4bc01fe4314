import Verif.Model.Converter
import Verif.Model.Compiler
import Verif.Model.Decompiler
/-!
# Effects of the commands, whether they end normally or with an exception

`Formatter.render`, `Streamer.compile` and the commands built on them give the result when nothing
raises.  Here items are followed one by one, so that what has been written before an exception is known,
and which exception comes first.
-/
namespace Hrdc

namespace Formatter

/-- `Binary.append` on each item, `formatter/binary.py:11-12`: bytes written, and the exception. -/
def writeBinary : List Item → List UInt8 × Option PyErr
  | [] => ([], none)
  | i :: l =>
    match i.bytes with
    | .error e => ([], some e)
    | .ok b => (b ++ (writeBinary l).1, (writeBinary l).2)

/-- `Hex.append` on each item, `formatter/hex.py:7-9`. -/
def writeHex : List Item → Text × Option PyErr
  | [] => ([], none)
  | i :: l =>
    match i.bytes with
    | .error e => ([], some e)
    | .ok b => (pyJoin [' '] (b.map hex2) ++ '\n' :: (writeHex l).1, (writeHex l).2)

/-- `Code.append` on each item, `formatter/code.py:8-16`. -/
def writeCode (indent : Int) : List Item → Text × Option PyErr
  | [] => ([], none)
  | i :: l =>
    let ind := indentBefore indent i
    match i.bytes with
    | .error e => ([], some e)
    | .ok b => (codeLine ind b i.str ++ (writeCode (indentAfter ind i) l).1, (writeCode (indentAfter ind i) l).2)

/-- What a writer has written, and its exception. -/
def write (f : Fmt) (l : List Item) : Doc × Option PyErr :=
  match f with
  | .binary => ((writeBinary l).1 |> .bytes, (writeBinary l).2)
  | .hex => ((writeHex l).1 |> .text, (writeHex l).2)
  | .code => ((writeCode 0 l).1 |> .text, (writeCode 0 l).2)

end Formatter

/-! ## Streamer, item by item -/
namespace Streamer

/-- A result with the items appended before it was reached or an exception raised. -/
abbrev Tr (α : Type) := List Item × Except PyErr α

/-- First `x`, then `f`. -/
def Tr.bind {α β : Type} (x : Tr α) (f : α → Tr β) : Tr β :=
  match x with
  | (l, .error e) => (l, .error e)
  | (l, .ok a) => (l ++ (f a).1, (f a).2)

/-- `a(cls(v))` for a list of constructor calls. -/
def emitT (reg : Registry) : List (Cls × PyVal) → Tr Unit
  | [] => ([], .ok ())
  | (c, v) :: r =>
    match Item.new reg c v with
    | .error e => ([], .error e)
    | .ok i => (i :: (emitT reg r).1, (emitT reg r).2)

/-- `streamer.py:53-57`. -/
def addPadT (reg : Registry) (st : State) (w : Way) (pad : Int) : Tr State :=
  if pad ≠ 0 then
    (emitT reg [(.reportCount, .int 1), (.reportSize, .int pad)]).bind fun _ =>
    Tr.bind ([], bump st w pad) fun st' =>
    (emitT reg [(w.cls, .int 3)]).bind fun _ => ([], .ok st')
  else ([], .ok st)

/-- `streamer.py:62-64`. -/
def usageCalls (v : Value) : List (Cls × PyVal) :=
  match v.usage with
  | some u => if u.truthy then [(Cls.usage, u)] else []
  | none => []

/-- `streamer.py:66-88`. -/
def otherCalls (reg : Registry) (v : Value) (named : Bool) : List (Cls × PyVal) :=
  (match named, v.namedArray with
    | true, some arr =>
      [(.physMin, .int 0), (.physMax, .int 0)] ++
      (if usageGiven v.usage then [(.collection, .named (tx "Logical") 2)] else []) ++
      (arr.elems reg).map (fun u => (Cls.usage, u))
    | _, _ =>
      if v.physicalMin = v.logicalMin ∧ v.physicalMax = v.logicalMax then
        [(.physMin, .int 0), (.physMax, .int 0)]
      else [(.physMin, orZero v.physicalMin), (.physMax, orZero v.physicalMax)]) ++
  [(.logMin, orZero v.logicalMin), (.logMax, orZero v.logicalMax),
   (.unit, v.unit), (.unitExp, .int v.unitExponent)] ++
  (if v.designator ≠ 0 then [(.desigIndex, .int v.designator)] else []) ++
  (if v.string ≠ 0 then [(.strIndex, .int v.string)] else [])

/-- The last lines of `element`, `streamer.py:90-93`. -/
def fieldT (reg : Registry) (st : State) (v : Value) : Tr State :=
  (emitT reg [(.reportCount, .int v.count), (.reportSize, .int v.size)]).bind fun _ =>
  Tr.bind ([], bump st v.way v.size) fun st' =>
  (emitT reg [(v.way.cls, v.flags)]).bind fun _ => ([], .ok st')

/-- `Streamer.element` on a `Value` that is neither `Align` nor `Padding`, `streamer.py:45-96`; the named
array is asked for its truth value after the usage, or at the end for constant fields. -/
def valueT (reg : Registry) (st : State) (v : Value) : Tr State :=
  Tr.bind ([], padFor st v.way v.alignment 0) fun pad =>
  (addPadT reg st v.way pad).bind fun st1 =>
  if constFlag v.flags then
    (fieldT reg st1 v).bind fun st2 =>
    Tr.bind ([], truthOpt v.namedArray) fun _ => ([], .ok st2)
  else
    (emitT reg (usageCalls v)).bind fun _ =>
    Tr.bind ([], truthOpt v.namedArray) fun named =>
    (emitT reg (otherCalls reg v named)).bind fun _ =>
    (fieldT reg st1 v).bind fun st2 =>
    (emitT reg (if named && usageGiven v.usage then [(.endCollection, .int 0)] else [])).bind fun _ =>
    ([], .ok st2)

mutual
/-- `accept` with the streamer, `descriptor.py:15-19,125-126` and `streamer.py:16-96`. -/
def nodeT (reg : Registry) (st : State) : Node → Tr State
  | .value v => valueT reg st v
  | .align w b => Tr.bind ([], padFor st w b 0) fun pad => addPadT reg st w pad
  | .padding w s => addPadT reg st w s
  | .report id ms =>
    (emitT reg (if id ≠ 0 then [(.reportID, .int id)] else [])).bind fun _ => nodesT reg { st with id := id } ms
  | .top ms => nodesT reg st ms
  | .coll kind usage ms =>
    match usage with
    | none => ([], .error .type)
    | some u =>
      (emitT reg [(.usage, u), (.collection, kind)]).bind fun _ =>
      (nodesT reg st ms).bind fun st' =>
      (emitT reg [(.endCollection, .int 0)]).bind fun _ => ([], .ok st')
/-- The loop over members. -/
def nodesT (reg : Registry) (st : State) : List Node → Tr State
  | [] => ([], .ok st)
  | n :: ns => (nodeT reg st n).bind fun st1 => nodesT reg st1 ns
end

/-- `desc.accept(Streamer(output))`: items appended to the output, and the exception. -/
def trace (reg : Registry) (n : Node) : List Item × Option PyErr :=
  match nodeT reg {} n with
  | (l, .ok _) => (l, none)
  | (l, .error e) => (l, some e)

end Streamer

namespace Command

/-- The stream a source writes into: the optimizer, or the formatter directly. -/
def stage (reg : Registry) (optimize : Bool) : Pass := if optimize then Optimizer.new reg 0 100 Pass.sink else Pass.sink

/-- A source appends items to a stage in front of an output and closes it, unless it raises; an exception of
the output stops the source.  `out` tells what the output does with the items appended to it. -/
def drive {α : Type} (p : Pass) (out : List Item → α × Option PyErr) (src : List Item × Option PyErr) :
    α × Option PyErr :=
  let q := p.feed p.init src.1
  match out q.2, src.2 with
  | (a, some e), _ => (a, some e)
  | (a, none), some e => (a, some e)
  | (_, none), none => out (q.2 ++ p.fin q.1)

/-- `converter -i f -o g` with or without `-O`, on standard input and output, `converter.py:26-36`: what has
been written, and the exception.  The code writer's `close` only warns. -/
def convert (f g : Formatter.Fmt) (optimize : Bool) (reg : Registry) (uni : Parser.Uni) (d : Formatter.Doc) :
    Formatter.Doc × Option PyErr :=
  drive (stage reg optimize) (Formatter.write g) (Formatter.deliver f reg uni d)

/-- `compile_main(desc)`, `compiler.py:22-34`. -/
def compile (reg : Registry) (f : Formatter.Fmt) (optimize : Bool) (n : Node) : Formatter.Doc × Option PyErr :=
  drive (stage reg optimize) (Formatter.write f) (Streamer.trace reg n)

/-- `ExpectedStream.append` on each item, `comparer.py:18-22`. -/
def compareItems (expected : List UInt8) (point : Nat) : List Item → Nat × Option PyErr
  | [] => (point, none)
  | i :: l =>
    match i.bytes with
    | .error e => (point, some e)
    | .ok part =>
      if (expected.drop point).take part.length = part then compareItems expected (point + part.length) l
      else (point, some .assertion)

/-- `descriptor_expected`, `hrdc/descriptor/test.py:1-9`: the exception, the first of all in order of time. -/
def expected (reg : Registry) (uni : Char → Bool) (code : Text) (n : Node) : Option PyErr :=
  match Parser.codeBlob uni code with
  | .error e => some e
  | .ok b =>
    match drive (stage reg true) (compareItems b 0) (Streamer.trace reg n) with
    | (_, some e) => some e
    | (point, none) => if point = b.length then none else some .assertion

/-! ## Names of formats, standard streams and files -/

/-- `Parser.get(name)` and `Formatter.get(name)`, `parser/base.py:5-18`, `formatter/base.py:3-17`: the
registries hold the classes under their names in lower case.  `Parser` and `Formatter` themselves are not
entered: their names are not bound yet when their metaclass runs. -/
def formatByName (name : Text) : Except PyErr Formatter.Fmt :=
  if name = tx "binary" then .ok .binary
  else if name = tx "hex" then .ok .hex
  else if name = tx "code" then .ok .code
  else .error .key

/-- Standard input or output, or a file named on the command line, opened by `argparse.FileType` as text
(`converter.py:15-21`, `compiler.py:18-20`, `extractor.py:277-283`). -/
inductive Channel | std | file
  deriving DecidableEq, Repr

/-- What a reader gets: `Binary.__init__`, `parser/binary.py:4-11`, goes to the bytes below standard input; in
all other cases the content is decoded.  `decode` is the decoder of the locale; `UnicodeDecodeError` is a
`ValueError`. -/
def input (decode : List UInt8 → Option Text) (c : Channel) (f : Formatter.Fmt) (content : List UInt8) :
    Except PyErr Formatter.Doc :=
  if f = .binary ∧ c = .std then .ok (.bytes content)
  else
    match decode content with
    | some t => .ok (.text t)
    | none => .error .value

/-- What a writer does: `Binary.__init__`, `formatter/binary.py:4-9`, goes to the bytes below standard output;
writing bytes to a file opened as text raises `TypeError`.  Characters that cannot be encoded are not
modelled. -/
def output (c : Channel) (f : Formatter.Fmt) (l : List Item) : Formatter.Doc × Option PyErr :=
  if f = .binary ∧ c = .file then
    match l with
    | [] => (.bytes [], none)
    | i :: _ =>
      match i.bytes with
      | .error e => (.bytes [], some e)
      | .ok _ => (.bytes [], some .type)
  else Formatter.write f l

/-- The output before anything is written; a file has been truncated when it was opened. -/
def nothing : Formatter.Doc := .text []

/-- `converter`, `converter.py:5-36`, from its arguments: names of the formats, input and output, `-O`. -/
def converter (reg : Registry) (uni : Parser.Uni) (decode : List UInt8 → Option Text) (inName outName : Text)
    (inC outC : Channel) (optimize : Bool) (content : List UInt8) : Formatter.Doc × Option PyErr :=
  match formatByName inName, formatByName outName with
  | .error e, _ => (nothing, some e)
  | _, .error e => (nothing, some e)
  | .ok f, .ok g =>
    match input decode inC f content with
    | .error e => (nothing, some e)
    | .ok d => drive (stage reg optimize) (output outC g) (Formatter.deliver f reg uni d)

/-- `compile_main`, `compiler.py:9-34`. -/
def compiler (reg : Registry) (outName : Text) (outC : Channel) (optimize : Bool) (n : Node) :
    Formatter.Doc × Option PyErr :=
  match formatByName outName with
  | .error e => (nothing, some e)
  | .ok g => drive (stage reg optimize) (output outC g) (Streamer.trace reg n)

/-- The decompiler's `main()`, `extractor.py:264-293`, writing to standard output or a file alike. -/
def decompiler (reg : Registry) (uni : Parser.Uni) (decode : List UInt8 → Option Text) (inName : Text)
    (inC : Channel) (content : List UInt8) : Except PyErr Text :=
  match formatByName inName with
  | .error e => .error e
  | .ok f =>
    match input decode inC f content with
    | .error e => .error e
    | .ok d => Decompiler.main reg f uni d

end Command
end Hrdc
