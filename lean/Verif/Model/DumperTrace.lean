import Verif.Model.Command
/-!
# Effects of the dumper and the decompiler, whether they end normally or with an exception
-/
namespace Hrdc
namespace Dumper

/-- `element(e)` on a value that is neither `Align` nor `Padding`, `dumper.py:59-101`: text written, and the
exception.  Only the test of `dumper.py:62-64` can raise, after the positional arguments are written. -/
def valueT (reg : Registry) (ind : Nat) (v : Value) : Text × Option PyErr :=
  match flagsShown v with
  | .error e => (indent ind ++ headStr reg v, some e)
  | .ok shown =>
    (indent ind ++ headStr reg v ++ flagsStr v shown ++
      (if v.logicalMin ≠ some 1 then kw (tx "logicalMin") (optStr v.logicalMin) else []) ++
      arrayStr ind v ++ restStr v ++ tx "),\n", none)

/-- The text of `enter`, then the members, then the text of `leave` unless a member raises,
`descriptor.py:15-19`. -/
def around (before : Text) (inside : Text × Option PyErr) (after : Text) : Text × Option PyErr :=
  match inside with
  | (t, some e) => (before ++ t, some e)
  | (t, none) => (before ++ t ++ after, none)

mutual
/-- `accept(Dumper(output))` at nesting `ind`, `dumper.py:22-101`. -/
def nodeT (reg : Registry) (ind : Nat) : Node → Text × Option PyErr
  | .value v => valueT reg ind v
  | .align w b => (indent ind ++ tx "Align(Value." ++ wayName w ++ tx ", " ++ pyStr b ++ tx "),\n", none)
  | .padding w s => (indent ind ++ tx "Padding(Value." ++ wayName w ++ tx ", " ++ pyStr s ++ tx "),\n", none)
  | .report id ms =>
    around (head ind ++ (indent ind ++ tx "Report(" ++ pyStr id ++ tx ",\n")) (nodesT reg (ind + 1) ms) (foot ind)
  | .top ms => around (head ind ++ (indent ind ++ tx "TopLevel(\n")) (nodesT reg (ind + 1) ms) (foot ind)
  | .coll kind usage ms =>
    around (head ind ++ (indent ind ++ tx "Collection(Collection." ++ kind.str ++ tx ", " ++
      collUsage reg usage ++ tx ",\n")) (nodesT reg (ind + 1) ms) (foot ind)
/-- The members, one after the other. -/
def nodesT (reg : Registry) (ind : Nat) : List Node → Text × Option PyErr
  | [] => ([], none)
  | n :: ns =>
    match nodeT reg ind n with
    | (a, some e) => (a, some e)
    | (a, none) => (a ++ (nodesT reg ind ns).1, (nodesT reg ind ns).2)
end

end Dumper

namespace Extractor

/-- `str(e)` of the exception of `UsageRange.from_array`, `usage.py:87-94`. -/
def rangeMessage (arr : List PyVal) : Text :=
  if arr.length < 2 then tx "Cannot create range from array with less than 2 elements" else tx "Noncontiguous values"

/-- What `handleDataItem(i)` prints, `extractor.py:206-215`: the array of usages is no range, in the third
branch of the tests. -/
def State.says (reg : Registry) (st : State) (i : Item) : Text :=
  if bitSet i.ival 0 then []
  else
    match st.namedTest reg i with
    | .ok false =>
      if i.ival = 0 ∧ (st.usages.length : Int) = st.num .logMax - st.num .logMin + 1 then
        match UsageRange.fromArray ((List.range st.usages.length).filterMap (st.usage reg)) with
        | .ok _ => []
        | .error _ => rangeMessage ((List.range st.usages.length).filterMap (st.usage reg)) ++ ['\n']
      else []
    | _ => []

/-- What `_append(i)` prints, `extractor.py:67-113`. -/
def stepSays (reg : Registry) (st : State) (i : Item) : Text :=
  if i.cls.isData then st.expandAll.says reg i else []

/-- What `append` prints when an exception passes, `extractor.py:58-65`.  `rest` are the lines showing the
attributes, with addresses of objects in memory. -/
def exceptionText (rest : Text) (i : Item) : Text :=
  tx "Exception while appending item " ++ i.str ++ ['\n'] ++ rest

/-- Appending a list of items: what is printed, and the result. -/
def trace (reg : Registry) (rest : Text) (st : State) : List Item → Text × Except PyErr State
  | [] => ([], .ok st)
  | i :: r =>
    match step reg st i with
    | .error e => (stepSays reg st i ++ exceptionText rest i, .error e)
    | .ok st' => (stepSays reg st i ++ (trace reg rest st' r).1, (trace reg rest st' r).2)

end Extractor

namespace Command

/-- What the decompiler has done: messages printed to standard output, text written by the dumper, and the
exception. -/
structure Decompiled where
  printed : Text
  script : Text
  err : Option PyErr
  deriving DecidableEq, Repr

/-- The decompiler's `main()`, `extractor.py:264-293`: what has been printed and written, and the exception.
Messages come while the input is read, the dumper starts afterwards. -/
def decompile (reg : Registry) (uni : Parser.Uni) (decode : List UInt8 → Option Text) (rest : Text) (inName : Text)
    (inC : Channel) (content : List UInt8) : Decompiled :=
  match formatByName inName with
  | .error e => ⟨[], [], some e⟩
  | .ok f =>
    match input decode inC f content with
    | .error e => ⟨[], [], some e⟩
    | .ok d =>
      let r := Formatter.deliver f reg uni d
      let x := Extractor.trace reg rest {} r.1
      match x.2, r.2 with
      | .error e, _ => ⟨x.1, [], some e⟩
      | .ok _, some e => ⟨x.1, [], some e⟩
      | .ok st, none =>
        match st.root with
        | none => ⟨x.1, [], some .attribute⟩
        | some n => ⟨x.1, (Dumper.nodeT reg 0 n).1, (Dumper.nodeT reg 0 n).2⟩

/-- What ends up in the output named on the command line: `print` goes to standard output, and so does the
script unless a file is named, `extractor.py:278-280,291-292`. -/
def Decompiled.output (c : Channel) (r : Decompiled) : Text :=
  match c with
  | .std => r.printed ++ r.script
  | .file => r.script

end Command
end Hrdc
