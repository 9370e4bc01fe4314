import Verif.Model.Descriptor
/-!
# Script writer (`hrdc/descriptor/dumper.py`)

The dumper writes text piece by piece; the model gives the whole text, or the exception that stops
it.
-/
namespace Hrdc
namespace Dumper

/-- `self.indent(offset)` at nesting `n`, `dumper.py:19-20`. -/
def indent (n : Nat) : Text := List.replicate (n * 4) ' '

/-- ASCII letters, the class `[A-Za-z]`. -/
def letter (c : Char) : Bool := c.isAlpha

/-- `re.sub(r"([A-Za-z]+)", r"P\1", s)`, `dumper.py:66,88`: `P` before every maximal run of letters.
`inside` tells whether the character before is a letter. -/
def prefixWords (p : Text) (inside : Bool) : Text → Text
  | [] => []
  | c :: r =>
    if letter c then (if inside then [c] else p ++ [c]) ++ prefixWords p true r
    else c :: prefixWords p false r

/-- `str(e.way)`, `item.py:131-133`. -/
def wayName (w : Way) : Text := w.cls.tagName

/-- `str(x)` on an int or `None`. -/
def optStr : Option Int → Text
  | none => tx "None"
  | some i => pyStr i

/-- `str(Usage.lookup(u))`. -/
def usageStr (reg : Registry) (u : PyVal) : Text := (Usage.lookup reg u).name

/-- A keyword argument. -/
def kw (name : Text) (t : Text) : Text := tx ", " ++ name ++ tx " = " ++ t

/-- Whether the `flags` argument is written, `dumper.py:62-64`.  The truth value of the named array
is only taken when the flags are not the default ones. -/
def flagsShown (v : Value) : Except PyErr Bool :=
  if v.flags.toInt = 2 then .ok false
  else
    match truthOpt v.namedArray with
    | .error e => .error e
    | .ok named =>
      .ok (!(named && usageGiven v.usage && v.flags.toInt == 2) &&
           !(named && !usageGiven v.usage && v.flags.toInt == 0))

/-- `e.physicalMin`, `e.physicalMax` are shown together unless equal to the logical bounds,
`dumper.py:81-85`. -/
def physStr (v : Value) : Text :=
  if v.physicalMin ≠ v.logicalMin ∨ v.physicalMax ≠ v.logicalMax then
    (if v.physicalMin ≠ none then kw (tx "physicalMin") (optStr v.physicalMin) else []) ++
    (if v.physicalMax ≠ none then kw (tx "physicalMax") (optStr v.physicalMax) else [])
  else []

/-- `dumper.py:70-85`. -/
def arrayStr (ind : Nat) (v : Value) : Text :=
  match v.namedArray with
  | some (.range r) =>
    kw (tx "namedArray") (tx "UsageRange(" ++ r.min.str ++ tx ", " ++ r.max.str ++ tx ")")
  | some (.list l) =>
    kw (tx "namedArray") (tx "[\n" ++ l.flatMap (fun u => indent (ind + 1) ++ u.str ++ tx ",\n") ++
      indent (ind + 1) ++ tx "]")
  | none =>
    (if v.logicalMax ≠ none then kw (tx "logicalMax") (optStr v.logicalMax) else []) ++ physStr v

/-- The `flags` argument, `dumper.py:65-67`. -/
def flagsStr (v : Value) (shown : Bool) : Text :=
  if shown then kw (tx "flags") (prefixWords (tx "Value.") false v.flags.str) else []

/-- `dumper.py:86-100`. -/
def restStr (v : Value) : Text :=
  (if v.unit.toInt ≠ 0 then kw (tx "unit") (prefixWords (tx "Unit.") false v.unit.str) else []) ++
  (if v.unitExponent ≠ 0 then kw (tx "unitExponent") (pyStr v.unitExponent) else []) ++
  (if v.designator ≠ 0 then kw (tx "designator") (pyStr v.designator) else []) ++
  (if v.string ≠ 0 then kw (tx "string") (pyStr v.string) else []) ++
  (if v.count ≠ 1 then kw (tx "count") (pyStr v.count) else []) ++
  (if v.alignment ≠ min 8 v.size then kw (tx "alignment") (pyStr v.alignment) else [])

/-- The usage of a value, `dumper.py:60`. -/
def valueUsage (reg : Registry) : Option PyVal → Text
  | some u => if u.truthy then usageStr reg u else tx "None"
  | none => tx "None"

/-- The positional arguments, `dumper.py:60-61`. -/
def headStr (reg : Registry) (v : Value) : Text :=
  tx "Value(Value." ++ wayName v.way ++ tx ", " ++
  valueUsage reg v.usage ++ tx ", " ++ pyStr v.size

/-- `element(e)` on a value that is neither `Align` nor `Padding`, `dumper.py:59-101`. -/
def value (reg : Registry) (ind : Nat) (v : Value) : Except PyErr Text :=
  match flagsShown v with
  | .error e => .error e
  | .ok shown =>
    .ok (indent ind ++ headStr reg v ++ flagsStr v shown ++
      (if v.logicalMin ≠ some 1 then kw (tx "logicalMin") (optStr v.logicalMin) else []) ++
      arrayStr ind v ++ restStr v ++ tx "),\n")

/-- `dumper.py:23-28`. -/
def head (ind : Nat) : Text :=
  if ind = 0 then tx "from hrdc.usage import *\nfrom hrdc.descriptor import *\n\ndescriptor = " else []

/-- `leave` on a container, `dumper.py:43-52`; `ind` is the nesting outside it. -/
def foot (ind : Nat) : Text :=
  indent ind ++ tx ")" ++ (if ind ≠ 0 then tx "," else []) ++ tx "\n" ++
  (if ind = 0 then tx "\nif __name__ == \"__main__\":\n    compile_main(descriptor)\n" else [])

/-- The usage of a collection, `dumper.py:39`. -/
def collUsage (reg : Registry) : Option PyVal → Text
  | none => tx "None"
  | some u => usageStr reg u

mutual
/-- `accept(Dumper(output))` at nesting `ind`, `dumper.py:22-101`. -/
def node (reg : Registry) (ind : Nat) : Node → Except PyErr Text
  | .value v => value reg ind v
  | .align w b => .ok (indent ind ++ tx "Align(Value." ++ wayName w ++ tx ", " ++ pyStr b ++ tx "),\n")
  | .padding w s => .ok (indent ind ++ tx "Padding(Value." ++ wayName w ++ tx ", " ++ pyStr s ++ tx "),\n")
  | .report id ms =>
    match nodes reg (ind + 1) ms with
    | .error e => .error e
    | .ok t => .ok (head ind ++ (indent ind ++ tx "Report(" ++ pyStr id ++ tx ",\n") ++ t ++ foot ind)
  | .top ms =>
    match nodes reg (ind + 1) ms with
    | .error e => .error e
    | .ok t => .ok (head ind ++ (indent ind ++ tx "TopLevel(\n") ++ t ++ foot ind)
  | .coll kind usage ms =>
    match nodes reg (ind + 1) ms with
    | .error e => .error e
    | .ok t =>
      .ok (head ind ++ (indent ind ++ tx "Collection(Collection." ++ kind.str ++ tx ", " ++
        collUsage reg usage ++ tx ",\n") ++ t ++ foot ind)
/-- The members, one after the other. -/
def nodes (reg : Registry) (ind : Nat) : List Node → Except PyErr Text
  | [] => .ok []
  | n :: ns =>
    match node reg ind n with
    | .error e => .error e
    | .ok a =>
      match nodes reg ind ns with
      | .error e => .error e
      | .ok b => .ok (a ++ b)
end

/-- The script written for a descriptor. -/
def dump (reg : Registry) (n : Node) : Except PyErr Text := node reg 0 n

end Dumper
end Hrdc
