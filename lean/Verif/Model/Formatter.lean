import Verif.Model.Parser
/-!
# Writers (`hrdc/stream/formatter/`), the byte comparer (`hrdc/stream/comparer.py`) and the
converter (`hrdc/converter.py`)

A writer's result is the complete output; when `bytes()` raises, the exception is the result.
-/
namespace Hrdc
namespace Formatter

/-- `Binary.append` on each item, `formatter/binary.py:11-12`. -/
def binary : List Item → Except PyErr (List UInt8)
  | [] => .ok []
  | i :: l =>
    match i.bytes, binary l with
    | .ok b, .ok r => .ok (b ++ r)
    | .error e, _ => .error e
    | _, .error e => .error e

/-- `Hex.append` on each item, `formatter/hex.py:7-9`. -/
def hex : List Item → Except PyErr Text
  | [] => .ok []
  | i :: l =>
    match i.bytes, hex l with
    | .ok b, .ok r => .ok (pyJoin [' '] (b.map hex2) ++ '\n' :: r)
    | .error e, _ => .error e
    | _, .error e => .error e

/-- `s.ljust(n)`. -/
def ljust (n : Nat) (s : Text) : Text := s ++ List.replicate (n - s.length) ' '

/-- `" " * k`, empty for negative `k`. -/
def spaces (k : Int) : Text := List.replicate k.toNat ' '

/-- The line written by `Code.append`, `formatter/code.py:11-14`, given the indentation in force. -/
def codeLine (indent : Int) (b : List UInt8) (name : Text) : Text :=
  let blob := pyJoin [',', ' '] (b.map (fun x => '0' :: 'x' :: hex2 x)) ++ [',']
  List.replicate 5 ' ' ++ ljust 30 blob ++ [' ', '/', '/', ' '] ++ spaces (indent * 4) ++ name ++ ['\n']

/-- Indentation before the line is written, `formatter/code.py:12-13`. -/
def indentBefore (indent : Int) (i : Item) : Int :=
  if i.cls = .endCollection then indent - 1 else indent

/-- Indentation after the line is written, `formatter/code.py:15-16`. -/
def indentAfter (indent : Int) (i : Item) : Int :=
  if i.cls = .collection then indent + 1 else indent

/-- `Code.append` on each item, `formatter/code.py:4-16`. -/
def codeFrom (indent : Int) : List Item → Except PyErr Text
  | [] => .ok []
  | i :: l =>
    let ind := indentBefore indent i
    match i.bytes, codeFrom (indentAfter ind i) l with
    | .ok b, .ok r => .ok (codeLine ind b i.str ++ r)
    | .error e, _ => .error e
    | _, .error e => .error e

/-- A fresh `Code` writer, `formatter/code.py:4-6`. -/
def code (l : List Item) : Except PyErr Text := codeFrom 0 l

/-- `self.indent` at `close()`. -/
def finalIndent (indent : Int) : List Item → Int
  | [] => indent
  | i :: l => finalIndent (indentAfter (indentBefore indent i) i) l

/-- Whether `Code.close` warns, `formatter/code.py:18-21`. -/
def codeWarns (l : List Item) : Bool := finalIndent 0 l != 0

/-- `ExpectedStream.append` on each item then `close`, `comparer.py:18-25`; `assertEqual` raises
`AssertionError`. -/
def compareFrom (expected : List UInt8) (point : Nat) : List Item → Except PyErr Unit
  | [] => if point = expected.length then .ok () else .error .assertion
  | i :: l =>
    match i.bytes with
    | .error e => .error e
    | .ok part =>
      if (expected.drop point).take part.length = part then
        compareFrom expected (point + part.length) l
      else .error .assertion

/-- The three formats, `parser/base.py:15-17`, `formatter/base.py:14-17`. -/
inductive Fmt | binary | hex | code
  deriving DecidableEq, Repr

/-- A document in one of the formats. -/
inductive Doc
  | bytes (b : List UInt8)
  | text (t : Text)
  deriving DecidableEq, Repr

/-- Write a stream in a format. -/
def render (f : Fmt) (l : List Item) : Except PyErr Doc :=
  match f with
  | .binary => (binary l).map .bytes
  | .hex => (hex l).map .text
  | .code => (code l).map .text

/-- `Parser.get(f)(input, output).read()`: items delivered and the exception, if any
(`parser/binary.py:13-15`, `parser/hex.py:5-8`, `parser/code.py:5-12`).  Given text, the binary reader
fails at the first character (`header & 0x3`, `parser/base.py:27-28`). -/
def deliver (f : Fmt) (reg : Registry) (uni : Parser.Uni) (d : Doc) : List Item × Option PyErr :=
  match f, d with
  | .binary, .bytes b => Parser.blobParse reg b
  | .binary, .text [] => ([], none)
  | .hex, .text t => Parser.blobParse reg (Parser.hexBlob uni.word t)
  | .code, .text t =>
    match Parser.codeBlob uni.space t with
    | .ok b => Parser.blobParse reg b
    | .error e => ([], some e)
  | _, _ => ([], some .type)

/-- `converter -i f -o g` without `-O`, `converter.py:26-36`: the output document when nothing
raises. -/
def convert (f g : Fmt) (reg : Registry) (uni : Parser.Uni) (d : Doc) : Except PyErr Doc :=
  match deliver f reg uni d with
  | (l, none) => render g l
  | (_, some e) => .error e

end Formatter
end Hrdc
