import Verif.Model.Formatter
import Verif.Model.Extractor
import Verif.Model.Dumper
/-!
# Decompiler command (`hrdc/descriptor/extractor.py`)

Argument parsing and files are not modelled.
-/
namespace Hrdc
namespace Decompiler

/-- `main()` with `-i f`, `extractor.py:264-293`: the script written for a document when nothing
raises.  The parser appends its items one by one to the extractor, so an exception of the extractor comes
before one of the parser; `close` does nothing.  `AttributeError` if `extractor.root` was never set. -/
def main (reg : Registry) (f : Formatter.Fmt) (uni : Parser.Uni) (d : Formatter.Doc) : Except PyErr Text :=
  match Extractor.runFrom reg {} (Formatter.deliver f reg uni d).1, (Formatter.deliver f reg uni d).2 with
  | .error e, _ => .error e
  | .ok _, some e => .error e
  | .ok st, none =>
    match st.root with
    | none => .error .attribute
    | some n => Dumper.dump reg n

end Decompiler
end Hrdc
