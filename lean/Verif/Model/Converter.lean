import Verif.Model.Formatter
import Verif.Model.Optimizer
/-!
# Command line converter (`hrdc/converter.py`)

The input document is given whole.  Files, format names and what is written before an exception are in
`Model/Command.lean`.
-/
namespace Hrdc
namespace Converter

/-- `converter -i f -o g -O`, `converter.py:26-36`: the parser hands its items to the default
optimizer, which hands them to the formatter.  An exception of the parser leaves no document. -/
def optimized (f g : Formatter.Fmt) (reg : Registry) (uni : Parser.Uni) (d : Formatter.Doc) :
    Except PyErr Formatter.Doc :=
  match Formatter.deliver f reg uni d with
  | (l, none) => Formatter.render g (Optimizer.optimize reg l)
  | (_, some e) => .error e

end Converter
end Hrdc
