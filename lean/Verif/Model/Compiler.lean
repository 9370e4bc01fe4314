import Verif.Model.Streamer
/-!
# Compiler command (`hrdc/descriptor/compiler.py`)

Argument parsing is not modelled here; the output file and what is written before an exception are in
`Model/Command.lean`.
-/
namespace Hrdc
namespace Compiler

/-- `compile_main(desc)` with `-o f` and, unless `optimize`, `-N`, `compiler.py:22-34`: the document
written when nothing raises.  The streamer appends its items one by one to the optimizer or the
formatter; an exception leaves no document. -/
def main (reg : Registry) (f : Formatter.Fmt) (optimize : Bool) (n : Node) :
    Except PyErr Formatter.Doc :=
  match Streamer.compile reg n with
  | .error e => .error e
  | .ok l => Formatter.render f (if optimize then Optimizer.optimize reg l else l)

/-- `descriptor_expected(test_case, descriptor, expected_code)`, `hrdc/descriptor/test.py:1-9`, with
`ExpectedStream.__init__`, `comparer.py:6-16`.  The comparer is fed while the streamer runs; which of two
exceptions comes first is in `Model/Command.lean`. -/
def expected (reg : Registry) (uni : Char → Bool) (code : Text) (n : Node) : Except PyErr Unit :=
  match Parser.codeBlob uni code with
  | .error e => .error e
  | .ok b =>
    match Streamer.compile reg n with
    | .error e => .error e
    | .ok l => Formatter.compareFrom b 0 (Optimizer.optimize reg l)

end Compiler
end Hrdc
