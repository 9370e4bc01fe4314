import Verif.Spec.Code
import Verif.Model.Formatter
/-!
# Documents put together

Nothing here refers to the readers; formats and documents are those of `Formatter`.
-/
namespace Hrdc.Spec
open Formatter (Fmt Doc)

/-- The third document is the second put after the first: bytes after bytes; hex text after hex text with a character between
them that is in no word; C text after C text on a line of its own, with a comma between them or at the end of the first. -/
inductive Joined (uni : Parser.Uni) : Fmt → Doc → Doc → Doc → Prop
  | bytes (a b) : Joined uni .binary (.bytes a) (.bytes b) (.bytes (a ++ b))
  | hex (a b) (c : Char) (h : inWord uni.word c = false) : Joined uni .hex (.text a) (.text b) (.text (a ++ c :: b))
  | code (a b) : Joined uni .code (.text a) (.text b) (.text (a ++ '\n' :: ',' :: b))
  | codeEnd (a b s) (h : codeText (space uni.space) .code a = some (s ++ [','])) :
      Joined uni .code (.text a) (.text b) (.text (a ++ '\n' :: b))

/-- The output of `cat` for two files. -/
def cat : Doc → Doc → Option Doc
  | .bytes a, .bytes b => some (.bytes (a ++ b))
  | .text a, .text b => some (.text (a ++ b))
  | _, _ => none

end Hrdc.Spec
