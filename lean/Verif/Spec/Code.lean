import Verif.Spec.Text
/-!
# C text as hrdc reads it

`//` starts a comment to the end of the line wherever it is, inside block comments too; the end `*/` of a block comment does
not count when it is part of such a comment or of `*//`.  Nothing here refers to the reader.
-/
namespace Hrdc.Spec

/-- Where in the text: code, a block comment, or a `//` comment (`inside` a block comment or not). -/
inductive Place | code | block | line (inside : Bool)

/-- The text without comments and white space, or `none` if a block comment is never closed. -/
def codeText (sp : Char → Bool) : Place → Text → Option Text
  | .code, [] => some []
  | .line false, [] => some []
  | .line true, [] => none
  | .block, [] => none
  | .code, '/' :: '/' :: r => codeText sp (.line false) r
  | .code, '/' :: '*' :: r => codeText sp .block r
  | .code, c :: r => if sp c then codeText sp .code r else (codeText sp .code r).map (c :: ·)
  | .line b, c :: r => if c = '\n' then codeText sp (if b then .block else .code) r else codeText sp (.line b) r
  | .block, '/' :: '/' :: r => codeText sp (.line true) r
  | .block, '*' :: '/' :: '/' :: r => codeText sp (.line true) r
  | .block, '*' :: '/' :: r => codeText sp .code r
  | .block, _ :: r => codeText sp .block r

end Hrdc.Spec
