import Verif.Model.Py
/-!
# What a C compiler makes of a list of constants

The first translation phases of C (C17 5.1.1.2, 6.4): trigraphs (dropped in C23, ignored by default by some compilers: both are
allowed for), lines ending in a backslash joined with the next, comments, preprocessing numbers.  Texts with anything but
numbers, commas, comments and white space have no value here.
-/
namespace Hrdc.Spec

/-- What a trigraph stands for, by its third character. -/
def trigraph : Char → Option Char
  | '=' => some '#' | '(' => some '[' | '/' => some '\\' | ')' => some ']' | '\'' => some '^'
  | '<' => some '{' | '!' => some '|' | '>' => some '}' | '-' => some '~' | _ => none

/-- Trigraphs replaced. -/
def trigraphs : Text → Text
  | '?' :: '?' :: c :: r =>
    match trigraph c with
    | some d => d :: trigraphs r
    | none => '?' :: trigraphs ('?' :: c :: r)
  | c :: r => c :: trigraphs r
  | [] => []

/-- Lines that end in a backslash continue. -/
def splice : Text → Text
  | '\\' :: '\n' :: r => splice r
  | c :: r => c :: splice r
  | [] => []

/-- Tokens of an initializer list. -/
inductive CTok
  | num (s : Text)
  | comma
  deriving DecidableEq, Repr

/-- Where the lexer is: between tokens, in a number, after a slash, in a comment to the end of the line, in a block comment,
in one after a star. -/
inductive CState
  | idle
  | num (s : Text)
  | slash
  | line
  | block
  | star
  deriving DecidableEq, Repr

/-- White space of C. -/
def cSpace (c : Char) : Bool := c == ' ' || c == '\t' || c == '\n' || c == '\x0b' || c == '\x0c'

/-- A character between tokens. -/
def cIdle (c : Char) : Option (List CTok × CState) :=
  if cSpace c then some ([], .idle)
  else if c = ',' then some ([.comma], .idle)
  else if c = '/' then some ([], .slash)
  else if c.isDigit then some ([], .num [c])
  else none

/-- A number goes on: letters, digits, dots, and signs after an exponent letter. -/
def cPart (s : Text) (c : Char) : Bool :=
  c.isAlphanum || c == '_' || c == '.' ||
    ((c == '+' || c == '-') && (s.getLast? == some 'e' || s.getLast? == some 'E' || s.getLast? == some 'p' || s.getLast? == some 'P'))

/-- One character. -/
def cNext : CState → Char → Option (List CTok × CState)
  | .idle, c => cIdle c
  | .num s, c => if cPart s c then some ([], .num (s ++ [c])) else (cIdle c).map fun p => (.num s :: p.1, p.2)
  | .slash, c => if c = '/' then some ([], .line) else if c = '*' then some ([], .block) else none
  | .line, c => if c = '\n' then some ([], .idle) else some ([], .line)
  | .block, c => if c = '*' then some ([], .star) else some ([], .block)
  | .star, c => if c = '/' then some ([], .idle) else if c = '*' then some ([], .star) else some ([], .block)

/-- A text: its tokens and where it leaves the lexer. -/
def cRun : CState → Text → Option (List CTok × CState)
  | s, [] => some ([], s)
  | s, c :: r =>
    match cNext s c with
    | none => none
    | some (ts, s') => (cRun s' r).map fun p => (ts ++ p.1, p.2)

/-- The tokens of a whole text. -/
def cLex (t : Text) : Option (List CTok) :=
  match cRun .idle t with
  | some (ts, .idle) | some (ts, .line) => some ts
  | some (ts, .num s) => some (ts ++ [.num s])
  | _ => none

/-- Value of a digit. -/
def cDigit (c : Char) : Option Nat :=
  if c.isDigit then some (c.toNat - 48)
  else if 'a' ≤ c ∧ c ≤ 'f' then some (c.toNat - 87)
  else if 'A' ≤ c ∧ c ≤ 'F' then some (c.toNat - 55)
  else none

/-- Value of digits in a base. -/
def cNumber (base : Nat) (acc : Nat) : Text → Option Nat
  | [] => some acc
  | c :: r =>
    match cDigit c with
    | some d => if d < base then cNumber base (acc * base + d) r else none
    | none => none

/-- Value of an integer constant without suffix: hexadecimal, octal, decimal. -/
def cConstant : Text → Option Nat
  | '0' :: 'x' :: d :: r => cNumber 16 0 (d :: r)
  | '0' :: 'X' :: d :: r => cNumber 16 0 (d :: r)
  | '0' :: r => cNumber 8 0 r
  | c :: r => cNumber 10 0 (c :: r)
  | [] => none

/-- The elements of an initializer list; a comma may follow the last. -/
def cValues : List CTok → Option (List Nat)
  | [] => some []
  | [.num s] => (cConstant s).map fun v => [v]
  | .num s :: .comma :: r =>
    match cConstant s, cValues r with
    | some v, some vs => some (v :: vs)
    | _, _ => none
  | _ => none

/-- The elements a C compiler finds in a text put between the braces of an initializer. -/
def cInitializer (tri : Bool) (t : Text) : Option (List Nat) :=
  (cLex (splice (if tri then trigraphs t else t))).bind cValues

end Hrdc.Spec
