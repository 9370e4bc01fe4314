import Verif.Model.Py
/-!
# Text formats, specified independently of the readers

* `words`: maximal runs of word characters; `hexWord`: a word that denotes one byte.
* `stripC`: C source without comments and white space, by a one-pass lexer.
-/
namespace Hrdc.Spec

/-- Hexadecimal digits and their values. -/
def hexTable : List (Char × Nat) := [
  ('0', 0), ('1', 1), ('2', 2), ('3', 3), ('4', 4), ('5', 5), ('6', 6), ('7', 7), ('8', 8), ('9', 9),
  ('a', 10), ('b', 11), ('c', 12), ('d', 13), ('e', 14), ('f', 15),
  ('A', 10), ('B', 11), ('C', 12), ('D', 13), ('E', 14), ('F', 15)]

/-- Value of a hex digit. -/
def digit (c : Char) : Option Nat := (hexTable.find? (fun p => p.1 == c)).map (·.2)

/-- A two-digit hex word, optionally with the prefix `0x`. -/
def hexWord (w : Text) : Option UInt8 :=
  match w with
  | [a, b] =>
    match digit a, digit b with
    | some x, some y => some (UInt8.ofNat (16 * x + y))
    | _, _ => none
  | ['0', 'x', a, b] =>
    match digit a, digit b with
    | some x, some y => some (UInt8.ofNat (16 * x + y))
    | _, _ => none
  | _ => none

/-- Maximal runs of characters satisfying `w`. -/
def words (w : Char → Bool) (t : Text) : List Text :=
  match t with
  | [] => []
  | c :: r => if w c then (c :: r.takeWhile w) :: words w (r.dropWhile w) else words w r
  termination_by t.length
  decreasing_by
    · have := (List.dropWhile_sublist w (l := r)).length_le
      simp; omega
    · simp

/-- The ASCII letters, digits and underscore. -/
def asciiWord : Text := tx "0123456789ABCDEFGHIJKLMNOPQRSTUVWXYZ_abcdefghijklmnopqrstuvwxyz"

/-- Characters of words: the ASCII ones, and those of the other characters that `uni` names. -/
def inWord (uni : Char → Bool) (c : Char) : Bool := asciiWord.contains c || (decide (128 ≤ c.toNat) && uni c)

/-- White space: the ASCII separators, and those of the other characters that `uni` names. -/
def space (uni : Char → Bool) (c : Char) : Bool :=
  [9, 10, 11, 12, 13, 28, 29, 30, 31, 32].contains c.toNat || (decide (128 ≤ c.toNat) && uni c)

/-- Lexer states for C text. -/
inductive Lex | code | line | block
  deriving DecidableEq, Repr

/-- C text without comments and white space. -/
def stripC (sp : Char → Bool) : Lex → Text → Text
  | _, [] => []
  | .code, '/' :: '/' :: r => stripC sp .line r
  | .code, '/' :: '*' :: r => stripC sp .block r
  | .code, c :: r => if sp c then stripC sp .code r else c :: stripC sp .code r
  | .line, c :: r => if c = '\n' then stripC sp .code r else stripC sp .line r
  | .block, '*' :: '/' :: r => stripC sp .code r
  | .block, _ :: r => stripC sp .block r

/-- Every block comment is closed, and no `//` occurs between its opening and the character after
its closing `*/`. -/
def tidy : Lex → Text → Bool
  | .code, [] => true
  | .line, [] => true
  | .block, [] => false
  | .code, '/' :: '/' :: r => tidy .line r
  | .code, '/' :: '*' :: r => tidy .block r
  | .code, _ :: r => tidy .code r
  | .line, c :: r => if c = '\n' then tidy .code r else tidy .line r
  | .block, '*' :: '/' :: r => r.head? != some '/' && tidy .code r
  | .block, '/' :: '/' :: _ => false
  | .block, _ :: r => tidy .block r

/-! ## Numbers in base 16 -/

/-- The number written by a list of digits, most significant first. -/
def ofDigits (ds : List Nat) : Nat := ds.foldl (fun n d => 16 * n + d) 0

/-- `t` writes the integer `v` in base 16, as Python reads it: a sign, a prefix, and groups of
digits separated by single underscores. -/
def Numeral (t : Text) (v : Int) : Prop :=
  ∃ (sign pre : Text) (groups : List (List (Char × Nat))),
    (sign = [] ∨ sign = ['+'] ∨ sign = ['-']) ∧
    (pre = [] ∨ pre = ['0', 'x'] ∨ pre = ['0', 'X'] ∨ pre = ['0', 'x', '_'] ∨ pre = ['0', 'X', '_']) ∧
    groups ≠ [] ∧ (∀ g ∈ groups, g ≠ [] ∧ ∀ p ∈ g, p ∈ hexTable) ∧
    t = sign ++ pre ++ ['_'].intercalate (groups.map (·.map (·.1))) ∧
    v = (if sign = ['-'] then -1 else 1) * (ofDigits (groups.flatten.map (·.2)) : Int)

/-- The fields write the bytes, one each. -/
def Numerals : List Text → List UInt8 → Prop
  | [], [] => True
  | f :: fs, b :: bs => Numeral f b.toNat ∧ Numerals fs bs
  | _, _ => False

/-- The bytes of a text without comments and white space: its comma-separated fields, empty ones
ignored, write one byte each. -/
def FieldBytes (t : Text) (bs : List UInt8) : Prop :=
  ∃ fs : List Text, t = [','].intercalate fs ∧ (∀ f ∈ fs, ',' ∉ f) ∧
    Numerals (fs.filter (fun f => !f.isEmpty)) bs

end Hrdc.Spec
