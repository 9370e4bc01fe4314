import Verif.Model.Item
/-!
# Readers (`hrdc/stream/parser/`)

File reading and text decoding are not modelled: a reader gets the complete text or bytes.
-/
namespace Hrdc
namespace Parser

/-- Python's classification of the non-ASCII characters (`\w`, `\s`), left arbitrary. -/
structure Uni where
  word : Char → Bool
  space : Char → Bool


/-- Length of the next slice, `parser/base.py:27-29`. -/
def sliceLen (header : UInt8) : Nat :=
  let size := header.toNat % 4
  if size ≠ 0 then 2 ^ (size - 1) + 1 else 1

/-- `Parser.append`, `parser/base.py:38-48`: new `usagePage` and the item handed to the output. -/
def append (reg : Registry) (page : Int) (i : Item) : Except PyErr (Int × Item) :=
  match i.cls with
  | .usagePage =>
    match Item.new reg .usagePage (Usage.page i.ival) with
    | .ok j => .ok (i.ival, j)
    | .error e => .error e
  | .usage | .usageMin | .usageMax =>
    if i.ival / 65536 = 0 then
      match Item.new reg i.cls (Usage.inpage reg page i.ival) with
      | .ok j => .ok (page, j)
      | .error e => .error e
    else .ok (page, i)
  | _ => .ok (page, i)

/-- `Parser.itemParse`, `parser/base.py:35-36`. -/
def itemParse (reg : Registry) (page : Int) (data : List UInt8) : Except PyErr (Int × Item) :=
  match Item.parse reg data with
  | .ok i => append reg page i
  | .error e => .error e

/-- The loop of `Parser.blobParse`, `parser/base.py:25-33`: items handed to the output, and the
exception that stopped the loop, if any.  The output is closed exactly when there is none. -/
def blobLoop (reg : Registry) (page : Int) (blob : List UInt8) : List Item × Option PyErr :=
  match blob with
  | [] => ([], none)
  | h :: t =>
    match itemParse reg page ((h :: t).take (sliceLen h)) with
    | .error e => ([], some e)
    | .ok (page', i) =>
      let r := blobLoop reg page' ((h :: t).drop (sliceLen h))
      (i :: r.1, r.2)
  termination_by blob.length
  decreasing_by
    have : 0 < sliceLen h := by
      unfold sliceLen; simp only; split
      · exact Nat.succ_pos _
      · omega
    simp only [List.length_drop, List.length_cons]; omega

/-- `Parser.blobParse` on a fresh parser, `parser/base.py:19-33`. -/
def blobParse (reg : Registry) (blob : List UInt8) : List Item × Option PyErr :=
  blobLoop reg 0 blob

/-- The `[0-9A-Fa-f]` class. -/
def isHex (c : Char) : Bool :=
  (('0' ≤ c) && (c ≤ '9')) || (('a' ≤ c) && (c ≤ 'f')) || (('A' ≤ c) && (c ≤ 'F'))

/-- Value of a hex digit. -/
def hexVal (c : Char) : Nat :=
  if '0' ≤ c ∧ c ≤ '9' then c.toNat - 48
  else if 'a' ≤ c ∧ c ≤ 'f' then c.toNat - 87
  else if 'A' ≤ c ∧ c ≤ 'F' then c.toNat - 55
  else 0

/-- Python's `\w`; the classification of non-ASCII characters is a parameter. -/
def isWord (uni : Char → Bool) (c : Char) : Bool :=
  c.isAlphanum || c == '_' || (decide (128 ≤ c.toNat) && uni c)

/-- `\b` between an optional previous character and an optional next one. -/
def boundary (uni : Char → Bool) (prev next : Option Char) : Bool :=
  (prev.map (isWord uni)).getD false != (next.map (isWord uni)).getD false

/-- One attempt of `\b(?:0x)?[0-9A-Fa-f]{2}\b` at a position: number of characters matched. -/
def hexMatch (uni : Char → Bool) (prev : Option Char) (t : Text) : Option (Nat × UInt8) :=
  if boundary uni prev t.head? then
    match t with
    | '0' :: 'x' :: a :: b :: r =>
      if isHex a && isHex b && boundary uni (some b) r.head? then
        some (4, UInt8.ofNat (16 * hexVal a + hexVal b))
      else none
    | a :: b :: r =>
      if isHex a && isHex b && boundary uni (some b) r.head? then
        some (2, UInt8.ofNat (16 * hexVal a + hexVal b))
      else none
    | _ => none
  else none

/-- `re.findall` with that pattern and `int(x, 16)` on each match, `parser/hex.py:7`: scan left to
right, continuing after each match. -/
def hexScan (uni : Char → Bool) (prev : Option Char) (t : Text) : List UInt8 :=
  match t with
  | [] => []
  | c :: r =>
    match hexMatch uni prev (c :: r) with
    | some (n, v) => v :: hexScan uni ((c :: r)[n - 1]?) ((c :: r).drop (max n 1))
    | none => hexScan uni (some c) r
  termination_by t.length
  decreasing_by
    · simp only [List.length_drop, List.length_cons]; omega
    · simp

/-- `Hex.read` up to the blob, `parser/hex.py:5-7`. -/
def hexBlob (uni : Char → Bool) (t : Text) : List UInt8 := hexScan uni none t

/-- `s.split(sep)` for a one-character separator. -/
def splitChar (sep : Char) : Text → List Text
  | [] => [[]]
  | c :: r =>
    if c = sep then [] :: splitChar sep r
    else
      match splitChar sep r with
      | [] => [[c]]
      | h :: t => (c :: h) :: t

/-- `line.split("//", 1)[0]`, `parser/code.py:8`. -/
def cutLine : Text → Text
  | '/' :: '/' :: _ => []
  | c :: r => c :: cutLine r
  | [] => []

/-- The text after the first `*/`. -/
def afterClose : Text → Option Text
  | '*' :: '/' :: r => some r
  | _ :: r => afterClose r
  | [] => none

theorem afterClose_lt {t r : Text} (h : afterClose t = some r) : r.length < t.length := by
  fun_induction afterClose t with
  | case1 r' => simp at h; subst h; simp; omega
  | case2 c r' _ ih => have := ih h; simp; omega
  | case3 => simp at h

/-- `re.sub(r"/\*.*?\*/", "", contents)`, `parser/code.py:9`.  The text has no newline, so `.` matches
every character; a `/*` without closing `*/` is not matched and stays. -/
def subBlocks (t : Text) : Text :=
  match t with
  | [] => []
  | c :: r =>
    if c = '/' ∧ r.head? = some '*' then
      match _h : afterClose (r.drop 1) with
      | some r' => subBlocks r'
      | none => c :: subBlocks r
    else c :: subBlocks r
  termination_by t.length
  decreasing_by
    · have := afterClose_lt _h
      simp only [List.length_drop] at this
      simp only [List.length_cons]; omega
    · simp
    · simp

/-- Python's `\s`; the classification of non-ASCII characters is a parameter. -/
def isSpace (uni : Char → Bool) (c : Char) : Bool :=
  c == ' ' || (decide (9 ≤ c.toNat) && decide (c.toNat ≤ 13))
    || (decide (28 ≤ c.toNat) && decide (c.toNat ≤ 31)) || (decide (128 ≤ c.toNat) && uni c)

/-- Digits of Python's `int(x, 16)`: one or more hex digits, single underscores allowed between
digits.  `none` when malformed; non-ASCII digits are taken as malformed. -/
def digits16 (acc : Nat) (t : Text) : Option Nat :=
  match t with
  | [] => none
  | [c] => if isHex c then some (16 * acc + hexVal c) else none
  | c :: '_' :: r => if isHex c then digits16 (16 * acc + hexVal c) r else none
  | c :: d :: r => if isHex c then digits16 (16 * acc + hexVal c) (d :: r) else none

/-- Python's `int(x, 16)` on a non-empty text without whitespace. -/
def int16 (t : Text) : Except PyErr Int :=
  let (neg, t) := match t with
    | '-' :: r => (true, r)
    | '+' :: r => (false, r)
    | r => (false, r)
  let t := match t with
    | '0' :: 'x' :: '_' :: r => r
    | '0' :: 'X' :: '_' :: r => r
    | '0' :: 'x' :: r => r
    | '0' :: 'X' :: r => r
    | r => r
  match digits16 0 t with
  | some n => .ok (if neg then -(n : Int) else n)
  | none => .error .value

/-- `bytes(int(x, 16) for x in contents.split(",") if x)`, `parser/code.py:11`. -/
def tokenBytes : List Text → Except PyErr (List UInt8)
  | [] => .ok []
  | x :: l =>
    if x.isEmpty then tokenBytes l
    else
      match int16 x with
      | .error e => .error e
      | .ok v =>
        if 0 ≤ v ∧ v < 256 then
          match tokenBytes l with
          | .ok r => .ok (UInt8.ofNat v.toNat :: r)
          | .error e => .error e
        else .error .value

/-- `Code.read` up to the blob, `parser/code.py:5-11`; also `comparer.py:10-15`. -/
def codeBlob (uni : Char → Bool) (t : Text) : Except PyErr (List UInt8) :=
  let contents := (splitChar '\n' t).flatMap (fun l => cutLine l ++ [' '])
  let contents := (subBlocks contents).filter (fun c => !isSpace uni c)
  tokenBytes (splitChar ',' contents)

end Parser
end Hrdc
