import Verif.Model.Py
/-!
# How the hex and C-code texts are laid out
-/
namespace Hrdc.Spec

/-- The lower-case hexadecimal digits. -/
def lowDigits : Text := ['0', '1', '2', '3', '4', '5', '6', '7', '8', '9', 'a', 'b', 'c', 'd', 'e', 'f']

/-- The two digits of a byte. -/
def digitPair (b : UInt8) : Text := [lowDigits.getD (b.toNat / 16) ' ', lowDigits.getD (b.toNat % 16) ' ']

/-- The hex line of an item with bytes `b`. -/
def hexRow (b : List UInt8) : Text := [' '].intercalate (b.map digitPair) ++ ['\n']

/-- A byte as an element of a C initializer. -/
def cByte (b : UInt8) : Text := ['0', 'x'] ++ digitPair b ++ [',']

/-- The part of a code line before its comment: indented by five columns, filled up to 36. -/
def codeHead (b : List UInt8) : Text :=
  let bytes := [' '].intercalate (b.map cByte)
  List.replicate 5 ' ' ++ bytes ++ List.replicate (31 - bytes.length) ' '

end Hrdc.Spec
