/-!
# Python runtime fragments used by hrdc

Text is `List Char`; exceptions are values of `PyErr`.
-/
namespace Hrdc

/-- Text of Python `str` values. -/
abbrev Text := List Char

/-- String literal to `Text`. -/
def tx (s : String) : Text := s.toList

/-- The exception classes the modelled code can raise. -/
inductive PyErr
  | key | struct | assertion | type | value | index | attribute
  deriving DecidableEq, Repr, Inhabited

-- Results are compared in concrete examples.
deriving instance DecidableEq for Except

/-- One lower-case hex digit, as produced by `%x`. -/
def hexDigit (n : Nat) : Char :=
  match n with
  | 0 => '0' | 1 => '1' | 2 => '2' | 3 => '3' | 4 => '4' | 5 => '5' | 6 => '6' | 7 => '7'
  | 8 => '8' | 9 => '9' | 10 => 'a' | 11 => 'b' | 12 => 'c' | 13 => 'd' | 14 => 'e' | _ => 'f'

/-- `"%02x" % b` for one byte. -/
def hex2 (b : UInt8) : Text := [hexDigit (b.toNat / 16), hexDigit (b.toNat % 16)]

/-- Digits of a positive number in base 16, most significant first (`%x`). -/
def hexNat (n : Nat) : Text :=
  if _h : n < 16 then [hexDigit n] else hexNat (n / 16) ++ [hexDigit (n % 16)]
  termination_by n
  decreasing_by omega

/-- Python `hex(i)`. -/
def pyHex (i : Int) : Text :=
  if i < 0 then tx "-0x" ++ hexNat i.natAbs else tx "0x" ++ hexNat i.natAbs

/-- Digits of a natural number in base 10, most significant first. -/
def decNat (n : Nat) : Text :=
  if _h : n < 10 then [hexDigit n] else decNat (n / 10) ++ [hexDigit (n % 10)]
  termination_by n
  decreasing_by omega

/-- Python `str(i)` on an int. -/
def pyStr (i : Int) : Text := if i < 0 then '-' :: decNat i.natAbs else decNat i.natAbs

/-- Python `sep.join(parts)`. -/
def pyJoin (sep : Text) : List Text → Text
  | [] => []
  | [a] => a
  | a :: b :: r => a ++ sep ++ pyJoin sep (b :: r)

/-- Python `i & (1 << k) != 0` on an int of any sign (floor division matches Python's
infinite two's complement). -/
def bitSet (i : Int) (k : Nat) : Bool := (i / (2 ^ k : Nat)) % 2 == 1

end Hrdc
