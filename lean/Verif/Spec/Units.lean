import Verif.Spec.Wire
/-!
# What units are to HID, independent of the tables of the code

After the HID specification (6.2.2.7): the lowest digit of a unit is the system, the six others are the
exponents of length, mass, time, temperature, current and luminous intensity, from -8 to 7; the base
units depend on the system.  Without a system (digit 0) there is no unit; digits above 4 are reserved.
-/
namespace Hrdc.Spec
namespace Units

/-- Base units of a system: SI linear (1), SI rotation (2), English linear (3), English rotation (4). -/
def bases (system : Nat) : List Text :=
  [(match system with | 1 => tx "Centimeter" | 2 => tx "Radian" | 3 => tx "Inch" | _ => tx "Degree"),
   (if system ≤ 2 then tx "Gram" else tx "Slug"), tx "Second",
   (if system ≤ 2 then tx "Kelvin" else tx "Fahrenheit"), tx "Ampere", tx "Candela"]

/-- A product of powers of base units, without those of exponent 0. -/
def product (system : Nat) (es : List Int) : List (Text × Int) :=
  ((bases system).zip es).filter (fun p => p.2 != 0)

/-- The unit a host reads. -/
def reads (v : Nat) : Option (List (Text × Int)) :=
  if 1 ≤ v % 16 ∧ v % 16 ≤ 4 then
    some (product (v % 16) ([1, 2, 3, 4, 5, 6].map (fun (k : Nat) =>
      let d : Nat := v / 16 ^ k % 16
      if d < 8 then (d : Int) else (d : Int) - 16)))
  else none

/-- What the names of units stand for.  Velocity is in centimetres per second, G is taken as its
dimension, acceleration; Newton, Joule and Volt are to within a power of ten, which the unit exponent
gives. -/
def named : List (Text × List (Text × Int)) :=
  [tx "Centimeter", tx "Radian", tx "Inch", tx "Degree", tx "Gram", tx "Slug", tx "Second", tx "Kelvin",
    tx "Fahrenheit", tx "Ampere", tx "Candela"].map (fun n => (n, [(n, 1)])) ++ [
  (tx "Velocity", [(tx "Centimeter", 1), (tx "Second", -1)]),
  (tx "Momentum", [(tx "Centimeter", 1), (tx "Gram", 1), (tx "Second", -1)]),
  (tx "G", [(tx "Centimeter", 1), (tx "Second", -2)]),
  (tx "Newton", [(tx "Centimeter", 1), (tx "Gram", 1), (tx "Second", -2)]),
  (tx "Joule", [(tx "Centimeter", 2), (tx "Gram", 1), (tx "Second", -2)]),
  (tx "Volt", [(tx "Centimeter", 2), (tx "Gram", 1), (tx "Second", -3), (tx "Ampere", -1)])]

end Units
end Hrdc.Spec
