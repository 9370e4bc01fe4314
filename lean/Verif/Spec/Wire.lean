import Verif.Model.Item
/-!
# HID 1.11 short-item wire format (section 6.2.2), independent of hrdc's encoder and parser

Only the vocabulary `Cls` (the names of the items) is shared with the model.
-/
namespace Hrdc.Spec

/-- Item prefix with a zero size field, as printed in HID 1.11 sections 6.2.2.4 (main), 6.2.2.7
(global) and 6.2.2.8 (local). -/
def hidPrefix : Cls → Nat
  | .input => 0b10000000 | .output => 0b10010000 | .feature => 0b10110000
  | .collection => 0b10100000 | .endCollection => 0b11000000
  | .usagePage => 0b00000100 | .logMin => 0b00010100 | .logMax => 0b00100100
  | .physMin => 0b00110100 | .physMax => 0b01000100 | .unitExp => 0b01010100
  | .unit => 0b01100100 | .reportSize => 0b01110100 | .reportID => 0b10000100
  | .reportCount => 0b10010100 | .push => 0b10100100 | .pop => 0b10110100
  | .usage => 0b00001000 | .usageMin => 0b00011000 | .usageMax => 0b00101000
  | .desigIndex => 0b00111000 | .desigMin => 0b01001000 | .desigMax => 0b01011000
  | .strIndex => 0b01111000 | .strMin => 0b10001000 | .strMax => 0b10011000
  | .delimiter => 0b10101000

/-- The short items of HID 1.11. -/
def shortItems : List Cls :=
  [.input, .output, .feature, .collection, .endCollection,
    .usagePage, .logMin, .logMax, .physMin, .physMax, .unitExp, .unit, .reportSize, .reportID, .reportCount, .push, .pop,
    .usage, .usageMin, .usageMax, .desigIndex, .desigMin, .desigMax, .strIndex, .strMin, .strMax, .delimiter]

/-- Items whose data is a signed integer. -/
def isSigned (c : Cls) : Prop :=
  c = .logMin ∨ c = .logMax ∨ c = .physMin ∨ c = .physMax ∨ c = .unitExp

instance (c : Cls) : Decidable (isSigned c) := by unfold isSigned; infer_instance

/-- Integer value of an item made from `v`: the value itself, except that a plain int from -7 to -1
given to `Collection` counts the seven kinds from the end. -/
def keptValue (c : Cls) : PyVal → Int
  | .int k => if c = .collection ∧ -7 ≤ k ∧ k < 0 then k + 7 else k
  | v => v.toInt

/-- Number of data bytes announced by the size field. -/
def dataLen (sizeField : Nat) : Nat := if sizeField = 3 then 4 else sizeField

/-- Unsigned little-endian value. -/
def unsignedLE : List UInt8 → Int
  | [] => 0
  | b :: r => (b.toNat : Int) + 256 * unsignedLE r

/-- Two's complement little-endian value. -/
def signedLE (d : List UInt8) : Int :=
  if 2 * unsignedLE d < 256 ^ d.length then unsignedLE d else unsignedLE d - 256 ^ d.length

/-- Value of the data bytes of an item. -/
def dataValue (c : Cls) (d : List UInt8) : Int := if isSigned c then signedLE d else unsignedLE d

/-- A short item as the host sees it. -/
abbrev SItem := Cls × Int

/-- Read one short item off the front of a byte string. -/
def readItem : List UInt8 → Option (SItem × List UInt8)
  | [] => none
  | h :: t =>
    let n := dataLen (h.toNat % 4)
    match shortItems.find? (fun c => hidPrefix c == h.toNat - h.toNat % 4) with
    | none => none
    | some c => if t.length < n then none else some ((c, dataValue c (t.take n)), t.drop n)

theorem readItem_lt {b : List UInt8} {i : SItem} {r : List UInt8} (h : readItem b = some (i, r)) :
    r.length < b.length := by
  cases b with
  | nil => simp [readItem] at h
  | cons x t =>
    simp only [readItem] at h
    split at h
    · simp at h
    · split at h
      · simp at h
      · simp only [Option.some.injEq, Prod.mk.injEq] at h
        rw [← h.2]; simp; omega

/-- Read a whole report descriptor. -/
def readAll (b : List UInt8) : Option (List SItem) :=
  match b with
  | [] => some []
  | x :: t =>
    match _h : readItem (x :: t) with
    | none => none
    | some (i, r) =>
      match readAll r with
      | none => none
      | some l => some (i :: l)
  termination_by b.length
  decreasing_by exact readItem_lt _h

end Hrdc.Spec
