import Verif.Spec.Wire
/-!
# How items are named in listings, independent of the tables and lookups of the code

The tables are those a reader of a listing expects: the names of the items, of the usage pages, of
the bits of Input/Output/Feature, of the collection kinds and of the usual units.
-/
namespace Hrdc.Spec

/-- Title of a number in a table; a number without title is written in decimal. -/
def titled (l : List (Int × Text)) (v : Int) : Text := (l.lookup v).getD (pyStr v)

/-- Names of the items. -/
def tagTitles : List (Cls × Text) := [
  (.input, tx "Input"), (.output, tx "Output"), (.feature, tx "Feature"), (.collection, tx "Collection"),
  (.endCollection, tx "EndCollection"),
  (.usagePage, tx "UsagePage"), (.logMin, tx "LogicalMinimum"), (.logMax, tx "LogicalMaximum"),
  (.physMin, tx "PhysicalMinimum"), (.physMax, tx "PhysicalMaximum"), (.unitExp, tx "UnitExponent"),
  (.unit, tx "Unit"), (.reportSize, tx "ReportSize"), (.reportID, tx "ReportID"),
  (.reportCount, tx "ReportCount"), (.push, tx "Push"), (.pop, tx "Pop"),
  (.usage, tx "Usage"), (.usageMin, tx "UsageMinimum"), (.usageMax, tx "UsageMaximum"),
  (.desigIndex, tx "DesignatorIndex"), (.desigMin, tx "DesignatorMinimum"), (.desigMax, tx "DesignatorMaximum"),
  (.strIndex, tx "StringIndex"), (.strMin, tx "StringMinimum"), (.strMax, tx "StringMaximum"),
  (.delimiter, tx "Delimiter")]

/-- Name of an item. -/
def tagTitle (c : Cls) : Text := (tagTitles.lookup c).getD []

/-- Titles of usage pages. -/
def pageTitles : List (Int × Text) := [
  (1, tx "GenericDesktop"), (2, tx "Simulation"), (3, tx "VR"), (5, tx "Game"), (6, tx "Device"),
  (7, tx "Keyboard"), (8, tx "Led"), (9, tx "Button"), (10, tx "Ordinal"), (11, tx "TelephonyDevice"),
  (12, tx "Consumer"), (13, tx "Digitizers"), (15, tx "PID"), (32, tx "Sensors"), (89, tx "Lighting"),
  (144, tx "Camera"), (65280, tx "Arcade")]

/-- Collection kinds. -/
def kindTitles : List (Int × Text) := [
  (0, tx "Physical"), (1, tx "Application"), (2, tx "Logical"), (3, tx "Report"), (4, tx "NamedArray"),
  (5, tx "UsageSwitch"), (6, tx "UsageModifier")]

/-- Usual units. -/
def unitTitles : List (Int × Text) := [
  (0x11, tx "Centimeter"), (0x12, tx "Radian"), (0x13, tx "Inch"), (0x14, tx "Degree"),
  (0x101, tx "Gram"), (0x103, tx "Slug"), (0x1000, tx "Second"), (0x10001, tx "Kelvin"),
  (0x10003, tx "Fahrenheit"), (0x100000, tx "Ampere"), (0x1000000, tx "Candela"),
  (0xf011, tx "Velocity"), (0xf111, tx "Momentum"), (0xe011, tx "G"), (0xe111, tx "Newton"),
  (0xe121, tx "Joule"), (0xf0d121, tx "Volt")]

/-- Bits of Input, Output and Feature, by weight. -/
def flagTitles : List (Int × Text) := [
  (1, tx "Constant"), (2, tx "Variable"), (4, tx "Relative"), (8, tx "Wrap"), (16, tx "NonLinear"),
  (32, tx "NoPreferred"), (64, tx "NullState"), (128, tx "Volatile"), (256, tx "BufferedBytes")]

/-- The named bits of a number, separated by bars; `Array` when none is set. -/
def flagsTitle (v : Int) : Text :=
  match flagTitles.filter (fun p => v / p.1 % 2 == 1) with
  | [] => tx "Array"
  | p :: r => p.2 ++ (r.map (fun q => '|' :: q.2)).flatten

/-- The latest registered usage of value `v` is called `n`. -/
def Latest (reg : Registry) (v : Int) (n : Text) : Prop :=
  ∃ before u after, reg = before ++ u :: after ∧ (∀ w ∈ before, w.value ≠ v) ∧ u.value = v ∧ u.name = n

/-- A full (page and id) usage goes by its registered name, otherwise by its number in hexadecimal. -/
def FullName (reg : Registry) (v : Int) (t : Text) : Prop :=
  Latest reg v t ∨ ((∀ u ∈ reg, u.value ≠ v) ∧ t = pyHex v)

/-- An id inside a page goes by what follows the first dot in the registered name of the usage with
this page and id; without one (or without page) by its number in decimal. -/
def InPage (reg : Registry) (page v : Int) (t : Text) : Prop :=
  (page ≠ 0 ∧ ∃ p, '.' ∉ p ∧ Latest reg (page * 65536 + v) (p ++ '.' :: t)) ∨
  ((page ≠ 0 → ∀ p s, ¬ Latest reg (page * 65536 + v) (p ++ '.' :: s)) ∧ t = pyStr v)

/-- What a listing writes for the value of an item, `page` being the usage page in force. -/
def Shows (reg : Registry) (page : Int) (k : SItem) (t : Text) : Prop :=
  match k.1 with
  | .usagePage => t = titled pageTitles k.2
  | .usage | .usageMin | .usageMax => if k.2 < 65536 then InPage reg page k.2 t else FullName reg k.2 t
  | .input | .output | .feature => t = flagsTitle k.2
  | .collection => t = titled kindTitles k.2
  | .unit => t = titled unitTitles k.2
  | _ => t = pyStr k.2

/-- The line of an item whose value is written `t`; EndCollection, and Input with value 0, stand
without value. -/
def line (k : SItem) (t : Text) : Text :=
  if (k.1 = .input ∨ k.1 = .endCollection) ∧ k.2 = 0 then tagTitle k.1
  else tagTitle k.1 ++ tx " (" ++ t ++ tx ")"

/-- The usage page in force after some items: the last one given, 0 when there is none. -/
def pageAfter (ks : List SItem) : Int :=
  (((ks.filter (fun k => k.1 == .usagePage)).getLast?).map (·.2)).getD 0

end Hrdc.Spec
