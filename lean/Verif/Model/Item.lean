import Verif.Model.Usage
/-!
# Report descriptor items (`hrdc/stream/item.py`)
-/
namespace Hrdc

/-- The item classes with a `tag`, `item.py:198-407`. -/
inductive Cls
  | input | output | feature | collection | endCollection
  | usagePage | logMin | logMax | physMin | physMax | unitExp | unit
  | reportSize | reportID | reportCount | push | pop
  | usage | usageMin | usageMax | desigIndex | desigMin | desigMax
  | strIndex | strMin | strMax | delimiter
  deriving DecidableEq, Repr, Inhabited

/-- Item kinds, `item.py:13-15`. -/
inductive Kind | main | global | loc
  deriving DecidableEq, Repr, Inhabited

/-- `int(kind)`, `item.py:13-15`. -/
def Kind.code : Kind → Nat
  | main => 0 | global => 1 | loc => 2

namespace Cls

/-- All classes, in registration order. -/
def all : List Cls := [input, output, feature, collection, endCollection, usagePage, logMin, logMax,
  physMin, physMax, unitExp, unit, reportSize, reportID, reportCount, push, pop, usage, usageMin,
  usageMax, desigIndex, desigMin, desigMax, strIndex, strMin, strMax, delimiter]

/-- `cls.kind`, `item.py:129,138,154`. -/
def kind : Cls → Kind
  | input | output | feature | collection | endCollection => .main
  | usagePage | logMin | logMax | physMin | physMax | unitExp | unit
  | reportSize | reportID | reportCount | push | pop => .global
  | usage | usageMin | usageMax | desigIndex | desigMin | desigMax
  | strIndex | strMin | strMax | delimiter => .loc

/-- `int(cls.tag)`, `item.py:131-165`. -/
def tag : Cls → Nat
  | input => 0x8 | output => 0x9 | feature => 0xb | collection => 0xa | endCollection => 0xc
  | usagePage => 0x0 | logMin => 0x1 | logMax => 0x2 | physMin => 0x3 | physMax => 0x4
  | unitExp => 0x5 | unit => 0x6 | reportSize => 0x7 | reportID => 0x8 | reportCount => 0x9
  | push => 0xa | pop => 0xb
  | usage => 0x0 | usageMin => 0x1 | usageMax => 0x2 | desigIndex => 0x3 | desigMin => 0x4
  | desigMax => 0x5 | strIndex => 0x7 | strMin => 0x8 | strMax => 0x9 | delimiter => 0xa

/-- `cls.signed`, `item.py:17,236,240,244,248,252`. -/
def signed : Cls → Bool
  | logMin | logMax | physMin | physMax | unitExp => true
  | _ => false

/-- Name of the tag constant, `item.py:131-165`. -/
def tagName : Cls → Text
  | input => tx "Input" | output => tx "Output" | feature => tx "Feature"
  | collection => tx "Collection" | endCollection => tx "EndCollection"
  | usagePage => tx "UsagePage" | logMin => tx "LogicalMinimum" | logMax => tx "LogicalMaximum"
  | physMin => tx "PhysicalMinimum" | physMax => tx "PhysicalMaximum"
  | unitExp => tx "UnitExponent" | unit => tx "Unit" | reportSize => tx "ReportSize"
  | reportID => tx "ReportID" | reportCount => tx "ReportCount" | push => tx "Push"
  | pop => tx "Pop" | usage => tx "Usage" | usageMin => tx "UsageMinimum"
  | usageMax => tx "UsageMaximum" | desigIndex => tx "DesignatorIndex"
  | desigMin => tx "DesignatorMinimum" | desigMax => tx "DesignatorMaximum"
  | strIndex => tx "StringIndex" | strMin => tx "StringMinimum" | strMax => tx "StringMaximum"
  | delimiter => tx "Delimiter"

/-- `Item.itemclass(kind, tag)` on the numeric key, `item.py:27-29`; the registry is filled by
`_ItemMeta`, `item.py:3-10`, with every class that has both a kind and a tag. -/
def ofKey (kind tag : Nat) : Option Cls :=
  all.find? (fun c => c.kind.code == kind && c.tag == tag)

/-- Input, Output and Feature: subclasses of `DataItem`, `item.py:198-205`. -/
def isData : Cls → Bool
  | input | output | feature => true
  | _ => false

/-- `optionalValue`, `item.py:64-65`. -/
def optionalValue : Cls → Bool
  | input | endCollection => true
  | _ => false

end Cls

/-- An item: its class and its `value` attribute. -/
structure Item where
  cls : Cls
  val : PyVal
  deriving DecidableEq, Repr, Inhabited

namespace Item

/-- `int(self.value)`. -/
def ival (i : Item) : Int := i.val.toInt

/-- `DataItem._rev` with the bit each constant tests, `item.py:169-189`. -/
def dataFlags : List (Nat × Text) := [
  (0, tx "Constant"), (1, tx "Variable"), (2, tx "Relative"), (3, tx "Wrap"),
  (4, tx "NonLinear"), (5, tx "NoPreferred"), (6, tx "NullState"), (7, tx "Volatile"),
  (8, tx "BufferedBytes")]

/-- Name built by `DataItem.__init__`, `item.py:193-195`. -/
def dataName (i : Int) : Text :=
  let v := (dataFlags.filter (fun r => bitSet i r.1)).map (·.2)
  let n := pyJoin (tx "|") v
  if n.isEmpty then tx "Array" else n

/-- `Collection._rev`, `item.py:210-218`. -/
def collNames : List Text := [tx "Physical", tx "Application", tx "Logical", tx "Report",
  tx "NamedArray", tx "UsageSwitch", tx "UsageModifier"]

/-- `self._rev[i]`, `item.py:218,222`; Python list indexing, where a negative index counts from the
end.  The constant at position `k` has value `k`, `item.py:210-216`. -/
def collConst (i : Int) : Except PyErr PyVal :=
  let j := if i < 0 then i + collNames.length else i
  if 0 ≤ j then
    match collNames[j.toNat]? with
    | some n => .ok (.named n j)
    | none => .error .index
  else .error .index

/-- `_unit_nibble(val, pos)`, `item.py:255-259`.  `val << (pos*4)` on a non-negative int. -/
def unitNibble (val : Int) (pos : Nat) : Except PyErr Int :=
  if -8 ≤ val ∧ val ≤ 7 then
    .ok ((if val < 0 then val + 0x10 else val) * (2 ^ (pos * 4) : Nat))
  else .error .assertion

/-- `Unit._usual_units`, `item.py:287-323`: value and name of each constant, evaluated from
`system | dimension(..)`.  The value expressions are checked against `unitNibble` in
`Props/Usages.lean`. -/
def usualUnits : List (Int × Text) := [
  (0x11, tx "Centimeter"), (0x12, tx "Radian"), (0x13, tx "Inch"), (0x14, tx "Degree"),
  (0x101, tx "Gram"), (0x103, tx "Slug"), (0x1000, tx "Second"), (0x10001, tx "Kelvin"),
  (0x10003, tx "Fahrenheit"), (0x100000, tx "Ampere"), (0x1000000, tx "Candela"),
  (0xf011, tx "Velocity"), (0xf111, tx "Momentum"), (0xe011, tx "G"), (0xe111, tx "Newton"),
  (0xe121, tx "Joule"), (0xf0d121, tx "Volt")]

/-- `Unit._usual_units.get(value, value)`, `item.py:335`: dictionary keyed by int; named constants
hash and compare by int. -/
def usualUnit (v : PyVal) : PyVal :=
  match usualUnits.find? (fun p => p.1 == v.toInt) with
  | some (i, n) => .named n i
  | none => v

/-- `Item.__init__`, `item.py:59-65`: `value or 0` and the sign assertion. -/
def baseInit (c : Cls) (v : PyVal) : Except PyErr Item :=
  if c.signed ∨ v.toInt ≥ 0 then .ok ⟨c, v⟩ else .error .assertion

/-- The constructor of each item class: `DataItem.__init__` `item.py:191-196`,
`Collection.__init__` `item.py:220-223`, `EndCollection`/`Push`/`Pop` `item.py:228-230,350-359`, `Unit.__init__` `item.py:332-336`,
`Usage*.__init__` `item.py:364-386`, all others `Item.__init__`. -/
def new (reg : Registry) (c : Cls) (v : PyVal) : Except PyErr Item :=
  match c with
  | .input | .output | .feature =>
    match v with
    | .int i => baseInit c (.named (dataName i) i)
    | v => baseInit c v
  | .collection =>
    match v with
    | .int i =>
      if i < (collNames.length : Int) then
        match collConst i with
        | .ok k => baseInit c k
        | .error e => .error e
      else baseInit c v
    | v => baseInit c v
  | .endCollection | .push | .pop =>
    if v.toInt = 0 then baseInit c (.int 0) else .error .assertion
  | .unit => baseInit c (usualUnit v)
  | .usage | .usageMin | .usageMax => baseInit c (.usage (Usage.lookup reg v))
  | c => baseInit c v

/-- `str(item)`, `item.py:67-71`; `tagname` is the tag constant's name, `item.py:21-25`. -/
def str (i : Item) : Text :=
  if i.ival ≠ 0 ∨ ¬ i.cls.optionalValue then
    i.cls.tagName ++ tx " (" ++ i.val.str ++ tx ")"
  else i.cls.tagName

/-- Little-endian bytes of a natural number. -/
def leBytes : Nat → Nat → List UInt8
  | 0, _ => []
  | n + 1, v => UInt8.ofNat (v % 256) :: leBytes n (v / 256)

/-- Little-endian value of bytes. -/
def leVal : List UInt8 → Nat
  | [] => 0
  | b :: r => b.toNat + 256 * leVal r

/-- `struct.pack(fmt, v)` for a little-endian integer of `n` bytes: raises `struct.error` when out
of range. -/
def pack (n : Nat) (signed : Bool) (v : Int) : Except PyErr (List UInt8) :=
  if signed then
    if -(2 ^ (8 * n - 1) : Nat) ≤ v ∧ v < (2 ^ (8 * n - 1) : Nat) then
      .ok (leBytes n (v % (2 ^ (8 * n) : Nat)).toNat)
    else .error .struct
  else
    if 0 ≤ v ∧ v < (2 ^ (8 * n) : Nat) then .ok (leBytes n v.toNat) else .error .struct

/-- `struct.unpack(fmt, data)[0]` for a little-endian integer of `n` bytes: raises `struct.error`
when the length differs. -/
def unpack (n : Nat) (signed : Bool) (data : List UInt8) : Except PyErr Int :=
  if data.length = n then
    let v := leVal data
    if signed && decide (2 ^ (8 * n - 1) ≤ v) then .ok ((v : Int) - (2 ^ (8 * n) : Nat))
    else .ok v
  else .error .struct

/-- Number of payload bytes for a size code, `item.py:39-46` and `parser/base.py:29`. -/
def payloadLen : Nat → Nat
  | 0 => 0 | 1 => 1 | 2 => 2 | _ => 4

/-- The bit count computed by `bytes()`, `item.py:77-87`.  `int(math.log(m, 2))` is modelled by the
exact `Nat.log2`. -/
def bitCount (i : Item) : Nat :=
  let m := i.ival
  let m' : Nat := if i.cls.signed && decide (m < 0) then (-m - 1).toNat else m.toNat
  if m' ≠ 0 then Nat.log2 m' + (if i.cls.signed then 1 else 0) + 1
  else if i.val.truthy then 1 else 0

/-- The size code chosen by `bytes()`, `item.py:89-100`. -/
def sizeCode (i : Item) : Nat :=
  let bits := i.bitCount
  if bits = 0 ∧ i.cls.optionalValue then 0
  else if bits ≤ 8 then 1
  else if bits ≤ 16 then 2
  else 3

/-- Header byte, `item.py:105`. -/
def header (c : Cls) (l : Nat) : UInt8 := UInt8.ofNat (c.tag * 16 + c.kind.code * 4 + l)

/-- `Item.bytes()`, `item.py:73-108`.  A negative value of an unsigned class cannot be constructed;
were it present, `math.log` would raise `ValueError`. -/
def bytes (i : Item) : Except PyErr (List UInt8) :=
  if ¬ i.cls.signed ∧ i.ival < 0 then .error .value
  else
    let l := i.sizeCode
    if l = 0 then .ok [header i.cls 0]
    else
      match pack (payloadLen l) i.cls.signed i.ival with
      | .ok p => .ok (header i.cls l :: p)
      | .error e => .error e

/-- `Item.parse(data)`, `item.py:31-57`. -/
def parse (reg : Registry) (data : List UInt8) : Except PyErr Item :=
  match data with
  | [] => .error .index
  | h :: rest =>
    match Cls.ofKey (h.toNat / 4 % 4) (h.toNat / 16) with
    | none => .error .key
    | some c =>
      let size := h.toNat % 4
      if size = 0 then new reg c (.int 0)
      else
        match unpack (payloadLen size) c.signed rest with
        | .ok v => new reg c (.int v)
        | .error e => .error e

/-- `Item.__eq__` between items, `item.py:110-114`. -/
def pyEq (a b : Item) : Bool :=
  a.cls.kind.code == b.cls.kind.code && a.cls.tag == b.cls.tag && a.ival == b.ival

/-- `Item.__lt__` between items, `item.py:119-123`. -/
def pyLt (a b : Item) : Bool :=
  decide (a.cls.kind.code < b.cls.kind.code) || decide (a.cls.tag < b.cls.tag)
    || decide (a.ival < b.ival)

end Item
end Hrdc
