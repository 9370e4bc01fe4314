import Verif.Spec.Wire
/-!
# HID meaning of an item stream (HID 1.11 sections 5.4-5.6, 6.2.2.4-6.2.2.9)

A host keeps an item state table.  Global items overwrite an entry, Push/Pop save and restore the
table, local items describe the next main item, and main items create collections and fields.
Nothing here refers to hrdc's streams, passes, streamer or extractor.
-/
namespace Hrdc.Spec

/-- How the page of a 16-bit usage is found: the page in force at the usage item, or the page in
force at the main item that consumes it.  HID hosts exist of both sorts. -/
inductive PageRule | atUsage | atMain
  deriving DecidableEq, Repr

/-- The integers `lo, lo+1, .., hi`. -/
def upTo (lo hi : Int) : List Int :=
  (List.range (hi - lo + 1).toNat).map (fun (k : Nat) => lo + (k : Int))

/-- Indices declared for the next main item: closed ranges in order of declaration (a single index
is a range of one), and a minimum or maximum still waiting for its partner. -/
structure Decl where
  ranges : List (Int × Int) := []
  lo : Option Int := none
  hi : Option Int := none
  deriving DecidableEq, Repr

namespace Decl

/-- A single index. -/
def one (d : Decl) (v : Int) : Decl := { d with ranges := d.ranges ++ [(v, v)] }

/-- A minimum. -/
def setLo (d : Decl) (v : Int) : Decl :=
  match d.hi with
  | some h => ⟨d.ranges ++ [(v, h)], none, none⟩
  | none => { d with lo := some v }

/-- A maximum. -/
def setHi (d : Decl) (v : Int) : Decl :=
  match d.lo with
  | some l => ⟨d.ranges ++ [(l, v)], none, none⟩
  | none => { d with hi := some v }

/-- All declared indices in order; `f` completes the bounds (used for usage pages). -/
def values (f : Int → Int) (d : Decl) : List Int := d.ranges.flatMap (fun r => upTo (f r.1) (f r.2))

end Decl

/-- Host state. -/
structure Host where
  g : Cls → Int := fun _ => 0
  stack : List (Cls → Int) := []
  usages : Decl := {}
  strings : Decl := {}
  desigs : Decl := {}

/-- A 16-bit usage completed with a page; 32-bit usages carry their own. -/
def full (page v : Int) : Int := if v < 65536 then page * 65536 + v else v

/-- What is recorded for a usage when it is declared. -/
def PageRule.declare : PageRule → Int → Int → Int
  | .atUsage, page, v => full page v
  | .atMain, _, v => v

/-- What is done to recorded usages when a main item consumes them. -/
def PageRule.consume : PageRule → Int → Int → Int
  | .atUsage, _, v => v
  | .atMain, page, v => full page v

/-- Effect of an item on the host state.  Delimiters are ignored: streams with delimiters are
outside the theorems. -/
def Host.step (rule : PageRule) (h : Host) (i : SItem) : Host :=
  match i.1 with
  | .push => { h with stack := h.g :: h.stack }
  | .pop =>
    match h.stack with
    | g :: r => { h with g := g, stack := r }
    | [] => h
  | .usage => { h with usages := h.usages.one (rule.declare (h.g .usagePage) i.2) }
  | .usageMin => { h with usages := h.usages.setLo (rule.declare (h.g .usagePage) i.2) }
  | .usageMax => { h with usages := h.usages.setHi (rule.declare (h.g .usagePage) i.2) }
  | .strIndex => { h with strings := h.strings.one i.2 }
  | .strMin => { h with strings := h.strings.setLo i.2 }
  | .strMax => { h with strings := h.strings.setHi i.2 }
  | .desigIndex => { h with desigs := h.desigs.one i.2 }
  | .desigMin => { h with desigs := h.desigs.setLo i.2 }
  | .desigMax => { h with desigs := h.desigs.setHi i.2 }
  | .delimiter => h
  | .input | .output | .feature | .collection | .endCollection =>
    { h with usages := {}, strings := {}, desigs := {} }
  | .usagePage | .logMin | .logMax | .physMin | .physMax | .unitExp | .unit
  | .reportSize | .reportID | .reportCount =>
    { h with g := fun c => if c = i.1 then i.2 else h.g c }

/-- A main item with everything in force when it is met. -/
structure MainRec where
  cls : Cls
  val : Int
  g : Cls → Int
  usages : List Int
  strings : List Int
  desigs : List Int

/-- The record of main item `i`. -/
def Host.main (rule : PageRule) (h : Host) (i : SItem) : MainRec where
  cls := i.1
  val := i.2
  g := h.g
  usages := h.usages.values (rule.consume (h.g .usagePage))
  strings := h.strings.values id
  desigs := h.desigs.values id

/-- State after a list of items. -/
def Host.after (rule : PageRule) (h : Host) (xs : List SItem) : Host := xs.foldl (Host.step rule) h

/-- The main items of a stream, with their context. -/
def recs (rule : PageRule) (h : Host) : List SItem → List MainRec
  | [] => []
  | i :: xs =>
    (if i.1.kind = .main then [h.main rule i] else []) ++ recs rule (h.step rule i) xs

/-- A usage with the string and designator going with it (0: none). -/
structure Selector where
  usage : Option Int
  string : Int
  desig : Int
  deriving DecidableEq, Repr

/-- Entry `n` of a list of indices; the last one stands for all that are missing. -/
def pick (l : List Int) (n : Nat) : Option Int := (l[n]?).or l.getLast?

/-- Attributes of a data field. -/
structure Attrs where
  size : Int
  logMin : Int
  logMax : Int
  physMin : Int
  physMax : Int
  unit : Int
  unitExp : Int
  deriving DecidableEq, Repr

/-- What a report descriptor describes, in order.  A `control` of a Variable item has the one
selector that goes with it; a `control` of an Array item has the selectors it chooses from. -/
inductive Event
  | enter (kind : Int) (what : Selector)
  | leave
  | control (way : Cls) (flags : Int) (report : Int) (attrs : Attrs) (what : List Selector)
  | padBit (way : Cls) (report : Int)
  deriving DecidableEq, Repr

namespace MainRec

/-- Selector number `n`. -/
def selector (r : MainRec) (n : Nat) : Selector :=
  ⟨pick r.usages n, (pick r.strings n).getD 0, (pick r.desigs n).getD 0⟩

/-- Attributes in force.  Physical bounds that are both 0 stand for the logical bounds. -/
def attrs (r : MainRec) : Attrs where
  size := r.g .reportSize
  logMin := r.g .logMin
  logMax := r.g .logMax
  physMin := if r.g .physMin = 0 ∧ r.g .physMax = 0 then r.g .logMin else r.g .physMin
  physMax := if r.g .physMin = 0 ∧ r.g .physMax = 0 then r.g .logMax else r.g .physMax
  unit := r.g .unit
  unitExp := r.g .unitExp

/-- Bit 0 of a data item: Constant. -/
def isConst (r : MainRec) : Bool := r.val % 2 == 1
/-- Bit 1 of a data item: Variable. -/
def isVar (r : MainRec) : Bool := r.val / 2 % 2 == 1

/-- The selectors of field number `k`. -/
def what (r : MainRec) (k : Nat) : List Selector :=
  if r.isVar then [r.selector k] else (List.range r.usages.length).map r.selector

/-- What one main item describes. -/
def events (r : MainRec) : List Event :=
  match r.cls with
  | .collection => [.enter r.val (r.selector 0)]
  | .endCollection => [.leave]
  | .input | .output | .feature =>
    if r.isConst then
      List.replicate ((r.g .reportSize).toNat * (r.g .reportCount).toNat)
        (.padBit r.cls (r.g .reportID))
    else
      (List.range (r.g .reportCount).toNat).map (fun k =>
        .control r.cls r.val (r.g .reportID) r.attrs (r.what k))
  | _ => []

end MainRec

/-- What a stream describes when read in state `h`. -/
def eventsFrom (rule : PageRule) (h : Host) (xs : List SItem) : List Event :=
  (recs rule h xs).flatMap MainRec.events

/-- HID meaning of an item stream. -/
def meaning (rule : PageRule) (xs : List SItem) : List Event := eventsFrom rule {} xs

/-- Bits event `e` adds to report `id` of direction `way`. -/
def Event.bits (way : Cls) (id : Int) : Event → Nat
  | .control w _ r a _ => if w = way ∧ r = id then a.size.toNat else 0
  | .padBit w r => if w = way ∧ r = id then 1 else 0
  | _ => 0

/-- Size in bits of report `id` of direction `way`. -/
def reportBits (way : Cls) (id : Int) (es : List Event) : Nat := (es.map (Event.bits way id)).sum

end Hrdc.Spec
