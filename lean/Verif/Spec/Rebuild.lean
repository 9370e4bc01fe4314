import Verif.Spec.Named
/-!
# What a decompiled tree describes, whatever the stream

A reading of item streams that is simpler than a host's: Push and Pop do nothing, only the last bounds of a range count,
and only when there is no single index; pages are put in front of usages at the main item.  Data items that look like the
field of a named array are taken for one.  Nothing here refers to hrdc's extractor.
-/
namespace Hrdc.Spec

/-- Indices of one sort met since the last main item: single ones, the last minimum, the last maximum. -/
structure Gather where
  items : List Int := []
  lo : Option Int := none
  hi : Option Int := none

/-- The indices: the single ones, if there is none those between the bounds. -/
def Gather.values (d : Gather) : List Int :=
  match d.items, d.lo, d.hi with
  | [], some l, some h => upTo l h
  | l, _, _ => l

/-- What is known between two items. -/
structure Reader where
  g : Cls → Int := fun _ => 0
  usages : Gather := {}
  strings : Gather := {}
  desigs : Gather := {}

/-- Reading an item. -/
def Reader.next (s : Reader) (i : SItem) : Reader :=
  match i.1.kind with
  | .global => { s with g := fun c => if c = i.1 then i.2 else s.g c }
  | .loc =>
    match i.1 with
    | .usage => { s with usages := { s.usages with items := s.usages.items ++ [i.2] } }
    | .usageMin => { s with usages := { s.usages with lo := some i.2 } }
    | .usageMax => { s with usages := { s.usages with hi := some i.2 } }
    | .strIndex => { s with strings := { s.strings with items := s.strings.items ++ [i.2] } }
    | .strMin => { s with strings := { s.strings with lo := some i.2 } }
    | .strMax => { s with strings := { s.strings with hi := some i.2 } }
    | .desigIndex => { s with desigs := { s.desigs with items := s.desigs.items ++ [i.2] } }
    | .desigMin => { s with desigs := { s.desigs with lo := some i.2 } }
    | .desigMax => { s with desigs := { s.desigs with hi := some i.2 } }
    | _ => s
  | .main => { g := s.g }

/-- The record of main item `i`. -/
def Reader.main (s : Reader) (i : SItem) : MainRec where
  cls := i.1
  val := i.2
  g := s.g
  usages := s.usages.values.map (full (s.g .usagePage))
  strings := s.strings.values
  desigs := s.desigs.values

/-- The main items of a stream in this reading, with their context. -/
def mainsOf (s : Reader) : List SItem → List MainRec
  | [] => []
  | i :: xs => (if i.1.kind = .main then [s.main i] else []) ++ mainsOf (s.next i) xs

/-! ## Elements -/

/-- Equal fields that are one element of a descriptor; `inside` is the usage of the Logical collection around them, that a
named array stands for; `marks` are the string and the designator, also when there is no usage they go with. -/
structure Fields where
  way : Cls
  id : Int
  flags : Int
  attrs : Attrs
  what : List Selector
  count : Nat := 1
  inside : Option Int := none
  named : Bool := false
  marks : Int × Int := (0, 0)

/-- An element of a descriptor, or one end of a collection. -/
inductive Block
  | enter (kind : Int) (usage : Option Int)
  | leave
  | pad (way : Cls) (id : Int) (bits : Nat)
  | value (f : Fields)

/-- Surroundings of a named array. -/
def within (usage : Option Int) (es : List Event) : List Event :=
  match usage with
  | none => es
  | some u => .enter 2 ⟨some u, 0, 0⟩ :: es ++ [.leave]

/-- What fields describe. -/
def Fields.events (f : Fields) : List Event :=
  within f.inside (List.replicate f.count (.control f.way f.flags f.id f.attrs f.what))

/-- What an element describes. -/
def Block.events : Block → List Event
  | .enter k u => [.enter k ⟨u, 0, 0⟩]
  | .leave => [.leave]
  | .pad w id n => List.replicate n (.padBit w id)
  | .value f => f.events

/-- Selectors of field number `k`: arrays are left with one usage each. -/
def MainRec.shown (r : MainRec) (k : Nat) : List Selector :=
  if r.isVar || !r.usages.isEmpty then [r.selector k] else []

/-- An array with one usage for each value. -/
def MainRec.arrayFields (r : MainRec) (inside : Option Int) : Fields where
  way := r.cls
  id := r.g .reportID
  flags := 0
  attrs := r.arrayField.attrs
  what := r.arrayField.what 0
  inside := inside
  named := true
  marks := ((r.selector 0).string, (r.selector 0).desig)

/-- Other fields: `n` of them, with the usage of field number `k`. -/
def MainRec.plainFields (r : MainRec) (k n : Nat) : Fields where
  way := r.cls
  id := r.g .reportID
  flags := r.val
  attrs := r.attrs
  what := r.shown k
  count := n
  marks := ((r.selector k).string, (r.selector k).desig)

/-- What a data item is read as when it is no named array: padding, arrays with one usage for each value, buffered bytes,
or single fields. -/
def MainRec.blocks (r : MainRec) : List Block :=
  let n := (r.g .reportCount).toNat
  if r.isConst then [.pad r.cls (r.g .reportID) ((r.g .reportSize).toNat * n)]
  else if r.val = 0 ∧ r.full = true then List.replicate n (.value (r.arrayFields none))
  else if r.val / 256 % 2 = 1 then [.value (r.plainFields 0 n)]
  else (List.range n).map (fun k => .value (r.plainFields k 1))

/-! ## Collections -/

/-- Why a stream is refused. -/
inductive Refusal
  /-- An EndCollection closes nothing. -/
  | surplus
  /-- A single field with a usage for each value, outside all collections. -/
  | outside
  /-- Such a field in a Logical collection without usage. -/
  | noUsage
  /-- The field of a named array is not the first in its collection. -/
  | beside
  /-- An array of no logical value. -/
  | noValue
  /-- All collections are never closed. -/
  | noRoot
  deriving DecidableEq

/-- An open collection, or the descriptor: kind, usage, whether something is inside, what that is. -/
structure Room where
  kind : Int := 0
  usage : Option Int := none
  full : Bool := false
  inner : List Block := []

/-- Something more is inside, unless `full` is false. -/
def Room.put (p : Room) (full : Bool) (bs : List Block) : Room :=
  { p with full := p.full || full, inner := p.inner ++ bs }

/-- The collection `f` ends in `p`: nothing is left of an empty one. -/
def Room.close (f p : Room) : Room :=
  if f.full then p.put true (.enter f.kind f.usage :: f.inner ++ [.leave]) else p

/-- The open collections, innermost first and apart; the last stands for the descriptor.  `left`: the next EndCollection
closes nothing, as the collection of a named array has been left with its field.  `tree`: what was there when all
collections were closed last. -/
structure Rooms where
  room : Room := {}
  outer : List Room := []
  left : Bool := false
  tree : Option (List Block) := none

/-- After an EndCollection. -/
def Rooms.closed (s : Rooms) : Rooms := if s.outer.isEmpty then { s with tree := some s.room.inner } else s

/-- A single field with a usage for each value is taken for a named array in this collection. -/
def Room.array (known : Int → Bool) (f : Room) (val : Int) : Except Refusal Bool :=
  if f.kind = 4 ∧ val = 2 then .ok true
  else if f.kind = 2 then
    match f.usage with
    | none => .error .noUsage
    | some u => .ok (known u)
  else .ok false

/-- A data item is no padding, is a single field and has a usage for each value. -/
def MainRec.single (r : MainRec) : Bool := !r.isConst && r.g .reportCount == 1 && r.full

/-- A data item that is no named array. -/
def Rooms.fields (s : Rooms) (r : MainRec) : Except Refusal Rooms :=
  if !r.isConst && r.val == 0 && r.full && decide (0 < r.g .reportCount) && r.usages.isEmpty then .error .noValue
  else .ok { s with room := s.room.put (hasFields r) r.blocks }

/-- The field of a named array: the collection is left at once. -/
def Rooms.named (s : Rooms) (p : Room) (o : List Room) (r : MainRec) : Except Refusal Rooms :=
  if s.room.full then .error .beside
  else if r.usages.isEmpty then .error .noValue
  else .ok
    { s with
      room := p.put true [.value (r.arrayFields s.room.usage)]
      outer := o
      left := true }

/-- Reading a main item. -/
def Rooms.next (known : Int → Bool) (s : Rooms) (r : MainRec) : Except Refusal Rooms :=
  match r.cls with
  | .collection => .ok { s with room := { kind := r.val, usage := r.usages.head? }, outer := s.room :: s.outer }
  | .endCollection =>
    if s.left then .ok ({ s with left := false } : Rooms).closed
    else
      match s.outer with
      | [] => .error .surplus
      | p :: o => .ok ({ s with room := s.room.close p, outer := o } : Rooms).closed
  | _ =>
    if r.single then
      match s.outer with
      | [] => .error .outside
      | p :: o =>
        match s.room.array known r.val with
        | .error e => .error e
        | .ok true => s.named p o r
        | .ok false => s.fields r
    else s.fields r

/-- Reading main items. -/
def Rooms.read (known : Int → Bool) (s : Rooms) : List MainRec → Except Refusal Rooms
  | [] => .ok s
  | r :: rs =>
    match s.next known r with
    | .error e => .error e
    | .ok s' => s'.read known rs

/-- The elements of a decompiled stream, or why it is refused. -/
def blocks (known : Int → Bool) (xs : List SItem) : Except Refusal (List Block) :=
  match ({} : Rooms).read known (mainsOf {} xs) with
  | .error e => .error e
  | .ok s =>
    match s.tree with
    | none => .error .noRoot
    | some bs => .ok bs

/-- What a decompiled stream describes, or why it is refused. -/
def rebuilt (known : Int → Bool) (xs : List SItem) : Except Refusal (List Event) :=
  match blocks known xs with
  | .error e => .error e
  | .ok bs => .ok (bs.flatMap Block.events)

/-! ## Layout -/

/-- Bits before the next field, by direction and report. -/
abbrev Offsets := Cls → Int → Int

/-- More bits in a report. -/
def Offsets.add (c : Offsets) (way : Cls) (id n : Int) : Offsets := fun w i => if w = way ∧ i = id then c w i + n else c w i

/-- Fields start at a multiple of their size, or of 8 bits for larger ones: the bits missing. -/
def Fields.gap (f : Fields) (c : Int) : Int := if 1 < f.attrs.size then (-c) % min 8 f.attrs.size else 0

/-- What elements describe when fields that are not where they should be are moved. -/
def laid (c : Offsets) : List Block → List Event
  | [] => []
  | .enter k u :: r => .enter k ⟨u, 0, 0⟩ :: laid c r
  | .leave :: r => .leave :: laid c r
  | .pad w id n :: r => List.replicate n (.padBit w id) ++ laid (c.add w id n) r
  | .value f :: r =>
    let gap := f.gap (c f.way f.id)
    List.replicate gap.toNat (.padBit f.way f.id) ++ f.events ++
      laid (c.add f.way f.id (gap + f.attrs.size * f.count)) r

/-- What a compiler without loss would make of the fields in report `id`, but for named arrays with a usage, which become
Variable fields with the first of their usages. -/
def Fields.compiled (f : Fields) (id : Int) : List Event :=
  match f.inside with
  | none => { f with id := id : Fields }.events
  | some _ => { f with id := id, flags := 2, what := f.what.take 1 : Fields }.events

/-- What the elements are compiled to: report 0 stays in the report before (`nz`), and one field of a value is counted. -/
def recompiled (c : Offsets) (nz : Int) : List Block → List Event
  | [] => []
  | .enter k u :: r => .enter k ⟨u, 0, 0⟩ :: recompiled c nz r
  | .leave :: r => .leave :: recompiled c nz r
  | .pad w id n :: r =>
    let nz := if id = 0 then nz else id
    List.replicate n (.padBit w nz) ++ recompiled (c.add w id n) nz r
  | .value f :: r =>
    let nz := if f.id = 0 then nz else f.id
    let gap := f.gap (c f.way f.id)
    List.replicate gap.toNat (.padBit f.way nz) ++ f.compiled nz ++
      recompiled (c.add f.way f.id (gap + f.attrs.size)) nz r

/-- Elements that can be compiled: collections have a usage, and reports are below 256. -/
def Block.compiles : Block → Bool
  | .enter _ u => u.isSome
  | .leave => true
  | .pad _ id n => decide (n = 0 ∨ id < 256)
  | .value f => decide (f.id < 256)

end Hrdc.Spec
