import Verif.Spec.Hid
/-!
# Streams whose data items cannot be taken for a named array

Nothing here refers to hrdc's extractor.
-/
namespace Hrdc.Spec

/-- What is known between two items: the last value of each global (Push and Pop do nothing), the number
of Usage items and the last usage bounds since the last main item. -/
structure Look where
  g : Cls → Int := fun _ => 0
  single : Nat := 0
  lo : Option Int := none
  hi : Option Int := none

/-- Reading an item. -/
def Look.next (s : Look) (i : SItem) : Look :=
  match i.1.kind with
  | .global => { s with g := fun c => if c = i.1 then i.2 else s.g c }
  | .loc =>
    if i.1 = .usage then { s with single := s.single + 1 }
    else if i.1 = .usageMin then { s with lo := some i.2 }
    else if i.1 = .usageMax then { s with hi := some i.2 }
    else s
  | .main => { g := s.g }

/-- The number of usages: the Usage items, if there is none the usages between the bounds. -/
def Look.count (s : Look) : Nat :=
  if s.single = 0 then
    match s.lo, s.hi with
    | some l, some h => (h - l + 1).toNat
    | _, _ => 0
  else s.single

/-- There are as many usages as logical values. -/
def Look.full (s : Look) : Bool := (s.count : Int) == s.g .logMax - s.g .logMin + 1

/-- The next main item, if there is one, is an EndCollection. -/
def closes : List SItem → Bool
  | [] => true
  | i :: xs => if i.1.kind = .main then i.1 = .endCollection else closes xs

/-- A data item of value `val` in the innermost of the collections `ops` (kind, has a usage).  It is
padding; or it is not a single field with as many usages as logical values, nor an array with no logical
value; or it is in a collection, and if this is a Logical one, or a NamedArray one around a Variable item,
then it stands alone in it, Logical ones having a usage.  `alone` tells whether the main items around it
are the ones of the collection. -/
def dataCalm (ops : List (Int × Bool)) (alone : Bool) (s : Look) (val : Int) : Bool :=
  val % 2 == 1 ||
  (!(val == 0 && decide (0 < s.g .reportCount) && s.full && s.count == 0) &&
    (!(s.g .reportCount == 1 && s.full) ||
      match ops with
      | [] => false
      | (k, u) :: _ =>
        if k == 4 && val == 2 then alone && s.count != 0
        else k != 2 || (u && alone && s.count != 0)))

/-- No data item of the stream is confusing.  `ops` are the open collections, `fresh` tells whether the
last main item is a Collection. -/
def calm (ops : List (Int × Bool)) (fresh : Bool) (s : Look) : List SItem → Bool
  | [] => true
  | i :: xs =>
    match i.1.kind with
    | .main =>
      match i.1 with
      | .collection => calm ((i.2, s.count != 0) :: ops) true (s.next i) xs
      | .endCollection => calm ops.tail false (s.next i) xs
      | _ => dataCalm ops (fresh && closes xs) s i.2 && calm ops false (s.next i) xs
    | _ => calm ops fresh (s.next i) xs

/-- At some EndCollection no collection stays open; `d` are open. -/
def closesAll (d : Nat) : List Cls → Bool
  | [] => false
  | .collection :: r => closesAll (d + 1) r
  | .endCollection :: r => d == 1 || closesAll (d - 1) r
  | _ :: r => closesAll d r

/-! ## Collections that have something inside -/

/-- Brackets of collections: the kind at each opening, nothing at each end. -/
abbrev Brackets := List (Option Int)

/-- All brackets of a stream. -/
def brackets : List SItem → Brackets
  | [] => []
  | i :: xs =>
    match i.1 with
    | .collection => some i.2 :: brackets xs
    | .endCollection => none :: brackets xs
    | _ => brackets xs

/-- An open collection: its kind, whether it has a usage, whether something is inside, brackets inside, and
whether it is one (and not a field with a list of usages). -/
structure Frame where
  kind : Int := 0
  usage : Bool := false
  full : Bool := false
  inner : Brackets := []
  shown : Bool := true
  deriving DecidableEq

/-- The brackets of a collection. -/
def Frame.all (f : Frame) : Brackets := if f.shown then some f.kind :: f.inner ++ [none] else f.inner

/-- The end of the collection `f` in `p`: nothing is left of an empty one. -/
def Frame.close (f p : Frame) : Frame :=
  if f.full then { p with full := true, inner := p.inner ++ f.all } else p

/-- The data item has a field. -/
def Look.holds (s : Look) (val : Int) : Bool :=
  val % 2 == 1 || decide (0 < s.g .reportCount) || val / 256 % 2 == 1

/-- A single field with as many usages as logical values. -/
def Look.lone (s : Look) : Bool := s.g .reportCount == 1 && s.full

/-- A data item in the collection.  A NamedArray collection around a Variable field with as many usages as
logical values becomes a Logical one, or none if it has no usage. -/
def Frame.data (f : Frame) (s : Look) (val : Int) : Frame :=
  if f.kind == 4 && val == 2 && s.lone then { f with kind := 2, full := true, shown := f.usage }
  else { f with full := f.full || s.holds val }

/-- Brackets of the collections that have something inside, up to the last end of an outermost collection;
`fs` are the open collections around, the last stands for the descriptor, `last` the brackets at that end. -/
def outline (fs : List Frame) (s : Look) (last : Brackets) : List SItem → Brackets
  | [] => last
  | i :: xs =>
    match i.1.kind with
    | .main =>
      match i.1, fs with
      | .collection, fs => outline ({ kind := i.2, usage := s.count != 0 } :: fs) (s.next i) last xs
      | .endCollection, f :: p :: r =>
        outline (f.close p :: r) (s.next i) (if r.isEmpty then (f.close p).inner else last) xs
      | .endCollection, _ => last
      | _, f :: r => outline (f.data s i.2 :: r) (s.next i) last xs
      | _, [] => last
    | _ => outline fs (s.next i) last xs

/-- The innermost open collection has something inside. -/
def fill (full : Bool) : List (Int × Bool) → List (Int × Bool)
  | (k, b) :: o => (k, b || full) :: o
  | [] => []

/-- All collections are closed in the end, each has something inside, and none is a NamedArray one around a
single Variable field with as many usages as logical values.  `ops` are the open collections: kind, something
inside. -/
def solid (ops : List (Int × Bool)) (s : Look) : List SItem → Bool
  | [] => ops.isEmpty
  | i :: xs =>
    match i.1.kind with
    | .main =>
      match i.1 with
      | .collection => solid ((i.2, false) :: ops) (s.next i) xs
      | .endCollection =>
        match ops with
        | (_, true) :: o => solid (fill true o) (s.next i) xs
        | _ => false
      | _ => !((ops.head?.map (·.1)) == some 4 && i.2 == 2 && s.lone) && solid (fill (s.holds i.2) ops) (s.next i) xs
    | _ => solid ops (s.next i) xs

/-! ## Values and their reports -/

/-- Elements a data item stands for: one for padding and for buffered bytes, otherwise one for each field. -/
def Look.fields (s : Look) (val : Int) : Nat :=
  if val % 2 == 1 || val / 256 % 2 == 1 then 1 else (s.g .reportCount).toNat

/-- Direction and report ID of the elements of a stream in order, up to the last EndCollection; `acc`: so far,
`last`: at the last EndCollection. -/
def leafKeys (s : Look) (acc last : List (Cls × Int)) : List SItem → List (Cls × Int)
  | [] => last
  | i :: xs =>
    match i.1.kind with
    | .main =>
      match i.1 with
      | .collection => leafKeys (s.next i) acc last xs
      | .endCollection => leafKeys (s.next i) acc acc xs
      | _ => leafKeys (s.next i) (acc ++ List.replicate (s.fields i.2) (i.1, s.g .reportID)) last xs
    | _ => leafKeys (s.next i) acc last xs

/-- The kind at an opening, nothing at an end. -/
def Event.kindOf : Event → Option (Option Int)
  | .enter k _ => some (some k)
  | .leave => some none
  | _ => none

end Hrdc.Spec
