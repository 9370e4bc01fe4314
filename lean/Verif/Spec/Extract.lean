import Verif.Spec.Descriptor
/-!
# Streams a decompiler can be expected to read back

Nothing here refers to hrdc's extractor: the conditions are on the items, and on the main items with
their HID context (`Spec.recs`).
-/
namespace Hrdc.Spec

/-! ## Meaning of a tree when nothing needs aligning -/

/-- What a leaf of report `id` describes by itself, without the padding alignment asks for. -/
def bareLeaf (id : Int) : Leaf → List Event
  | .value v => valueEvents id v
  | .align _ _ => []
  | .padding w s => List.replicate s.toNat (.padBit (tag w) id)

/-- What one piece describes by itself. -/
def bare : Piece → List Event
  | .enter k u => [.enter k.toInt ⟨u.map PyVal.toInt, 0, 0⟩]
  | .leave => [.leave]
  | .leaf id l => bareLeaf id l

/-- Controls, padding and collections of a tree in order, leaving alignment aside. -/
def bareMeaning (n : Node) : List Event := (pieces 0 n).flatMap bare

/-! ## Conditions on streams -/

/-- Both indices need a page, or both carry one. -/
def sameSide (lo hi : Int) : Bool := decide (lo < 65536) == decide (hi < 65536)

/-- Between two main items there are either single indices or one range: after a range is complete no
index follows, and no range gets completed beside single indices.  `c` are the classes of single
index, minimum and maximum; `single`, `lo`, `hi` tell what was met since the last main item. -/
def oneRange (c : Cls × Cls × Cls) (single : Bool) (lo hi : Option Int) : List SItem → Bool
  | [] => true
  | i :: xs =>
    if i.1.kind = .main then oneRange c false none none xs
    else if i.1 = c.1 then !(lo.isSome && hi.isSome) && oneRange c true lo hi xs
    else if i.1 = c.2.1 then
      !(lo.isSome && hi.isSome) && !(single && hi.isSome) && hi.all (sameSide i.2) &&
        oneRange c single (some i.2) hi xs
    else if i.1 = c.2.2 then
      !(lo.isSome && hi.isSome) && !(single && lo.isSome) && lo.all (sameSide · i.2) &&
        oneRange c single lo (some i.2) xs
    else oneRange c single lo hi xs

/-- As many usages as logical values. -/
def MainRec.full (r : MainRec) : Bool :=
  (r.usages.length : Int) == r.g .logMax - r.g .logMin + 1

/-- At most one usage, string and designator: all fields get the same. -/
def MainRec.uniform (r : MainRec) : Bool := r.strings.length ≤ 1 && r.desigs.length ≤ 1

/-- Data items whose fields can be described one by one: Variable fields, padding, arrays that list
one usage for each logical value and have no unit or physical range of their own, and other arrays
and buffered bytes with at most one usage.  `kind` is the kind of the collection around it. -/
def dataOK (kind : Option Int) (r : MainRec) : Bool :=
  r.isConst ||
  ((!(r.g .reportCount == 1 && r.full) ||
      (kind.isSome && kind != some 2 && !(kind == some 4 && r.val == 2))) &&
    (if r.val = 0 && r.full then
      !r.usages.isEmpty && r.uniform && r.g .unit == 0 && r.g .unitExp == 0 &&
        r.attrs.physMin == r.g .logMin && r.attrs.physMax == r.g .logMax
    else if r.val / 256 % 2 == 1 then r.usages.length ≤ 1 && r.uniform
    else r.isVar || (r.usages.length ≤ 1 && r.uniform)))

/-- The data item describes something (buffered bytes do even when there are none). -/
def hasFields (r : MainRec) : Bool :=
  r.isConst || decide (r.g .reportCount > 0) || r.val / 256 % 2 == 1

/-- The innermost open collection has something inside. -/
def markFull (full : Bool) : List (Int × Bool) → List (Int × Bool)
  | (k, b) :: o => (k, b || full) :: o
  | [] => []

/-- Reading a main item, with the open collections (kind, and whether something is inside), innermost
first: data items are as above, collections have no string and no designator, something is inside
each, and each is closed after it was opened.  The result is the collections open afterwards. -/
def walkStep (ops : List (Int × Bool)) (r : MainRec) : Option (List (Int × Bool)) :=
  match r.cls with
  | .collection => if r.strings.isEmpty && r.desigs.isEmpty then some ((r.val, false) :: ops) else none
  | .endCollection =>
    match ops with
    | (_, true) :: o => some (markFull true o)
    | _ => none
  | _ => if dataOK (ops.head?.map (·.1)) r then some (markFull (hasFields r) ops) else none

/-- Reading all main items. -/
def walk (ops : List (Int × Bool)) : List MainRec → Option (List (Int × Bool))
  | [] => some ops
  | r :: rs =>
    match walkStep ops r with
    | none => none
    | some o => walk o rs

/-- At some EndCollection no collection stays open. -/
def everClosed (ops : List (Int × Bool)) : List MainRec → Bool
  | [] => false
  | r :: rs =>
    match walkStep ops r with
    | none => false
    | some o => (r.cls == .endCollection && o.isEmpty) || everClosed o rs

/-- The last main item is an EndCollection. -/
def endsClosedRec (rs : List MainRec) : Bool :=
  match rs.getLast? with
  | some r => r.cls == .endCollection
  | none => false

/-- Streams a decompiler can be expected to read back. -/
structure Extractable (xs : List SItem) : Prop where
  noPush : ∀ i ∈ xs, i.1 ≠ .push ∧ i.1 ≠ .pop
  usages : oneRange (.usage, .usageMin, .usageMax) false none none xs = true
  strings : oneRange (.strIndex, .strMin, .strMax) false none none xs = true
  desigs : oneRange (.desigIndex, .desigMin, .desigMax) false none none xs = true
  closed : walk [] (recs .atMain {} xs) = some []
  ends : endsClosedRec (recs .atMain {} xs) = true

theorem extractable_iff (xs : List SItem) : Extractable xs ↔
    (∀ i ∈ xs, i.1 ≠ .push ∧ i.1 ≠ .pop) ∧
    oneRange (.usage, .usageMin, .usageMax) false none none xs = true ∧
    oneRange (.strIndex, .strMin, .strMax) false none none xs = true ∧
    oneRange (.desigIndex, .desigMin, .desigMax) false none none xs = true ∧
    walk [] (recs .atMain {} xs) = some [] ∧ endsClosedRec (recs .atMain {} xs) = true :=
  ⟨fun h => ⟨h.1, h.2, h.3, h.4, h.5, h.6⟩, fun ⟨a, b, c, d, e, f⟩ => ⟨a, b, c, d, e, f⟩⟩

instance (xs : List SItem) : Decidable (Extractable xs) := decidable_of_iff _ (extractable_iff xs).symm

end Hrdc.Spec

namespace Hrdc.Spec

/-- The event is not a control, or it starts at a multiple of its size, or of 8 bits if it is larger;
`off` are the bits before in each report. -/
def Event.aligned (off : Cls → Int → Nat) : Event → Bool
  | .control w _ id a _ => decide (a.size > 1 → (off w id : Int) % min 8 a.size = 0)
  | _ => true

/-- Every control starts at a multiple of its size, or of 8 bits for larger ones, in its report; `off`
are the bits before. -/
def alignedFrom (off : Cls → Int → Nat) : List Event → Bool
  | [] => true
  | e :: r => e.aligned off && alignedFrom (fun w id => off w id + e.bits w id) r

/-- Every control of a stream starts at a multiple of its size, or of 8 bits for larger ones. -/
def aligned (es : List Event) : Bool := alignedFrom (fun _ _ => 0) es

mutual
/-- All leaves are in Reports, Reports are not nested, and none is empty. -/
def Grouped : Node → Prop
  | .report _ ms => (∃ l, Tok.leaf l ∈ tokensL ms) ∧ (∀ i, Tok.report i ∉ tokensL ms)
  | .coll _ _ ms => GroupedL ms
  | .top ms => GroupedL ms
  | .value _ => False
  | .align _ _ => False
  | .padding _ _ => False
/-- The same for a list of elements. -/
def GroupedL : List Node → Prop
  | [] => True
  | n :: ns => Grouped n ∧ GroupedL ns
end

end Hrdc.Spec

namespace Hrdc.Spec

/-! ## Trees that survive compilation and decompilation -/

/-- A value whose data item reads back as the same value inside a collection of kind `kind`: padding, an
array of usages without unit (outside Logical collections when it is a single field), or a value with at
most one usage that does not look like an array of a single usage. -/
def valueReadable (kind : Option Int) (v : Value) : Bool :=
  bitSet v.flags.toInt 0 ||
  (decide (0 < v.count) &&
    if (arrayUsages v.namedArray).isEmpty then
      decide (((usageOf v.usage).toList.length : Int) ≠ v.logicalMax.getD 0 - v.logicalMin.getD 0 + 1)
    else
      decide (v.unit.toInt = 0 ∧ v.unitExponent = 0) && (v.count != 1 || (kind.isSome && kind != some 2)))

/-- All values read back, and all collections have something inside and are closed.  `ops` are the open
collections, innermost first, with their kind and whether something is inside. -/
def readable (ops : List (Int × Bool)) : List Tok → Bool
  | [] => ops.isEmpty
  | .report _ :: r => readable ops r
  | .endReport :: r => readable ops r
  | .enter k _ :: r => readable ((k.toInt, false) :: ops) r
  | .leave :: r =>
    match ops with
    | (_, true) :: o => readable (markFull true o) r
    | _ => false
  | .leaf (.align _ _) :: r => readable ops r
  | .leaf (.padding _ s) :: r => readable (markFull (s != 0) ops) r
  | .leaf (.value v) :: r => valueReadable (ops.head?.map (·.1)) v && readable (markFull true ops) r

/-- Fields of the value start at multiples of their size, or of 8 bits for larger ones. -/
def selfAligned (v : Value) : Bool :=
  (bitSet v.flags.toInt 0 && (arrayUsages v.namedArray).isEmpty) || decide (v.size ≤ 1) ||
  (decide (v.alignment > 1) && decide (min 8 v.size ∣ v.alignment) &&
    (decide (v.count ≤ 1) || decide (min 8 v.size ∣ v.size)))

end Hrdc.Spec
