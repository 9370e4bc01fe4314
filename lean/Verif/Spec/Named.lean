import Verif.Spec.Extract
/-!
# Streams with named arrays

A field that lists one usage for each of its values, alone in a Logical collection whose usage is known as that of a named
array, is one value: the collection's usage names it, the usages inside are what it chooses among.
-/
namespace Hrdc.Spec

/-- The registry lists this usage among those of named arrays. -/
def arrayUsage (reg : Registry) (u : Int) : Bool :=
  decide (u / 65536 ≠ 0) && (reg.find? (fun x => x.value == u)).any (fun x => x.kinds.contains .NAry)

/-- As a usage, this constant is for named arrays if and only if the registry lists it as such. -/
def kindKnown (reg : Registry) : PyVal → Bool
  | .int _ => true
  | .named _ i => !arrayUsage reg i
  | .usage x => x.kinds.contains .NAry == arrayUsage reg x.value

/-- The data item has one field, with one usage for each logical value. -/
def MainRec.chooses (d : MainRec) : Bool := d.cls.isData && !d.isConst && d.g .reportCount == 1 && d.full

/-- A collection of this kind and usage around data item `d` is a named array; `known` are the usages of named arrays. -/
def arrayAround (known : Int → Bool) (kind : Int) (usage : Option Int) (d : MainRec) : Bool :=
  (kind == 4 && d.val == 2) || (kind == 2 && usage.any known)

/-- Collection `c` with nothing but `d` inside is a named array. -/
def namedArray (known : Int → Bool) (c d e : MainRec) : Bool :=
  c.cls == .collection && d.chooses && !d.usages.isEmpty && arrayAround known c.val c.usages.head? d &&
    e.cls == .endCollection

/-- The data item of a named array: an Array field with its own bounds and no unit. -/
def MainRec.arrayField (d : MainRec) : MainRec :=
  { d with
    val := 0, strings := d.strings.take 1, desigs := d.desigs.take 1
    g := fun c => if c = .unit ∨ c = .unitExp ∨ c = .physMin ∨ c = .physMax then 0 else d.g c }

/-- The main items of a named array: the Array field in a Logical collection with the array's usage, if it has one. -/
def arrayRecs (c d e : MainRec) : List MainRec :=
  if c.usages.isEmpty then [d.arrayField]
  else [{ c with val := 2, strings := [], desigs := [] }, d.arrayField, e]

/-- The next two main items, when they make a named array of collection `c`. -/
def arrayAhead (known : Int → Bool) (c : MainRec) : List MainRec → Option (MainRec × MainRec)
  | d :: e :: _ => if namedArray known c d e then some (d, e) else none
  | _ => none

/-- The main items of a stream, named arrays read as such.  `skip` main items were read ahead. -/
def asArrays (known : Int → Bool) (skip : Nat) : List MainRec → List MainRec
  | [] => []
  | r :: rs =>
    match skip with
    | k + 1 => asArrays known k rs
    | 0 =>
      match arrayAhead known r rs with
      | some (d, e) => arrayRecs r d e ++ asArrays known 2 rs
      | none => r :: asArrays known 0 rs

/-- An open collection: kind, usage, whether something is inside. -/
abbrev Opened := Int × Option Int × Bool

/-- The innermost open collection has something inside. -/
def markOpen (full : Bool) : List Opened → List Opened
  | (k, u, b) :: o => (k, u, b || full) :: o
  | [] => []

/-- A single field with these flags, listing a usage for each value, looks like a named array in this place: nothing else
may be in the collection. -/
def arrayPlace (known : Int → Bool) (ops : List Opened) (flags : Int) : Bool :=
  match ops with
  | [] => true
  | (k, u, _) :: _ => (k == 4 && flags == 2) || (k == 2 && (u.isNone || u.any known))

/-- Data item `r` looks like a named array in this place. -/
def lonely (known : Int → Bool) (ops : List Opened) (r : MainRec) : Bool :=
  r.g .reportCount == 1 && r.full && arrayPlace known ops r.val

/-- Reading a main item that is not part of a named array. -/
def namedStep (known : Int → Bool) (ops : List Opened) (r : MainRec) : Option (List Opened) :=
  match r.cls with
  | .collection =>
    if r.strings.isEmpty && r.desigs.isEmpty then some ((r.val, r.usages.head?, false) :: ops) else none
  | .endCollection =>
    match ops with
    | (_, _, true) :: o => some (markOpen true o)
    | _ => none
  | _ =>
    if (r.isConst || !lonely known ops r) && dataOK (some 0) r then some (markOpen (hasFields r) ops) else none

/-- Reading all main items, as `walk`, with named arrays. -/
def namedWalk (known : Int → Bool) (skip : Nat) (ops : List Opened) : List MainRec → Option (List Opened)
  | [] => some ops
  | r :: rs =>
    match skip with
    | k + 1 => namedWalk known k ops rs
    | 0 =>
      match arrayAhead known r rs with
      | some _ => namedWalk known 2 (markOpen true ops) rs
      | none =>
        match namedStep known ops r with
        | none => none
        | some o => namedWalk known 0 o rs

/-- Streams a decompiler that knows named arrays can be expected to read back. -/
structure NamedExtractable (known : Int → Bool) (xs : List SItem) : Prop where
  noPush : ∀ i ∈ xs, i.1 ≠ .push ∧ i.1 ≠ .pop
  usages : oneRange (.usage, .usageMin, .usageMax) false none none xs = true
  strings : oneRange (.strIndex, .strMin, .strMax) false none none xs = true
  desigs : oneRange (.desigIndex, .desigMin, .desigMax) false none none xs = true
  closed : namedWalk known 0 [] (recs .atMain {} xs) = some []
  ends : endsClosedRec (recs .atMain {} xs) = true

theorem namedExtractable_iff (known : Int → Bool) (xs : List SItem) : NamedExtractable known xs ↔
    (∀ i ∈ xs, i.1 ≠ .push ∧ i.1 ≠ .pop) ∧
    oneRange (.usage, .usageMin, .usageMax) false none none xs = true ∧
    oneRange (.strIndex, .strMin, .strMax) false none none xs = true ∧
    oneRange (.desigIndex, .desigMin, .desigMax) false none none xs = true ∧
    namedWalk known 0 [] (recs .atMain {} xs) = some [] ∧ endsClosedRec (recs .atMain {} xs) = true :=
  ⟨fun h => ⟨h.1, h.2, h.3, h.4, h.5, h.6⟩, fun ⟨a, b, c, d, e, f⟩ => ⟨a, b, c, d, e, f⟩⟩

instance (known : Int → Bool) (xs : List SItem) : Decidable (NamedExtractable known xs) :=
  decidable_of_iff _ (namedExtractable_iff known xs).symm

/-! ## Trees with named arrays -/

/-- A value whose items read back as the same value in this place: padding; a named array without unit, which is a single
field when it has a usage, known as that of named arrays, and otherwise does not stand where it would name its collection;
any other value that does not look like an array. -/
def valueNamed (known : Int → Bool) (ops : List Opened) (v : Value) : Bool :=
  bitSet v.flags.toInt 0 ||
  (decide (0 < v.count) &&
    if (arrayUsages v.namedArray).isEmpty then
      decide (((usageOf v.usage).toList.length : Int) ≠ v.logicalMax.getD 0 - v.logicalMin.getD 0 + 1) ||
        (v.flags.toInt != 0 && !(v.count == 1 && arrayPlace known ops v.flags.toInt))
    else
      decide (v.unit.toInt = 0 ∧ v.unitExponent = 0) &&
        match usageOf v.usage with
        | none => !(v.count == 1 && arrayPlace known ops 0)
        | some u => v.count == 1 && known u)

/-- The registry lists the usages of this element for named arrays if and only if they are. -/
def tokKnown (reg : Registry) : Tok → Bool
  | .enter _ u => u.all (kindKnown reg)
  | .leaf (.value v) => v.usage.all (kindKnown reg) &&
    match v.namedArray with
    | some (.list l) => l.all (kindKnown reg)
    | _ => true
  | _ => true

/-- All values read back, and all collections have something inside and are closed; `ops` are the open collections. -/
def namedReadable (known : Int → Bool) (ops : List Opened) : List Tok → Bool
  | [] => ops.isEmpty
  | .report _ :: r => namedReadable known ops r
  | .endReport :: r => namedReadable known ops r
  | .enter k u :: r => namedReadable known ((k.toInt, some ((u.map PyVal.toInt).getD 0), false) :: ops) r
  | .leave :: r =>
    match ops with
    | (_, _, true) :: o => namedReadable known (markOpen true o) r
    | _ => false
  | .leaf (.align _ _) :: r => namedReadable known ops r
  | .leaf (.padding _ s) :: r => namedReadable known (markOpen (s != 0) ops) r
  | .leaf (.value v) :: r => valueNamed known ops v && namedReadable known (markOpen true ops) r

end Hrdc.Spec
