import Verif.Model.Item
/-!
# Descriptor trees (`hrdc/descriptor/descriptor.py`)

Sizes, counts, bounds, exponents, report ids, designators and strings are plain ints here (Python
also accepts named constants for some of them); usages, flags, units and collection kinds may be
ints, named constants or usages.
-/
namespace Hrdc

/-- `Value.Input`, `Value.Output`, `Value.Feature`, `descriptor.py:58-60`. -/
inductive Way | input | output | feature
  deriving DecidableEq, Repr, Inhabited

/-- `Item.itemclass(Item.Main, way)`, `item.py:27-29,131-133`. -/
def Way.cls : Way → Cls
  | input => .input | output => .output | feature => .feature

/-- `namedArray`: a list of usages or a `UsageRange`. -/
inductive NamedArray
  | list (l : List PyVal)
  | range (r : UsageRange)
  deriving DecidableEq, Repr, Inhabited

namespace NamedArray

/-- `len(namedArray)`; `UsageRange.__len__` may be negative, which raises `ValueError`. -/
def len : NamedArray → Except PyErr Nat
  | list l => .ok l.length
  | range r => r.len

/-- `bool(namedArray)`: both types have a length. -/
def truth (a : NamedArray) : Except PyErr Bool :=
  match a.len with
  | .ok n => .ok (n != 0)
  | .error e => .error e

/-- Iteration. -/
def elems (reg : Registry) : NamedArray → List PyVal
  | list l => l
  | range r => (r.iter reg).map .usage

end NamedArray

/-- `bool(x)` where `x` is a named array or `None`. -/
def truthOpt : Option NamedArray → Except PyErr Bool
  | none => .ok false
  | some a => a.truth

/-- `bool(usage)`, where `usage` may be `None`. -/
def usageGiven : Option PyVal → Bool
  | none => false
  | some u => u.truthy

/-- `Value` attributes, `descriptor.py:91-123`. -/
structure Value where
  way : Way
  flags : PyVal
  usage : Option PyVal
  size : Int
  alignment : Int
  logicalMin : Option Int
  logicalMax : Option Int
  physicalMin : Option Int
  physicalMax : Option Int
  namedArray : Option NamedArray
  unit : PyVal
  unitExponent : Int
  designator : Int
  string : Int
  count : Int
  deriving DecidableEq, Repr, Inhabited

/-- Arguments of `Value(...)` with their defaults, `descriptor.py:81-90`. -/
structure ValueArgs where
  way : Way
  usage : Option PyVal
  size : Int
  flags : PyVal := .int 2
  logicalMin : Option Int := some 1
  logicalMax : Option Int := none
  physicalMin : Option Int := none
  physicalMax : Option Int := none
  namedArray : Option NamedArray := none
  unit : PyVal := .int 0
  unitExponent : Int := 0
  designator : Int := 0
  string : Int := 0
  count : Int := 1
  alignment : Option Int := none
  deriving DecidableEq, Repr, Inhabited

/-- `bool(x)` on an int or `None`. -/
def intGiven : Option Int → Bool
  | none => false
  | some i => i != 0

/-- `flags & Constant`, `descriptor.py:101` and `streamer.py:60`. -/
def constFlag (flags : PyVal) : Bool := bitSet flags.toInt 0

/-- `Value.__init__`, `descriptor.py:81-123`.  The truth value of `namedArray` is needed by every
call and can only raise `ValueError`, like the test that comes first. -/
def Value.new (a : ValueArgs) : Except PyErr Value :=
  match truthOpt a.namedArray with
  | .error e => .error e
  | .ok named =>
    if (a.logicalMax = none ∨ a.logicalMin = none) ∧ ¬ named ∧ ¬ constFlag a.flags then
      .error .value
    else
      let phys := intGiven a.physicalMin || intGiven a.physicalMax
      let v : Value := {
        way := a.way
        flags := a.flags
        usage := a.usage
        size := a.size
        alignment := a.alignment.getD (min 8 a.size)
        logicalMin := a.logicalMin
        logicalMax := a.logicalMax
        physicalMin := if phys then some (a.physicalMin.getD 0) else a.logicalMin
        physicalMax := if phys then some (a.physicalMax.getD 0) else a.logicalMax
        namedArray := a.namedArray
        unit := a.unit
        unitExponent := a.unitExponent
        designator := a.designator
        string := a.string
        count := a.count }
      match named, a.namedArray with
      | true, some arr =>
        match arr.len, a.logicalMin with
        | .ok n, some lo =>
          .ok { v with
            flags := if usageGiven a.usage then .named (tx "Variable") 2 else .int 0
            logicalMax := some (n + lo - 1) }
        | .ok _, none => .error .type
        | .error e, _ => .error e
      | _, _ => .ok v

/-- Descriptor elements.  `Align` and `Padding` are `Value`s in the code, of which the streamer,
the extractor and the dumper only use the direction and the boundary or size. -/
inductive Node
  | value (v : Value)
  | align (way : Way) (boundary : Int)
  | padding (way : Way) (size : Int)
  | report (id : Int) (members : List Node)
  | top (members : List Node)
  | coll (kind : PyVal) (usage : Option PyVal) (members : List Node)
  deriving Repr, Inhabited

/-- `Align(way, boundary, flags)`, `descriptor.py:128-131`. -/
def Align.new (way : Way) (boundary : Int) (flags : PyVal := .int 3) : Except PyErr Node :=
  match Value.new { way := way, usage := some (.int 0), size := 0, flags := flags } with
  | .ok _ => .ok (.align way boundary)
  | .error e => .error e

/-- `Padding(way, size)`, `descriptor.py:133-135`. -/
def Padding.new (way : Way) (size : Int) : Except PyErr Node :=
  match Value.new { way := way, usage := some (.int 0), size := size, flags := .int 3 } with
  | .ok _ => .ok (.padding way size)
  | .error e => .error e

/-! ## Containers, `descriptor.py:11-34` -/

namespace Node

/-- `self.members` of the hierarchical elements. -/
def members : Node → List Node
  | report _ m => m
  | top m => m
  | coll _ _ m => m
  | _ => []

/-- The same element with other members. -/
def withMembers (m : List Node) : Node → Node
  | report i _ => report i m
  | top _ => top m
  | coll k u _ => coll k u m
  | n => n

end Node

/-- Operations on a container. -/
inductive ContOp
  | append (n : Node)
  | pop
  | get (i : Int)
  | len
  | iter

/-- What an operation returns. -/
inductive ContRes
  | none
  | node (n : Node)
  | num (k : Nat)
  | nodes (l : List Node)

/-- Python list indexing. -/
def pyIndex {α : Type} (l : List α) (i : Int) : Except PyErr α :=
  let j := if i < 0 then i + l.length else i
  if 0 ≤ j then
    match l[j.toNat]? with
    | some a => .ok a
    | Option.none => .error .index
  else .error .index

/-- `__getitem__`, `__iter__`, `append`, `pop`, `__len__`, `descriptor.py:21-34`.  `pop` drops what
`list.pop` returns. -/
def Node.op (n : Node) : ContOp → Except PyErr (Node × ContRes)
  | .append m => .ok (n.withMembers (n.members ++ [m]), .none)
  | .pop =>
    match n.members with
    | [] => .error .index
    | _ => .ok (n.withMembers n.members.dropLast, .none)
  | .get i =>
    match pyIndex n.members i with
    | .ok m => .ok (n, .node m)
    | .error e => .error e
  | .len => .ok (n, .num n.members.length)
  | .iter => .ok (n, .nodes n.members)

end Hrdc
