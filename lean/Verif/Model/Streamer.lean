import Verif.Model.Descriptor
import Verif.Model.Optimizer
import Verif.Model.Formatter
/-!
# Compiler (`hrdc/descriptor/streamer.py`, `compiler.py`)

The streamer only appends to its output stream, so it is modelled by the items it appends.
-/
namespace Hrdc
namespace Streamer

/-- Attributes, `streamer.py:7-14`: `report_size[way][id]` and `report_id`. -/
structure State where
  size : Way → Nat → Int := fun _ _ => 0
  id : Int := 0

/-- `a(cls(v))` for a list of constructor calls. -/
def emit (reg : Registry) : List (Cls × PyVal) → Except PyErr (List Item)
  | [] => .ok []
  | (c, v) :: r =>
    match Item.new reg c v with
    | .error e => .error e
    | .ok i =>
      match emit reg r with
      | .error e => .error e
      | .ok is => .ok (i :: is)

/-- `self.report_size[int(e.way)][self.report_id]`: a list of 256 numbers; a negative index counts
from the end. -/
def slot (st : State) : Except PyErr Nat :=
  if 0 ≤ st.id ∧ st.id < 256 then .ok st.id.toNat
  else if -256 ≤ st.id ∧ st.id < 0 then .ok (st.id + 256).toNat
  else .error .index

/-- `self.report_size[int(e.way)][self.report_id] += n`. -/
def bump (st : State) (w : Way) (n : Int) : Except PyErr State :=
  match slot st with
  | .error e => .error e
  | .ok k => .ok { st with size := fun w' k' => if w' = w ∧ k' = k then st.size w k + n else st.size w' k' }

/-- Padding of `element`, `streamer.py:47-51`. -/
def padFor (st : State) (w : Way) (align pad : Int) : Except PyErr Int :=
  if align > 1 then
    match slot st with
    | .error e => .error e
    | .ok k =>
      let part := st.size w k % align
      .ok (if part ≠ 0 then align - part else 0)
  else .ok pad

/-- `streamer.py:53-57`. -/
def addPad (reg : Registry) (st : State) (w : Way) (pad : Int) : Except PyErr (State × List Item) :=
  if pad ≠ 0 then
    match emit reg [(.reportCount, .int 1), (.reportSize, .int pad)] with
    | .error e => .error e
    | .ok a =>
      match bump st w pad with
      | .error e => .error e
      | .ok st' =>
        match emit reg [(w.cls, .int 3)] with
        | .error e => .error e
        | .ok b => .ok (st', a ++ b)
  else .ok (st, [])

/-- Argument of an item constructor holding a bound: `value or 0`, `item.py:60`. -/
def orZero (o : Option Int) : PyVal := .int (o.getD 0)

/-- The constructor calls of a non-constant value before ReportCount, `streamer.py:62-88`.
`named` is the truth value of `e.namedArray`. -/
def attrCalls (reg : Registry) (v : Value) (named : Bool) : List (Cls × PyVal) :=
  (match v.usage with
    | some u => if u.truthy then [(Cls.usage, u)] else []
    | none => []) ++
  (match named, v.namedArray with
    | true, some arr =>
      [(.physMin, .int 0), (.physMax, .int 0)] ++
      (if usageGiven v.usage then [(.collection, .named (tx "Logical") 2)] else []) ++
      (arr.elems reg).map (fun u => (Cls.usage, u))
    | _, _ =>
      if v.physicalMin = v.logicalMin ∧ v.physicalMax = v.logicalMax then
        [(.physMin, .int 0), (.physMax, .int 0)]
      else [(.physMin, orZero v.physicalMin), (.physMax, orZero v.physicalMax)]) ++
  [(.logMin, orZero v.logicalMin), (.logMax, orZero v.logicalMax),
   (.unit, v.unit), (.unitExp, .int v.unitExponent)] ++
  (if v.designator ≠ 0 then [(.desigIndex, .int v.designator)] else []) ++
  (if v.string ≠ 0 then [(.strIndex, .int v.string)] else [])

/-- `Streamer.element` on a `Value` that is neither `Align` nor `Padding`, `streamer.py:45-96`. -/
def value (reg : Registry) (st : State) (v : Value) : Except PyErr (State × List Item) :=
  match padFor st v.way v.alignment 0 with
  | .error e => .error e
  | .ok pad =>
    match addPad reg st v.way pad with
    | .error e => .error e
    | .ok (st1, a) =>
      match truthOpt v.namedArray with
      | .error e => .error e
      | .ok named =>
        let const := constFlag v.flags
        match emit reg ((if const then [] else attrCalls reg v named) ++
            [(.reportCount, .int v.count), (.reportSize, .int v.size)]) with
        | .error e => .error e
        | .ok b =>
          match bump st1 v.way v.size with
          | .error e => .error e
          | .ok st2 =>
            match emit reg ([(v.way.cls, v.flags)] ++
                (if named && !const && usageGiven v.usage then [(.endCollection, .int 0)] else [])) with
            | .error e => .error e
            | .ok c => .ok (st2, a ++ b ++ c)

mutual
/-- `Hierarchical.accept` / `Value.accept` with the streamer's `enter`, `leave` and `element`,
`descriptor.py:15-19,125-126` and `streamer.py:16-96`. -/
def node (reg : Registry) (st : State) : Node → Except PyErr (State × List Item)
  | .value v => value reg st v
  | .align w b =>
    match padFor st w b 0 with
    | .error e => .error e
    | .ok pad => addPad reg st w pad
  | .padding w s => addPad reg st w s
  | .report id ms =>
    match emit reg (if id ≠ 0 then [(.reportID, .int id)] else []) with
    | .error e => .error e
    | .ok a =>
      match nodes reg { st with id := id } ms with
      | .error e => .error e
      | .ok (st', b) => .ok (st', a ++ b)
  | .top ms => nodes reg st ms
  | .coll kind usage ms =>
    match usage with
    | none => .error .type
    | some u =>
      match emit reg [(.usage, u), (.collection, kind)] with
      | .error e => .error e
      | .ok a =>
        match nodes reg st ms with
        | .error e => .error e
        | .ok (st', b) =>
          match emit reg [(.endCollection, .int 0)] with
          | .error e => .error e
          | .ok c => .ok (st', a ++ b ++ c)

/-- The loop over members. -/
def nodes (reg : Registry) (st : State) : List Node → Except PyErr (State × List Item)
  | [] => .ok (st, [])
  | n :: ns =>
    match node reg st n with
    | .error e => .error e
    | .ok (st1, a) =>
      match nodes reg st1 ns with
      | .error e => .error e
      | .ok (st2, b) => .ok (st2, a ++ b)
end

/-- `desc.accept(Streamer(output))`: the items appended to the output. -/
def compile (reg : Registry) (n : Node) : Except PyErr (List Item) :=
  match node reg {} n with
  | .ok (_, is) => .ok is
  | .error e => .error e

end Streamer
end Hrdc
