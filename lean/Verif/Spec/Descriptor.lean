import Verif.Model.Descriptor
import Verif.Spec.Hid
/-!
# Meaning of a descriptor tree (`/repo/doc/descriptor.rst`)

Independent of the streamer: every value is described by its own attributes, `Report` gives its ID
to its subtree, values start at a multiple of their alignment, `Padding` and `Align` are constant
bits.
-/
namespace Hrdc.Spec

/-- Elements that take room in a report. -/
inductive Leaf
  | value (v : Value)
  | align (way : Way) (boundary : Int)
  | padding (way : Way) (size : Int)
  deriving Repr

/-- A tree read from left to right, every leaf with the ID of the innermost `Report` around it. -/
inductive Piece
  | enter (kind : PyVal) (usage : Option PyVal)
  | leave
  | leaf (id : Int) (l : Leaf)

mutual
/-- Pieces of an element standing in report `id`. -/
def pieces (id : Int) : Node → List Piece
  | .value v => [.leaf id (.value v)]
  | .align w b => [.leaf id (.align w b)]
  | .padding w s => [.leaf id (.padding w s)]
  | .report i ms => piecesL i ms
  | .top ms => piecesL id ms
  | .coll k u ms => .enter k u :: piecesL id ms ++ [.leave]
/-- Pieces of a list of elements. -/
def piecesL (id : Int) : List Node → List Piece
  | [] => []
  | n :: ns => pieces id n ++ piecesL id ns
end

/-- Bits missing to reach the next multiple of `boundary`. -/
def missing (boundary : Int) (off : Nat) : Nat :=
  if boundary > 1 then ((-(off : Int)) % boundary).toNat else 0

/-- Usages listed by a named array. -/
def arrayUsages : Option NamedArray → List Int
  | none => []
  | some (.list l) => l.map PyVal.toInt
  | some (.range r) => upTo r.min.toInt r.max.toInt

/-- The usage of a value or collection; 0 and `None` stand for none. -/
def usageOf : Option PyVal → Option Int
  | none => none
  | some u => if u.truthy then some u.toInt else none

/-- Selector of a value for usage `u`. -/
def selectorOf (v : Value) (u : Option Int) : Selector := ⟨u, v.string, v.designator⟩

/-- Attributes of an ordinary value. -/
def attrsOf (v : Value) : Attrs where
  size := v.size
  logMin := v.logicalMin.getD 0
  logMax := v.logicalMax.getD 0
  physMin := v.physicalMin.getD 0
  physMax := v.physicalMax.getD 0
  unit := v.unit.toInt
  unitExp := v.unitExponent

/-- Attributes of a named array of `n` usages: the first has logical value `logicalMin`, and there
is no physical range other than the logical one. -/
def arrayAttrs (v : Value) (n : Nat) : Attrs :=
  { attrsOf v with
    logMax := v.logicalMin.getD 0 + n - 1
    physMin := v.logicalMin.getD 0
    physMax := v.logicalMin.getD 0 + n - 1 }

/-- The main item that stands for a direction. -/
def tag : Way → Cls
  | .input => .input
  | .output => .output
  | .feature => .feature

/-- Controls or padding bits of a value in report `id`.  A named array is an Array field choosing
among its usages, inside a Logical collection when the value has a usage. -/
def valueEvents (id : Int) (v : Value) : List Event :=
  match arrayUsages v.namedArray with
  | [] =>
    if bitSet v.flags.toInt 0 then
      List.replicate (v.size.toNat * v.count.toNat) (.padBit (tag v.way) id)
    else
      List.replicate v.count.toNat (.control (tag v.way) v.flags.toInt id (attrsOf v)
        (if bitSet v.flags.toInt 1 then [selectorOf v (usageOf v.usage)]
         else (usageOf v.usage).toList.map (fun u => selectorOf v (some u))))
  | us =>
    let field := List.replicate v.count.toNat (Event.control (tag v.way) 0 id
      (arrayAttrs v us.length) (us.map (fun u => selectorOf v (some u))))
    match usageOf v.usage with
    | none => field
    | some u => .enter 2 ⟨some u, 0, 0⟩ :: field ++ [.leave]

/-- Room a leaf takes at offset `off`: padding bits before it, bits of its own. -/
def room (off : Nat) : Leaf → Nat × Nat
  | .value v => (missing v.alignment off, v.size.toNat * v.count.toNat)
  | .align _ b => (missing b off, 0)
  | .padding _ s => (s.toNat, 0)

/-- Direction of a leaf. -/
def Leaf.way : Leaf → Way
  | .value v => v.way
  | .align w _ => w
  | .padding w _ => w

/-- What a leaf of report `id` placed at offset `off` describes. -/
def leafEvents (id : Int) (off : Nat) (l : Leaf) : List Event :=
  List.replicate (room off l).1 (.padBit (tag l.way) id) ++
    match l with
    | .value v => valueEvents id v
    | _ => []

/-- Bits laid out so far, by direction and report. -/
abbrev Layout := Way → Int → Nat

/-- Layout after a leaf. -/
def Layout.add (off : Layout) (id : Int) (l : Leaf) : Layout := fun w i =>
  if w = l.way ∧ i = id then off w i + (room (off w i) l).1 + (room (off w i) l).2 else off w i

/-- What a list of pieces describes. -/
def place (off : Layout) : List Piece → List Event
  | [] => []
  | .enter k u :: r => .enter k.toInt ⟨u.map PyVal.toInt, 0, 0⟩ :: place off r
  | .leave :: r => .leave :: place off r
  | .leaf id l :: r => leafEvents id (off l.way id) l ++ place (off.add id l) r

/-- Meaning of a descriptor. -/
def treeMeaning (n : Node) : List Event := place (fun _ _ => 0) (pieces 0 n)

/-! ## Trees read as text -/

/-- A tree as the sequence of its opening and closing brackets and leaves. -/
inductive Tok
  | report (id : Int)
  | endReport
  | enter (kind : PyVal) (usage : Option PyVal)
  | leave
  | leaf (l : Leaf)

mutual
/-- Tokens of an element. -/
def tokens : Node → List Tok
  | .value v => [.leaf (.value v)]
  | .align w b => [.leaf (.align w b)]
  | .padding w s => [.leaf (.padding w s)]
  | .report i ms => .report i :: tokensL ms ++ [.endReport]
  | .top ms => tokensL ms
  | .coll k u ms => .enter k u :: tokensL ms ++ [.leave]
/-- Tokens of a list of elements. -/
def tokensL : List Node → List Tok
  | [] => []
  | n :: ns => tokens n ++ tokensL ns
end

/-- For every leaf: the ID of the innermost Report open around it, the ID of the Report opened last
before it, and the last such ID other than 0.  `ids` are the open reports, innermost first. -/
def leafIds (ids : List Int) (last lastNZ : Int) : List Tok → List (Int × Int × Int)
  | [] => []
  | .report i :: r => leafIds (i :: ids) i (if i = 0 then lastNZ else i) r
  | .endReport :: r => leafIds ids.tail last lastNZ r
  | .leaf _ :: r => (ids.headD 0, last, lastNZ) :: leafIds ids last lastNZ r
  | _ :: r => leafIds ids last lastNZ r

/-- No leaf follows the end of a `Report` without being in a further one, and `Report(0)` is not
used after another report. -/
def ReportsLast (n : Node) : Prop :=
  ∀ t ∈ leafIds [] 0 0 (tokens n), t.1 = t.2.1 ∧ t.1 = t.2.2

instance (n : Node) : Decidable (ReportsLast n) := by unfold ReportsLast; infer_instance

/-- The leaves of a tree. -/
def leaves (n : Node) : List Leaf :=
  (tokens n).filterMap (fun t => match t with | .leaf l => some l | _ => none)

/-- Alignments and counts fit: all alignments divide `a`, which divides the size of all but the
first field of every value. -/
def CountsFit (a : Nat) (n : Node) : Prop :=
  ∀ l ∈ leaves n, match l with
    | .value v => (v.alignment > 1 → v.alignment ∣ (a : Int)) ∧ (a : Int) ∣ v.size * (v.count - 1)
    | .align _ b => b > 1 → b ∣ (a : Int)
    | .padding _ _ => True

end Hrdc.Spec
