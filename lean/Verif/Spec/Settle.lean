import Verif.Spec.Named
/-!
# Rebuilt descriptors

A decompiled descriptor that is compiled and decompiled again: every usage is looked up in the usage table, and where the
compiler moves a field to a boundary there is a padding element.
-/
namespace Hrdc
open Spec
namespace Extractor

/-! ## Names -/

/-- The usage with what the usage table has for it. -/
def norm (reg : Registry) (u : PyVal) : PyVal := .usage (Usage.lookup reg (.int u.toInt))

/-- Named arrays with what the usage table has for their usages. -/
def normA (reg : Registry) : NamedArray → NamedArray
  | .list l => .list (l.map (norm reg))
  | .range r => .range ⟨norm reg r.min, norm reg r.max⟩

/-- The value with what the usage table has for its usages. -/
def normV (reg : Registry) (v : Value) : Value :=
  { v with usage := v.usage.map (norm reg), namedArray := v.namedArray.map (normA reg) }

/-- The leaf with what the usage table has for its usages. -/
def normLeaf (reg : Registry) : Leaf → Leaf
  | .value v => .value (normV reg v)
  | l => l

/-- The piece with what the usage table has for its usages. -/
def normP (reg : Registry) : Piece → Piece
  | .enter k u => .enter k (u.map (norm reg))
  | .leave => .leave
  | .leaf id l => .leaf id (normLeaf reg l)

/-! ## Padding -/

/-- Bits in each report. -/
abbrev Offs := Way → Nat → Int

/-- Bits to the next boundary. -/
def padTo (align off : Int) : Int := if align > 1 then (if off % align ≠ 0 then align - off % align else 0) else 0

/-- More bits. -/
def Offs.add (off : Offs) (w : Way) (id : Int) (n : Int) : Offs :=
  fun w' k => if w' = w ∧ k = id.toNat then off w id.toNat + n else off w' k

/-- Padding, if there is any. -/
def padPiece (id : Int) (w : Way) (n : Int) : List Piece := if n ≠ 0 then [.leaf id (.padding w n)] else []

/-- The pieces with the padding the compiler puts in. -/
def padded (off : Offs) : List Piece → List Piece
  | [] => []
  | .leaf id (.value v) :: r =>
    padPiece id v.way (padTo v.alignment (off v.way id.toNat)) ++
      .leaf id (.value v) :: padded ((off.add v.way id (padTo v.alignment (off v.way id.toNat))).add v.way id v.size) r
  | .leaf id (.align w a) :: r =>
    padPiece id w (padTo a (off w id.toNat)) ++ padded (off.add w id (padTo a (off w id.toNat))) r
  | .leaf id (.padding w n) :: r => padPiece id w n ++ padded (off.add w id n) r
  | .enter k u :: r => .enter k u :: padded off r
  | .leave :: r => .leave :: padded off r

/-- No bits yet. -/
def noBits : Offs := fun _ _ => 0

end Extractor
end Hrdc
