import Verif.Spec.Rebuild
/-!
# Where the numbers are in reports

The fields and padding bits of a descriptor in order, each with its direction and report, fields with their size and logical
bounds: what a host needs to find the numbers in reports and to tell their sign.  Left aside: collections, and what the
numbers stand for.
-/
namespace Hrdc.Spec

/-- The field or padding bit of an event. -/
def Event.slot : Event → Option Event
  | .control way _ report a _ => some (.control way 0 report ⟨a.size, a.logMin, a.logMax, 0, 0, 0, 0⟩ [])
  | .padBit way report => some (.padBit way report)
  | _ => none

/-- The fields and padding bits of a descriptor. -/
def slots (es : List Event) : List Event := es.filterMap Event.slot

/-- The classes of the main items of a stream. -/
def mains (xs : List SItem) : List Cls := (xs.map Prod.fst).filter fun c => c.kind == .main

/-- As many collections end as begin, and the last main item ends one. -/
def complete (xs : List SItem) : Bool :=
  (mains xs).count .collection == (mains xs).count .endCollection && (mains xs).getLast? == some .endCollection

/-! ## After recompiling -/

/-- An element of a descriptor without names: padding, or equal fields. -/
inductive Lump
  | pad (way : Cls) (id : Int) (bits : Nat)
  | fields (way : Cls) (id size logMin logMax : Int) (count : Nat)

/-- One field. -/
def slotOf (way : Cls) (id size lo hi : Int) : Event := .control way 0 id ⟨size, lo, hi, 0, 0, 0, 0⟩ []

def Lump.slots : Lump → List Event
  | .pad w id n => List.replicate n (.padBit w id)
  | .fields w id s lo hi n => List.replicate n (slotOf w id s lo hi)

/-- What a data item is read as. -/
def MainRec.lumps (r : MainRec) : List Lump :=
  if r.cls.isData then
    if r.isConst then [.pad r.cls (r.g .reportID) ((r.g .reportSize).toNat * (r.g .reportCount).toNat)]
    else if r.val / 256 % 2 = 1 then
      [.fields r.cls (r.g .reportID) (r.g .reportSize) (r.g .logMin) (r.g .logMax) (r.g .reportCount).toNat]
    else List.replicate (r.g .reportCount).toNat
      (.fields r.cls (r.g .reportID) (r.g .reportSize) (r.g .logMin) (r.g .logMax) 1)
  else []

/-- Bits put before a field of this size at this offset. -/
def gapBefore (size off : Int) : Int := if size > 1 then -off % min 8 size else 0

/-- The fields and padding bits after decompiling and compiling: report 0 stays in the report before (`nz`), and of the fields
of an element one is counted. -/
def relaid (c : Offsets) (nz : Int) : List Lump → List Event
  | [] => []
  | .pad w id n :: r =>
    let nz := if id = 0 then nz else id
    List.replicate n (.padBit w nz) ++ relaid (c.add w id n) nz r
  | .fields w id s lo hi n :: r =>
    let nz := if id = 0 then nz else id
    let gap := gapBefore s (c w id)
    List.replicate gap.toNat (.padBit w nz) ++ List.replicate n (slotOf w nz s lo hi) ++
      relaid (c.add w id (gap + s)) nz r

/-- What the decompiler reads in a stream, without names. -/
def elements (xs : List SItem) : List Lump := (mainsOf {} xs).flatMap MainRec.lumps

end Hrdc.Spec
