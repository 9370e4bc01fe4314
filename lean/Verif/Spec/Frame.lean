import Verif.Spec.Data
/-!
# What a descriptor says apart from names

The collections with their kinds, and the fields in order, each with its direction, flags, report, size, logical bounds
and unit: what a host needs to find and read the numbers in reports.  Left aside: usages, strings, designators and
physical bounds.
-/
namespace Hrdc.Spec

/-- An event without usages, strings, designators and physical bounds. -/
def Event.frame : Event → Event
  | .enter k _ => .enter k ⟨none, 0, 0⟩
  | .leave => .leave
  | .control way flags report a _ => .control way flags report { a with physMin := 0, physMax := 0 } []
  | .padBit way report => .padBit way report

/-- The frame of a stream: its events without names. -/
def frames (es : List Event) : List Event := es.map Event.frame

/-- The numbers a host finds in a report with the given bits, whatever they are the numbers of: every field takes the bits
of its size, as a signed number if its logical minimum is negative.  `none` if the report is too short; otherwise also
the bits left. -/
def readNumbers : List Event → List Bool → Option (List Int × List Bool)
  | [], bs => some ([], bs)
  | .control _ _ _ a _ :: r, bs =>
    if bs.length < a.size.toNat then none
    else (readNumbers r (bs.drop a.size.toNat)).map fun p =>
      (numberOf (decide (a.logMin < 0)) (bs.take a.size.toNat) :: p.1, p.2)
  | .padBit _ _ :: r, bs => if bs.length < 1 then none else readNumbers r (bs.drop 1)
  | _ :: r, bs => readNumbers r bs

/-- The numbers a device has put in the fields of an element. -/
def numbersIn : Leaf × List Int → List Int
  | (.value v, xs) => if bitSet v.flags.toInt 0 then [] else xs
  | _ => []

end Hrdc.Spec
