import Verif.Spec.Descriptor
/-!
# A descriptor with a gap

Nothing here refers to the streamer.
-/
namespace Hrdc.Spec

/-- What can be around members. -/
inductive Box
  | top
  | report (id : Int)
  | coll (kind : PyVal) (usage : Option PyVal)

/-- The element with these members. -/
def Box.around : Box → List Node → Node
  | .top, ms => .top ms
  | .report id, ms => .report id ms
  | .coll k u, ms => .coll k u ms

/-- A list of elements with a gap somewhere inside it. -/
inductive Gap
  | here (before after : List Node)
  | inside (before : List Node) (b : Box) (g : Gap) (after : List Node)

/-- The list with members put into the gap. -/
def Gap.fill (ms : List Node) : Gap → List Node
  | .here b a => b ++ ms ++ a
  | .inside b x g a => b ++ [x.around (g.fill ms)] ++ a

/-- Opening bracket. -/
def Box.front : Box → List Tok
  | .top => []
  | .report id => [.report id]
  | .coll k u => [.enter k u]

/-- Closing bracket. -/
def Box.back : Box → List Tok
  | .top => []
  | .report _ => [.endReport]
  | .coll _ _ => [.leave]

/-- What is before the gap. -/
def Gap.front : Gap → List Tok
  | .here b _ => tokensL b
  | .inside b x g _ => tokensL b ++ x.front ++ g.front

/-- What is behind the gap. -/
def Gap.back : Gap → List Tok
  | .here _ a => tokensL a
  | .inside _ x g a => g.back ++ x.back ++ tokensL a

/-- The ID of the Report begun last. -/
def reportAt (id : Int) : List Tok → Int
  | [] => id
  | .report i :: r => reportAt i r
  | _ :: r => reportAt id r

/-- The last ID that was not 0, which is the one a host knows. -/
def reportSeen (id : Int) : List Tok → Int
  | [] => id
  | .report i :: r => reportSeen (if i = 0 then id else i) r
  | _ :: r => reportSeen id r

/-- The alignment of an element and its size, which for a value of several fields is that of one. -/
def Leaf.shape : Leaf → Int × Int
  | .value v => (v.alignment, v.size)
  | .align _ b => (b, 0)
  | .padding _ s => (1, s)

/-- Alignments and sizes of the elements of one direction. -/
def shapes (w : Way) : List Tok → List (Int × Int)
  | [] => []
  | .leaf l :: r => if l.way = w then l.shape :: shapes w r else shapes w r
  | _ :: r => shapes w r

/-- Where elements that begin at bit `o` end. -/
def endBit (o : Int) : List (Int × Int) → Int
  | [] => o
  | (a, s) :: r => endBit ((if a > 1 then o + (-o) % a else o) + s) r

/-- The bit reached in one direction, in the Report begun last, by elements that begin in Report `id`, with `c`
bits used in every Report. -/
def bitAt (w : Way) (c : Int → Int) (id : Int) : List Tok → Int
  | [] => c id
  | .report i :: r => bitAt w c i r
  | .leaf l :: r =>
    if l.way = w then bitAt w (fun j => if j = id then endBit (c id) [l.shape] else c j) id r else bitAt w c id r
  | _ :: r => bitAt w c id r

/-- The bit of each direction where the gap is. -/
def Gap.bit (g : Gap) (w : Way) : Int := bitAt w (fun _ => 0) 0 g.front

/-- There is no Report among the elements. -/
def noReports (ts : List Tok) : Bool := ts.all fun
  | .report _ => false
  | _ => true

/-- Alignments of the elements all divide `m`. -/
def alignedBy (m : Int) (ts : List Tok) : Prop := ∀ l, Tok.leaf l ∈ ts → l.shape.1 ≤ 1 ∨ l.shape.1 ∣ m

/-- Padding that brings every direction to its bit. -/
def upToBit (o : Way → Int) : List Node := [.padding .input (o .input), .padding .output (o .output), .padding .feature (o .feature)]

/-- Members alone, behind padding up to the bit of the gap, in the Report of the gap. -/
def Gap.alone (g : Gap) (ms : List Node) : Node :=
  .top [.report (reportSeen 0 g.front) [], .report (reportAt 0 g.front) (upToBit g.bit ++ ms)]

end Hrdc.Spec
