import Verif.Spec.Rebuild
/-!
# The items a decompiled descriptor is compiled to

What `recompiled` says of their meaning, item by item: the elements in order, a Report ID where a report begins, padding
where a field is moved to a boundary.  Nothing here refers to hrdc's extractor or compiler.
-/
namespace Hrdc.Spec

/-- An index that is there. -/
def markItem (c : Cls) (n : Int) : List SItem := if n = 0 then [] else [(c, n)]

/-- Physical bounds: none are written as 0 and 0. -/
def Fields.bounds (f : Fields) : List SItem :=
  if f.named = true ∨ (f.attrs.physMin = f.attrs.logMin ∧ f.attrs.physMax = f.attrs.logMax) then
    [(.physMin, 0), (.physMax, 0)]
  else [(.physMin, f.attrs.physMin), (.physMax, f.attrs.physMax)]

/-- Usages. -/
def Fields.usageItems (f : Fields) : List SItem := (f.what.filterMap Selector.usage).map (fun u => (.usage, u))

/-- From the logical bounds to the data item. -/
def Fields.dataItems (f : Fields) : List SItem :=
  [(.logMin, f.attrs.logMin), (.logMax, f.attrs.logMax), (.unit, f.attrs.unit), (.unitExp, f.attrs.unitExp)] ++
  markItem .desigIndex f.marks.2 ++ markItem .strIndex f.marks.1 ++
  [(.reportCount, (f.count : Int)), (.reportSize, f.attrs.size), (f.way, if f.inside.isSome then 2 else f.flags)]

/-- The items of fields: a named array with a usage is a Variable field in a Logical collection. -/
def Fields.items (f : Fields) : List SItem :=
  match f.inside with
  | some u => (.usage, u) :: f.bounds ++ (.collection, 2) :: f.usageItems ++ f.dataItems ++ [(.endCollection, 0)]
  | none => if f.named then f.bounds ++ f.usageItems ++ f.dataItems else f.usageItems ++ f.bounds ++ f.dataItems

/-- Padding of `n` bits. -/
def padItems (way : Cls) (n : Int) : List SItem :=
  if n = 0 then [] else [(.reportCount, 1), (.reportSize, n), (way, 3)]

/-! ## Reports -/

/-- What is in the collection that is open, up to its end; `d` collections are open in it. -/
def untilLeave : Nat → List Block → List Block
  | _, [] => []
  | d, .enter k u :: r => .enter k u :: untilLeave (d + 1) r
  | 0, .leave :: _ => []
  | d + 1, .leave :: r => .leave :: untilLeave d r
  | d, .pad w i n :: r => .pad w i n :: untilLeave d r
  | d, .value f :: r => .value f :: untilLeave d r

/-- The reports elements are in. -/
def reportsIn : List Block → List Int
  | [] => []
  | .enter _ _ :: r => reportsIn r
  | .leave :: r => reportsIn r
  | .pad _ i _ :: r => i :: reportsIn r
  | .value f :: r => f.id :: reportsIn r

/-- The report all elements are in. -/
def onlyReport (bs : List Block) : Option Int :=
  match reportsIn bs with
  | i :: r => if r.all (· == i) then some i else none
  | [] => none

/-- Report `id` begins, unless it is the one in force: a Report ID, but for report 0. -/
def begins (cur : Option Int) (id : Int) : List SItem := if cur = some id ∨ id = 0 then [] else [(.reportID, id)]

/-- The items of elements; `c` are the bits before, `cur` the report in force, `d` the collections opened in it.  A
collection with everything in one report is part of that report; around any other no report is in force. -/
def written (c : Offsets) (cur : Option Int) (d : Nat) : List Block → List SItem
  | [] => []
  | .enter k u :: r =>
    let head := [(.usage, u.getD 0), (.collection, k)]
    match d with
    | 0 =>
      match onlyReport (untilLeave 0 r) with
      | some i => begins cur i ++ head ++ written c (some i) 1 r
      | none => head ++ written c none 0 r
    | d + 1 => head ++ written c cur (d + 2) r
  | .leave :: r =>
    (.endCollection, 0) :: (match d with
      | 0 => written c none 0 r
      | d + 1 => written c cur d r)
  | .pad w i n :: r => begins cur i ++ padItems w n ++ written (c.add w i n) (some i) d r
  | .value f :: r =>
    let gap := f.gap (c f.way f.id)
    begins cur f.id ++ padItems f.way gap ++ f.items ++ written (c.add f.way f.id (gap + f.attrs.size)) (some f.id) d r

/-- Decompiling a stream and compiling the result without optimization, if both succeed. -/
def rewritten (known : Int → Bool) (xs : List SItem) : Option (List SItem) :=
  match blocks known xs with
  | .error _ => none
  | .ok bs => if bs.all Block.compiles then some (written (fun _ _ => 0) none 0 bs) else none

end Hrdc.Spec
