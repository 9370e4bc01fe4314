import Verif.Spec.Hid
/-!
# What merging main items makes of a stream

The items of a stream are taken in order, with the table a host has at each.  A group is open: the data items that
will become one.
-/
namespace Hrdc.Spec

/-- The globals a group has in common. -/
def groupTags : List Cls :=
  [.logMin, .logMax, .physMin, .physMax, .unit, .unitExp, .reportSize, .reportID]

/-- Report counts of a group together. -/
def total (g : List MainRec) : Int := (g.map fun r => r.g .reportCount).sum

/-- One data item for a group: its kind, flags and globals, `n` fields and the indices of all. -/
def joined (n : Int) : List MainRec → List Event
  | [] => []
  | r :: g => MainRec.events { r with
      g := fun c => if c = .reportCount then n else r.g c
      usages := (r :: g).flatMap (·.usages)
      strings := (r :: g).flatMap (·.strings)
      desigs := (r :: g).flatMap (·.desigs) }

/-- A data item without indices. -/
def plainRec (n : Int) (r : MainRec) : List Event :=
  MainRec.events { r with g := fun c => if c = .reportCount then n else r.g c, usages := [], strings := [], desigs := [] }

/-- The open group, the report count last written, and the one met last since, up to the last item of the group and
after it. -/
structure Pend where
  group : List MainRec := []
  written : Int := 0
  before : Option Int := none
  after : Option Int := none

namespace Pend

/-- Can `r` join the group? -/
def fits (s : Pend) (r : MainRec) : Bool :=
  match s.group with
  | [] => true
  | a :: _ => a.cls == r.cls && a.val == r.val

/-- The group is written. -/
def flush (s : Pend) : Pend :=
  { written := if s.group.isEmpty then s.written else total s.group, before := s.after }

/-- `r` joins the group. -/
def add (s : Pend) (r : MainRec) : Pend :=
  { s with group := s.group ++ [r], before := s.after.or s.before, after := none }

/-- At the end of the stream: all indices of the group go to its first item, and report counts are those in force. -/
def close (s : Pend) : List Event :=
  joined (s.before.getD s.written) s.group ++ (s.group.drop 1).flatMap (plainRec (s.before.getD s.written))

end Pend

/-- The groups written, and the one open at the end. -/
def runs (h : Host) (s : Pend) : List SItem → List (List MainRec) × Pend
  | [] => ([], s)
  | x :: xs =>
    let h' := h.step .atUsage x
    let r := h.main .atUsage x
    if x.1.isData then
      let d := if s.fits r then [] else [s.group]
      let s' := (if s.fits r then s else s.flush).add r
      if r.g .reportCount = 1 then
        (d ++ (runs h' s' xs).1, (runs h' s' xs).2)
      else
        (d ++ s'.group :: (runs h' s'.flush xs).1, (runs h' s'.flush xs).2)
    else if x.1.kind = .main then
      (s.group :: [r] :: (runs h' s.flush xs).1, (runs h' s.flush xs).2)
    else if x.1 ∈ groupTags ∧ h.g x.1 ≠ x.2 then
      (s.group :: (runs h' s.flush xs).1, (runs h' s.flush xs).2)
    else if x.1 = .reportCount then runs h' { s with after := some x.2 } xs
    else runs h' s xs

/-- Meaning after merging. -/
def mergedEvents (h : Host) (s : Pend) (xs : List SItem) : List Event :=
  (runs h s xs).1.flatMap (fun g => joined (total g) g) ++ (runs h s xs).2.close

/-! ## Physical bounds -/

/-- A main item with other physical bounds. -/
def MainRec.withPhys (r : MainRec) (lo hi : Int) : MainRec :=
  { r with g := fun c => if c = .physMin then lo else if c = .physMax then hi else r.g c }

/-- The main items of a stream, each with the physical bounds it has once those that look superfluous are removed.
`lo`, `hi`: bounds in force at the main item before; `s`: bounds set since.  Those set are removed when they equal the
logical ones, where a bound not set since the main item before counts as 0. -/
def physKept (rule : PageRule) (h : Host) (lo hi : Int) (s : Cls → Option Int) :
    List SItem → List (MainRec × Int × Int)
  | [] => []
  | x :: xs =>
    if x.1.kind = .main then
      if (s .physMin).getD 0 = (s .logMin).getD 0 ∧ (s .physMax).getD 0 = (s .logMax).getD 0 then
        (h.main rule x, lo, hi) :: physKept rule (h.step rule x) lo hi (fun _ => none) xs
      else
        (h.main rule x, (s .physMin).getD lo, (s .physMax).getD hi) ::
          physKept rule (h.step rule x) ((s .physMin).getD lo) ((s .physMax).getD hi) (fun _ => none) xs
    else if x.1 ∈ [Cls.logMin, .logMax, .physMin, .physMax] then
      physKept rule (h.step rule x) lo hi (fun c => if c = x.1 then some x.2 else s c) xs
    else physKept rule (h.step rule x) lo hi s xs

/-- The bounds of a main item that says what it does: for a field that is not constant, those that are in force. -/
def MainRec.bounded (r : MainRec) (lo hi : Int) : Prop :=
  r.cls.isData = true → r.isConst = false → 0 < r.g .reportCount →
    (if lo = 0 ∧ hi = 0 then (r.g .logMin, r.g .logMax) else (lo, hi)) = (r.attrs.physMin, r.attrs.physMax)

/-! ## Designators -/

/-- A main item with other designators. -/
def MainRec.withDesigs (r : MainRec) (ds : List Int) : MainRec := { r with desigs := ds }

/-- The main items of a stream, each with the designators it has once those that look superfluous are removed.
`all`: designators declared for the next main item; `less`: the same without the single indices since the last item that
is not local, whose values are `seen`.  An index is removed when it is 0 and the only one of them. -/
def desigKept (rule : PageRule) (h : Host) (all less : Decl) (seen : List Int) : List SItem → List (MainRec × List Int)
  | [] => []
  | x :: xs =>
    let h' := h.step rule x
    if x.1 = .desigIndex then desigKept rule h' (all.one x.2) less (seen ++ [x.2]) xs
    else if x.1 = .desigMin then desigKept rule h' (all.setLo x.2) (less.setLo x.2) seen xs
    else if x.1 = .desigMax then desigKept rule h' (all.setHi x.2) (less.setHi x.2) seen xs
    else if x.1.kind = .loc then desigKept rule h' all less seen xs
    else
      let d := if seen = [0] then less else all
      if x.1.kind = .main then (h.main rule x, d.values id) :: desigKept rule h' {} {} [] xs
      else desigKept rule h' d d [] xs

/-- Designators that say what those of the main item do: the same one for every usage that is read. -/
def MainRec.sameDesigs (r : MainRec) (ds : List Int) : Prop :=
  ∀ k : Nat, (r.cls = .collection ∧ k = 0 ∨
      r.cls.isData = true ∧ r.isConst = false ∧ 0 < r.g .reportCount ∧
        (if r.isVar then (k : Int) < r.g .reportCount else k < r.usages.length)) →
    (pick ds k).getD 0 = (pick r.desigs k).getD 0

/-! ## Repeated globals -/

/-- Values of globals a reader may count on before the first item. -/
def initialValue (c : Cls) : Option Int := if c ∈ [Cls.unit, .unitExp, .physMin, .physMax] then some 0 else none

/-- Every global item that gives its tag the value it was last given in the text gives it the value in force.
(Push and Pop make the two differ.) -/
def repeatsInForce (rule : PageRule) (last : Cls → Option Int) (h : Host) : List SItem → Prop
  | [] => True
  | x :: xs =>
    (x.1.kind = .global → x.1 ≠ .push → x.1 ≠ .pop → last x.1 = some x.2 → h.g x.1 = x.2) ∧
      repeatsInForce rule (fun c => if c = x.1 ∧ x.1.kind = .global then some x.2 else last c) (h.step rule x) xs

/-- The condition is decidable. -/
def repeatsInForce.dec (rule : PageRule) : (last : Cls → Option Int) → (h : Host) → (xs : List SItem) →
    Decidable (repeatsInForce rule last h xs)
  | _, _, [] => isTrue trivial
  | last, h, x :: xs =>
    have := repeatsInForce.dec rule (fun c => if c = x.1 ∧ x.1.kind = .global then some x.2 else last c) (h.step rule x) xs
    inferInstanceAs (Decidable ((x.1.kind = .global → x.1 ≠ .push → x.1 ≠ .pop → last x.1 = some x.2 → h.g x.1 = x.2) ∧
      repeatsInForce rule (fun c => if c = x.1 ∧ x.1.kind = .global then some x.2 else last c) (h.step rule x) xs))

instance (rule : PageRule) (last : Cls → Option Int) (h : Host) (xs : List SItem) :
    Decidable (repeatsInForce rule last h xs) := repeatsInForce.dec rule last h xs

/-! ## Usages made into ranges -/

/-- Each integer is the one before plus one. -/
def inSequence (us : List Int) : Bool := us = upTo (us.headD 0) (us.headD 0 + us.length - 1)

/-- Consecutive usages once they are declared right before the main item, on page `page`: up to two of them one by one,
more of them as a range. -/
def rangeUsages (page : Int) (us : List Int) : List Int :=
  if us.length ≤ 2 then us.map (full page) else upTo (full page (us.headD 0)) (full page (us.headD 0 + us.length - 1))

/-- A main item with other usages. -/
def MainRec.withUsages (r : MainRec) (us : List Int) : MainRec := { r with usages := us }

/-- The main items of a stream, each with the usages it has once those that are inSequence are made into ranges.
`us`: the usages since the last main item; `plain`: there was no range among them. -/
def usageKept (rule : PageRule) (h : Host) (us : List Int) (plain : Bool) : List SItem → List (MainRec × List Int)
  | [] => []
  | x :: xs =>
    let h' := h.step rule x
    if x.1 = .usage then usageKept rule h' (us ++ [x.2]) plain xs
    else if x.1 = .usageMin ∨ x.1 = .usageMax then usageKept rule h' us false xs
    else if x.1.kind = .main then
      (h.main rule x, if plain && inSequence us then rangeUsages (h.g .usagePage) us else (h.main rule x).usages) ::
        usageKept rule h' [] true xs
    else usageKept rule h' us plain xs

/-- Usages that say what those of the main item do: the same one wherever one is read. -/
def MainRec.sameUsages (r : MainRec) (us : List Int) : Prop :=
  (r.cls = .collection → pick us 0 = pick r.usages 0) ∧
  (r.cls.isData = true → r.isConst = false → 0 < r.g .reportCount →
    if r.isVar then ∀ k : Nat, (k : Int) < r.g .reportCount → pick us k = pick r.usages k else us = r.usages)

/-! ## Usages split into page and identifier -/

/-- The main items of a stream, each with the usages it has once every usage is written as a UsagePage (when it differs
from the one before) and a 16-bit identifier.  `page`: the page in force then; `d`: the usages declared then. -/
def splitKept (rule : PageRule) (h : Host) (page : Int) (d : Decl) : List SItem → List (MainRec × List Int)
  | [] => []
  | x :: xs =>
    let h' := h.step rule x
    let u := rule.declare (x.2 / 65536) (x.2 % 65536)
    if x.1 = .usage then splitKept rule h' (x.2 / 65536) (d.one u) xs
    else if x.1 = .usageMin then splitKept rule h' (x.2 / 65536) (d.setLo u) xs
    else if x.1 = .usageMax then splitKept rule h' (x.2 / 65536) (d.setHi u) xs
    else if x.1 = .usagePage then splitKept rule h' x.2 d xs
    else if x.1.kind = .main then (h.main rule x, d.values (rule.consume page)) :: splitKept rule h' page {} xs
    else splitKept rule h' page d xs

/-- Where an item of an optimized descriptor with a string or designator number may come from: an index from the same index,
the end of a range from the end of a range or from an index of that number. -/
def comesFrom (ks : List SItem) (k : SItem) : Prop :=
  match k.1 with
  | .strMin | .strMax => k ∈ ks ∨ (.strIndex, k.2) ∈ ks
  | .desigMin | .desigMax => k ∈ ks ∨ (.desigIndex, k.2) ∈ ks
  | .strIndex | .desigIndex => k ∈ ks
  | _ => True

end Hrdc.Spec
