import Verif.Model.Item
/-!
# Stream optimizer (`hrdc/stream/optimizer/*.py`)

An optimizer stage receives items through `append` and `close` and calls `append` on the next
stage.  A stage never reads anything back from the next one, so it is modelled as a transducer:
its attributes, the items each `append` sends on, and the items `close` sends on.
-/
namespace Hrdc

/-- One optimizer stage: state after `__init__`, `append` and `close`. -/
structure Pass where
  σ : Type
  init : σ
  step : σ → Item → σ × List Item
  fin : σ → List Item

namespace Pass

/-- Items sent on when `xs` are appended in state `st` and the stage is then closed. -/
def runFrom (p : Pass) (st : p.σ) : List Item → List Item
  | [] => p.fin st
  | x :: xs => (p.step st x).2 ++ runFrom p (p.step st x).1 xs

/-- Items sent on by a fresh stage. -/
def run (p : Pass) (xs : List Item) : List Item := p.runFrom p.init xs

/-- Appending several items: final state and everything sent on. -/
def feed (p : Pass) (st : p.σ) : List Item → p.σ × List Item
  | [] => (st, [])
  | x :: xs =>
    let r := p.step st x
    let q := feed p r.1 xs
    (q.1, r.2 ++ q.2)

/-- Stage `p` wrapped around stage `q`: every item `p` sends on is appended to `q` at once;
closing `p` appends its last items to `q` and closes `q`. -/
def wrap (p q : Pass) : Pass where
  σ := p.σ × q.σ
  init := (p.init, q.init)
  step st x :=
    let r := p.step st.1 x
    let t := q.feed st.2 r.2
    ((r.1, t.1), t.2)
  fin st :=
    let t := q.feed st.2 (p.fin st.1)
    t.2 ++ q.fin t.1

/-- The stream the optimizer is built around, which keeps the items it receives. -/
def sink : Pass where
  σ := Unit
  init := ()
  step _ x := ((), [x])
  fin _ := []

end Pass

namespace Optimizer

/-- `Item.itemclass(kind, tag)(value)` where the class and a value of that class are known to be
valid; the constructor cannot fail there (`Proofs/RangeMerge.lean`, `build_new`). -/
def build (reg : Registry) (c : Cls) (v : PyVal) : Item :=
  match Item.new reg c v with
  | .ok i => i
  | .error _ => ⟨c, v⟩

/-! ## `designator_uniq.py` -/

/-- Attributes of `DesignatorUniq`, `designator_uniq.py:10-12`.  `designatorToFilter` is `None`
(`none`), `False` (`some none`) or an item, identified by its position in `pending`. -/
structure DUState where
  pending : List Item := []
  toFilter : Option (Option Nat) := none

/-- `DesignatorUniq.append` and `close`, `designator_uniq.py:14-35`. -/
abbrev designatorUniq : Pass where
  σ := DUState
  init := {}
  step st i :=
    let pending := st.pending ++ [i]
    if i.cls.kind = .loc then
      if i.cls = .desigIndex then
        if st.toFilter = none ∧ i.ival = 0 then
          ({ pending, toFilter := some (some st.pending.length) }, [])
        else ({ pending, toFilter := some none }, [])
      else ({ pending, toFilter := st.toFilter }, [])
    else
      let out := match st.toFilter with
        | some (some k) => pending.eraseIdx k
        | _ => pending
      ({}, out)
  fin _ := []

/-! ## `main_merge.py` -/

/-- `MainMerge.to_watch`, `main_merge.py:7-16`. -/
def watched : Cls → Bool
  | .logMin | .logMax | .physMin | .physMax | .unit | .unitExp | .reportSize | .reportID => true
  | _ => false

/-- Attributes of `MainMerge`, `main_merge.py:18-29`.  Counts are ints: a `ReportCount` holding a
named constant makes Python's `int + NamedConstant` raise `TypeError`, which is not modelled. -/
structure MMState where
  before : List Item := []
  mains : List Item := []
  after : List Item := []
  beforeCount : Int := 0
  afterCount : Int := 0
  props : Cls → Int := fun _ => 0

/-- Not a ReportCount item, `main_merge.py:71`. -/
def notCount (i : Item) : Bool := i.cls.kind != .global || i.cls != .reportCount

/-- `MainMerge.flush`, `main_merge.py:67-81`. -/
def MMState.flush (reg : Registry) (st : MMState) : MMState × List Item :=
  ({ st with before := st.after, mains := [], after := [], beforeCount := 0 },
   st.before.filter notCount ++
    match st.mains with
    | [] => []
    | m :: _ => [build reg .reportCount (.int st.beforeCount), m])

/-- `MainMerge.append` (`main_merge.py:31-65`) and `close` (`main_merge.py:83-90`). -/
abbrev mainMerge (reg : Registry) : Pass where
  σ := MMState
  init := {}
  step st i :=
    match i.cls.kind with
    | .loc => ({ st with after := st.after ++ [i] }, [])
    | .global =>
      let st := { st with after := st.after ++ [i] }
      if watched i.cls ∧ st.props i.cls ≠ i.ival then
        { st with props := fun c => if c = i.cls then i.ival else st.props c }.flush reg
      else if i.cls = .reportCount then ({ st with afterCount := i.ival }, [])
      else (st, [])
    | .main =>
      if i.cls.isData then
        let (st, o1) := match st.mains with
          | m :: _ => if i.pyEq m then (st, []) else st.flush reg
          | [] => (st, [])
        let flushAfter := st.afterCount ≠ 1
        let st := { st with
          before := st.before ++ st.after
          beforeCount := st.beforeCount + st.afterCount
          after := []
          mains := st.mains ++ [i] }
        if flushAfter then
          let (st, o2) := st.flush reg
          (st, o1 ++ o2)
        else (st, o1)
      else
        { st with after := st.after ++ [i] }.flush reg
  fin st := st.before ++ st.mains ++ st.after

/-! ## `physical_merge.py` -/

/-- The four tags `PhysicalMerge` records, `physical_merge.py:44-47`. -/
def rangeTag : Cls → Bool
  | .logMin | .logMax | .physMin | .physMax => true
  | _ => false

/-- Attributes of `PhysicalMerge`, `physical_merge.py:6-19`.  `current` is never assigned after
`__init__`, so it is the constant zero; `changed` holds the integer values of its items. -/
structure PMState where
  changed : Cls → Int := fun _ => 0
  pending : List Item := []

/-- Not a physical bound, `physical_merge.py:31-34`. -/
def notPhys (i : Item) : Bool := i.cls.kind != .global || !(i.cls == .physMin || i.cls == .physMax)

/-- `PhysicalMerge.append` (`physical_merge.py:21-48`) and `close` (`physical_merge.py:50-53`). -/
abbrev physicalMerge : Pass where
  σ := PMState
  init := {}
  step st i :=
    if i.cls.kind = .main then
      let pending :=
        if st.changed .physMin = st.changed .logMin ∧ st.changed .physMax = st.changed .logMax then
          st.pending.filter notPhys
        else st.pending
      ({}, pending ++ [i])
    else
      ({ pending := st.pending ++ [i]
         changed := if i.cls.kind = .global ∧ rangeTag i.cls then
            fun c => if c = i.cls then i.ival else st.changed c
          else st.changed }, [])
  fin st := st.pending

/-! ## `global_merge.py` -/

/-- Initial `globals` of `GlobalMerge`, `global_merge.py:13-20`; a tag without entry and a `None`
entry behave alike. -/
def globalInit (c : Cls) : Option Item :=
  match c with
  | .unit | .unitExp | .physMin | .physMax => some ⟨c, .int 0⟩
  | _ => none

/-- `GlobalMerge.append` and `close`, `global_merge.py:22-40`. -/
abbrev globalMerge : Pass where
  σ := Cls → Option Item
  init := globalInit
  step st i :=
    if i.cls.kind = .global then
      let same : Bool := match st i.cls with
        | some j => j.pyEq i
        | none => false
      let out := if ¬ same ∨ i.cls = .push ∨ i.cls = .pop then [i] else []
      (fun c => if c = i.cls then some i else st c, out)
    else (st, [i])
  fin _ := []

/-! ## `range_merge.py` -/

/-- Attributes of `RangeMerge`, `range_merge.py:10-14`. -/
structure RMState where
  merging : Bool := true
  minValue : Option PyVal := none
  maxValue : Option PyVal := none
  pending : List Item := []

/-- The `lookup`, `min` and `max` tags of a `RangeMerge`, `range_merge.py:4-8`. -/
structure RangeTags where
  lookup : Cls
  min : Cls
  max : Cls

/-- Pending items without those of the range's tags, `range_merge.py:20`. -/
def notRange (t : RangeTags) (i : Item) : Bool :=
  i.cls.kind != .loc || !(i.cls == t.lookup || i.cls == t.min || i.cls == t.max)

/-- The items `RangeMerge.flush` sends on, `range_merge.py:16-32`. -/
def RMState.out (reg : Registry) (t : RangeTags) (st : RMState) : List Item :=
  match st.minValue, st.maxValue with
  | some lo, some hi =>
    if lo.truthy ∧ hi.truthy ∧ st.merging then
      st.pending.filter (notRange t) ++
        (if lo.eqv hi then [build reg t.lookup lo]
         else if hi.toInt - lo.toInt > 1 then [build reg t.min lo, build reg t.max hi]
         else [build reg t.lookup lo, build reg t.lookup hi])
    else st.pending
  | _, _ => st.pending

/-- First half of `RangeMerge.append`, `range_merge.py:47-58`. -/
def RMState.note (t : RangeTags) (st : RMState) (i : Item) : RMState :=
  if st.merging = true ∧ i.cls.kind = .loc then
    if i.cls = t.min ∨ i.cls = t.max then { st with merging := false }
    else if i.cls = t.lookup then
      match st.maxValue with
      | none => { st with maxValue := some i.val, minValue := some i.val }
      | some m =>
        if i.ival = m.toInt + 1 then { st with maxValue := some i.val }
        else { st with merging := false }
    else st
  else st

/-- `RangeMerge.append` (`range_merge.py:44-63`) and `close` (`range_merge.py:40-42`). -/
abbrev rangeMerge (reg : Registry) (t : RangeTags) : Pass where
  σ := RMState
  init := {}
  step st i :=
    if i.cls.kind = .main then ({ pending := [i] }, (st.note t i).out reg t)
    else ({ st.note t i with pending := st.pending ++ [i] }, [])
  fin st := st.out reg t

/-- `DesignatorMerge`, `range_merge.py:65-70`. -/
def desigTags : RangeTags := ⟨.desigIndex, .desigMin, .desigMax⟩
/-- `StringMerge`, `range_merge.py:72-77`. -/
def strTags : RangeTags := ⟨.strIndex, .strMin, .strMax⟩
/-- `UsageMerge`, `range_merge.py:79-84`. -/
def usageTags : RangeTags := ⟨.usage, .usageMin, .usageMax⟩

/-! ## `usage_page.py` -/

/-- Usage, UsageMinimum, UsageMaximum. -/
def usageLike : Cls → Bool
  | .usage | .usageMin | .usageMax => true
  | _ => false

/-- `UsagePage.append` and `close`, `usage_page.py:6-31`; the state is `self.page`. -/
abbrev usagePage (reg : Registry) : Pass where
  σ := Option Int
  init := none
  step page i :=
    if usageLike i.cls then
      let (sp, su) := Usage.split (Usage.lookup reg i.val)
      let out := if page = some sp.toInt then [] else [build reg .usagePage sp]
      (some sp.toInt, out ++ [build reg i.cls su])
    else if i.cls = .usagePage then (some i.ival, [i])
    else (page, [i])
  fin _ := []

/-! ## `base.py` -/

/-- The optimizer classes with a `precedence`, in registration order (import order of
`optimizer/__init__.py:2-7`; `RangeMerge` itself has none). -/
inductive PassId
  | designatorUniq | globalMerge | mainMerge | physicalMerge
  | designatorMerge | stringMerge | usageMerge | usagePage
  deriving DecidableEq, Repr, Inhabited

/-- `Optimizer.registry`, `base.py:7,10`. -/
def registry : List PassId := [.designatorUniq, .globalMerge, .mainMerge, .physicalMerge,
  .designatorMerge, .stringMerge, .usageMerge, .usagePage]

/-- `precedence` of each class. -/
def precedence : PassId → Int
  | .designatorUniq => 70 | .mainMerge => 60 | .physicalMerge => 50 | .globalMerge => 40
  | .stringMerge => 35 | .designatorMerge => 30 | .usageMerge => 20 | .usagePage => 10

/-- The class itself. -/
def pass (reg : Registry) : PassId → Pass
  | .designatorUniq => designatorUniq | .mainMerge => mainMerge reg
  | .physicalMerge => physicalMerge | .globalMerge => globalMerge
  | .stringMerge => rangeMerge reg strTags | .designatorMerge => rangeMerge reg desigTags
  | .usageMerge => rangeMerge reg usageTags | .usagePage => usagePage reg

/-- Insertion by precedence, after equal keys. -/
def insertPass (p : PassId) : List PassId → List PassId
  | [] => [p]
  | q :: r => if precedence p < precedence q then p :: q :: r else q :: insertPass p r

/-- `sorted(cls.registry, key = lambda x: x.precedence)`, `base.py:14-15`. -/
def sortPasses (l : List PassId) : List PassId := l.foldl (fun acc p => insertPass p acc) []

/-- `Optimizer.new(stream, min, max)`, `base.py:12-19`. -/
def new (reg : Registry) (min max : Int) (stream : Pass) : Pass :=
  (sortPasses registry).foldl
    (fun s p => if min < precedence p ∧ precedence p < max then (pass reg p).wrap s else s) stream

/-- Items reaching the underlying stream through the default optimizer (`min = 0, max = 100`). -/
def optimize (reg : Registry) (xs : List Item) : List Item := (new reg 0 100 Pass.sink).run xs

end Optimizer
end Hrdc
