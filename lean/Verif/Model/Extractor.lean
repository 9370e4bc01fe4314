import Verif.Model.Descriptor
/-!
# Decompiler (`hrdc/descriptor/extractor.py`)

Printing done while an exception passes (`extractor.py:58-65`) is modelled in `Model/DumperTrace.lean`.
-/
namespace Hrdc
namespace Extractor

/-- Elements under construction.  A leaf is a `Value`, `Padding` with the report ID it was added
under; the `__report_ids` of a collection are those of its members (`extractor.py:125-128`), which do
not change once the collection has been left. -/
inductive XNode
  | leaf (id : Int) (n : Node)
  | coll (kind : PyVal) (usage : Option PyVal) (members : List XNode)
  deriving Repr, Inhabited

/-- `self.currentLevel`, or an entry of `self.stack`: the root `TopLevel()` has no head. -/
structure Level where
  head : Option (PyVal × Option PyVal) := none
  members : List XNode := []
  deriving Inhabited

/-- Attributes, `extractor.py:8-28`.  `g` is `self.globals`; the `locals` are kept one by one, and
`Delimiter`, which is never read, is left out. -/
structure State where
  g : Cls → PyVal := fun _ => .int 0
  usages : List PyVal := []
  strings : List PyVal := []
  desigs : List PyVal := []
  loc : Cls → Option PyVal := fun _ => none
  stack : List Level := []
  level : Level := {}
  inNamed : Bool := false
  root : Option Node := none
  deriving Inhabited

/-- `localsClear`, `extractor.py:18-28`. -/
def State.clear (st : State) : State :=
  { st with usages := [], strings := [], desigs := [], loc := fun _ => none }

/-- `int(self.globalValue(tag))`, `extractor.py:30-31`.  The code uses report sizes, counts, bounds
and exponents as ints; items given a named constant for one of these are not modelled. -/
def State.num (st : State) (c : Cls) : Int := (st.g c).toInt

/-- `l[min((len(l) - 1, index))]`. -/
def clamp {α : Type} (l : List α) (k : Nat) : Option α := l[min (l.length - 1) k]?

/-- `self.usage(index)`, `extractor.py:36-42`. -/
def State.usage (reg : Registry) (st : State) (k : Nat) : Option PyVal :=
  match clamp st.usages k with
  | none => none
  | some u =>
    if u.toInt / 65536 ≠ 0 then some u
    else some (.usage (Usage.lookup reg (.int (Usage.joinPage (st.num .usagePage) u.toInt))))

/-- `self.string(index)`, `extractor.py:44-47`. -/
def State.string (st : State) (k : Nat) : Int := ((clamp st.strings k).map PyVal.toInt).getD 0

/-- `self.designator(index)`, `extractor.py:49-52`. -/
def State.designator (st : State) (k : Nat) : Int := ((clamp st.desigs k).map PyVal.toInt).getD 0

/-- One turn of the loop expanding ranges, `extractor.py:86-93`. -/
def expand (lo hi : Option PyVal) (target : List PyVal) : List PyVal :=
  match lo, hi, target with
  | some l, some h, [] => (UsageRange.pyRange l.toInt h.toInt).map .int
  | _, _, t => t

/-- `extractor.py:86-93`. -/
def State.expandAll (st : State) : State :=
  { st with
    usages := expand (st.loc .usageMin) (st.loc .usageMax) st.usages
    desigs := expand (st.loc .desigMin) (st.loc .desigMax) st.desigs
    strings := expand (st.loc .strMin) (st.loc .strMax) st.strings }

/-! ## Reports -/

mutual
/-- The element without report IDs. -/
def XNode.node : XNode → Node
  | .leaf _ n => n
  | .coll k u ms => .coll k u (nodeL ms)
/-- The elements without report IDs. -/
def nodeL : List XNode → List Node
  | [] => []
  | x :: xs => x.node :: nodeL xs
end

mutual
/-- `__report_ids`, as a list with repetitions, `extractor.py:125-131`. -/
def XNode.ids : XNode → List Int
  | .leaf i _ => [i]
  | .coll _ _ ms => idsL ms
/-- Report IDs of a list of elements. -/
def idsL : List XNode → List Int
  | [] => []
  | x :: xs => x.ids ++ idsL xs
end

/-- The only report ID, when `len(__report_ids) == 1`. -/
def XNode.single (x : XNode) : Option Int :=
  match x.ids with
  | i :: r => if r.all (· == i) then some i else none
  | [] => none

/-- `currentReport.append(value)`: the current report is the last member so far. -/
def addToLast (n : Node) : List Node → List Node
  | [] => []
  | [.report i ms] => [.report i (ms ++ [n])]
  | m :: r => m :: addToLast n r

mutual
/-- `reportInsert` on a collection, `extractor.py:141-166`. -/
def reportInsert : XNode → Node
  | .leaf _ n => n
  | .coll k u ms => .coll k u (insertL [] none ms)
/-- The loop of `reportInsert`: `r` are the members so far, `cur` is the ID of `currentReport`, which
has at least one member and so is true. -/
def insertL (r : List Node) (cur : Option Int) : List XNode → List Node
  | [] => r
  | x :: xs =>
    match x.single with
    | some i =>
      if cur = some i then insertL (addToLast x.node r) cur xs
      else insertL (r ++ [.report i [x.node]]) (some i) xs
    | none => insertL (r ++ [reportInsert x]) none xs
end

/-- `ended(root)`, `extractor.py:134-139`.  The members of the new root are `Report`s and
`Collection`s, so it is never replaced by its only member. -/
def ended (l : Level) : Node := .top (insertL [] none l.members)

/-! ## Levels -/

/-- `enter(kind, usage)`, `extractor.py:115-117`. -/
def State.enter (st : State) (kind : PyVal) (usage : Option PyVal) : State :=
  { st with stack := st.level :: st.stack, level := { head := some (kind, usage) } }

/-- `leave(level)`, `extractor.py:119-123`: `keep` tells whether the level left is given.  An empty
level is false. -/
def State.leave (st : State) (keep : Bool) : Except PyErr State :=
  match st.stack with
  | [] => .error .index
  | p :: r =>
    match st.level.head with
    | none => .error .attribute  -- only the root has no head, and it is never in front of a stack
    | some (k, u) =>
      if keep && !st.level.members.isEmpty then
        .ok { st with stack := r, level := { p with members := p.members ++ [.coll k u st.level.members] } }
      else .ok { st with stack := r, level := p }

/-- `addValue(v)`, `extractor.py:130-132`. -/
def State.addValue (st : State) (n : Node) : State :=
  { st with level := { st.level with members := st.level.members ++ [.leaf (st.num .reportID) n] } }

/-! ## Data items -/

/-- `i.tag` as a direction. -/
def wayOf : Cls → Way
  | .output => .output
  | .feature => .feature
  | _ => .input

/-- `list(map(self.usage, range(len(self.usages))))`, then `UsageRange.from_array`,
`extractor.py:189-193,210-215`. -/
def State.array (reg : Registry) (st : State) : NamedArray :=
  let us := (List.range st.usages.length).filterMap (st.usage reg)
  match UsageRange.fromArray us with
  | .ok r => .range r
  | .error _ => .list us

/-- The last part of the test of `extractor.py:176-182`: in a NamedArray collection (with a Variable
item), or in a Logical one whose usage is a named array.  The root has no `kind`; a usage of `None`
cannot be looked up. -/
def inArrayCollection (reg : Registry) (l : Level) (val : Int) : Except PyErr Bool :=
  match l.head with
  | none => .error .attribute
  | some (k, u) =>
    if val = 2 ∧ k.toInt = 4 then .ok true
    else if k.toInt = 2 then
      match u with
      | none => .error .type
      | some u => .ok (Usage.testKind reg .NAry u)
    else .ok false

/-- `extractor.py:173-182`. -/
def State.namedTest (reg : Registry) (st : State) (i : Item) : Except PyErr Bool :=
  if st.num .reportCount = 1 ∧ (st.usages.length : Int) = st.num .logMax - st.num .logMin + 1 then
    inArrayCollection reg st.level i.ival
  else .ok false

/-- `Value(...)` and `addValue`. -/
def State.addNew (st : State) (a : ValueArgs) : Except PyErr State :=
  match Value.new a with
  | .error e => .error e
  | .ok v => .ok (st.addValue (.value v))

/-- `for _ in range(n)` around `State.addNew`. -/
def State.addMany (st : State) : List ValueArgs → Except PyErr State
  | [] => .ok st
  | a :: r =>
    match st.addNew a with
    | .error e => .error e
    | .ok st' => st'.addMany r

/-- Arguments of a plain value, `extractor.py:229-244,248-262`. -/
def State.args (reg : Registry) (st : State) (i : Item) (k : Nat) : ValueArgs where
  way := wayOf i.cls
  usage := st.usage reg k
  size := st.num .reportSize
  flags := i.val
  logicalMin := some (st.num .logMin)
  logicalMax := some (st.num .logMax)
  physicalMin := some (st.num .physMin)
  physicalMax := some (st.num .physMax)
  unit := st.g .unit
  unitExponent := st.num .unitExp
  designator := st.designator k
  string := st.string k

/-- Arguments of a named array, `extractor.py:195-203,217-225`. -/
def State.arrayArgs (reg : Registry) (st : State) (i : Item) (usage : Option PyVal) : ValueArgs where
  way := wayOf i.cls
  usage := usage
  size := st.num .reportSize
  logicalMin := some (st.num .logMin)
  namedArray := some (st.array reg)
  designator := st.designator 0
  string := st.string 0

/-- `handleDataItem(i)`, `extractor.py:168-262`. -/
def State.data (reg : Registry) (st : State) (i : Item) : Except PyErr State :=
  if bitSet i.ival 0 then
    match Padding.new (wayOf i.cls) (st.num .reportSize * st.num .reportCount) with
    | .error e => .error e
    | .ok n => .ok (st.addValue n)
  else
    match st.namedTest reg i with
    | .error e => .error e
    | .ok true =>
      match ({ st with inNamed := true } : State).leave false with
      | .error e => .error e
      | .ok st' =>
        if st.level.members.isEmpty then
          st'.addNew (st.arrayArgs reg i (st.level.head.bind (·.2)))
        else .error .assertion
    | .ok false =>
      if i.ival = 0 ∧ (st.usages.length : Int) = st.num .logMax - st.num .logMin + 1 then
        st.addMany (List.replicate (st.num .reportCount).toNat (st.arrayArgs reg i none))
      else if bitSet i.ival 8 then
        st.addNew { st.args reg i 0 with count := st.num .reportCount }
      else
        st.addMany ((List.range (st.num .reportCount).toNat).map (st.args reg i))

/-- EndCollection, `extractor.py:98-106`. -/
def State.close (st : State) : Except PyErr State :=
  match (if st.inNamed then .ok { st with inNamed := false } else st.leave true) with
  | .error e => .error e
  | .ok st' => .ok (if st'.stack.isEmpty then { st' with root := some (ended st'.level) } else st')

/-- `_append(i)`, `extractor.py:67-113`. -/
def step (reg : Registry) (st : State) (i : Item) : Except PyErr State :=
  match i.cls.kind with
  | .global => .ok { st with g := fun c => if c = i.cls then i.val else st.g c }
  | .loc =>
    .ok (match i.cls with
      | .usage => { st with usages := st.usages ++ [i.val] }
      | .desigIndex => { st with desigs := st.desigs ++ [i.val] }
      | .strIndex => { st with strings := st.strings ++ [i.val] }
      | c => { st with loc := fun c' => if c' = c then some i.val else st.loc c' })
  | .main =>
    let st := st.expandAll
    let r : Except PyErr State := match i.cls with
      | .collection => .ok (st.enter i.val (st.usage reg 0))
      | .endCollection => st.close
      | _ => st.data reg i
    match r with
    | .error e => .error e
    | .ok st' => .ok st'.clear

/-- Appending a list of items. -/
def runFrom (reg : Registry) (st : State) : List Item → Except PyErr State
  | [] => .ok st
  | i :: r =>
    match step reg st i with
    | .error e => .error e
    | .ok st' => runFrom reg st' r

/-- `extractor.root` after appending the items, `extractor.py:286-292`; `AttributeError` if it was
never set. -/
def extract (reg : Registry) (xs : List Item) : Except PyErr Node :=
  match runFrom reg {} xs with
  | .error e => .error e
  | .ok st =>
    match st.root with
    | none => .error .attribute
    | some n => .ok n

end Extractor
end Hrdc
