import Verif.Model.Descriptor
import Verif.Spec.Text
/-!
# Descriptor scripts

Python, restricted to what a descriptor script needs: one expression made of integers, names,
attributes, calls with positional and keyword arguments, lists, `-` and `|`.  Evaluation goes from
left to right with an explicit stack.  Whatever Python accepts beyond this is rejected.
-/
namespace Hrdc.Spec.Script

/-! ## Words -/

/-- Lexical elements. -/
inductive Tok
  | int (n : Nat)
  | name (s : Text)
  | op (c : Char)
  | nl
  deriving DecidableEq, Repr

/-- Value of digits in a base, most significant first. -/
def number (base : Nat) (acc : Nat) : Text → Option Nat
  | [] => some acc
  | c :: r =>
    match digit c with
    | some d => if d < base then number base (acc * base + d) r else none
    | none => none

/-- Integer literals: hexadecimal after `0x`, otherwise decimal without leading zeros. -/
def intWord : Text → Option Nat
  | ['0'] => some 0
  | '0' :: 'x' :: c :: r => number 16 0 (c :: r)
  | '0' :: _ => none
  | w => number 10 0 w

/-- What the characters read last belong to. -/
inductive Mode
  | idle
  | word (w : Text)
  | num (w : Text)
  deriving DecidableEq, Repr

/-- Characters of names and numbers. -/
def wordChar (c : Char) : Bool := c.isAlpha || c.isDigit || c == '_'

/-- Punctuation. -/
def isOp (c : Char) : Bool := ['(', ')', '[', ']', ',', '=', '.', '|', '-'].contains c

/-- End of the word being read. -/
def flush : Mode → Option (List Tok)
  | .idle => some []
  | .word w => some [.name w]
  | .num w => (intWord w).map (fun n => [.int n])

/-- A character read outside words. -/
def start (c : Char) : Option (Mode × List Tok) :=
  if c.isAlpha || c == '_' then some (.word [c], [])
  else if c.isDigit then some (.num [c], [])
  else if c = ' ' then some (.idle, [])
  else if c = '\n' then some (.idle, [.nl])
  else if isOp c then some (.idle, [.op c])
  else none

/-- The word read so far with one more character. -/
def Mode.more (m : Mode) (c : Char) : Mode :=
  match m with
  | .idle => .idle
  | .word w => .word (w ++ [c])
  | .num w => .num (w ++ [c])

/-- One character. -/
def char (m : Mode) (c : Char) : Option (Mode × List Tok) :=
  if m ≠ .idle ∧ wordChar c then some (m.more c, [])
  else
    match flush m, start c with
    | some a, some (m', b) => some (m', a ++ b)
    | _, _ => none

/-- The words of a text. -/
def lex (m : Mode) : Text → Option (List Tok)
  | [] => flush m
  | c :: r =>
    match char m c with
    | none => none
    | some (m', a) =>
      match lex m' r with
      | none => none
      | some b => some (a ++ b)

/-! ## Objects -/

/-- What the script can call. -/
inductive Fn
  | topLevel | report | collection | value | align | padding | usageRange | button | ordinal
  deriving DecidableEq, Repr

/-- What an expression can denote. -/
inductive Obj
  | none
  | val (v : PyVal)
  | list (l : List PyVal)
  | range (r : UsageRange)
  | node (n : Node)
  | fn (f : Fn)
  | unit
  | module (name : Text)

/-- The constants of the usage modules: module, attribute. -/
abbrev Env := Text → Text → Option UsageC

/-- `x` in a dictionary. -/
def assoc {α : Type} (x : Text) (l : List (Text × α)) : Option α :=
  (l.find? (fun p => p.1 == x)).map (·.2)

/-- Usage modules bound by `from hrdc.usage import *`. -/
def modules : List Text := [tx "button", tx "pid", tx "keyboard", tx "desktop", tx "telephony",
  tx "consumer", tx "ordinal", tx "simulation", tx "led", tx "vr", tx "game", tx "camera",
  tx "device", tx "digitizers", tx "lighting", tx "sensors"]

/-- Names bound by the two imports of a script. -/
def globals (s : Text) : Option Obj :=
  match assoc s [(tx "None", Obj.none), (tx "TopLevel", .fn .topLevel), (tx "Report", .fn .report),
      (tx "Collection", .fn .collection), (tx "Value", .fn .value), (tx "Align", .fn .align),
      (tx "Padding", .fn .padding), (tx "UsageRange", .fn .usageRange), (tx "Unit", .unit)] with
  | some o => some o
  | none => if modules.contains s then some (.module s) else none

/-- Attributes of `Value`. -/
def valueAttrs : List (Text × Int) := [
  (tx "Input", 8), (tx "Output", 9), (tx "Feature", 11),
  (tx "Data", 0), (tx "Constant", 1), (tx "Array", 0), (tx "Variable", 2), (tx "Absolute", 0),
  (tx "Relative", 4), (tx "NoWrap", 0), (tx "Wrap", 8), (tx "Linear", 0), (tx "NonLinear", 16),
  (tx "PreferredState", 0), (tx "NoPreferred", 32), (tx "NoNullPosition", 0),
  (tx "NullState", 64), (tx "NonVolatile", 0), (tx "Volatile", 128), (tx "BitField", 0),
  (tx "BufferedBytes", 256)]

/-- Attributes of `Collection`. -/
def collAttrs : List (Text × Int) := [
  (tx "Physical", 0), (tx "Application", 1), (tx "Logical", 2), (tx "Report", 3),
  (tx "NamedArray", 4), (tx "UsageSwitch", 5), (tx "UsageModifier", 6)]

/-- Attributes of `Unit`. -/
def unitAttrs : List (Text × Int) := [
  (tx "SILinear", 1), (tx "SIRotation", 2), (tx "EnglishLinear", 3), (tx "EnglishRotation", 4),
  (tx "Centimeter", 0x11), (tx "Radian", 0x12), (tx "Inch", 0x13), (tx "Degree", 0x14),
  (tx "Gram", 0x101), (tx "Slug", 0x103), (tx "Second", 0x1000), (tx "Kelvin", 0x10001),
  (tx "Fahrenheit", 0x10003), (tx "Ampere", 0x100000), (tx "Candela", 0x1000000),
  (tx "CmPerSec", 0xf011), (tx "Momentum", 0xf111), (tx "G", 0xe011), (tx "Newton", 0xe111),
  (tx "Joule", 0xe121), (tx "Volt", 0xf0d121)]

/-- The name a constant of `Unit` is printed with: one differs from the attribute. -/
def unitName (s : Text) : Text := if s = tx "CmPerSec" then tx "Velocity" else s

/-- `o.s`. -/
def attr (env : Env) (o : Obj) (s : Text) : Option Obj :=
  match o with
  | .fn .value => (assoc s valueAttrs).map (fun i => .val (.named s i))
  | .fn .collection => (assoc s collAttrs).map (fun i => .val (.named s i))
  | .unit => (assoc s unitAttrs).map (fun i => .val (.named (unitName s) i))
  | .module m =>
    if m = tx "button" ∧ s = tx "Button" then some (.fn .button)
    else if m = tx "ordinal" ∧ s = tx "Ordinal" then some (.fn .ordinal)
    else (env m s).map (fun u => .val (.usage u))
  | _ => none

/-! ## Calls -/

/-- Parameters bound by position, then by keyword. -/
def bindArgs (params : List Text) (pos : List Obj) (kws : List (Text × Obj)) :
    Option (List (Text × Obj)) :=
  if pos.length ≤ params.length ∧ kws.all (fun k => (params.drop pos.length).contains k.1) then
    some (params.zip pos ++ kws)
  else none

/-- A required or optional integer. -/
def intArg (d : Option Int) : Option Obj → Option Int
  | none => d
  | some (.val (.int i)) => some i
  | _ => none

/-- An integer or `None`. -/
def optArg (d : Option Int) : Option Obj → Option (Option Int)
  | none => some d
  | some .none => some none
  | some (.val (.int i)) => some (some i)
  | _ => none

/-- An integer, possibly a named one. -/
def valArg (d : Option PyVal) : Option Obj → Option PyVal
  | none => d
  | some (.val v) => some v
  | _ => none

/-- A usage or `None`. -/
def usageArg : Option Obj → Option (Option PyVal)
  | some .none => some none
  | some (.val v) => some (some v)
  | _ => none

/-- A list of usages, a range of usages or `None`. -/
def arrayArg : Option Obj → Option (Option NamedArray)
  | none => some none
  | some .none => some none
  | some (.list l) => some (some (.list l))
  | some (.range r) => some (some (.range r))
  | _ => none

/-- A direction. -/
def wayArg (o : Option Obj) : Option Way :=
  match valArg none o with
  | none => none
  | some v =>
    if v.toInt = 8 then some .input
    else if v.toInt = 9 then some .output
    else if v.toInt = 11 then some .feature
    else none

/-- Parameters of `Value`. -/
def valueParams : List Text := [tx "way", tx "usage", tx "size", tx "flags", tx "logicalMin",
  tx "logicalMax", tx "physicalMin", tx "physicalMax", tx "namedArray", tx "unit",
  tx "unitExponent", tx "designator", tx "string", tx "count", tx "alignment"]

/-- `Value` called with its three required parameters: what the constructor takes by default. -/
def dflt : ValueArgs := { way := .input, usage := none, size := 0 }

/-- Arguments of `Value` from bound parameters. -/
def valueArgs (b : List (Text × Obj)) : Option ValueArgs :=
  match wayArg (assoc (tx "way") b), usageArg (assoc (tx "usage") b),
    intArg none (assoc (tx "size") b), valArg (some dflt.flags) (assoc (tx "flags") b),
    optArg dflt.logicalMin (assoc (tx "logicalMin") b), optArg dflt.logicalMax (assoc (tx "logicalMax") b),
    optArg dflt.physicalMin (assoc (tx "physicalMin") b), optArg dflt.physicalMax (assoc (tx "physicalMax") b),
    arrayArg (assoc (tx "namedArray") b), valArg (some dflt.unit) (assoc (tx "unit") b),
    intArg (some dflt.unitExponent) (assoc (tx "unitExponent") b),
    intArg (some dflt.designator) (assoc (tx "designator") b),
    intArg (some dflt.string) (assoc (tx "string") b), intArg (some dflt.count) (assoc (tx "count") b),
    optArg dflt.alignment (assoc (tx "alignment") b) with
  | some way, some usage, some size, some flags, some lmin, some lmax, some pmin, some pmax,
    some arr, some unit, some exp, some des, some str, some count, some al =>
    some { way := way, usage := usage, size := size, flags := flags, logicalMin := lmin,
           logicalMax := lmax, physicalMin := pmin, physicalMax := pmax, namedArray := arr,
           unit := unit, unitExponent := exp, designator := des, string := str, count := count,
           alignment := al }
  | _, _, _, _, _, _, _, _, _, _, _, _, _, _, _ => none

/-- `*members`. -/
def members : List Obj → Option (List Node)
  | [] => some []
  | .node n :: r => (members r).map (n :: ·)
  | _ :: _ => none

/-- Elements of a list display. -/
def vals : List Obj → Option (List PyVal)
  | [] => some []
  | .val v :: r => (vals r).map (v :: ·)
  | _ :: _ => none

/-- `f(*pos, **kws)`. -/
def call (f : Fn) (pos : List Obj) (kws : List (Text × Obj)) : Option Obj :=
  match f, pos, kws with
  | .topLevel, ms, [] => (members ms).map (fun l => .node (.top l))
  | .report, .val (.int i) :: ms, [] => (members ms).map (fun l => .node (.report i l))
  | .collection, .val k :: u :: ms, [] =>
    match usageArg (some u), members ms with
    | some u, some l => some (.node (.coll k u l))
    | _, _ => none
  | .value, pos, kws =>
    match bindArgs valueParams pos kws with
    | none => none
    | some b =>
      match valueArgs b with
      | none => none
      | some a =>
        match Value.new a with
        | .ok v => some (.node (.value v))
        | .error _ => none
  | .align, [w, .val (.int b)], [] =>
    match wayArg (some w) with
    | none => none
    | some w =>
      match Align.new w b with
      | .ok n => some (.node n)
      | .error _ => none
  | .padding, [w, .val (.int s)], [] =>
    match wayArg (some w) with
    | none => none
    | some w =>
      match Padding.new w s with
      | .ok n => some (.node n)
      | .error _ => none
  | .usageRange, [.val a, .val b], [] => some (.range ⟨a, b⟩)
  | .button, [.val (.int n)], [] => some (.val (.usage (Button n)))
  | .ordinal, [.val (.int n)], [] => some (.val (.usage (Ordinal n)))
  | _, _, _ => none

/-! ## Evaluation -/

/-- The operand being read. -/
inductive Cur
  | none
  | name (s : Text)
  | obj (o : Obj)
  | dot (o : Obj)

/-- An argument, list element or the whole expression being read: its keyword, the value of the
operands of `|` before the current one, whether a minus sign stands before the current one. -/
structure Slot where
  kw : Option Text := none
  left : Option Int := none
  neg : Bool := false
  cur : Cur := .none

/-- An open bracket: what is called, if anything, the complete arguments, and the operand it belongs
to. -/
structure Frame where
  callee : Option Obj
  pos : List Obj := []
  kws : List (Text × Obj) := []
  saved : Slot

/-- Evaluation state; `done` after the line end that follows the expression. -/
structure State where
  frames : List Frame := []
  slot : Slot := {}
  done : Bool := false

/-- The object of an operand. -/
def Cur.get : Cur → Option Obj
  | .none => Option.none
  | .name s => globals s
  | .obj o => some o
  | .dot _ => Option.none

/-- `-o`, on integers; constants have no minus sign. -/
def negate : Obj → Option Obj
  | .val (.int i) => some (.val (.int (-i)))
  | _ => none

/-- `a | o`, on integers that are not negative. -/
def bor (a : Int) : Obj → Option Obj
  | .val v => if 0 ≤ a ∧ 0 ≤ v.toInt then some (.val (.int (a.toNat ||| v.toInt.toNat : Nat))) else none
  | _ => none

/-- The operand with its minus sign and the operands before it. -/
def Slot.finish (s : Slot) : Option Obj :=
  match s.cur.get with
  | none => none
  | some o =>
    match (if s.neg then negate o else some o) with
    | none => none
    | some o =>
      match s.left with
      | none => some o
      | some a => bor a o

/-- Nothing read yet. -/
def Slot.fresh (s : Slot) : Bool :=
  match s.kw, s.left, s.neg, s.cur with
  | none, none, false, .none => true
  | _, _, _, _ => false

/-- One more argument or element.  Keywords are distinct and come last. -/
def Frame.add (f : Frame) (kw : Option Text) (o : Obj) : Option Frame :=
  match kw with
  | none => if f.kws.isEmpty then some { f with pos := f.pos ++ [o] } else none
  | some k =>
    if f.kws.any (fun p => p.1 == k) then none else some { f with kws := f.kws ++ [(k, o)] }

/-- The frame with the argument being read, if there is one. -/
def Frame.last (f : Frame) (s : Slot) : Option Frame :=
  if s.fresh then some f
  else
    match s.finish with
    | none => none
    | some o => f.add s.kw o

/-- The value of a closed bracket. -/
def Frame.result (f : Frame) : Option Obj :=
  match f.callee with
  | none => (vals f.pos).map .list
  | some (.fn g) => call g f.pos f.kws
  | _ => none

/-- A closing bracket. -/
def close (list : Bool) (st : State) : Option State :=
  match st.frames with
  | [] => none
  | f :: fs =>
    if f.callee.isNone = list then
      match f.last st.slot with
      | none => none
      | some f =>
        match f.result with
        | none => none
        | some o => some { st with frames := fs, slot := { f.saved with cur := .obj o } }
    else none

/-- Punctuation. -/
def punct (st : State) (c : Char) : Option State :=
  if c = '.' then
    match st.slot.cur.get with
    | none => none
    | some o => some { st with slot := { st.slot with cur := .dot o } }
  else if c = '-' then
    match st.slot.cur, st.slot.neg with
    | .none, false => some { st with slot := { st.slot with neg := true } }
    | _, _ => none
  else if c = '|' then
    match st.slot.finish with
    | some (.val v) =>
      some { st with slot := { st.slot with left := some v.toInt, neg := false, cur := .none } }
    | _ => none
  else if c = '(' then
    match st.slot.cur.get with
    | none => none
    | some f =>
      some { st with frames := { callee := some f, saved := st.slot } :: st.frames, slot := {} }
  else if c = '[' then
    match st.slot.cur with
    | .none => some { st with frames := { callee := none, saved := st.slot } :: st.frames, slot := {} }
    | _ => none
  else if c = '=' then
    match st.slot, st.frames with
    | ⟨none, none, false, .name s⟩, f :: _ =>
      if f.callee.isSome then some { st with slot := { kw := some s } } else none
    | _, _ => none
  else if c = ',' then
    match st.frames with
    | [] => none
    | f :: fs =>
      match st.slot.finish with
      | none => none
      | some o =>
        match f.add st.slot.kw o with
        | none => none
        | some f => some { st with frames := f :: fs, slot := {} }
  else if c = ')' then close false st
  else if c = ']' then close true st
  else none

/-- A number. -/
def number1 (st : State) (n : Nat) : Option State :=
  match st.slot.cur with
  | .none => some { st with slot := { st.slot with cur := .obj (.val (.int n)) } }
  | _ => none

/-- A name. -/
def name1 (env : Env) (st : State) (s : Text) : Option State :=
  match st.slot.cur with
  | .none => some { st with slot := { st.slot with cur := .name s } }
  | .dot o =>
    match attr env o s with
    | none => none
    | some o => some { st with slot := { st.slot with cur := .obj o } }
  | _ => none

/-- One word. -/
def step (env : Env) (st : State) : Tok → Option State
  | .nl => if st.frames.isEmpty then some { st with done := true } else some st
  | .int n => if st.done then none else number1 st n
  | .name s => if st.done then none else name1 env st s
  | .op c => if st.done then none else punct st c

/-- All words. -/
def run (env : Env) (st : State) : List Tok → Option State
  | [] => some st
  | t :: r =>
    match step env st t with
    | none => none
    | some st => run env st r

/-- The value of an expression. -/
def eval (env : Env) (t : Text) : Option Obj :=
  match lex .idle t with
  | none => none
  | some l =>
    match run env {} l with
    | none => none
    | some st => if st.frames.isEmpty then st.slot.finish else none

/-- What stands before the expression in a script. -/
def header : Text := tx "from hrdc.usage import *\nfrom hrdc.descriptor import *\n\ndescriptor = "

/-- What stands after it. -/
def footer : Text := tx "\nif __name__ == \"__main__\":\n    compile_main(descriptor)\n"

/-- The descriptor a script hands to `compile_main`. -/
def runScript (env : Env) (t : Text) : Option Node :=
  let body := (t.drop header.length).take (t.length - header.length - footer.length)
  if t = header ++ body ++ footer then
    match eval env body with
    | some (.node n) => some n
    | _ => none
  else none

/-- The text denotes an integer with value `i`. -/
def denotes (env : Env) (t : Text) (i : Int) : Bool :=
  match eval env t with
  | some (.val v) => v.toInt == i
  | _ => false

/-! ## Equal descriptors

Up to the way integers are written: `desktop.X` and `0x10030` are the same usage. -/

/-- The same usage, or none in both. -/
def sameUsage (a b : Option PyVal) : Prop := a.map PyVal.toInt = b.map PyVal.toInt

/-- The same usages in the same form. -/
def sameArray : Option NamedArray → Option NamedArray → Prop
  | none, none => True
  | some (.list l), some (.list m) => l.map PyVal.toInt = m.map PyVal.toInt
  | some (.range r), some (.range s) => r.min.toInt = s.min.toInt ∧ r.max.toInt = s.max.toInt
  | _, _ => False

/-- Values with equal attributes. -/
structure SameValue (v w : Value) : Prop where
  way : v.way = w.way
  flags : v.flags.toInt = w.flags.toInt
  given : usageGiven v.usage = usageGiven w.usage
  usage : usageGiven v.usage = true → sameUsage v.usage w.usage
  size : v.size = w.size
  alignment : v.alignment = w.alignment
  logicalMin : v.logicalMin = w.logicalMin
  logicalMax : v.logicalMax = w.logicalMax
  physicalMin : v.physicalMin = w.physicalMin
  physicalMax : v.physicalMax = w.physicalMax
  namedArray : sameArray v.namedArray w.namedArray
  unit : v.unit.toInt = w.unit.toInt
  unitExponent : v.unitExponent = w.unitExponent
  designator : v.designator = w.designator
  string : v.string = w.string
  count : v.count = w.count

mutual
/-- Descriptors with the same structure and equal attributes. -/
def Same : Node → Node → Prop
  | .value v, .value w => SameValue v w
  | .align w b, .align w' b' => w = w' ∧ b = b'
  | .padding w s, .padding w' s' => w = w' ∧ s = s'
  | .report i ms, .report j ns => i = j ∧ SameL ms ns
  | .top ms, .top ns => SameL ms ns
  | .coll k u ms, .coll l t ns => k.toInt = l.toInt ∧ sameUsage u t ∧ SameL ms ns
  | _, _ => False
/-- Member by member. -/
def SameL : List Node → List Node → Prop
  | [], [] => True
  | m :: ms, n :: ns => Same m n ∧ SameL ms ns
  | _, _ => False
end

end Hrdc.Spec.Script
