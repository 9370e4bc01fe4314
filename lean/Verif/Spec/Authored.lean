import Verif.Spec.Script
import Verif.Model.UsageTable
import Verif.Spec.Descriptor
/-!
# Descriptors written by hand

What a Python program can pass to the constructors when it uses integers and the constants of the library,
each in its place: `flags` from `Value`, `unit` from `Unit`, collection kinds from `Collection`, usages
from the usage modules.
-/
namespace Hrdc.Spec

/-- A constant of the usage modules, a button or an ordinal. -/
def Published (u : UsageC) : Prop :=
  (∃ m a, UsageTable.lookup m a = some u) ∨ ∃ n : Int, u = Button n ∨ u = Ordinal n

/-- A usage: an integer or such a constant. -/
def UsageLike (v : PyVal) : Prop := (∃ i, v = .int i) ∨ ∃ u, v = .usage u ∧ Published u

/-- An integer, or a constant of a table of names and values. -/
def AmongConsts (l : List (Text × Int)) (v : PyVal) : Prop := (∃ i, v = .int i) ∨ ∃ p ∈ l, v = .named p.1 p.2

/-- The constants of `Unit`, as they are printed. -/
def unitConsts : List (Text × Int) := Script.unitAttrs.map (fun p => (Script.unitName p.1, p.2))

/-- The usages a named array is made from. -/
def arrayParts : Option NamedArray → List PyVal
  | none => []
  | some (.list l) => l
  | some (.range r) => [r.min, r.max]

/-- Elements a program can construct.  A named array, if given, is not empty. -/
def Authored : Tok → Prop
  | .leaf (.value v) => (∃ a, Value.new a = .ok v) ∧ (∀ u, v.usage = some u → UsageLike u) ∧
      AmongConsts Script.valueAttrs v.flags ∧ (∀ a, v.namedArray = some a → a.len ≠ .ok 0) ∧
      (∀ u ∈ arrayParts v.namedArray, UsageLike u) ∧ AmongConsts unitConsts v.unit
  | .enter k u => AmongConsts Script.collAttrs k ∧ ∀ x, u = some x → UsageLike x
  | _ => True

/-- The four usages of the library printed with a name that is no attribute of their module. -/
def strayUsages : List Text :=
  [tx "desktop.TabletPcSystem", tx "desktop.start", tx "desktop.select", tx "simulation.TorqueControl"]

/-- The text printed for a usage that is looked up first: the name of the constant with that value, if any. -/
def lookedUp (reg : Registry) (v : PyVal) : Text := (Usage.lookup reg v).name

/-- Elements printed as Python: no usage with a stray name, no unit printed `Velocity`, and collection kinds
that are constants. -/
def Printable (reg : Registry) : Tok → Prop
  | .leaf (.value v) => (∀ u, v.usage = some u → u.truthy = true → lookedUp reg u ∉ strayUsages) ∧
      (∀ u ∈ arrayParts v.namedArray, u.str ∉ strayUsages) ∧ v.unit.str ≠ tx "Velocity"
  | .enter k u => (∀ i, k ≠ .int i) ∧ ∀ x, u = some x → lookedUp reg x ∉ strayUsages
  | _ => True

/-- Elements all of whose attributes are printed: a value with a named array has no bounds of its own. -/
def Complete : Tok → Prop
  | .leaf (.value v) => v.namedArray ≠ none → v.physicalMin = v.logicalMin ∧ v.physicalMax = none
  | _ => True

end Hrdc.Spec
