import Verif.Spec.Hid
import Verif.Model.Descriptor
/-!
# Specification: documents decompiled together

What a document must be like for the tree of two documents to be the two trees, by their items only.
-/
namespace Hrdc
namespace Spec

/-- The globals that the HID meaning of an item refers to: a collection takes the page of its usage; a
constant item has a size, a count and a report; another data item has everything. -/
def refersTo (k : SItem) (c : Cls) : Bool :=
  match k.1 with
  | .collection => c == .usagePage
  | .input | .output | .feature =>
    [.reportSize, .reportCount, .reportID].contains c ||
      (!bitSet k.2 0 && [.usagePage, .logMin, .logMax, .physMin, .physMax, .unit, .unitExp].contains c)
  | _ => false

/-- The stream gives `c` a value before the first item that refers to it. -/
def GivenFirst (c : Cls) : List SItem → Prop
  | [] => True
  | k :: ks => k.1 = c ∨ (refersTo k c = false ∧ GivenFirst c ks)

instance GivenFirst.dec (c : Cls) : (ks : List SItem) → Decidable (GivenFirst c ks)
  | [] => isTrue trivial
  | k :: ks =>
    have := GivenFirst.dec c ks
    inferInstanceAs (Decidable (k.1 = c ∨ (refersTo k c = false ∧ GivenFirst c ks)))

/-- Nothing the second stream refers to comes from the first: a global set in the first is set in the
second before it is referred to. -/
def Independent (ks ks' : List SItem) : Prop :=
  ∀ k ∈ ks, k.1.kind = .global → GivenFirst k.1 ks'

instance (ks ks' : List SItem) : Decidable (Independent ks ks') := by
  unfold Independent; exact inferInstance

/-- Collections opened minus collections closed. -/
def netOpen : List SItem → Int
  | [] => 0
  | k :: ks => (if k.1 = .collection then 1 else if k.1 = .endCollection then -1 else 0) + netOpen ks

/-- The stream ends where its last collection is closed. -/
def Whole (ks : List SItem) : Prop :=
  netOpen ks = 0 ∧ ks.getLast?.map (·.1) = some Cls.endCollection

instance (ks : List SItem) : Decidable (Whole ks) := by unfold Whole; exact inferInstance

/-- The members of two descriptors one behind the other.  If the first ends in the report with which the
second begins, these are one report. -/
def seam (a b : List Node) : List Node :=
  match a.getLast?, b with
  | some (.report i ms), .report j ms' :: r =>
    if i = j then a.dropLast ++ .report i (ms ++ ms') :: r else a ++ b
  | _, _ => a ++ b

end Spec
end Hrdc
