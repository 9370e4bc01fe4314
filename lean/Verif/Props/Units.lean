import Verif.Spec.Units
import Verif.Props.Usages
/-!
# C78: units mean to HID what they are called
-/
namespace Hrdc
open Spec

/-- **C78.** A unit composed from a system and dimensions is read by a host as the product of the base
units of the system to these powers. -/
theorem C78_composed (system : Nat) (h1 : 1 ≤ system) (h4 : system ≤ 4) (a b c d e f : Int) (v : Nat)
    (h : unitExpr system [(1, a), (2, b), (3, c), (4, d), (5, e), (6, f)] = some v) :
    Units.reads v = some (Units.product system [a, b, c, d, e, f]) := by
  obtain ⟨h0, hk, -⟩ := C49_unit_packing system (by omega) _ v h (by simp) (by simp)
  have k : ∀ p ∈ [(1, a), (2, b), (3, c), (4, d), (5, e), (6, f)],
      (if v / 16 ^ p.1 % 16 < 8 then ((v / 16 ^ p.1 % 16 : Nat) : Int) else ((v / 16 ^ p.1 % 16 : Nat) : Int) - 16) = p.2 :=
    fun p hp => hk p hp
  simp only [List.mem_cons, List.not_mem_nil, or_false, forall_eq_or_imp, forall_eq] at k
  obtain ⟨k1, k2, k3, k4, k5, k6⟩ := k
  unfold Units.reads
  rw [h0, if_pos ⟨h1, h4⟩]
  simp only [List.map_cons, List.map_nil, k1, k2, k3, k4, k5, k6]

/-- **C78.** A product of dimensions can be composed exactly when all exponents are from -8 to 7. -/
theorem C78_composable (system : Nat) (l : List (Nat × Int)) :
    (unitExpr system l).isSome ↔ ∀ p ∈ l, -8 ≤ p.2 ∧ p.2 ≤ 7 := by
  induction l with
  | nil => simp [unitExpr]
  | cons p l ih =>
    obtain ⟨k, e⟩ := p
    have := C49_nibble_range e k
    simp only [List.mem_cons, forall_eq_or_imp, ← ih, ← this]
    simp only [unitExpr]
    cases Item.unitNibble e k <;> cases unitExpr system l <;> simp

/-- **C78 (partial).** The value an item shows as a named unit is read by hosts as the unit of this
name.  Missing, and false of the code: Second, Ampere and Candela, see `C78_no_system`. -/
theorem C78_named_partial (reg : Registry) (v w : Int) (n : Text) (i : Item) (h : Item.new reg .unit (.int v) = .ok i)
    (hn : i.val = .named n w) (ho : n ∉ [tx "Second", tx "Ampere", tx "Candela"]) :
    Units.reads v.toNat = Units.named.lookup n ∧ (Units.named.lookup n).isSome := by
  have key : Item.usualUnits.all (fun p => [tx "Second", tx "Ampere", tx "Candela"].contains p.2 ||
      (Units.reads p.1.toNat == Units.named.lookup p.2 && (Units.named.lookup p.2).isSome)) = true := by decide +kernel
  simp only [Item.new, Item.baseInit] at h
  split at h
  · cases h
    simp only [Item.usualUnit] at hn
    split at hn
    · rename_i x m hf
      cases hn
      have h1 := List.find?_some hf
      simp only [PyVal.toInt, beq_iff_eq] at h1
      subst h1
      have := List.all_eq_true.mp key _ (List.mem_of_find?_eq_some hf)
      simp only [Bool.or_eq_true, Bool.and_eq_true, beq_iff_eq, List.contains_iff_mem] at this
      exact this.resolve_left ho
    · cases hn
  · cases h

/-- `Unit.Second`, `Unit.Ampere` and `Unit.Candela` have no system: for HID they are no units. -/
theorem C78_no_system : [(0x1000, tx "Second"), (0x100000, tx "Ampere"), (0x1000000, tx "Candela")].all (fun p =>
    Item.usualUnits.contains ((p.1 : Nat), p.2) && Units.reads p.1 == none) = true := by decide +kernel

/-- The seconds of SI are not shown as Second. -/
theorem C78_second_unnamed : Units.reads 0x1001 = some [(tx "Second", 1)] ∧
    ∀ reg, Item.new reg .unit (.int 0x1001) = .ok ⟨.unit, .int 0x1001⟩ :=
  ⟨by decide +kernel, fun _ => by rfl⟩

example : unitExpr 1 [(1, 2), (2, 1), (3, -3), (4, 0), (5, -1), (6, 0)] = some 0xf0d121 ∧
    Units.product 1 [2, 1, -3, 0, -1, 0] =
      [(tx "Centimeter", 2), (tx "Gram", 1), (tx "Second", -3), (tx "Ampere", -1)] := by decide +kernel

end Hrdc
