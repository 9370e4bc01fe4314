import Verif.Proofs.Authored
/-!
# C44: scripts of descriptors written by hand
-/
namespace Hrdc
open Spec Extractor Spec.Script

/-- **C44, descriptors written by hand, exactly.** A script is printed for every descriptor that a program
constructs from integers and the constants of the library, each in its place, without empty named arrays.  It
runs exactly when all its elements are `Printable`: no usage with one of the four stray names, no unit printed
`Velocity`, no collection kind that is an integer.  It rebuilds the descriptor exactly when they are `Complete`
as well: no value has both a named array and bounds of its own. -/
theorem C44_authored_exact (reg : Registry) (hreg : Imported reg) (n : Node) (hc : isContainer n = true)
    (h : ∀ t ∈ tokens n, Authored t) :
    ∃ t, Dumper.dump reg n = .ok t ∧
      ((runScript UsageTable.lookup t).isSome = true ↔ ∀ tk ∈ tokens n, Printable reg tk) ∧
      (Rebuilds UsageTable.lookup reg n t ↔ ∀ tk ∈ tokens n, Printable reg tk ∧ Complete tk) := by
  obtain ⟨t, ht⟩ := authored_written (reg := reg) n 0 h
  obtain ⟨b, rfl, hb⟩ := dump_container hc ht
  have hbad : (runScript UsageTable.lookup (header ++ b ++ footer)).isSome = true → ∀ tk ∈ tokens n, Printable reg tk := by
    intro hr tk htk
    refine Classical.byContradiction (fun hl => ?_)
    obtain ⟨s, k, h1, h2, h3⟩ := unprintable_stuck (h tk htk) hl
    rw [runScript_body, stuck_inside h2 h3 (hb tk htk s h1)] at hr
    simp at hr
  have hgood : (∀ tk ∈ tokens n, Printable reg tk) → ∃ m, runScript UsageTable.lookup (header ++ b ++ footer) = some m ∧
      Same (bareTree n) m := by
    intro hp
    obtain ⟨t, m, h1, h2, h3⟩ := dump_rebuilt UsageTable.lookup reg (bareTree n) ((bareTree_container n).trans hc)
      (authored_writable hreg n h hp)
    have h1' : Dumper.dump reg n = .ok t := (bareTree_written reg n 0).symm.trans h1
    have : Dumper.dump reg n = .ok (header ++ b ++ footer) := ht
    rw [h1'] at this
    obtain rfl := Except.ok.inj this
    exact ⟨m, h2, h3⟩
  refine ⟨_, ht, ⟨hbad, fun hp => ?_⟩, ⟨?_, fun he => ?_⟩⟩
  · obtain ⟨m, hm, -⟩ := hgood hp
    rw [hm]; rfl
  · rintro ⟨m, hm, hs, -⟩ tk htk
    have hp := hbad (by rw [hm]; rfl)
    obtain ⟨m', hm', hs'⟩ := hgood hp
    rw [hm] at hm'
    obtain rfl := Option.some.inj hm'
    exact ⟨hp tk htk, bareTree_complete n m hs' hs tk htk⟩
  · obtain ⟨m, hm, hs⟩ := hgood (fun tk htk => (he tk htk).1)
    rw [bareTree_id n (fun tk htk => (he tk htk).2)] at hs
    refine ⟨m, hm, hs, fun reg' f opt hf => (same_bytes reg reg' hs ?_ f hf opt).symm⟩
    intro k u hku
    exact (kind_read (h _ hku).1 (he _ hku).1.1).2

/-! ## Cases -/

namespace AuthoredCase

/-- A constant of a usage module. -/
def const (m a : Text) : UsageC := (UsageTable.lookup m a).getD (Button 0)

/-- A field with a constant for flags and one for the unit. -/
def field : ValueArgs := {
  way := .input, usage := some (.usage (const (tx "desktop") (tx "X"))), size := 8
  flags := .named (tx "Relative") 4, logicalMin := some (-127), logicalMax := some 127, unit := .named (tx "Inch") 0x13 }

/-- A field with a named array. -/
def selector : ValueArgs := {
  way := .input, usage := none, size := 4
  namedArray := some (.list [.usage (Button 1), .int 0x10038, .usage (Button 200)]), count := 2 }

/-- A named array, and bounds as well. -/
def bounded : ValueArgs := { selector with physicalMin := some 5, physicalMax := some 9 }

/-- The value, if the constructor accepts. -/
def made (a : ValueArgs) : Value := match Value.new a with | .ok v => v | .error _ => default

def tree (kind : PyVal) (a : ValueArgs) : Node :=
  .coll kind (some (.usage (const (tx "desktop") (tx "Mouse")))) [.value (made field), .report 2 [.value (made a), .align .input 8]]

def kind1 : PyVal := .named (tx "Application") 1

theorem published : Published (const (tx "desktop") (tx "X")) ∧ Published (const (tx "desktop") (tx "Mouse")) :=
  ⟨.inl ⟨tx "desktop", tx "X", by decide +kernel⟩, .inl ⟨tx "desktop", tx "Mouse", by decide +kernel⟩⟩

theorem authored (kind : PyVal) (hk : AmongConsts collAttrs kind) (a : ValueArgs) (ha : a = selector ∨ a = bounded) :
    ∀ t ∈ tokens (tree kind a), Authored t := by
  have h1 : Value.new field = .ok (made field) := by decide +kernel
  have h2 : Value.new a = .ok (made a) := by rcases ha with rfl | rfl <;> decide +kernel
  have e2 : (made a).usage = none ∧ (made a).flags = .int 0 ∧ (made a).unit = .int 0 ∧
      (made a).namedArray = some (.list [.usage (Button 1), .int 0x10038, .usage (Button 200)]) := by
    rcases ha with rfl | rfl <;> decide +kernel
  intro t ht
  simp only [tree, tokens, tokensL, List.cons_append, List.nil_append, List.append_nil, List.mem_cons, List.not_mem_nil,
    or_false] at ht
  rcases ht with rfl | rfl | rfl | rfl | rfl | rfl | rfl
  · refine ⟨hk, fun x hx => .inr ⟨_, (Option.some.inj hx).symm, published.2⟩⟩
  · refine ⟨⟨_, h1⟩, fun u hu => ?_, .inr ⟨(tx "Relative", 4), by decide +kernel, by decide +kernel⟩, ?_, ?_,
      .inr ⟨(tx "Inch", 0x13), by decide +kernel, by decide +kernel⟩⟩
    · have : (made field).usage = some (.usage (const (tx "desktop") (tx "X"))) := by decide +kernel
      rw [this] at hu
      exact .inr ⟨_, (Option.some.inj hu).symm, published.1⟩
    · have : (made field).namedArray = none := by decide +kernel
      simp [this]
    · have : (made field).namedArray = none := by decide +kernel
      simp [this, arrayParts]
  · trivial
  · obtain ⟨e1, e2, e3, e4⟩ := e2
    refine ⟨⟨_, h2⟩, ?_, .inl ⟨_, e2⟩, ?_, ?_, .inl ⟨_, e3⟩⟩
    · simp [e1]
    · rw [e4]
      rintro b hb
      obtain rfl := Option.some.inj hb
      decide
    · rw [e4]
      intro u hu
      simp only [arrayParts, List.mem_cons, List.not_mem_nil, or_false] at hu
      rcases hu with rfl | rfl | rfl
      · exact .inr ⟨_, rfl, .inr ⟨1, .inl rfl⟩⟩
      · exact .inl ⟨_, rfl⟩
      · exact .inr ⟨_, rfl, .inr ⟨200, .inl rfl⟩⟩
  · trivial
  · trivial
  · trivial

theorem kind_ok : AmongConsts collAttrs kind1 := .inr ⟨(tx "Application", 1), by decide +kernel, rfl⟩

theorem printable (reg : Registry) (a : ValueArgs) (ha : a = selector ∨ a = bounded) :
    ∀ t ∈ tokens (tree kind1 a), Printable reg t := by
  have e2 : (made a).usage = none ∧ (made a).unit = .int 0 ∧
      (made a).namedArray = some (.list [.usage (Button 1), .int 0x10038, .usage (Button 200)]) := by
    rcases ha with rfl | rfl <;> decide +kernel
  have e1 : (made field).usage = some (.usage (const (tx "desktop") (tx "X"))) ∧ (made field).namedArray = none ∧
      (made field).unit.str ≠ tx "Velocity" := by decide +kernel
  intro t ht
  simp only [tree, tokens, tokensL, List.cons_append, List.nil_append, List.append_nil, List.mem_cons, List.not_mem_nil,
    or_false] at ht
  rcases ht with rfl | rfl | rfl | rfl | rfl | rfl | rfl
  · refine ⟨by simp [kind1], fun x hx => ?_⟩
    obtain rfl := Option.some.inj hx
    show (const (tx "desktop") (tx "Mouse")).name ∉ strayUsages
    decide +kernel
  · obtain ⟨f1, f2, f3⟩ := e1
    refine ⟨fun u hu _ => ?_, by simp [f2, arrayParts], f3⟩
    rw [f1] at hu
    obtain rfl := Option.some.inj hu
    show (const (tx "desktop") (tx "X")).name ∉ strayUsages
    decide +kernel
  · trivial
  · obtain ⟨f1, f2, f3⟩ := e2
    refine ⟨by simp [f1], ?_, by rw [f2]; decide +kernel⟩
    rw [f3]
    have : (arrayParts (some (.list [.usage (Button 1), .int 0x10038, .usage (Button 200)]))).all
      (fun u => !(strayUsages.contains u.str)) = true := by decide +kernel
    intro u hu
    simpa using List.all_eq_true.mp this u hu
  · trivial
  · trivial
  · trivial

theorem complete : ∀ t ∈ tokens (tree kind1 selector), Complete t := by
  intro t ht
  simp only [tree, tokens, tokensL, List.cons_append, List.nil_append, List.append_nil, List.mem_cons, List.not_mem_nil,
    or_false] at ht
  rcases ht with rfl | rfl | rfl | rfl | rfl | rfl | rfl
  · trivial
  · exact fun h => absurd (by decide +kernel) h
  · trivial
  · exact fun _ => by decide +kernel
  · trivial
  · trivial
  · trivial

/-- A script that rebuilds its descriptor. -/
example (reg : Registry) (hreg : Imported reg) :
    ∃ t, Dumper.dump reg (tree kind1 selector) = .ok t ∧ Rebuilds UsageTable.lookup reg (tree kind1 selector) t := by
  obtain ⟨t, h1, -, h2⟩ := C44_authored_exact reg hreg (tree kind1 selector) rfl (authored _ kind_ok _ (.inl rfl))
  exact ⟨t, h1, h2.mpr (fun tk htk => ⟨printable reg _ (.inl rfl) tk htk, complete tk htk⟩)⟩

/-- The value with an empty named array. -/
def emptied : Node := .top [.value (made {
  way := .input, usage := none, size := 4, logicalMin := some 0, logicalMax := some 1, namedArray := some (.list []) })]

end AuthoredCase

open AuthoredCase in
/-- A named array and physical bounds: the script runs, and the bounds are lost. -/
theorem C44_bounds_breaks (reg : Registry) (hreg : Imported reg) :
    ∃ t, Dumper.dump reg (tree kind1 bounded) = .ok t ∧ (runScript UsageTable.lookup t).isSome = true ∧
      ¬ Rebuilds UsageTable.lookup reg (tree kind1 bounded) t := by
  obtain ⟨t, h1, h2, h3⟩ := C44_authored_exact reg hreg (tree kind1 bounded) rfl (authored _ kind_ok _ (.inr rfl))
  refine ⟨t, h1, h2.mpr (printable reg _ (.inr rfl)), fun h => ?_⟩
  have := (h3.mp h (.leaf (.value (made bounded))) (by simp [tree, tokens, tokensL])).2
  have hn : (made bounded).namedArray ≠ none := by decide +kernel
  exact absurd (this hn) (by decide +kernel)

open AuthoredCase in
/-- A collection whose kind is the integer 1: the script does not run. -/
theorem C44_intkind_breaks (reg : Registry) (hreg : Imported reg) :
    ∃ t, Dumper.dump reg (tree (.int 1) selector) = .ok t ∧ runScript UsageTable.lookup t = none := by
  obtain ⟨t, h1, h2, -⟩ := C44_authored_exact reg hreg (tree (.int 1) selector) rfl
    (authored _ (.inl ⟨1, rfl⟩) _ (.inl rfl))
  refine ⟨t, h1, ?_⟩
  cases hr : runScript UsageTable.lookup t with
  | none => rfl
  | some m =>
    have := h2.mp (by rw [hr]; rfl) (.enter (.int 1) _) (by simp only [tree, tokens]; exact List.mem_cons_self)
    exact absurd rfl (this.1 1)

open AuthoredCase in
/-- An empty named array: the bounds are not printed, and the constructor raises. -/
theorem C44_empty_breaks (reg : Registry) :
    ∃ t, Dumper.dump reg emptied = .ok t ∧ runScript UsageTable.lookup t = none := by
  have h : Dumper.dump reg emptied = Dumper.dump [] emptied := rfl
  rw [h]
  have : (match Dumper.dump [] emptied with
    | .ok t => (runScript UsageTable.lookup t).isNone
    | .error _ => false) = true := by decide +kernel
  cases hd : Dumper.dump [] emptied with
  | error e => rw [hd] at this; simp at this
  | ok t =>
    rw [hd] at this
    exact ⟨t, rfl, by simpa using this⟩

end Hrdc
