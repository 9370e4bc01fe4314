import Verif.Proofs.UsageTable
/-!
# C50 and C51: unit names and the usage table
-/
namespace Hrdc
open Spec.Script

/-! ## C51 -/

/-- Usages created while programs run: buttons and ordinals. -/
def Created (extra : List UsageC) : Prop :=
  ∀ u ∈ extra, ∃ n : Int, 0 ≤ n ∧ n < 65536 ∧ (u = Button n ∨ u = Ordinal n)

/-- Pages of the published usage tables the modules stand for. -/
def tablePage : List (Text × Int) := [
  (tx "desktop", 0x1), (tx "simulation", 0x2), (tx "vr", 0x3), (tx "game", 0x5), (tx "device", 0x6),
  (tx "keyboard", 0x7), (tx "led", 0x8), (tx "telephony", 0xb), (tx "consumer", 0xc),
  (tx "digitizers", 0xd), (tx "pid", 0xf), (tx "sensors", 0x20), (tx "lighting", 0x59), (tx "camera", 0x90)]

theorem pages_agree : UsageTable.pageNo.all (fun p =>
    tablePage.find? (fun q => q.1 == p.1) == some (p.1, (p.2 : Int)) && decide (p.2 ≠ 0 ∧ p.2 ≠ 9 ∧ p.2 ≠ 10)) = true := by
  decide +kernel

theorem row_page {m : Text} {r : UsageTable.Row} (h : UsageTable.Has m r) :
    tablePage.find? (fun q => q.1 == m) = some (m, (UsageTable.pageOf r.value : Int)) ∧
    r.value / 65536 ≠ 0 ∧ r.value / 65536 ≠ 9 ∧ r.value / 65536 ≠ 10 := by
  have := List.all_eq_true.mp pages_agree _ h.page
  simp only [Bool.and_eq_true, beq_iff_eq, decide_eq_true_eq] at this
  refine ⟨this.1, ?_⟩
  have h2 := this.2
  unfold UsageTable.pageOf at h2
  split at h2
  · rename_i he; rw [he]; decide
  · exact h2

/-- **C51.** No two constants of the modules `from hrdc.usage import *` binds have the same value. -/
theorem C51_distinct (m m' a a' : Text) (u u' : UsageC) (h : UsageTable.lookup m a = some u)
    (h' : UsageTable.lookup m' a' = some u') (hv : u.value = u'.value) : m = m' ∧ a = a' := by
  obtain ⟨r, hr, rfl, rfl⟩ := (UsageTable.lookup_iff _ _ _).mp h
  obtain ⟨s, hs, rfl, rfl⟩ := (UsageTable.lookup_iff _ _ _).mp h'
  have hv : (r.value : Int) = s.value := hv
  obtain ⟨h1, h2⟩ := hr.unique hs (by omega)
  exact ⟨h1, by rw [h2]⟩

/-- What the reverse lookup knows, by value. -/
theorem known_unique (extra : List UsageC) (hx : Created extra) (u w : UsageC)
    (hu : u ∈ extra ++ UsageTable.registry) (hw : w ∈ extra ++ UsageTable.registry) (h : u.value = w.value) :
    u = w ∧ u.value / 65536 ≠ 0 := by
  have cases3 : ∀ u ∈ extra ++ UsageTable.registry, (∃ n : Int, 0 ≤ n ∧ n < 65536 ∧ (u = Button n ∨ u = Ordinal n)) ∨
      ∃ m r, UsageTable.Has m r ∧ r.usage = u := by
    intro u hu
    rcases List.mem_append.mp hu with h | h
    · exact .inl (hx u h)
    · rcases (UsageTable.mem_registered u).mp (by simpa [UsageTable.registry] using h) with ⟨n, hn, e⟩ | ⟨n, hn, e⟩ | h
      · exact .inl ⟨n, by omega, by omega, .inl e⟩
      · exact .inl ⟨n, by omega, by omega, .inr e⟩
      · exact .inr h
  rcases cases3 u hu with ⟨n, h0, h1, e⟩ | ⟨m, r, hr, e⟩ <;> rcases cases3 w hw with ⟨k, k0, k1, f⟩ | ⟨m', s, hs, f⟩
  · rcases e with rfl | rfl <;> rcases f with rfl | rfl <;> simp only [Button, Ordinal] at h ⊢
    · have : n = k := by omega
      subst this
      exact ⟨rfl, by omega⟩
    · omega
    · omega
    · have : n = k := by omega
      subst this
      exact ⟨rfl, by omega⟩
  · have := row_page hs
    rw [← f] at h
    rcases e with rfl | rfl <;> simp only [Button, Ordinal, UsageTable.Row.usage] at h <;> omega
  · have := row_page hr
    rw [← e] at h
    rcases f with rfl | rfl <;> simp only [Button, Ordinal, UsageTable.Row.usage] at h <;> omega
  · rw [← e, ← f] at h ⊢
    have h : (r.value : Int) = s.value := h
    obtain ⟨-, h2⟩ := hr.unique hs (by omega)
    have := row_page hr
    refine ⟨by rw [h2], ?_⟩
    show (r.value : Int) / 65536 ≠ 0
    omega

/-- **C51.** Once the usage modules are imported, and whatever buttons and ordinals were created since,
looking up the value of a usage gives this usage. -/
theorem C51_lookup (extra : List UsageC) (hx : Created extra) (u : UsageC)
    (hu : u ∈ extra ++ UsageTable.registry) : Usage.lookup (extra ++ UsageTable.registry) (.int u.value) = u := by
  have h0 := (known_unique extra hx u u hu hu rfl).2
  simp only [Usage.lookup, if_pos h0]
  cases hg : Registry.get (extra ++ UsageTable.registry) u.value with
  | none =>
    have := List.find?_eq_none.mp hg u hu
    simp at this
  | some w =>
    have h1 := List.find?_some hg
    simp only [beq_iff_eq] at h1
    exact (known_unique extra hx w u (List.mem_of_find?_eq_some hg) hu h1).1

/-- **C51.** Every constant of the modules is known to the lookup. -/
theorem C51_registered (m a : Text) (u : UsageC) (h : UsageTable.lookup m a = some u) :
    u ∈ UsageTable.registry := by
  obtain ⟨r, hr, -, e⟩ := (UsageTable.lookup_iff _ _ _).mp h
  have := (UsageTable.mem_registered u).mpr (.inr (.inr ⟨m, r, hr, e⟩))
  simpa [UsageTable.registry] using this

/-- Beyond 65535, buttons take the values of ordinals. -/
theorem C51_button_overflow : (Button 65536).value = (Ordinal 0).value ∧ Button 65536 ≠ Ordinal 0 := by decide +kernel

/-- **C51 (partial).** The name of a usage, read as Python in a script, is this usage.  Missing, and
false of the code: four constants, see `C51_misread`. -/
theorem C51_names_partial (extra : List UsageC) (hx : ∀ u ∈ extra, ∃ n : Int, u = Button n ∨ u = Ordinal n)
    (u : UsageC) (hu : u ∈ extra ++ UsageTable.registry)
    (hm : u.value ∉ [0x10009, 0x1003d, 0x1003e, 0x200b2]) :
    eval UsageTable.lookup u.name = some (.val (.usage u)) := by
  have hB : ∀ n : Int, u = Button n ∨ u = Ordinal n → eval UsageTable.lookup u.name = some (.val (.usage u)) := by
    rintro n (rfl | rfl)
    · exact eval_button _ n
    · exact eval_ordinal _ n
  rcases List.mem_append.mp hu with h | h
  · obtain ⟨n, hn⟩ := hx u h
    exact hB n hn
  · rcases (UsageTable.mem_registered u).mp (by simpa [UsageTable.registry] using h) with ⟨n, -, e⟩ | ⟨n, -, e⟩ | ⟨m, r, hr, e⟩
    · exact hB n (.inl e)
    · exact hB n (.inr e)
    · subst e
      refine eval_table m r hr ?_
      simp only [misread, UsageTable.Row.usage, List.mem_cons, List.not_mem_nil, or_false, not_or] at hm ⊢
      omega

/-- The names of `desktop.TabletPCSystem`, `desktop.Start`, `desktop.Select` and
`simulation.AntiTorqueControl` are not attributes of their modules. -/
theorem C51_misread : [(tx "desktop", tx "TabletPCSystem"), (tx "desktop", tx "Start"), (tx "desktop", tx "Select"),
    (tx "simulation", tx "AntiTorqueControl")].all (fun p =>
      match UsageTable.lookup p.1 p.2 with
      | some u => (eval UsageTable.lookup u.name).isNone
      | none => false) = true := by decide +kernel

/-- **C51 (partial).** The constants of a module lie on the usage page of that module.  Missing, and
false of the code: `desktop.SystemDisplayRotationLockButton`, see `C51_wrong_page`. -/
theorem C51_pages_partial (m a : Text) (u : UsageC) (h : UsageTable.lookup m a = some u)
    (hd : ¬ (m = tx "desktop" ∧ a = tx "SystemDisplayRotationLockButton")) :
    (m, u.value / 65536) ∈ tablePage := by
  obtain ⟨r, hr, rfl, rfl⟩ := (UsageTable.lookup_iff _ _ _).mp h
  have hp := (row_page hr).1
  have hv : r.value ≠ 0x1000c9 := by
    intro he
    apply hd
    have h' : UsageTable.Has (chars "desktop") ⟨chars "SystemDisplayRotationLockButton",
        chars "desktop.SystemDisplayRotationLockButton", 0x1000c9, [.OOC]⟩ :=
      ⟨(_, UsageTable.desktop), by simp [UsageTable.modules], rfl, by simp [UsageTable.desktop]⟩
    obtain ⟨rfl, rfl⟩ := hr.unique h' he
    exact ⟨by decide +kernel, by decide +kernel⟩
  have := List.mem_of_find?_eq_some hp
  rw [UsageTable.pageOf, if_neg hv] at this
  simpa [UsageTable.Row.usage] using this

/-- This constant should be 0x100c9. -/
theorem C51_wrong_page : (UsageTable.lookup (tx "desktop") (tx "SystemDisplayRotationLockButton")).map UsageC.value =
    some 0x1000c9 := by decide +kernel

example : UsageTable.lookup (tx "desktop") (tx "Mouse") = some ⟨tx "desktop.Mouse", 0x10002, [.CA]⟩ := by
  decide +kernel

example : Created [Button 300, Ordinal 5] := by
  intro u hu
  simp only [List.mem_cons, List.not_mem_nil, or_false] at hu
  rcases hu with rfl | rfl
  · exact ⟨300, by decide, by decide, .inl rfl⟩
  · exact ⟨5, by decide, by decide, .inr rfl⟩

/-! ## C50 -/

/-- Text without letters is not changed. -/
theorem prefixWords_plain (p t : Text) (b : Bool) (h : t.all (fun c => !Dumper.letter c) = true) :
    Dumper.prefixWords p b t = t := by
  induction t generalizing b with
  | nil => rfl
  | cons c r ih =>
    simp only [List.all_cons, Bool.and_eq_true, Bool.not_eq_true'] at h
    simp only [Dumper.prefixWords, h.1, Bool.false_eq_true, if_false]
    rw [ih _ h.2]

theorem hexDigit_letter (n : Nat) (h : n < 10) : Dumper.letter (hexDigit n) = false := by
  have : ∀ k : Fin 10, Dumper.letter (hexDigit k.val) = false := by decide
  exact this ⟨n, h⟩

theorem decNat_plain (n : Nat) : (decNat n).all (fun c => !Dumper.letter c) = true := by
  induction n using Nat.strongRecOn with
  | _ n ih =>
    rw [decNat]
    split
    · rename_i h; simp [hexDigit_letter n h]
    · rename_i h
      rw [List.all_append, ih _ (by omega)]
      simp [hexDigit_letter (n % 10) (by omega)]

theorem pyStr_plain (i : Int) : (pyStr i).all (fun c => !Dumper.letter c) = true := by
  unfold pyStr
  split
  · rw [List.all_cons, decNat_plain]; rfl
  · exact decNat_plain _

theorem units_named : Item.usualUnits.all (fun p => p.1 == 0xf011 ||
    denotes (fun _ _ => none) (Dumper.prefixWords (tx "Unit.") false p.2) p.1) = true := by decide +kernel

theorem unit_denotes (env : Env) (v : Int) (hv : v ≠ 0xf011) :
    denotes env (Dumper.prefixWords (tx "Unit.") false (Item.usualUnit (.int v)).str) v = true := by
  unfold Item.usualUnit
  cases hf : Item.usualUnits.find? (fun p => p.1 == (PyVal.int v).toInt) with
  | none =>
    simp only [PyVal.str]
    rw [prefixWords_plain _ _ _ (pyStr_plain v)]
    exact (denotes_iff _ _ _).mpr ⟨_, eval_pyStr env v, rfl⟩
  | some p =>
    have h1 := List.find?_some hf
    simp only [PyVal.toInt, beq_iff_eq] at h1
    have h2 := List.all_eq_true.mp units_named p (List.mem_of_find?_eq_some hf)
    simp only [h1, Bool.or_eq_true, beq_iff_eq, hv, false_or] at h2
    exact denotes_mono env _ _ h2

/-- **C50 (partial).** A Unit item keeps its value, and what a script writes for a unit is an attribute
of `Unit` of that value, or the number itself.  Missing, and false of the code: 0xf011, see
`C50_velocity`. -/
theorem C50_unit_partial (reg : Registry) (env : Env) (v : Int) (h0 : 0 ≤ v) :
    ∃ i, Item.new reg .unit (.int v) = .ok i ∧ i.ival = v ∧
      (v ≠ 0xf011 → denotes env (Dumper.prefixWords (tx "Unit.") false i.val.str) v = true) := by
  have hi : (Item.usualUnit (.int v)).toInt = v := by
    unfold Item.usualUnit
    cases hf : Item.usualUnits.find? (fun p => p.1 == (PyVal.int v).toInt) with
    | none => rfl
    | some p =>
      have h1 := List.find?_some hf
      rw [beq_iff_eq] at h1
      exact h1
  refine ⟨⟨.unit, Item.usualUnit (.int v)⟩, ?_, hi, unit_denotes env v⟩
  simp only [Item.new, Item.baseInit, hi]
  rw [if_pos (.inr h0)]

/-- The name written for 0xf011 is not an attribute of `Unit`. -/
theorem C50_velocity (env : Env) : (match Item.new [] .unit (.int 0xf011) with
    | .ok i => eval env (Dumper.prefixWords (tx "Unit.") false i.val.str)
    | .error _ => some .none) = none := by rfl

end Hrdc
