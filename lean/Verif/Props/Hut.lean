import Verif.Spec.Hut
import Verif.Props.Table
/-!
# C77: usage constants carry the numbers HID gives them
-/
namespace Hrdc
open Spec

/-- Constants whose number is not that of HID. -/
def offNumber : List (Text × Text) := [
  (tx "desktop", tx "SystemDisplayRotationLockButton"), (tx "led", tx "PlayerIndicator"),
  (tx "led", tx "Player1"), (tx "led", tx "Player2"), (tx "led", tx "Player3"), (tx "led", tx "Player4"),
  (tx "led", tx "Player5"), (tx "led", tx "Player6"), (tx "led", tx "Player7"), (tx "led", tx "Player8")]

/-- Constants of which the code and HID differ on whether they are named arrays: the events of
sensors and `sensors.DataFieldGPSSelectionMode`. -/
def offKind : List Text := [
  tx "SensorEventUnknown", tx "SensorEventStateChanged", tx "SensorEventPropertyChanged", tx "SensorEventDataUpdated",
  tx "SensorEventPollResponse", tx "SensorEventChangeSensitivity", tx "SensorEventRangeMaximumReached",
  tx "SensorEventRangeMinimumReached", tx "SensorEventHighThresholdCrossUpward", tx "SensorEventHighThresholdCrossDownward",
  tx "SensorEventLowThresholdCrossUpward", tx "SensorEventLowThresholdCrossDownward", tx "SensorEventZeroThresholdCrossUpward",
  tx "SensorEventZeroThresholdCrossDownward", tx "SensorEventPeriodExceeded", tx "SensorEventFrequencyExceeded",
  tx "SensorEventComplexTrigger", tx "DataFieldGPSSelectionMode"]

theorem numbers_ok : UsageTable.modules.all (fun p => p.2.all (fun r =>
    offNumber.contains (p.1, r.attr) || Hut.number p.1 r.attr == some r.value)) = true := by
  decide +kernel

theorem kinds_ok : UsageTable.modules.all (fun p => p.2.all (fun r =>
    (p.1 == tx "sensors" && offKind.contains r.attr) || r.kinds.contains .NAry == Hut.isNamedArray p.1 r.attr)) = true := by
  decide +kernel

theorem names_bound : Hut.pages.all (fun p => p.2.2.all (fun q => q.2.all (fun a =>
    (UsageTable.lookup p.1 a).isSome))) = true := by
  decide +kernel

theorem within_mem (a : Text) (l : List (Nat × List Text)) (n : Nat) (h : Hut.within a l = some n) :
    ∃ q ∈ l, a ∈ q.2 := by
  induction l with
  | nil => simp [Hut.within] at h
  | cons r l ih =>
    unfold Hut.within at h
    split at h
    · rename_i i hi
      obtain ⟨hl, he, -⟩ := List.findIdx?_eq_some_iff_getElem.mp hi
      refine ⟨r, List.mem_cons_self .., ?_⟩
      have := List.getElem_mem hl
      rwa [beq_iff_eq.mp he] at this
    · obtain ⟨q, hq, h'⟩ := ih h
      exact ⟨q, List.mem_cons_of_mem _ hq, h'⟩

/-- **C77 (partial).** The constant a module has under a name is the usage HID has under this name:
the number of its page in the upper 16 bits and its number in the page in the lower ones.  Missing, and
false of the code: the ten constants of `offNumber`, see `C77_off_number`. -/
theorem C77_numbers_partial (m a : Text) (u : UsageC) (h : UsageTable.lookup m a = some u) (ho : (m, a) ∉ offNumber) :
    (Hut.number m a).map (fun (n : Nat) => (n : Int)) = some u.value := by
  obtain ⟨r, ⟨p, hp, rfl, hr⟩, rfl, rfl⟩ := (UsageTable.lookup_iff _ _ _).mp h
  have := List.all_eq_true.mp (List.all_eq_true.mp numbers_ok p hp) r hr
  simp only [Bool.or_eq_true, beq_iff_eq, List.contains_iff_mem] at this
  rw [this.resolve_left ho]
  rfl

/-- **C77.** The modules have a constant for every name of the tables. -/
theorem C77_bound (m a : Text) (n : Nat) (h : Hut.number m a = some n) : ∃ u, UsageTable.lookup m a = some u := by
  unfold Hut.number at h
  split at h
  · exact absurd h (by simp)
  · rename_i p hp
    obtain ⟨k, hk, -⟩ := Option.map_eq_some_iff.mp h
    obtain ⟨q, hq, ha⟩ := within_mem _ _ _ hk
    have hm := List.find?_some hp
    have hb := List.all_eq_true.mp (List.all_eq_true.mp (List.all_eq_true.mp names_bound p (List.mem_of_find?_eq_some hp)) q hq) a ha
    rw [beq_iff_eq.mp hm] at hb
    exact Option.isSome_iff_exists.mp hb

/-- **C77 (partial).** The constants that declare named arrays are those HID declares as named arrays.
Missing, and false of the code: the constants of `offKind`, see `C77_off_kind`. -/
theorem C77_arrays_partial (m a : Text) (u : UsageC) (h : UsageTable.lookup m a = some u)
    (ho : ¬ (m = tx "sensors" ∧ a ∈ offKind)) : UKind.NAry ∈ u.kinds ↔ Hut.isNamedArray m a = true := by
  obtain ⟨r, ⟨p, hp, rfl, hr⟩, rfl, rfl⟩ := (UsageTable.lookup_iff _ _ _).mp h
  have := List.all_eq_true.mp (List.all_eq_true.mp kinds_ok p hp) r hr
  simp only [Bool.or_eq_true, Bool.and_eq_true, beq_iff_eq, List.contains_iff_mem] at this
  have := this.resolve_left ho
  rw [← this, List.contains_iff_mem]
  rfl

/-- **C77.** Button `n` is usage `n` of page 9 and ordinal `n` usage `n` of page 10, if `n` has 16 bits. -/
theorem C77_counted (n : Int) (h : 0 ≤ n) (h' : n < 65536) :
    (Button n).value / 65536 = 9 ∧ (Button n).value % 65536 = n ∧ (Ordinal n).value / 65536 = 10 ∧
      (Ordinal n).value % 65536 = n := by
  simp only [Button, Ordinal]
  omega

/-- The ten constants differ from HID: the page of the first is 0x10 and not 1, the others are in the
place of other usages of the LED page. -/
theorem C77_off_number : offNumber.map (fun p => (Hut.number p.1 p.2, (UsageTable.lookup p.1 p.2).map UsageC.value)) =
    (some 0x100c9, some 0x1000c9) ::
      (List.range 9).map (fun (i : Nat) => (some (0x80060 + i), some ((0x8004e : Int) + (i : Int)))) := by
  decide +kernel

/-- The constants of `offKind` differ from HID. -/
theorem C77_off_kind : offKind.all (fun a =>
    (UsageTable.lookup (tx "sensors") a).any (fun u => u.kinds.contains .NAry != Hut.isNamedArray (tx "sensors") a)) = true := by
  decide +kernel

/-- **C77.** The module `arcade`, which `hrdc.usage` does not import: the constants have the numbers HID gives them, and
the one named array is that of HID, but the page of all of them is the vendor page 0xff00, that of HID is 0x91. -/
theorem C77_arcade (r : UsageTable.Row) (h : r ∈ UsageTable.arcade) :
    Hut.within r.attr Hut.arcadePage = some (r.value % 65536) ∧ r.value / 65536 = 0xff00 ∧
      (UKind.NAry ∈ r.kinds ↔ r.attr = tx "WatchdogAction") := by
  have : UsageTable.arcade.all (fun r => Hut.within r.attr Hut.arcadePage == some (r.value % 65536) &&
      r.value / 65536 == 0xff00 && (r.kinds.contains .NAry == (r.attr == tx "WatchdogAction"))) = true := by
    decide +kernel
  have := List.all_eq_true.mp this r h
  simp only [Bool.and_eq_true, beq_iff_eq] at this
  obtain ⟨⟨h1, h2⟩, h3⟩ := this
  refine ⟨h1, h2, ?_⟩
  rw [← List.contains_iff_mem, h3, beq_iff_eq]

example : Hut.number (tx "desktop") (tx "Mouse") = some 0x10002 := by decide +kernel

example : Hut.number (tx "keyboard") (tx "LeftShift") = some 0x700e1 ∧
    (tx "keyboard", tx "LeftShift") ∉ offNumber := by decide +kernel

end Hrdc
