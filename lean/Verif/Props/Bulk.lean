import Verif.Spec.Bulk
import Verif.Props.Layout
import Verif.Props.Size
import Verif.Props.Bound
/-!
# C88: how large compiled descriptors are
-/
namespace Hrdc
open Spec Streamer

theorem padKeys_len (w : Way) (p : Int) : (padKeys w p).length ≤ 3 := by
  unfold padKeys
  split <;> simp

theorem valKeys_len (v : Value) : 3 ≤ (valKeys v).length ∧ (valKeys v).length ≤ 14 + (arrayUsages v.namedArray).length := by
  unfold valKeys fieldKeys
  constructor
  · split <;> simp
    all_goals omega
  · by_cases hc : constFlag v.flags = true
    · rw [if_pos hc]
      simp only [List.length_cons, List.length_nil]
      omega
    · rw [if_neg hc]
      have hu : (usageOf v.usage).toList.length ≤ 1 := by cases usageOf v.usage <;> simp
      have ho : ∀ (p : Prop) [Decidable p] (x : SItem), (if p then [x] else []).length ≤ 1 := by
        intro p _ x; split <;> simp
      have ho' : ∀ (p : Prop) [Decidable p] (x : SItem), (if p then [] else [x]).length ≤ 1 := by
        intro p _ x; split <;> simp
      have h1 := ho (wrapped v = true) (.collection, 2)
      have h2 := ho (wrapped v = true) (.endCollection, 0)
      have h3 := ho' (v.designator = 0) (.desigIndex, v.designator)
      have h4 := ho' (v.string = 0) (.strIndex, v.string)
      simp only [List.length_append, List.length_map, List.length_cons, List.length_nil]
      omega

theorem treeKeys_len (ts : List Tok) : ∀ (c : Count) (last : Int),
    (ts.map tokLeast).sum ≤ (treeKeys c last ts).length ∧ (treeKeys c last ts).length ≤ (ts.map tokMost).sum := by
  induction ts with
  | nil => intro c last; simp [treeKeys]
  | cons t ts ih =>
    intro c last
    cases t with
    | report i =>
      have := ih c i
      simp only [treeKeys, List.length_append, List.map_cons, List.sum_cons, tokLeast, tokMost]
      split <;> simp <;> omega
    | endReport =>
      have := ih c last
      simpa [treeKeys, tokLeast, tokMost] using this
    | enter k u =>
      have := ih c last
      simp only [treeKeys, List.length_cons, List.map_cons, List.sum_cons, tokLeast, tokMost]
      omega
    | leave =>
      have := ih c last
      simp only [treeKeys, List.length_cons, List.map_cons, List.sum_cons, tokLeast, tokMost]
      omega
    | leaf l =>
      have := ih (c.add last l) last
      have hp := padKeys_len l.way (padBefore (c l.way last) l)
      simp only [treeKeys, leafKeys, List.length_append, List.map_cons, List.sum_cons]
      cases l with
      | value v =>
        have hv := valKeys_len v
        simp only [tokLeast, tokMost, ownKeys]
        omega
      | align w b => simp only [tokLeast, tokMost, ownKeys, List.length_nil]; omega
      | padding w s => simp only [tokLeast, tokMost, ownKeys, List.length_nil]; omega

theorem binary_len {l : List Item} : ∀ {b : List UInt8}, Formatter.binary l = .ok b →
    l.length ≤ b.length ∧ b.length ≤ 5 * l.length := by
  induction l with
  | nil => intro b h; unfold Formatter.binary at h; simp only [Except.ok.injEq] at h; subst h; simp
  | cons i l ih =>
    intro b h
    obtain ⟨b1, b2, h1, h2, rfl⟩ := binary_ok h
    have := ih h2
    have := bytes_length h1
    simp only [List.length_append, List.length_cons]
    omega

/-- **C88, items.** The items a descriptor is compiled to, counted from the elements alone. -/
theorem C88_items (reg : Registry) (n : Node) (items : List Item) (h : compile reg n = .ok items) :
    itemsLeast n ≤ items.length ∧ items.length ≤ itemsMost n := by
  have hl : items.length = (keys items).length := by simp [keys]
  rw [hl, compile_keys h]
  exact treeKeys_len _ _ _

/-- **C88, bytes.** Without optimization a binary document has at least one and at most five bytes for each of them. -/
theorem C88_bytes (reg : Registry) (n : Node) (b : List UInt8)
    (h : Compiler.main reg .binary false n = .ok (.bytes b)) :
    (∃ items, compile reg n = .ok items ∧ items.length ≤ b.length ∧ b.length ≤ 5 * items.length) ∧
    itemsLeast n ≤ b.length ∧ b.length ≤ 5 * itemsMost n := by
  unfold Compiler.main at h
  cases hc : compile reg n with
  | error e => rw [hc] at h; simp at h
  | ok items =>
    have hi := C88_items reg n items hc
    rw [hc] at h
    simp only [Formatter.render, Bool.false_eq_true, if_false] at h
    cases hb : Formatter.binary items with
    | error e => rw [hb] at h; simp [Except.map] at h
    | ok b' =>
      rw [hb] at h
      simp only [Except.map, Except.ok.injEq, Formatter.Doc.bytes.injEq] at h
      subst h
      have := binary_len hb
      exact ⟨⟨items, rfl, this⟩, by omega, by omega⟩

/-! ## Optimized -/

theorem split_len (us : List Int) : (us.map splitCost).sum ≤ 2 * us.length := by
  induction us with
  | nil => simp
  | cons u us ih =>
    have : splitCost u ≤ 2 := by
      unfold splitCost
      repeat' split
      all_goals omega
    simp only [List.map_cons, List.sum_cons, List.length_cons]
    omega

theorem usages_len (ts : List Tok) : (ts.flatMap tokUsages).length ≤ (ts.map tokMost).sum := by
  induction ts with
  | nil => simp
  | cons t ts ih =>
    have : (tokUsages t).length ≤ tokMost t := by
      cases t with
      | leaf l =>
        cases l with
        | value v =>
          simp only [tokUsages, tokMost]
          split
          · simp
          · have : (usageOf v.usage).toList.length ≤ 1 := by cases usageOf v.usage <;> simp
            simp only [List.length_append]
            omega
        | _ => simp [tokUsages]
      | _ => simp [tokUsages, tokMost]
    simp only [List.flatMap_cons, List.length_append, List.map_cons, List.sum_cons]
    omega

/-- **C88, optimized.** With the default optimization at most seven bytes for each item. -/
theorem C88_optimized (reg : Registry) (n : Node) (b b' : List UInt8)
    (hb : Compiler.main reg .binary false n = .ok (.bytes b))
    (hb' : Compiler.main reg .binary true n = .ok (.bytes b')) : b'.length ≤ 7 * itemsMost n := by
  have h1 := C58_command_bound hb hb'
  have h2 := (C88_bytes reg n b hb).2.2
  have h3 := split_len ((tokens n).flatMap tokUsages)
  have h4 := usages_len (tokens n)
  unfold itemsMost at h2 ⊢
  omega

/-! ## Cases -/

/-- An array with everything, after a bit of padding. -/
def bulky (count : Int) : Node :=
  .coll (.int 1) (some (.int 0x10002)) [.report 3 [.padding .input 1, .value
    { way := .input, flags := .int 0, usage := some (.int 0x10030), size := 8, alignment := 8, logicalMin := some 1,
      logicalMax := some 3, physicalMin := none, physicalMax := none,
      namedArray := some (.list [.int 0x70004, .int 0x70006, .int 0x70009]), unit := .int 0, unitExponent := 0,
      designator := 5, string := 6, count := count }]]

/-- A constant field, where alignment takes nothing. -/
def meagre : Node :=
  .coll (.int 1) (some (.int 0x10002)) [.align .input 8, .value
    { way := .input, flags := .int 1, usage := none, size := 8, alignment := 8, logicalMin := some 1,
      logicalMax := some 3, physicalMin := none, physicalMax := none, namedArray := none, unit := .int 0,
      unitExponent := 0, designator := 5, string := 6, count := 1 }]

/-- Both bounds on the items are met. -/
theorem C88_sharp :
    (compile [] (bulky 1)).toOption.map List.length = some (itemsMost (bulky 1)) ∧ itemsMost (bulky 1) = 27 ∧
    (compile [] (bulky 70000)).toOption.map List.length = some 27 ∧
    (compile [] meagre).toOption.map List.length = some (itemsLeast meagre) ∧ itemsLeast meagre = 6 := by
  decide +kernel

/-- Documents with and without optimization. -/
example : (match Compiler.main [] .binary false (bulky 70000), Compiler.main [] .binary true (bulky 70000) with
    | .ok (.bytes b), .ok (.bytes b') => some (b.length, b'.length)
    | _, _ => none) = some (70, 49) := by decide +kernel

end Hrdc
