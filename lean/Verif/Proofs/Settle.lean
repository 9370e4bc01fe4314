import Verif.Proofs.Dumper3
import Verif.Spec.Settle
/-!
# Reading back what the compiler writes for a decompiled tree
-/
namespace Hrdc
open Spec Extractor
namespace Extractor

/-! ## Only the numbers of items matter -/

/-- Items with the same numbers, built from numbers. -/
structure Twin (i j : Item) : Prop where
  cls : i.cls = j.cls
  ival : i.ival = j.ival
  main : i.cls.kind = .main → i.val = j.val
  unit : i.cls = .unit → i.val = j.val
  usage : i.cls = .usage → i.ival / 65536 ≠ 0 → i.val = j.val

/-- A usage as far as it is looked at: those without page are numbers. -/
def bareUsage (u : PyVal) : PyVal := if u.toInt / 65536 ≠ 0 then u else .int u.toInt

/-- States that differ in names only. -/
structure Same (s s' : State) : Prop where
  num : ∀ c, s.num c = s'.num c
  unit : s.g .unit = s'.g .unit
  usages : s.usages.map bareUsage = s'.usages.map bareUsage
  strings : s.strings.map PyVal.toInt = s'.strings.map PyVal.toInt
  desigs : s.desigs.map PyVal.toInt = s'.desigs.map PyVal.toInt
  loc : ∀ c, (s.loc c).map PyVal.toInt = (s'.loc c).map PyVal.toInt
  stack : s.stack = s'.stack
  level : s.level = s'.level
  inNamed : s.inNamed = s'.inNamed
  root : s.root = s'.root

theorem same_refl (s : State) : Same s s := ⟨fun _ => rfl, rfl, rfl, rfl, rfl, fun _ => rfl, rfl, rfl, rfl, rfl⟩

theorem bareUsage_toInt (u : PyVal) : (bareUsage u).toInt = u.toInt := by
  unfold bareUsage
  split <;> rfl

theorem clamp_map' {α β : Type} (l : List α) (f : α → β) (k : Nat) : clamp (l.map f) k = (clamp l k).map f := by
  simp [clamp]

theorem Same.usage {s s' : State} (h : Same s s') (reg : Registry) (k : Nat) : s.usage reg k = s'.usage reg k := by
  have key : ∀ s : State, s.usage reg k = match clamp (s.usages.map bareUsage) k with
      | none => none
      | some u =>
        if u.toInt / 65536 ≠ 0 then some u
        else some (.usage (Usage.lookup reg (.int (Usage.joinPage (s.num .usagePage) u.toInt)))) := by
    intro s
    rw [clamp_map']
    unfold State.usage
    cases clamp s.usages k with
    | none => rfl
    | some u =>
      simp only [Option.map_some, bareUsage_toInt]
      by_cases hu : u.toInt / 65536 ≠ 0
      · rw [if_pos hu, if_pos hu]; simp [bareUsage, hu]
      · rw [if_neg hu, if_neg hu]
  rw [key s, key s', h.usages, h.num]

theorem Same.len {s s' : State} (h : Same s s') : s.usages.length = s'.usages.length := by
  have := congrArg List.length h.usages
  simpa using this

theorem Same.string {s s' : State} (h : Same s s') (k : Nat) : s.string k = s'.string k := by
  unfold State.string
  rw [← clamp_map', ← clamp_map', h.strings]

theorem Same.designator {s s' : State} (h : Same s s') (k : Nat) : s.designator k = s'.designator k := by
  unfold State.designator
  rw [← clamp_map', ← clamp_map', h.desigs]

theorem Same.array {s s' : State} (h : Same s s') (reg : Registry) : s.array reg = s'.array reg := by
  unfold State.array
  rw [h.len, funext (h.usage reg)]

theorem same_expand {f : PyVal → PyVal} (hf : ∀ i : Int, f (.int i) = f (.int i)) {lo lo' hi hi' : Option PyVal}
    {t t' : List PyVal} (h1 : lo.map PyVal.toInt = lo'.map PyVal.toInt) (h2 : hi.map PyVal.toInt = hi'.map PyVal.toInt)
    {β : Type} {g : PyVal → β} (h3 : t.map g = t'.map g) : (expand lo hi t).map g = (expand lo' hi' t').map g := by
  cases t with
  | cons a t =>
    cases t' with
    | nil => simp at h3
    | cons a' t' =>
      have e : ∀ lo hi : Option PyVal, ∀ a t, expand lo hi (a :: t) = a :: t := by
        intro lo hi a t
        cases lo <;> cases hi <;> rfl
      rw [e, e, h3]
  | nil =>
    cases t' with
    | cons a' t' => simp at h3
    | nil =>
      cases lo with
      | none =>
        cases lo' with
        | none => rfl
        | some l => simp at h1
      | some l =>
        cases lo' with
        | none => simp at h1
        | some l' =>
          cases hi with
          | none =>
            cases hi' with
            | none => rfl
            | some l => simp at h2
          | some x =>
            cases hi' with
            | none => simp at h2
            | some x' =>
              simp only [Option.map_some, Option.some.injEq] at h1 h2
              simp only [expand, h1, h2]

theorem Same.expandAll {s s' : State} (h : Same s s') : Same s.expandAll s'.expandAll where
  num := h.num
  unit := h.unit
  usages := same_expand (f := id) (fun _ => rfl) (h.loc _) (h.loc _) h.usages
  strings := same_expand (f := id) (fun _ => rfl) (h.loc _) (h.loc _) h.strings
  desigs := same_expand (f := id) (fun _ => rfl) (h.loc _) (h.loc _) h.desigs
  loc := h.loc
  stack := h.stack
  level := h.level
  inNamed := h.inNamed
  root := h.root

theorem Same.clear {s s' : State} (h : Same s s') : Same s.clear s'.clear where
  num := h.num
  unit := h.unit
  usages := rfl
  strings := rfl
  desigs := rfl
  loc := fun _ => rfl
  stack := h.stack
  level := h.level
  inNamed := h.inNamed
  root := h.root

/-- Results that differ in names only. -/
def SameRes (r r' : Except PyErr State) : Prop :=
  match r, r' with
  | .ok s, .ok s' => Same s s'
  | .error e, .error e' => e = e'
  | _, _ => False

theorem Same.addValue {s s' : State} (h : Same s s') (n : Node) : Same (s.addValue n) (s'.addValue n) := by
  refine ⟨h.num, h.unit, h.usages, h.strings, h.desigs, h.loc, h.stack, ?_, h.inNamed, h.root⟩
  simp only [State.addValue]
  rw [h.num, h.level]

theorem Same.addNew {s s' : State} (h : Same s s') (a : ValueArgs) : SameRes (s.addNew a) (s'.addNew a) := by
  unfold State.addNew
  cases Value.new a with
  | error e => exact rfl
  | ok v => exact h.addValue _

theorem Same.addMany {as : List ValueArgs} : ∀ {s s' : State}, Same s s' → SameRes (s.addMany as) (s'.addMany as) := by
  induction as with
  | nil => intro s s' h; exact h
  | cons a as ih =>
    intro s s' h
    have h1 := h.addNew a
    rw [State.addMany, State.addMany]
    cases e1 : s.addNew a <;> cases e2 : s'.addNew a <;> rw [e1, e2] at h1
    · exact h1
    · exact h1.elim
    · exact h1.elim
    · exact ih h1

theorem Same.leave {s s' : State} (h : Same s s') (b : Bool) : SameRes (s.leave b) (s'.leave b) := by
  unfold State.leave
  rw [h.stack, h.level]
  cases s'.stack with
  | nil => exact rfl
  | cons p r =>
    simp only
    cases s'.level.head with
    | none => exact rfl
    | some q =>
      simp only
      split
      · exact ⟨h.num, h.unit, h.usages, h.strings, h.desigs, h.loc, rfl, rfl, h.inNamed, h.root⟩
      · exact ⟨h.num, h.unit, h.usages, h.strings, h.desigs, h.loc, rfl, rfl, h.inNamed, h.root⟩

theorem Same.data {s s' : State} (h : Same s s') (reg : Registry) {i j : Item} (t : Twin i j)
    (hk : i.cls.kind = .main) : SameRes (s.data reg i) (s'.data reg j) := by
  have ei : i = j := by
    cases i
    cases j
    have h1 := t.cls
    have h2 := t.main hk
    simp only at h1 h2
    rw [h1, h2]
  subst ei
  have hargs : s.args reg i = s'.args reg i := by
    funext k
    simp only [State.args, h.usage, h.num, h.unit, h.designator, h.string]
  have harr : ∀ u, s.arrayArgs reg i u = s'.arrayArgs reg i u := by
    intro u
    simp only [State.arrayArgs, h.num, h.array, h.designator, h.string]
  have htest : s.namedTest reg i = s'.namedTest reg i := by
    unfold State.namedTest
    rw [h.len, h.num, h.num, h.num, h.level]
  have h1 : Same { s with inNamed := true } { s' with inNamed := true } :=
    ⟨h.num, h.unit, h.usages, h.strings, h.desigs, h.loc, h.stack, h.level, rfl, h.root⟩
  have h2 := h1.leave false
  unfold State.data
  simp only [hargs, htest, h.len, h.num, harr]
  rw [show s.level.members = s'.level.members by rw [h.level], show s.level.head = s'.level.head by rw [h.level]]
  by_cases hb : bitSet i.ival 0 = true
  · rw [if_pos hb, if_pos hb]
    cases Padding.new (wayOf i.cls) (s'.num .reportSize * s'.num .reportCount) with
    | error e => exact rfl
    | ok n => exact h.addValue n
  · rw [if_neg hb, if_neg hb]
    cases s'.namedTest reg i with
    | error e => exact rfl
    | ok b =>
      cases b with
      | true =>
        simp only
        revert h2
        generalize State.leave { s with inNamed := true } false = r
        generalize State.leave { s' with inNamed := true } false = r'
        intro h2
        cases r <;> cases r'
        · exact h2
        · exact h2.elim
        · exact h2.elim
        · simp only
          split
          · exact Same.addNew h2 _
          · exact rfl
      | false =>
        simp only
        split
        · exact h.addMany
        · split
          · exact h.addNew _
          · exact h.addMany

theorem Same.close {s s' : State} (h : Same s s') : SameRes s.close s'.close := by
  unfold State.close
  have h1 : SameRes (if s.inNamed = true then .ok { s with inNamed := false } else s.leave true)
      (if s'.inNamed = true then .ok { s' with inNamed := false } else s'.leave true) := by
    rw [h.inNamed]
    split
    · exact ⟨h.num, h.unit, h.usages, h.strings, h.desigs, h.loc, h.stack, h.level, rfl, h.root⟩
    · exact h.leave true
  cases e1 : (if s.inNamed = true then Except.ok { s with inNamed := false } else s.leave true) <;>
    cases e2 : (if s'.inNamed = true then Except.ok { s' with inNamed := false } else s'.leave true) <;> rw [e1, e2] at h1
  · exact h1
  · exact h1.elim
  · exact h1.elim
  · rename_i x y
    have h1 : Same x y := h1
    show Same (if x.stack.isEmpty then _ else _) (if y.stack.isEmpty then _ else _)
    rw [h1.stack]
    split
    · exact ⟨h1.num, h1.unit, h1.usages, h1.strings, h1.desigs, h1.loc, rfl, h1.level, h1.inNamed, by
        simp only [h1.level]⟩
    · exact h1

theorem same_clear {r r' : Except PyErr State} : SameRes r r' →
    SameRes (match r with
      | .error e => .error e
      | .ok s => .ok s.clear) (match r' with
      | .error e => .error e
      | .ok s => .ok s.clear) := by
  intro h
  cases r <;> cases r'
  · exact h
  · exact h.elim
  · exact h.elim
  · exact Same.clear h

theorem same_step (reg : Registry) {s s' : State} (h : Same s s') {i j : Item} (t : Twin i j) :
    SameRes (step reg s i) (step reg s' j) := by
  unfold step
  have hc := t.cls
  cases hk : i.cls.kind with
  | global =>
    rw [← hc, hk]
    simp only
    refine ⟨?_, ?_, h.usages, h.strings, h.desigs, h.loc, h.stack, h.level, h.inNamed, h.root⟩
    · intro c
      have := h.num c
      simp only [State.num] at this ⊢
      by_cases e : c = i.cls
      · rw [if_pos e, if_pos e]; exact t.ival
      · rw [if_neg e, if_neg e]; exact this
    · by_cases e : Cls.unit = i.cls
      · simp only [if_pos e]; exact t.unit e.symm
      · simp only [if_neg e]; exact h.unit
  | loc =>
    rw [← hc, hk]
    simp only
    have hu : i.cls = .usage → bareUsage i.val = bareUsage j.val := by
      intro e
      have h1 : i.val.toInt = j.val.toInt := t.ival
      unfold bareUsage
      rw [← h1]
      split
      · rename_i hne; exact t.usage e hne
      · rfl
    have hv : i.val.toInt = j.val.toInt := t.ival
    cases e : i.cls <;> simp only <;> rw [e] at hk <;> simp [Cls.kind] at hk
    · exact ⟨h.num, h.unit, by simp [h.usages, hu e], h.strings, h.desigs, h.loc, h.stack, h.level, h.inNamed, h.root⟩
    case desigIndex =>
      exact ⟨h.num, h.unit, h.usages, h.strings, by simp [h.desigs, hv], h.loc, h.stack, h.level, h.inNamed, h.root⟩
    case strIndex =>
      exact ⟨h.num, h.unit, h.usages, by simp [h.strings, hv], h.desigs, h.loc, h.stack, h.level, h.inNamed, h.root⟩
    all_goals
      refine ⟨h.num, h.unit, h.usages, h.strings, h.desigs, ?_, h.stack, h.level, h.inNamed, h.root⟩
      intro c
      simp only
      split
      · simp [hv]
      · exact h.loc c
  | main =>
    rw [← hc, hk]
    simp only
    have he := h.expandAll
    cases e : i.cls <;> rw [e] at hk <;> simp [Cls.kind] at hk <;> simp only
    case collection =>
      refine Same.clear (s := s.expandAll.enter i.val (s.expandAll.usage reg 0))
        (s' := s'.expandAll.enter j.val (s'.expandAll.usage reg 0))
        ⟨he.num, he.unit, he.usages, he.strings, he.desigs, he.loc, ?_, ?_, he.inNamed, he.root⟩
      · simp only [State.enter]; rw [he.stack, he.level]
      · simp only [State.enter]; rw [he.usage, t.main (by rw [e]; rfl)]
    case endCollection => exact same_clear he.close
    all_goals exact same_clear (he.data reg t (by rw [e]; rfl))

theorem same_run (reg : Registry) : ∀ {xs ys : List Item} {s s' : State}, Same s s' → xs.length = ys.length →
    (∀ p ∈ xs.zip ys, Twin p.1 p.2) → SameRes (runFrom reg s xs) (runFrom reg s' ys) := by
  intro xs
  induction xs with
  | nil =>
    intro ys s s' h hl _
    cases ys with
    | nil => exact h
    | cons y ys => simp at hl
  | cons x xs ih =>
    intro ys s s' h hl ht
    cases ys with
    | nil => simp at hl
    | cons y ys =>
      have h1 := same_step reg h (ht (x, y) (by simp))
      rw [runFrom, runFrom]
      cases e1 : step reg s x <;> cases e2 : step reg s' y <;> rw [e1, e2] at h1
      · exact h1
      · exact h1.elim
      · exact h1.elim
      · exact ih h1 (by simpa using hl) (fun p hp => ht p (by simp [hp]))

/-- Streams of the same numbers give the same tree, or the same exception. -/
theorem extract_same (reg : Registry) {xs ys : List Item} (hl : xs.length = ys.length)
    (ht : ∀ p ∈ xs.zip ys, Twin p.1 p.2) : extract reg xs = extract reg ys := by
  have h := same_run reg (same_refl {}) hl ht
  unfold extract
  cases e1 : runFrom reg {} xs <;> cases e2 : runFrom reg {} ys <;> rw [e1, e2] at h
  · simp only [SameRes] at h; rw [h]
  · exact h.elim
  · exact h.elim
  · have h : Same _ _ := h
    simp only [h.root]

theorem raw_again {reg : Registry} {i : Item} (h : RawItem reg i) : Item.new reg i.cls (.int i.ival) = .ok i := by
  by_cases hcc : i.cls = .collection
  · have hb : ∀ v : PyVal, i.val = v → 0 ≤ v.toInt → Item.baseInit .collection v = .ok i := by
      intro v hv h0
      rw [Item.baseInit, if_pos (.inr h0), ← hv, ← hcc]
    rcases read_coll (.inl h) hcc with ⟨n, hn, e⟩ | ⟨n, hn, e⟩
    · have e1 : i.ival = n := by rw [Item.ival, e]; rfl
      rw [e1, hcc, new_collection_int, if_pos (by omega), if_pos (by omega)]
      exact hb _ (by simpa using e) (Int.natCast_nonneg _)
    · have e1 : i.ival = n := by rw [Item.ival, e]; rfl
      rw [e1, hcc, new_collection_int, if_neg (by omega)]
      exact hb _ e (by show 0 ≤ n; omega)
  · obtain ⟨k, h⟩ := h
    have e : i.ival = k := new_ival h (fun e => absurd e hcc)
    rw [e, h]

theorem raw_eq {reg : Registry} {i j : Item} (hi : RawItem reg i) (hj : RawItem reg j) (hk : i.key = j.key) : i = j := by
  have hc : i.cls = j.cls := congrArg Prod.fst hk
  have hv : i.ival = j.ival := congrArg Prod.snd hk
  have h1 := raw_again hi
  rw [hc, hv, raw_again hj] at h1
  simpa using h1.symm

/-- Items built from the same numbers are twins. -/
theorem twin_of {reg : Registry} {i j : Item} (hi : ReadItem reg i) (hj : ReadItem reg j) (hk : i.key = j.key) :
    Twin i j := by
  have hc : i.cls = j.cls := congrArg Prod.fst hk
  have hv : i.ival = j.ival := congrArg Prod.snd hk
  have raw : i.cls ≠ .usagePage → Optimizer.usageLike i.cls = false → i.val = j.val := by
    intro h1 h2
    rw [raw_eq (hi.raw h1 h2) (hj.raw (hc ▸ h1) (hc ▸ h2)) hk]
  refine ⟨hc, hv, ?_, ?_, ?_⟩
  · intro h
    refine raw ?_ ?_
    · intro e; rw [e] at h; simp [Cls.kind] at h
    · cases e : i.cls <;> rw [e] at h <;> simp [Cls.kind] at h <;> rfl
  · intro h
    exact raw (by rw [h]; simp) (by rw [h]; rfl)
  · intro h hl
    have r : ∀ i : Item, ReadItem reg i → i.cls = .usage → i.ival / 65536 ≠ 0 → RawItem reg i := by
      intro i hi h hl
      rcases hi with hi | hi | hi
      · exact hi
      · rw [h] at hi; simp at hi
      · exact absurd hi.2 hl
    rw [raw_eq (r i hi h hl) (r j hj (hc ▸ h) (hv ▸ hl)) hk]

end Extractor
end Hrdc
