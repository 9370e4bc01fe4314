import Verif.Proofs.Alike
import Verif.Props.Registry
import Verif.Props.Grouping
/-!
# Property C70: numbers and names
-/
namespace Hrdc
open Spec
open Spec.Script (sameUsage)

namespace Spec

/-- The numbers of a named array, given as a list or as a range. -/
def arrayNums : Option NamedArray → List Int
  | none => []
  | some (.list l) => l.map PyVal.toInt
  | some (.range r) => (List.range (r.max.toInt - r.min.toInt + 1).toNat).map fun (k : Nat) => r.min.toInt + (k : Int)

/-- A usage that is given or not, and the same number if it is. -/
def likeUsage (a b : Option PyVal) : Prop :=
  usageGiven a = usageGiven b ∧ (usageGiven a = true → sameUsage a b)

/-- Arguments of `Value` that hold the same numbers. -/
structure LikeArgs (a b : ValueArgs) : Prop where
  usage : likeUsage a.usage b.usage
  flags : a.flags.toInt = b.flags.toInt
  unit : a.unit.toInt = b.unit.toInt
  truth : truthOpt a.namedArray = truthOpt b.namedArray
  nums : arrayNums a.namedArray = arrayNums b.namedArray
  others : ∃ u f n x, b = { a with usage := u, flags := f, namedArray := n, unit := x }

/-- Values that hold the same numbers. -/
structure LikeValue (a b : Value) : Prop where
  usage : likeUsage a.usage b.usage
  flags : a.flags.toInt = b.flags.toInt
  unit : a.unit.toInt = b.unit.toInt
  truth : truthOpt a.namedArray = truthOpt b.namedArray
  nums : arrayNums a.namedArray = arrayNums b.namedArray
  others : ∃ u f n x, b = { a with usage := u, flags := f, namedArray := n, unit := x }

/-- Tokens that hold the same numbers. -/
def LikeTok : Tok → Tok → Prop
  | .leaf (.value v), .leaf (.value w) => LikeValue v w
  | .leaf (.align w b), .leaf (.align w' b') => w = w' ∧ b = b'
  | .leaf (.padding w s), .leaf (.padding w' s') => w = w' ∧ s = s'
  | .report i, .report j => i = j
  | .endReport, .endReport => True
  | .enter k u, .enter l t => k.toInt = l.toInt ∧ sameUsage u t
  | .leave, .leave => True
  | _, _ => False

end Spec

/-! ## Constructor -/

theorem truth_cases (o : Option NamedArray) :
    (truthOpt o = .error .value) ∨ (truthOpt o = .ok false ∧ arrayNums o = []) ∨
    (∃ a, o = some a ∧ truthOpt o = .ok true ∧ a.len = .ok (arrayNums o).length) := by
  cases o with
  | none => exact .inr (.inl ⟨rfl, rfl⟩)
  | some a =>
    cases a with
    | list l =>
      cases l with
      | nil => exact .inr (.inl ⟨rfl, rfl⟩)
      | cons x l => exact .inr (.inr ⟨_, rfl, by simp [truthOpt, NamedArray.truth, NamedArray.len], by simp [NamedArray.len, arrayNums]⟩)
    | range r =>
      have hl : (NamedArray.range r).len = if r.max.toInt - r.min.toInt + 1 < 0 then .error .value
          else .ok (r.max.toInt - r.min.toInt + 1).toNat := rfl
      have ht : truthOpt (some (.range r)) = match (NamedArray.range r).len with
        | .ok n => .ok (n != 0)
        | .error e => .error e := rfl
      rw [ht, hl]
      by_cases h : r.max.toInt - r.min.toInt + 1 < 0
      · left; rw [if_pos h]
      · rw [if_neg h]
        by_cases h0 : r.max.toInt - r.min.toInt + 1 = 0
        · right; left; simp [arrayNums, h0]
        · right; right
          have : (r.max.toInt - r.min.toInt + 1).toNat ≠ 0 := by omega
          exact ⟨_, rfl, by simp [this], by rw [hl, if_neg h]; simp [arrayNums]⟩

/-- **C70.** `Value` raises the same exception or makes values holding the same numbers. -/
theorem C70_value (a b : ValueArgs) (h : LikeArgs a b) :
    Agree LikeValue (Value.new a) (Value.new b) := by
  obtain ⟨hu, hf, hx, ht, hn, u, f, n, x, rfl⟩ := h
  simp only at hu hf hx ht hn
  have hcf : constFlag a.flags = constFlag f := by simp [constFlag, hf]
  unfold Value.new
  simp only [← ht, ← hcf]
  rcases truth_cases a.namedArray with h1 | ⟨h1, h2⟩ | ⟨arr, h1, h2, h3⟩
  · simp [h1, Agree]
  · simp only [h1]
    split
    · rfl
    · exact ⟨hu, hf, hx, ht, hn, u, f, n, x, rfl⟩
  · rcases truth_cases n with g1 | ⟨g1, g2⟩ | ⟨arr', g1, g2, g3⟩
    · rw [← ht, h2] at g1; simp at g1
    · rw [← ht, h2] at g1; simp at g1
    · simp only [h2]
      split
      · rfl
      · rw [← hn] at g3
        simp only [h1, g1] at h3 g3 ht hn ⊢
        rw [h3, g3]
        cases a.logicalMin with
        | none => rfl
        | some lo =>
          simp only
          refine ⟨hu, ?_, hx, ht, hn, u, (if usageGiven u then .named (tx "Variable") 2 else .int 0), some arr', x, ?_⟩
          · simp only [hu.1]
          · simp only [hu.1]

/-! ## Streamer -/

namespace Streamer

theorem unit_sig (reg reg' : Registry) {v w : PyVal} (h : v.toInt = w.toInt) :
    exSig (Item.new reg .unit v) = exSig (Item.new reg' .unit w) := by
  simp only [Item.new, Item.baseInit, usualUnit_toInt, h]
  split
  · simp [exSig, Except.map, sig_eq, Item.ival, usualUnit_toInt, h]
  · rfl

theorem data_sig (reg reg' : Registry) {c : Cls} (hc : c.isData = true) {v w : PyVal} (h : v.toInt = w.toInt) :
    exSig (Item.new reg c v) = exSig (Item.new reg' c w) := by
  rw [new_data _ _ hc, new_data _ _ hc]
  exact baseInit_sig _ (vsig_eq.2 ⟨by rw [dataVal_toInt, dataVal_toInt, h], by rw [dataVal_truthy, dataVal_truthy]⟩)

theorem coll_sig (reg reg' : Registry) {v w : PyVal} (h : v.toInt = w.toInt) (h0 : 0 ≤ v.toInt) :
    exSig (Item.new reg .collection v) = exSig (Item.new reg' .collection w) := by
  have ht : ∀ v : PyVal, (collVal v).truthy = true := by
    intro v
    cases v with
    | int i =>
      simp only [collVal]
      split
      · rfl
      · simp only [PyVal.truthy, bne_iff_ne]; omega
    | _ => rfl
  rw [new_coll _ _ h0, new_coll _ _ (h ▸ h0)]
  exact baseInit_sig _ (vsig_eq.2 ⟨by rw [collVal_toInt, collVal_toInt, h], by rw [ht, ht]⟩)

/-- Calls that make items differing in names only. -/
def CallLike (x y : Cls × PyVal) : Prop :=
  ∀ reg reg', exSig (Item.new reg x.1 x.2) = exSig (Item.new reg' y.1 y.2)

theorem CallLike.same (x : Cls × PyVal) : CallLike x x := fun reg reg' => new_sig reg reg' x.1 x.2

theorem CallLike.refl : ∀ l : List (Cls × PyVal), Each CallLike l l
  | [] => trivial
  | x :: l => ⟨.same x, CallLike.refl l⟩

theorem emit_like (reg reg' : Registry) : ∀ {a b : List (Cls × PyVal)}, Each CallLike a b →
    (emitT reg a).sig = (emitT reg' b).sig
  | [], [], _ => rfl
  | [], _ :: _, h => h.elim
  | _ :: _, [], h => h.elim
  | (c, v) :: a, (c', v') :: b, h => by
    have ih := emit_like reg reg' h.2
    have hn := h.1 reg reg'
    simp only [Tr.sig, Prod.mk.injEq] at ih
    rcases exSig_cases hn with ⟨e, g1, g2⟩ | ⟨i, j, g1, g2, g3⟩
    · simp [emitT, g1, g2, Tr.sig]
    · simp [emitT, g1, g2, g3, Tr.sig, ih]

theorem field_like (reg reg' : Registry) (st : State) {v w : Value} (h : LikeValue v w) :
    (fieldT reg st v).sig = (fieldT reg' st w).sig := by
  obtain ⟨-, hf, -, -, -, u, f, n, x, rfl⟩ := h
  refine Tr.bind_sig (emit_same reg reg' _) fun _ => Tr.bind_sig rfl fun st' => Tr.bind_sig (emit_like reg reg' ?_) fun _ => rfl
  exact ⟨fun r r' => data_sig r r' (by cases v.way <;> rfl) hf, trivial⟩

theorem usage_like {v w : Value} (h : likeUsage v.usage w.usage) : Each CallLike (usageCalls v) (usageCalls w) := by
  obtain ⟨h1, h2⟩ := h
  unfold usageCalls
  cases hv : v.usage with
  | none =>
    rw [hv] at h1
    cases hw : w.usage with
    | none => exact trivial
    | some t =>
      rw [hw] at h1
      simp only [usageGiven] at h1
      simp only [← h1]; exact trivial
  | some t =>
    cases hw : w.usage with
    | none =>
      rw [hv, hw] at h1
      simp only [usageGiven] at h1
      simp only [h1]; exact trivial
    | some u =>
      rw [hv, hw] at h1 h2
      simp only [usageGiven] at h1 h2
      simp only [← h1]
      split
      · next ht =>
        have := h2 ht
        simp only [sameUsage, Option.map_some, Option.some.injEq] at this
        exact ⟨fun r r' => new_usage_sig r r' (c := .usage) rfl this, trivial⟩
      · exact trivial

theorem elems_nums (reg : Registry) (a : NamedArray) : (a.elems reg).map PyVal.toInt = arrayNums (some a) := by
  cases a with
  | list l => rfl
  | range r =>
    simp [NamedArray.elems, UsageRange.iter, UsageRange.pyRange, arrayNums, List.map_map, Function.comp_def, toInt_usage, lookup_value,
      PyVal.toInt]

theorem elems_like (reg reg' : Registry) {a b : NamedArray} (h : arrayNums (some a) = arrayNums (some b)) :
    Each CallLike ((a.elems reg).map fun u => (Cls.usage, u)) ((b.elems reg').map fun u => (Cls.usage, u)) := by
  refine Each.map (R := fun x y : PyVal => x.toInt = y.toInt) (fun x y e => ?_) (Each.of_map (by rw [elems_nums, elems_nums, h]))
  exact fun r r' => new_usage_sig r r' (c := .usage) rfl e

theorem other_like (reg reg' : Registry) {v w : Value} (h : LikeValue v w) {named : Bool}
    (hn : truthOpt v.namedArray = .ok named) :
    Each CallLike (otherCalls reg v named) (otherCalls reg' w named) := by
  obtain ⟨hu, hf, hx, ht, ha, u, f, n, x, rfl⟩ := h
  simp only at hu hf hx ht ha
  unfold otherCalls
  refine Each.append (Each.append (Each.append ?_ ?_) (CallLike.refl _)) (CallLike.refl _)
  · cases named with
    | false => exact CallLike.refl _
    | true =>
      rcases truth_cases v.namedArray with h1 | ⟨h1, -⟩ | ⟨a, h1, -, -⟩
      · rw [h1] at hn; simp at hn
      · rw [h1] at hn; simp at hn
      · rw [ht] at hn
        rcases truth_cases n with g1 | ⟨g1, -⟩ | ⟨b, g1, -, -⟩
        · rw [g1] at hn; simp at hn
        · rw [g1] at hn; simp at hn
        · simp only [h1, g1] at ha ⊢
          rw [hu.1]
          exact Each.append (CallLike.refl _) (elems_like reg reg' ha)
  · exact ⟨.same _, .same _, fun r r' => unit_sig r r' hx, .same _, trivial⟩

theorem value_like (reg reg' : Registry) (st : State) {v w : Value} (h : LikeValue v w) :
    (valueT reg st v).sig = (valueT reg' st w).sig := by
  have hfl := fun st => field_like reg reg' st h
  have hoth := fun named hn => other_like reg reg' h (named := named) hn
  have hus := usage_like h.usage
  have hcf : constFlag v.flags = constFlag w.flags := by simp [constFlag, h.flags]
  have ht := h.truth
  have hg := h.usage.1
  have hw : w.way = v.way ∧ w.alignment = v.alignment := by
    obtain ⟨-, -, -, -, -, u, f, n, x, rfl⟩ := h; exact ⟨rfl, rfl⟩
  unfold valueT
  rw [hw.1, hw.2, ← hcf, ← ht, ← hg]
  refine Tr.bind_sig rfl fun pad => Tr.bind_sig (addPad_sig reg reg' _ _ _) fun st1 => ?_
  split
  · exact Tr.bind_sig (hfl st1) fun _ => rfl
  · refine Tr.bind_sig (emit_like reg reg' hus) fun _ => ?_
    cases hn : truthOpt v.namedArray with
    | error e => rfl
    | ok named =>
      rw [Tr.pure_bind, Tr.pure_bind]
      exact Tr.bind_sig (emit_like reg reg' (hoth named hn)) fun _ =>
        Tr.bind_sig (hfl _) fun _ => Tr.bind_sig (emit_same reg reg' _) fun _ => rfl

theorem tok_like (reg reg' : Registry) (st : State) {s t : Tok} (h : LikeTok s t)
    (hk : ∀ k u, s = .enter k u → 0 ≤ k.toInt) : (tokT reg st s).sig = (tokT reg' st t).sig := by
  cases s with
  | report i => cases t <;> simp only [LikeTok] at h; subst h; exact Tr.bind_sig (emit_same reg reg' _) fun _ => rfl
  | endReport => cases t <;> simp only [LikeTok] at h; rfl
  | leave => cases t <;> simp only [LikeTok] at h; exact Tr.bind_sig (emit_same reg reg' _) fun _ => rfl
  | enter k u =>
    cases t <;> simp only [LikeTok] at h
    next l t =>
    obtain ⟨h1, h2⟩ := h
    cases u with
    | none => cases t with
      | none => rfl
      | some t => simp [sameUsage] at h2
    | some u => cases t with
      | none => simp [sameUsage] at h2
      | some t =>
        simp only [sameUsage, Option.map_some, Option.some.injEq] at h2
        refine Tr.bind_sig (emit_like reg reg' ⟨?_, ?_, trivial⟩) fun _ => rfl
        · exact fun r r' => new_usage_sig r r' (c := .usage) rfl h2
        · exact fun r r' => coll_sig r r' h1 (hk _ _ rfl)
  | leaf l =>
    cases t with
    | leaf m =>
      cases l <;> cases m <;> simp only [LikeTok] at h
      · exact value_like reg reg' st h
      · obtain ⟨rfl, rfl⟩ := h
        exact Tr.bind_sig rfl fun _ => addPad_sig reg reg' _ _ _
      · obtain ⟨rfl, rfl⟩ := h
        exact addPad_sig reg reg' _ _ _
    | _ => simp [LikeTok] at h

theorem toks_like (reg reg' : Registry) : ∀ (a b : List Tok) (st : State), Each LikeTok a b →
    (∀ k u, Tok.enter k u ∈ a → 0 ≤ k.toInt) → (toksT reg st a).sig = (toksT reg' st b).sig
  | [], [], _, _, _ => rfl
  | [], _ :: _, _, h, _ => h.elim
  | _ :: _, [], _, h, _ => h.elim
  | s :: a, t :: b, st, h, hk => by
    rw [toksT, toksT]
    exact Tr.bind_sig (tok_like reg reg' st h.1 fun k u e => hk k u (by simp [e])) fun st' =>
      toks_like reg reg' a b st' h.2 fun k u e => hk k u (by simp [e])

theorem trace_like (reg reg' : Registry) {n m : Node} (h : Each LikeTok (tokens n) (tokens m)) (hk : KindsOK n) :
    (trace reg n).1.map Item.sig = (trace reg' m).1.map Item.sig ∧ (trace reg n).2 = (trace reg' m).2 := by
  have h := toks_like reg reg' _ _ {} h hk
  rw [trace_toks, trace_toks]
  cases h1 : toksT reg {} (tokens n) with
  | mk l a =>
    cases h2 : toksT reg' {} (tokens m) with
    | mk m' b =>
      rw [h1, h2] at h
      simp only [Tr.sig, Prod.mk.injEq] at h
      obtain ⟨h3, rfl⟩ := h
      cases a <;> exact ⟨h3, rfl⟩

end Streamer

/-- **C70 (partial).** Descriptors that hold the same numbers, as names or not, are compiled to the same bytes or
digits, with and without `-N`, and raise the same exception, if any, at the same place; whatever usages are
registered.  Missing, and false of the code: a usage 0 given as a number, which is taken for no usage
(`C70_zero_breaks`), and negative kinds (`C70_kind_breaks`). -/
theorem C70_bytes_partial (g : Formatter.Fmt) (o : Bool) (reg reg' : Registry) (n m : Node)
    (h : Each LikeTok (tokens n) (tokens m)) (hk : KindsOK n) :
    (g ≠ .code → Command.compile reg g o n = Command.compile reg' g o m) ∧
    (Command.compile reg g o n).2 = (Command.compile reg' g o m).2 ∧
    ∀ uni code, Command.expected reg uni code n = Command.expected reg' uni code m := by
  have h := Streamer.trace_like reg reg' h hk
  have h1 : g ≠ .code → Command.compile reg g o n = Command.compile reg' g o m :=
    fun hg => drive_sig (stage_sim reg reg' o) _ (write_sig g hg) _ _ h.1 h.2
  refine ⟨h1, ?_, fun uni code => ?_⟩
  · by_cases hg : g = .code
    · subst hg; exact drive_error_sig (stage_sim reg reg' o) _ _ h.1 h.2
    · rw [h1 hg]
  · unfold Command.expected
    cases Parser.codeBlob uni code with
    | error e => rfl
    | ok b =>
      simp only
      rw [drive_sig (stage_sim reg reg' true) _ (fun a b' hab => compare_sig b a b' 0 hab) _ _ h.1 h.2]

/-- Two forms of a descriptor: kind, usage, unit and flags as numbers or named, keys as a range or a list. -/
example :
    let v : Value := { way := .input, flags := .int 0, usage := none, size := 8, alignment := 8, logicalMin := some 1, logicalMax := some 3, physicalMin := none, physicalMax := none, namedArray := some (.range ⟨.int 0x70004, .int 0x70006⟩), unit := .int 0, unitExponent := 0, designator := 0, string := 0, count := 6 }
    let w : Value := { v with flags := .named (tx "Array") 0, unit := .named (tx "none") 0, namedArray := some (.list [.int 0x70004, .usage ⟨tx "keyB", 0x70005, []⟩, .int 0x70006]) }
    let n := Node.coll (.int 1) (some (.int 0x10006)) [.value v]
    let m := Node.top [.coll (.named (tx "Application") 1) (some (.usage ⟨tx "keyboard", 0x10006, []⟩)) [.top [.value w]]]
    Each LikeTok (tokens n) (tokens m) ∧ KindsOK n ∧
    (Command.compile [] .binary true n).2 = none ∧ (Command.compile [] .binary true n).1 = (Command.compile [] .binary true m).1 := by
  refine ⟨⟨⟨rfl, rfl⟩, ⟨⟨rfl, fun h => by simp [usageGiven] at h⟩, rfl, rfl, rfl, by decide, _, _, _, _, rfl⟩, trivial, trivial⟩, ?_, ?_⟩
  · intro k u h
    simp [tokens, tokensL] at h
    simp [h.1, PyVal.toInt]
  · decide +kernel

/-- **C70 fails** for usage 0: as a number it is taken for no usage, as a constant it is written. -/
theorem C70_zero_breaks :
    let v : Value := { way := .input, flags := .int 2, usage := some (.int 0), size := 8, alignment := 8, logicalMin := some 0, logicalMax := some 1, physicalMin := some 0, physicalMax := some 1, namedArray := none, unit := .int 0, unitExponent := 0, designator := 0, string := 0, count := 1 }
    Command.compile [] .binary false (.value v) ≠
      Command.compile [] .binary false (.value { v with usage := some (.usage ⟨tx "undefined", 0, []⟩) }) := by
  decide +kernel

/-- **C70 fails** for kind -1: as a number it is the last of the known kinds, as a constant it raises. -/
theorem C70_kind_breaks :
    (Command.compile [] .binary false (.coll (.int (-1)) (some (.int 0x10006)) [])).2 = none ∧
    (Command.compile [] .binary false (.coll (.named (tx "x") (-1)) (some (.int 0x10006)) [])).2 = some .assertion := by
  decide +kernel

end Hrdc
