import Verif.Proofs.Exact
import Verif.Proofs.Bits
import Verif.Props.Compile
/-!
# C29 (exact), C32, C33, C35, C36, C37, C45, C54
-/
namespace Hrdc
open Spec Streamer

/-! ## C36 -/

/-- A range whose maximum lies more than one below its minimum has a negative length. -/
def BadRange (o : Option NamedArray) : Prop :=
  ∃ r, o = some (.range r) ∧ r.max.toInt - r.min.toInt + 1 < 0

theorem truthOpt_error {o : Option NamedArray} {e : PyErr} :
    truthOpt o = .error e ↔ BadRange o ∧ e = .value := by
  cases o with
  | none => simp [truthOpt, BadRange]
  | some a =>
    cases a with
    | list l => simp [truthOpt, NamedArray.truth, NamedArray.len, BadRange]
    | range r =>
      simp only [truthOpt, NamedArray.truth, NamedArray.len, UsageRange.len, UsageRange.rawLen, BadRange]
      by_cases h : r.max.toInt - r.min.toInt + 1 < 0
      · simp [h]; exact eq_comm
      · simp [h]

theorem arr_len_ok {a : NamedArray} {b : Bool} (h : truthOpt (some a) = .ok b) :
    a.len = .ok (arrayUsages (some a)).length := by
  cases hl : a.len with
  | error e => simp [truthOpt, NamedArray.truth, hl] at h
  | ok n => rw [NamedArray.len_eq hl]

/-- **C36 (partial).** When the constructor raises: ValueError for a named array of negative length and for
missing logical bounds of a value that is neither constant nor a named array, TypeError for a named
array whose `logicalMin` is `None`; and never otherwise.
Not only missing bounds make it raise. -/
theorem C36_raises_partial (a : ValueArgs) (e : PyErr) : Value.new a = .error e ↔
    (BadRange a.namedArray ∧ e = .value) ∨
    (¬ BadRange a.namedArray ∧ arrayUsages a.namedArray = [] ∧ bitSet a.flags.toInt 0 = false ∧
      (a.logicalMin = none ∨ a.logicalMax = none) ∧ e = .value) ∨
    (¬ BadRange a.namedArray ∧ arrayUsages a.namedArray ≠ [] ∧ a.logicalMin = none ∧ e = .type) := by
  unfold Value.new
  cases hn : truthOpt a.namedArray with
  | error e' =>
    obtain ⟨hb, rfl⟩ := truthOpt_error.1 hn
    simp [hb]; exact eq_comm
  | ok named =>
    have hb : ¬ BadRange a.namedArray := by
      intro hb
      rw [truthOpt_error.2 ⟨hb, rfl⟩] at hn; simp at hn
    have hus := NamedArray.truth_eq hn
    simp only [hb, false_and, false_or, not_false_eq_true, true_and]
    cases named with
    | false =>
      have he : arrayUsages a.namedArray = [] := by simpa using hus.symm
      by_cases hc : bitSet a.flags.toInt 0 = true
      · simp [constFlag, hc, he]
      · have hc' : bitSet a.flags.toInt 0 = false := by simpa using hc
        by_cases hl : a.logicalMax = none ∨ a.logicalMin = none
        · simp only [hl, constFlag, hc', he]
          simp [Or.comm.1 hl]
          exact eq_comm
        · simp only [hl, false_and, if_false]
          constructor
          · intro h; simp at h
          · rintro (⟨-, -, h, -⟩ | ⟨h, -⟩)
            · exact absurd (Or.comm.1 h) hl
            · exact absurd he h
    | true =>
      have he : arrayUsages a.namedArray ≠ [] := by intro h; rw [h] at hus; simp at hus
      cases ha : a.namedArray with
      | none => rw [ha] at he; exact absurd rfl he
      | some arr =>
        rw [ha] at hn he
        simp only
        rw [arr_len_ok hn]
        cases hl : a.logicalMin with
        | none => simp [he]; exact eq_comm
        | some lo => simp [he]

/-- **C36.** The defaults of the constructor: a Data Variable Absolute field from 1 on, without named array,
unit, designator and string, standing once; the physical bounds and the alignment follow from the others. -/
theorem C36_defaults (way : Way) (usage : Option PyVal) (size hi : Int) :
    ∃ v, Value.new { way := way, usage := usage, size := size, logicalMax := some hi } = .ok v ∧
      v.flags.toInt = 2 ∧ v.logicalMin = some 1 ∧ v.logicalMax = some hi ∧ v.physicalMin = some 1 ∧
      v.physicalMax = some hi ∧ v.namedArray = none ∧ v.unit.toInt = 0 ∧ v.unitExponent = 0 ∧ v.designator = 0 ∧
      v.string = 0 ∧ v.count = 1 ∧ v.alignment = min 8 size ∧ v.way = way ∧ v.usage = usage ∧ v.size = size := by
  refine ⟨_, by simp only [Value.new, truthOpt]; rfl, ?_⟩
  simp [PyVal.toInt, intGiven]

/-- **C36 (partial).** What a constructed value holds.  A named array fixes the flags and the logical maximum;
physical bounds that are absent or 0 default to the logical bounds given; the alignment defaults to
`min(8, size)`; all the rest is kept.
Missing, and false of the code: physical bounds of named arrays (`C36_array_physical_breaks`). -/
theorem C36_fields_partial (a : ValueArgs) (v : Value) (h : Value.new a = .ok v) :
    (v.way = a.way ∧ v.usage = a.usage ∧ v.size = a.size ∧ v.logicalMin = a.logicalMin ∧
      v.namedArray = a.namedArray ∧ v.unit = a.unit ∧ v.unitExponent = a.unitExponent ∧
      v.designator = a.designator ∧ v.string = a.string ∧ v.count = a.count) ∧
    v.alignment = (match a.alignment with | some x => x | none => if a.size < 8 then a.size else 8) ∧
    (if a.physicalMin.getD 0 = 0 ∧ a.physicalMax.getD 0 = 0 then
      v.physicalMin = a.logicalMin ∧ v.physicalMax = a.logicalMax
     else v.physicalMin = some (a.physicalMin.getD 0) ∧ v.physicalMax = some (a.physicalMax.getD 0)) ∧
    (if arrayUsages a.namedArray = [] then v.flags = a.flags ∧ v.logicalMax = a.logicalMax
     else v.flags.toInt = (if usageOf a.usage = none then 0 else 2) ∧
      ∃ lo, a.logicalMin = some lo ∧ v.logicalMax = some (lo + (arrayUsages a.namedArray).length - 1)) := by
  unfold Value.new at h
  cases hn : truthOpt a.namedArray with
  | error e => rw [hn] at h; simp at h
  | ok named =>
    rw [hn] at h
    have hus := NamedArray.truth_eq hn
    simp only at h
    split at h
    · simp at h
    · have hal : a.alignment.getD (min 8 a.size) =
          (match a.alignment with | some x => x | none => if a.size < 8 then a.size else 8) := by
        cases a.alignment with
        | some x => rfl
        | none => simp only [Option.getD_none]; split <;> omega
      have hph : (intGiven a.physicalMin || intGiven a.physicalMax) = true ↔
          ¬ (a.physicalMin.getD 0 = 0 ∧ a.physicalMax.getD 0 = 0) := by
        cases a.physicalMin <;> cases a.physicalMax <;> simp [intGiven]
        rename_i x y
        by_cases hx : x = 0 <;> simp [hx]
      have hphys : ∀ (x y : Option Int),
          x = (if (intGiven a.physicalMin || intGiven a.physicalMax) = true then some (a.physicalMin.getD 0)
            else a.logicalMin) →
          y = (if (intGiven a.physicalMin || intGiven a.physicalMax) = true then some (a.physicalMax.getD 0)
            else a.logicalMax) →
          (if a.physicalMin.getD 0 = 0 ∧ a.physicalMax.getD 0 = 0 then
            x = a.logicalMin ∧ y = a.logicalMax
           else x = some (a.physicalMin.getD 0) ∧ y = some (a.physicalMax.getD 0)) := by
        intro x y hx hy
        by_cases hz : a.physicalMin.getD 0 = 0 ∧ a.physicalMax.getD 0 = 0
        · rw [if_pos hz]
          have : ¬ (intGiven a.physicalMin || intGiven a.physicalMax) = true := fun hh => hph.1 hh hz
          rw [if_neg this] at hx hy
          exact ⟨hx, hy⟩
        · rw [if_neg hz]
          rw [if_pos (hph.2 hz)] at hx hy
          exact ⟨hx, hy⟩
      cases named with
      | false =>
        have he : arrayUsages a.namedArray = [] := by simpa using hus.symm
        have hv : Value.mk a.way a.flags a.usage a.size (a.alignment.getD (min 8 a.size)) a.logicalMin
            a.logicalMax
            (if (intGiven a.physicalMin || intGiven a.physicalMax) = true then some (a.physicalMin.getD 0)
              else a.logicalMin)
            (if (intGiven a.physicalMin || intGiven a.physicalMax) = true then some (a.physicalMax.getD 0)
              else a.logicalMax)
            a.namedArray a.unit a.unitExponent a.designator a.string a.count = v := by
          simpa using h
        subst hv
        exact ⟨⟨rfl, rfl, rfl, rfl, rfl, rfl, rfl, rfl, rfl, rfl⟩, hal, hphys _ _ rfl rfl,
          by rw [if_pos he]; exact ⟨rfl, rfl⟩⟩
      | true =>
        have he : arrayUsages a.namedArray ≠ [] := by intro h; rw [h] at hus; simp at hus
        cases ha : a.namedArray with
        | none => rw [ha] at he; exact absurd rfl he
        | some arr =>
          rw [ha] at hn he
          rw [ha] at h
          simp only at h
          rw [arr_len_ok hn] at h
          cases hl : a.logicalMin with
          | none => rw [hl] at h; simp at h
          | some lo =>
            rw [hl] at h hphys
            simp only [Except.ok.injEq] at h
            subst h
            refine ⟨⟨rfl, rfl, rfl, rfl, rfl, rfl, rfl, rfl, rfl, rfl⟩, hal, hphys _ _ rfl rfl, ?_⟩
            rw [if_neg he]
            refine ⟨?_, lo, rfl, ?_⟩
            · simp only [usageOf_given]
              cases usageOf a.usage <;> rfl
            · simp only [Option.some.injEq]; omega

/-- **C36 fails for named arrays**: the physical maximum defaults to the logical maximum that was given,
not to the one the array fixes. -/
theorem C36_array_physical_breaks :
    ∃ v, Value.new keys6 = .ok v ∧ v.logicalMax = some 221 ∧ v.physicalMax = none := by
  refine ⟨_, rfl, ?_⟩
  decide +kernel

example : Value.new keys6 = .ok { (mk keys6) with flags := .int 0, logicalMax := some 221, alignment := 8 } ∧
    Value.new { keys6 with logicalMin := none } = .error .type ∧
    Value.new { keys6 with namedArray := none } = .error .value ∧
    Value.new { keys6 with namedArray := some (.range ⟨.int 9, .int 3⟩) } = .error .value := by
  decide +kernel

/-! ## C29, exactly -/

/-- **C29 (exact).** What any tree compiles to, without conditions on its values or reports: the
events follow the tree, each value with its own attributes, in the report entered last. -/
theorem C29_compile_exact_partial (reg : Registry) (rule : PageRule) (n : Node) (items : List Item)
    (h : compile reg n = .ok items) :
    meaning rule (keys items) = exact (fun _ _ => 0) 0 0 (tokens n) :=
  (compile_exact rule h).1

/-- **C29 fails for negative kinds**: `Collection(-1)` is compiled as the last kind, 6. -/
theorem C29_negative_kind_breaks :
    let n := Node.coll (.int (-1)) (some (.int 0x10002)) []
    ∃ items, compile [] n = .ok items ∧
      ∀ rule, meaning rule (keys items) = [.enter 6 ⟨some 0x10002, 0, 0⟩, .leave] ∧
        treeMeaning n = [.enter (-1) ⟨some 0x10002, 0, 0⟩, .leave] := by
  refine ⟨_, by rfl, ?_⟩
  intro rule; cases rule <;> decide +kernel

/-! ## C45 -/

theorem made_array {v : Value} (h : v.Made) (hne : arrayUsages v.namedArray ≠ []) :
    v.flags.toInt = (if usageOf v.usage = none then 0 else 2) ∧
      ∃ lo, v.logicalMin = some lo ∧ v.logicalMax = some ((arrayUsages v.namedArray).length + lo - 1) := by
  obtain ⟨named, hn, f, -⟩ := h.facts
  have hus := NamedArray.truth_eq hn
  have : named = true := by
    rw [hus]
    cases hh : arrayUsages v.namedArray with
    | nil => exact absurd hh hne
    | cons _ _ => rfl
  obtain ⟨f1, f2⟩ := f this
  refine ⟨?_, f2⟩
  rw [f1, usageOf_given]
  cases usageOf v.usage <;> rfl

/-- **C45 (partial).** A value with a named array and no usage compiles to an Array data item of
logical range `logicalMin .. logicalMin + length - 1` that chooses among exactly the usages of the
array, in order.  Missing, and false of the code: arrays with a usage (`C45_usage_breaks`). -/
theorem C45_array_partial (reg : Registry) (rule : PageRule) (v : Value) (hm : v.Made)
    (hne : arrayUsages v.namedArray ≠ []) (hu : usageOf v.usage = none) (items : List Item)
    (h : compile reg (.value v) = .ok items) :
    ∃ pad lo, v.logicalMin = some lo ∧
      meaning rule (keys items) = List.replicate pad (.padBit v.way.cls 0) ++
        List.replicate v.count.toNat (.control v.way.cls 0 0
          { size := v.size, logMin := lo, logMax := lo + (arrayUsages v.namedArray).length - 1,
            physMin := lo, physMax := lo + (arrayUsages v.namedArray).length - 1,
            unit := v.unit.toInt, unitExp := v.unitExponent }
          ((arrayUsages v.namedArray).map (fun u => ⟨some u, v.string, v.designator⟩))) := by
  obtain ⟨fl, lo, hlo, hhi⟩ := made_array hm hne
  rw [hu] at fl
  simp only [if_true] at fl
  have he := C29_compile_exact_partial reg rule (.value v) items h
  refine ⟨(padBefore 0 (.value v)).toNat, lo, hlo, ?_⟩
  rw [he]
  simp only [tokens, Streamer.exact, exactLeaf, ownEvents, Leaf.way, List.append_nil]
  congr 1
  have hc : constFlag v.flags = false := by simp [constFlag, fl, bitSet]
  simp only [exactEvents, hc, Bool.false_eq_true, if_false, hne, hu, exactFields]
  apply map_range_const
  intro k
  simp only [fl, bitSet, fieldUsages, hne, if_false, exactAttrs, ne_eq, not_false_eq_true, true_or, if_true,
    hlo, hhi, Option.getD_some, attrsOf]
  simp [selectorOf]
  omega

example : (mk keys6).Made ∧ arrayUsages (mk keys6).namedArray ≠ [] ∧ usageOf (mk keys6).usage = none ∧
    (compile [] (.value (mk keys6))).toOption.isSome :=
  ⟨mk_made (by decide +kernel), by decide +kernel, by decide +kernel, by decide +kernel⟩

/-- **C45 fails for arrays with a usage**: whatever the array, every field compiled for it is a
Variable with one usage of the array, not an Array field choosing among all of them. -/
theorem C45_usage_breaks (reg : Registry) (rule : PageRule) (v : Value) (hm : v.Made)
    (hne : arrayUsages v.namedArray ≠ []) (u : Int) (hu : usageOf v.usage = some u) (items : List Item)
    (h : compile reg (.value v) = .ok items) :
    ∃ pad : Nat, ∃ attrs, meaning rule (keys items) = List.replicate pad (.padBit v.way.cls 0) ++
      (Event.enter 2 ⟨some u, 0, 0⟩ ::
        (List.range v.count.toNat).map (fun k => .control v.way.cls 2 0 attrs
          [⟨pick (arrayUsages v.namedArray) k, v.string, v.designator⟩]) ++ [.leave]) := by
  obtain ⟨fl, lo, hlo, hhi⟩ := made_array hm hne
  rw [hu] at fl
  simp only [reduceCtorEq, if_false] at fl
  have he := C29_compile_exact_partial reg rule (.value v) items h
  refine ⟨(padBefore 0 (.value v)).toNat, exactAttrs v, ?_⟩
  rw [he]
  simp only [tokens, Streamer.exact, exactLeaf, ownEvents, Leaf.way, List.append_nil]
  congr 1
  have hc : constFlag v.flags = false := by simp [constFlag, fl, bitSet]
  simp only [exactEvents, hc, Bool.false_eq_true, if_false, hne, hu, exactFields]
  congr 2
  apply List.map_congr_left
  intro k _
  simp [fl, bitSet, fieldUsages, hne, selectorOf]

/-- A media control with a usage of its own. -/
def mediaArray : ValueArgs :=
  { way := .input, usage := some (.int 0xc0003), size := 8,
    namedArray := some (.list [.int 0xc00b5, .int 0xc00b6]) }

example : (mk mediaArray).Made ∧ arrayUsages (mk mediaArray).namedArray ≠ [] ∧
    usageOf (mk mediaArray).usage = some 0xc0003 ∧
    (compile [] (.value (mk mediaArray))).toOption.isSome :=
  ⟨mk_made (by decide +kernel), by decide +kernel, by decide +kernel, by decide +kernel⟩

/-! ## C37 -/

/-- What surrounds a leaf of a compiled tree. -/
theorem split_exact {reg : Registry} (rule : PageRule) {n : Node} {items : List Item}
    (h : compile reg n = .ok items) {pre post : List Tok} {l : Leaf}
    (hs : tokens n = pre ++ .leaf l :: post) :
    meaning rule (keys items) = exact (fun _ _ => 0) 0 0 pre ++
      exactLeaf (countAfter (fun _ _ => 0) 0 0 pre).2.2
        ((countAfter (fun _ _ => 0) 0 0 pre).1 l.way (countAfter (fun _ _ => 0) 0 0 pre).2.1) l ++
      exact ((countAfter (fun _ _ => 0) 0 0 pre).1.add (countAfter (fun _ _ => 0) 0 0 pre).2.1 l)
        (countAfter (fun _ _ => 0) 0 0 pre).2.1 (countAfter (fun _ _ => 0) 0 0 pre).2.2 post := by
  rw [(compile_exact rule h).1, hs, exact_append, Streamer.exact, List.append_assoc]

/-- **C37.** Replacing a value by another of the same direction, size, count and alignment changes
only its own events: what comes before and after, and the bits of padding in front of it, stay. -/
theorem C37_no_leakage (reg : Registry) (rule : PageRule) (n n' : Node) (items items' : List Item)
    (h : compile reg n = .ok items) (h' : compile reg n' = .ok items')
    (pre post : List Tok) (v v' : Value)
    (hs : tokens n = pre ++ .leaf (.value v) :: post) (hs' : tokens n' = pre ++ .leaf (.value v') :: post)
    (hw : v'.way = v.way) (hz : v'.size = v.size) (hc : v'.count = v.count)
    (ha : v'.alignment = v.alignment) :
    ∃ pad after, ∃ id : Int,
      meaning rule (keys items) = exact (fun _ _ => 0) 0 0 pre ++ List.replicate pad (.padBit v.way.cls id) ++
        exactEvents id v ++ after ∧
      meaning rule (keys items') = exact (fun _ _ => 0) 0 0 pre ++ List.replicate pad (.padBit v.way.cls id) ++
        exactEvents id v' ++ after := by
  have e := split_exact rule h hs
  have e' := split_exact rule h' hs'
  have hadd : ∀ (c : Count) (i : Int), c.add i (.value v') = c.add i (.value v) := by
    intro c i
    funext w k
    simp [Count.add, Leaf.way, padBefore, ownBits, hw, hz, ha]
  simp only [hadd, exactLeaf, ownEvents, Leaf.way, hw] at e e'
  refine ⟨_, _, _, by rw [e, ← List.append_assoc], ?_⟩
  rw [e', ← List.append_assoc]
  simp only [padBefore, ha]

/-- **C37.** What a value describes depends on nothing but the value and the report it is in: the
events of the same value in two trees differ at most in the report. -/
theorem C37_same_value (reg : Registry) (rule rule' : PageRule) (n n' : Node) (items items' : List Item)
    (h : compile reg n = .ok items) (h' : compile reg n' = .ok items')
    (pre post pre' post' : List Tok) (v : Value)
    (hs : tokens n = pre ++ .leaf (.value v) :: post) (hs' : tokens n' = pre' ++ .leaf (.value v) :: post') :
    ∃ b a b' a' id id', meaning rule (keys items) = b ++ exactEvents id v ++ a ∧
      meaning rule' (keys items') = b' ++ exactEvents id' v ++ a' := by
  have e := split_exact rule h hs
  have e' := split_exact rule' h' hs'
  simp only [exactLeaf, ownEvents] at e e'
  exact ⟨_, _, _, _, _, _, by rw [e, ← List.append_assoc], by rw [e', ← List.append_assoc]⟩

example : ∃ pre post, tokens sampleTree = pre ++ .leaf (.value (mk (axis 0x10030))) :: post :=
  ⟨[.enter (.named (tx "Application") 1) (some (.int 0x10002)), .report 1, .leaf (.value (mk (button 1))),
    .leaf (.value (mk (button 2))), .leaf (.align .input 8)],
   [.leaf (.value (mk (axis 0x10031))), .endReport, .report 2, .leaf (.padding .input 8),
    .leaf (.value (mk keys6)), .endReport, .leave], by rfl⟩

/-! ## C35 -/

/-- The report an event belongs to. -/
def Spec.Event.report : Event → Option Int
  | .control _ _ r _ _ => some r
  | .padBit _ r => some r
  | _ => none

/-- The last report other than 0 entered in a list of tokens. -/
def Spec.lastReport (id : Int) : List Tok → Int
  | [] => id
  | .report i :: r => lastReport (if i = 0 then id else i) r
  | _ :: r => lastReport id r

/-- The innermost report still open after a list of tokens. -/
def Spec.openReport (ids : List Int) : List Tok → Int
  | [] => ids.headD 0
  | .report i :: r => openReport (i :: ids) r
  | .endReport :: r => openReport ids.tail r
  | _ :: r => openReport ids r

theorem countAfter_last (c : Count) (last lastNZ : Int) (ts : List Tok) :
    (countAfter c last lastNZ ts).2.2 = Spec.lastReport lastNZ ts := by
  induction ts generalizing c last lastNZ with
  | nil => rfl
  | cons t ts ih => cases t <;> simp [countAfter, Spec.lastReport, ih]

theorem exactLeaf_report (id c : Int) (l : Leaf) : ∀ e ∈ exactLeaf id c l, ∀ r, e.report = some r → r = id := by
  intro e he r hr
  unfold exactLeaf at he
  rcases List.mem_append.1 he with he | he
  · rw [(List.mem_replicate.1 he).2] at hr
    simpa [Spec.Event.report] using hr.symm
  · have hfield : ∀ v, e ∈ exactFields id v → r = id := by
      intro v hv
      obtain ⟨k, -, rfl⟩ := List.mem_map.1 hv
      simpa [Spec.Event.report] using hr.symm
    cases l with
    | value v =>
      simp only [ownEvents, exactEvents] at he
      split at he
      · rw [(List.mem_replicate.1 he).2] at hr
        simpa [Spec.Event.report] using hr.symm
      · split at he
        · exact hfield v he
        · split at he
          · simp only [List.cons_append, List.mem_cons, List.mem_append, List.not_mem_nil, or_false] at he
            rcases he with rfl | he | rfl
            · simp [Spec.Event.report] at hr
            · exact hfield v he
            · simp [Spec.Event.report] at hr
          · exact hfield v he
    | align w b => simp [ownEvents] at he
    | padding w s => simp [ownEvents] at he

theorem leafIds_split (ids : List Int) (last lastNZ : Int) (pre post : List Tok) (l : Leaf) :
    ∃ x, (Spec.openReport ids pre, x, Spec.lastReport lastNZ pre)
      ∈ leafIds ids last lastNZ (pre ++ .leaf l :: post) := by
  induction pre generalizing ids last lastNZ with
  | nil => exact ⟨last, by simp [leafIds, Spec.openReport, Spec.lastReport]⟩
  | cons t pre ih =>
    cases t with
    | report i => exact ih (i :: ids) i (if i = 0 then lastNZ else i)
    | endReport => exact ih ids.tail last lastNZ
    | enter k u => exact ih ids last lastNZ
    | leave => exact ih ids last lastNZ
    | leaf l' =>
      obtain ⟨x, hx⟩ := ih ids last lastNZ
      exact ⟨x, by simp only [List.cons_append, leafIds]; exact List.mem_cons_of_mem _ hx⟩

/-- **C35 (partial).** The fields and padding bits of every element are in the report of the
innermost Report around it, 0 outside all Reports.  Missing, and false of the code: elements that
follow the end of a Report, and Report(0) after another Report (`C35_values_after_report`). -/
theorem C35_report_partial (reg : Registry) (rule : PageRule) (n : Node) (items : List Item)
    (h : compile reg n = .ok items) (hr : ReportsLast n) (pre post : List Tok) (l : Leaf)
    (hs : tokens n = pre ++ .leaf l :: post) :
    ∃ before own after c, meaning rule (keys items) = before ++ own ++ after ∧
      before = exact (fun _ _ => 0) 0 0 pre ∧ own = exactLeaf (Spec.openReport [] pre) c l ∧
      (∀ e ∈ own, ∀ r, e.report = some r → r = Spec.openReport [] pre) := by
  have hid : Spec.lastReport 0 pre = Spec.openReport [] pre := by
    obtain ⟨x, hx⟩ := leafIds_split [] 0 0 pre post l
    rw [← hs] at hx
    exact (hr _ hx).2.symm
  have e := split_exact rule h hs
  rw [countAfter_last, hid] at e
  exact ⟨_, _, _, _, e, rfl, rfl, exactLeaf_report _ _ l⟩

/-- **C35 (exact).** For any tree: what an element describes is in the report entered last before
it, still open or not. -/
theorem C35_report_exact_partial (reg : Registry) (rule : PageRule) (n : Node) (items : List Item)
    (h : compile reg n = .ok items) (pre post : List Tok) (l : Leaf)
    (hs : tokens n = pre ++ .leaf l :: post) :
    ∃ before own after c, meaning rule (keys items) = before ++ own ++ after ∧
      before = exact (fun _ _ => 0) 0 0 pre ∧ own = exactLeaf (Spec.lastReport 0 pre) c l ∧
      (∀ e ∈ own, ∀ r, e.report = some r → r = Spec.lastReport 0 pre) := by
  have e := split_exact rule h hs
  rw [countAfter_last] at e
  exact ⟨_, _, _, _, e, rfl, rfl, exactLeaf_report _ _ l⟩

/-- **C35 fails after the end of a Report**: a value following a Report in the same collection is
given the ID of that Report, although it is outside. -/
theorem C35_values_after_report :
    let n := Node.top [.report 1 [.value (mk (button 1))], .value (mk (button 2))]
    ∃ items, compile [] n = .ok items ∧
      (∀ rule, (meaning rule (keys items)).map Spec.Event.report = [some 1, some 1]) ∧
      (treeMeaning n).map Spec.Event.report = [some 1, some 0] := by
  refine ⟨_, by rfl, ?_, by decide +kernel⟩
  intro rule; cases rule <;> decide +kernel

/-! ## C32, C33 -/

/-- No element follows a Report(0) that comes after another Report. -/
def NoZeroReport (n : Node) : Prop := ∀ t ∈ leafIds [] 0 0 (tokens n), t.2.1 = t.2.2

theorem control_bits (w : Cls) (id : Int) (n : Nat) (f : Nat → Event) (x : Nat)
    (h : ∀ k, (f k).bits w id = x) : reportBits w id ((List.range n).map f) = n * x := by
  unfold reportBits
  rw [List.map_map, map_range_const (Event.bits w id ∘ f) x n h, sum_replicate]

theorem exactAttrs_size (v : Value) : (exactAttrs v).size = v.size := by
  unfold exactAttrs; split <;> rfl

theorem fields_bits (v : Value) (id : Int) (w : Way) (k : Int) :
    reportBits w.cls k (exactFields id v) =
      if v.way = w ∧ id = k then v.count.toNat * v.size.toNat else 0 := by
  have hw : v.way.cls = w.cls ↔ v.way = w := by cases v.way <;> cases w <;> simp [Way.cls]
  unfold exactFields
  rw [control_bits _ _ _ _ (if v.way = w ∧ id = k then v.size.toNat else 0)]
  · split <;> simp
  · intro j
    simp only [Event.bits, hw, exactAttrs_size]

theorem exactEvents_bits (v : Value) (id : Int) (w : Way) (k : Int) :
    reportBits w.cls k (exactEvents id v) =
      if v.way = w ∧ id = k then v.count.toNat * v.size.toNat else 0 := by
  have hw : v.way.cls = w.cls ↔ v.way = w := by cases v.way <;> cases w <;> simp [Way.cls]
  unfold exactEvents
  split
  · unfold reportBits
    rw [List.map_replicate, sum_replicate]
    simp only [Event.bits, hw]
    split
    · rw [Nat.mul_one, Nat.mul_comm]
    · simp
  · split
    · exact fields_bits v id w k
    · split
      · rename_i u _
        rw [show (Event.enter 2 ⟨some u, 0, 0⟩ :: exactFields id v ++ [Event.leave])
          = [Event.enter 2 ⟨some u, 0, 0⟩] ++ exactFields id v ++ [Event.leave] from rfl,
          reportBits_append, reportBits_append, fields_bits]
        simp [reportBits, Event.bits]
      · exact fields_bits v id w k

/-- Bits a compiled leaf really takes. -/
def trueBits (c : Int) : Leaf → Int
  | .value v => padBefore c (.value v) + v.size * v.count
  | l => padBefore c l

theorem exactLeaf_bits {c : Int} {l : Leaf} (id : Int) (h : 0 ≤ padBefore c l)
    (hv : ∀ v, l = .value v → 0 ≤ v.size ∧ 0 ≤ v.count) (w : Way) (k : Int) :
    (reportBits w.cls k (exactLeaf id c l) : Int) = if w = l.way ∧ k = id then trueBits c l else 0 := by
  have hw : l.way.cls = w.cls ↔ l.way = w := by cases l.way <;> cases w <;> simp [Way.cls]
  unfold exactLeaf
  rw [reportBits_append]
  have e1 : (reportBits w.cls k (List.replicate (padBefore c l).toNat (.padBit l.way.cls id)) : Int)
      = if w = l.way ∧ k = id then padBefore c l else 0 := by
    unfold reportBits
    rw [List.map_replicate, sum_replicate]
    simp only [Event.bits, hw]
    by_cases hh : l.way = w ∧ id = k
    · rw [if_pos hh, if_pos ⟨hh.1.symm, hh.2.symm⟩]; simp; omega
    · rw [if_neg hh, if_neg (fun h => hh ⟨h.1.symm, h.2.symm⟩)]; simp
  cases l with
  | value v =>
    push_cast
    rw [e1, ownEvents, exactEvents_bits]
    have := hv v rfl
    by_cases hh : w = v.way ∧ k = id
    · obtain ⟨rfl, rfl⟩ := hh
      simp only [Leaf.way, and_self, if_true, trueBits]
      rw [Int.natCast_mul, Int.toNat_of_nonneg this.1, Int.toNat_of_nonneg this.2, Int.mul_comm]
    · have hh' : ¬ (v.way = w ∧ id = k) := fun h => hh ⟨h.1.symm, h.2.symm⟩
      have h2 : ¬ (w = (Leaf.value v).way ∧ k = id) := hh
      rw [if_neg hh', if_neg h2, if_neg h2]; rfl
  | align b s => push_cast; rw [e1]; simp [ownEvents, reportBits, trueBits]
  | padding b s => push_cast; rw [e1]; simp [ownEvents, reportBits, trueBits]

/-- What is counted and the true layout agree up to multiples of `A`. -/
theorem bits_exact {A : Nat} (ts : List Tok) (ids : List Int) (c : Count) (last lastNZ : Int)
    (hz : ∀ t ∈ leafIds ids last lastNZ ts, t.2.1 = t.2.2) (hf : ∀ l, Tok.leaf l ∈ ts → LeafFit A l)
    (hs : Sane c last ts) (w : Way) (k : Int) :
    (A : Int) ∣ (reportBits w.cls k (exact c last lastNZ ts) : Int)
      - ((countAfter c last lastNZ ts).1 w k - c w k) := by
  induction ts generalizing ids c last lastNZ with
  | nil => simp [Streamer.exact, countAfter, reportBits]
  | cons t ts ih =>
    have hf' : ∀ l, Tok.leaf l ∈ ts → LeafFit A l := fun l hl => hf l (by simp [hl])
    have hcons : ∀ (e : Event) (es : List Event), e.bits w.cls k = 0 →
        reportBits w.cls k (e :: es) = reportBits w.cls k es := by
      intro e es he; simp [reportBits, he]
    cases t with
    | report i =>
      simp only [leafIds] at hz
      simp only [Sane] at hs
      simp only [Streamer.exact, countAfter]
      exact ih (i :: ids) c i _ hz hf' hs
    | endReport =>
      simp only [leafIds] at hz
      simp only [Sane] at hs
      simp only [Streamer.exact, countAfter]
      exact ih ids.tail c last _ hz hf' hs
    | enter kd u =>
      simp only [leafIds] at hz
      simp only [Sane] at hs
      simp only [Streamer.exact, countAfter]
      rw [hcons _ _ rfl]
      exact ih ids c last _ hz hf' hs
    | leave =>
      simp only [leafIds] at hz
      simp only [Sane] at hs
      simp only [Streamer.exact, countAfter]
      rw [hcons _ _ rfl]
      exact ih ids c last _ hz hf' hs
    | leaf l =>
      simp only [leafIds, List.mem_cons, forall_eq_or_imp] at hz
      simp only [Sane] at hs
      obtain ⟨h1, h2, h3⟩ := hs
      obtain ⟨z1, z2⟩ := hz
      subst z1
      have := ih ids (c.add last l) last last z2 hf' h3
      simp only [Streamer.exact, countAfter]
      rw [reportBits_append]
      have hb := exactLeaf_bits last h1 h2 w k
      push_cast
      rw [hb]
      have hd : (A : Int) ∣ (if w = l.way ∧ k = last then trueBits (c l.way last) l else 0)
          - ((c.add last l) w k - c w k) := by
        simp only [Count.add]
        by_cases hh : w = l.way ∧ k = last
        · obtain ⟨rfl, rfl⟩ := hh
          simp only [and_self, if_true]
          have hlf := hf l (by simp)
          cases l with
          | value v =>
            simp only [trueBits, ownBits]
            rw [show padBefore (c (Leaf.value v).way k) (.value v) + v.size * v.count -
              (c (Leaf.value v).way k + padBefore (c (Leaf.value v).way k) (.value v) + v.size
                - c (Leaf.value v).way k) = v.size * (v.count - 1) by
                rw [Int.mul_sub]; omega]
            exact hlf.2
          | align w b =>
            simp only [trueBits, ownBits]
            rw [show ∀ x y : Int, x - (y + x + 0 - y) = 0 by intro x y; omega]
            exact Int.dvd_zero _
          | padding w b =>
            simp only [trueBits, ownBits]
            rw [show ∀ x y : Int, x - (y + x + 0 - y) = 0 by intro x y; omega]
            exact Int.dvd_zero _
        · simp [hh]
      have := Int.dvd_add this hd
      rw [show ∀ a b x y z : Int, a + b - (x - y) = (b - (x - z)) + (a - (z - y)) by intros; omega]
      exact this

/-- The boundary a leaf must start at or reach. -/
def Spec.Leaf.boundary : Leaf → Int
  | .value v => v.alignment
  | .align _ b => b
  | .padding _ _ => 1

theorem leafIds_split2 (ids : List Int) (c : Count) (last lastNZ : Int) (pre post : List Tok) (l : Leaf) :
    ∃ x, (x, (countAfter c last lastNZ pre).2.1, (countAfter c last lastNZ pre).2.2)
      ∈ leafIds ids last lastNZ (pre ++ .leaf l :: post) := by
  induction pre generalizing ids c last lastNZ with
  | nil => exact ⟨ids.headD 0, by simp [leafIds, countAfter]⟩
  | cons t pre ih =>
    cases t with
    | report i => exact ih (i :: ids) c i (if i = 0 then lastNZ else i)
    | endReport => exact ih ids.tail c last lastNZ
    | enter k u => exact ih ids c last lastNZ
    | leave => exact ih ids c last lastNZ
    | leaf l' =>
      obtain ⟨x, hx⟩ := ih ids (c.add last l') last lastNZ
      exact ⟨x, by simp only [List.cons_append, leafIds]; exact List.mem_cons_of_mem _ hx⟩

theorem leafIds_prefix (ids : List Int) (last lastNZ : Int) (pre post : List Tok) :
    ∀ t ∈ leafIds ids last lastNZ pre, t ∈ leafIds ids last lastNZ (pre ++ post) := by
  induction pre generalizing ids last lastNZ with
  | nil => simp [leafIds]
  | cons t pre ih =>
    cases t <;> simp only [List.cons_append, leafIds]
    case leaf l =>
      intro t ht
      rcases List.mem_cons.1 ht with rfl | ht
      · simp
      · exact List.mem_cons_of_mem _ (ih _ _ _ t ht)
    all_goals exact ih _ _ _

theorem sane_split (c : Count) (last lastNZ : Int) (pre post : List Tok) (h : Sane c last (pre ++ post)) :
    Sane c last pre ∧ Sane (countAfter c last lastNZ pre).1 (countAfter c last lastNZ pre).2.1 post := by
  induction pre generalizing c last lastNZ with
  | nil => exact ⟨trivial, h⟩
  | cons t pre ih =>
    cases t <;> simp only [List.cons_append, Sane, countAfter] at h ⊢
    case leaf l =>
      have := ih _ _ lastNZ h.2.2
      exact ⟨⟨h.1, h.2.1, this.1⟩, this.2⟩
    all_goals exact ih _ _ _ h

/-- What precedes a leaf in the compiled stream, and the padding in front of it. -/
theorem leaf_place {A : Nat} {reg : Registry} (rule : PageRule) {n : Node} {items : List Item}
    (h : compile reg n = .ok items) (hz : NoZeroReport n) (hf : CountsFit A n)
    {pre post : List Tok} {l : Leaf} (hs : tokens n = pre ++ .leaf l :: post) :
    ∃ c, (A : Int) ∣ (reportBits l.way.cls (Spec.lastReport 0 pre) (exact (fun _ _ => 0) 0 0 pre) : Int) - c ∧
      0 ≤ padBefore c l ∧
      ∃ after, meaning rule (keys items) = exact (fun _ _ => 0) 0 0 pre ++
        List.replicate (padBefore c l).toNat (.padBit l.way.cls (Spec.lastReport 0 pre)) ++
        ownEvents (Spec.lastReport 0 pre) l ++ after := by
  have e := split_exact rule h hs
  obtain ⟨-, hsane⟩ := compile_exact rule h
  rw [hs] at hsane
  obtain ⟨s1, s2⟩ := sane_split _ _ 0 _ _ hsane
  simp only [Sane] at s2
  have hlast : (countAfter (fun _ _ => 0) 0 0 pre).2.1 = (countAfter (fun _ _ => 0) 0 0 pre).2.2 := by
    obtain ⟨x, hx⟩ := leafIds_split2 [] (fun _ _ => 0) 0 0 pre post l
    rw [← hs] at hx
    exact hz _ hx
  have hb := bits_exact (A := A) pre [] (fun _ _ => 0) 0 0
    (fun t ht => hz t (by rw [hs]; exact leafIds_prefix [] 0 0 pre _ t ht))
    (fun l' hl' => leafFit_of hf (mem_leaves.2 (by rw [hs]; simp [hl']))) s1 l.way (Spec.lastReport 0 pre)
  rw [countAfter_last] at e hlast
  rw [hlast] at e s2
  refine ⟨(countAfter (fun _ _ => 0) 0 0 pre).1 l.way (Spec.lastReport 0 pre), by simpa using hb, s2.1, _, by
    rw [e, exactLeaf, ← List.append_assoc]⟩

theorem padBefore_boundary (c : Int) (l : Leaf) (hb : l.boundary > 1) : padBefore c l = (-c) % l.boundary := by
  cases l with
  | value v => simp only [Spec.Leaf.boundary] at hb; simp [padBefore, hb, Spec.Leaf.boundary]
  | align w b => simp only [Spec.Leaf.boundary] at hb; simp [padBefore, hb, Spec.Leaf.boundary]
  | padding w s => simp [Spec.Leaf.boundary] at hb

theorem fit_boundary {A : Nat} {l : Leaf} (h : LeafFit A l) (hb : l.boundary > 1) : l.boundary ∣ (A : Int) := by
  cases l with
  | value v => exact h.1 hb
  | align w b => exact h hb
  | padding w s => simp [Spec.Leaf.boundary] at hb

/-- **C32 (partial).** In the compiled layout the first field of every value, and what follows an
Align, starts at a multiple of its alignment within its direction and report.  Missing, and false of
the code: values whose further fields are not a multiple of the alignments in use
(`C32_counts_break`), and Report(0) after another report (`C32_zero_report_breaks`). -/
theorem C32_aligned_partial (reg : Registry) (rule : PageRule) (n : Node) (items : List Item)
    (h : compile reg n = .ok items) (hz : NoZeroReport n) (a : Nat) (hf : CountsFit a n)
    (pre post : List Tok) (l : Leaf) (hs : tokens n = pre ++ .leaf l :: post) (hb : l.boundary > 1) :
    ∃ pad : Nat, ∃ after, meaning rule (keys items) = exact (fun _ _ => 0) 0 0 pre ++
        List.replicate pad (.padBit l.way.cls (Spec.lastReport 0 pre)) ++
        ownEvents (Spec.lastReport 0 pre) l ++ after ∧
      l.boundary ∣ (reportBits l.way.cls (Spec.lastReport 0 pre) (exact (fun _ _ => 0) 0 0 pre ++
        List.replicate pad (.padBit l.way.cls (Spec.lastReport 0 pre))) : Int) := by
  obtain ⟨c, hc, h0, after, e⟩ := leaf_place rule h hz hf hs
  refine ⟨_, after, e, ?_⟩
  have hfit := fit_boundary (leafFit_of hf (mem_leaves.2 (by rw [hs]; simp))) hb
  have hd := Int.dvd_trans hfit hc
  rw [reportBits_append]
  have hpad : reportBits l.way.cls (Spec.lastReport 0 pre) (List.replicate (padBefore c l).toNat
      (.padBit l.way.cls (Spec.lastReport 0 pre))) = (padBefore c l).toNat := by
    unfold reportBits
    rw [List.map_replicate, sum_replicate]
    simp [Event.bits]
  rw [hpad]
  push_cast
  rw [Int.toNat_of_nonneg h0, padBefore_boundary c l hb]
  have h1 : l.boundary ∣ c + (-c) % l.boundary := by
    apply Int.dvd_of_emod_eq_zero
    rw [Int.add_emod_emod]
    rw [show c + -c = 0 by omega]; exact Int.zero_emod _
  have := Int.dvd_add hd h1
  rw [show ∀ x y z : Int, x - y + (y + z) = x + z by intros; omega] at this
  exact this

/-- **C32 fails for values with a count**: the streamer counts one field of such a value, so what
follows may start anywhere.  Here two bits are laid out before an 8-bit value of alignment 8, but
7 padding bits are inserted. -/
theorem C32_counts_break :
    let pair : Value := mk { button 1 with count := 2 }
    let n := Node.top [.value pair, .value (mk (axis 0x10030))]
    ∃ items, compile [] n = .ok items ∧ (mk (axis 0x10030)).alignment = 8 ∧
      ∀ rule, ∃ before axisEvents, meaning rule (keys items) = before ++ axisEvents ∧
        axisEvents.length = 1 ∧ reportBits .input 0 before = 9 := by
  refine ⟨_, by rfl, by decide +kernel, ?_⟩
  intro rule
  cases rule <;> refine ⟨List.take 9 _, List.drop 9 _, (List.take_append_drop 9 _).symm, ?_, ?_⟩ <;>
    decide +kernel

/-- **C33.** Padding(n) inserts n bits; the padding of an Align or in front of a value is less than
the boundary (none for boundaries up to 1). -/
theorem C33_padding_bound (reg : Registry) (rule : PageRule) (n : Node) (items : List Item)
    (h : compile reg n = .ok items) (pre post : List Tok) (l : Leaf)
    (hs : tokens n = pre ++ .leaf l :: post) :
    ∃ pad : Nat, ∃ after, meaning rule (keys items) = exact (fun _ _ => 0) 0 0 pre ++
        List.replicate pad (.padBit l.way.cls (Spec.lastReport 0 pre)) ++
        ownEvents (Spec.lastReport 0 pre) l ++ after ∧
      match l with
      | .padding _ s => (pad : Int) = s
      | _ => (l.boundary ≤ 1 → pad = 0) ∧ (1 < l.boundary → (pad : Int) < l.boundary) := by
  have e := split_exact rule h hs
  obtain ⟨-, hsane⟩ := compile_exact rule h
  rw [hs] at hsane
  obtain ⟨-, s2⟩ := sane_split _ _ 0 _ _ hsane
  simp only [Sane] at s2
  rw [countAfter_last, exactLeaf, ← List.append_assoc] at e
  refine ⟨(padBefore _ l).toNat, _, e, ?_⟩
  cases l with
  | padding w s =>
    exact Int.toNat_of_nonneg s2.1
  | align w b =>
    simp only [Spec.Leaf.boundary, padBefore]
    refine ⟨fun hb => ?_, fun hb => ?_⟩
    · rw [if_neg (by omega)]; rfl
    · rw [if_pos (by omega), Int.toNat_of_nonneg (Int.emod_nonneg _ (by omega))]
      exact Int.emod_lt_of_pos _ (by omega)
  | value v =>
    simp only [Spec.Leaf.boundary, padBefore]
    refine ⟨fun hb => ?_, fun hb => ?_⟩
    · rw [if_neg (by omega)]; rfl
    · rw [if_pos (by omega), Int.toNat_of_nonneg (Int.emod_nonneg _ (by omega))]
      exact Int.emod_lt_of_pos _ (by omega)

/-- **C33 (partial).** No padding is inserted where the layout is already aligned.  Missing, and
false of the code: the streamer's count ignores further fields of a value (`C33_counts_break`), and
Report(0) after another report (`C33_zero_report_breaks`). -/
theorem C33_minimal_partial (reg : Registry) (rule : PageRule) (n : Node) (items : List Item)
    (h : compile reg n = .ok items) (hz : NoZeroReport n) (a : Nat) (hf : CountsFit a n)
    (pre post : List Tok) (l : Leaf) (hs : tokens n = pre ++ .leaf l :: post) (hb : l.boundary > 1)
    (hal : l.boundary ∣ (reportBits l.way.cls (Spec.lastReport 0 pre) (exact (fun _ _ => 0) 0 0 pre) : Int)) :
    ∃ after, meaning rule (keys items) = exact (fun _ _ => 0) 0 0 pre ++
        ownEvents (Spec.lastReport 0 pre) l ++ after := by
  obtain ⟨c, hc, h0, after, e⟩ := leaf_place rule h hz hf hs
  refine ⟨after, ?_⟩
  have hfit := fit_boundary (leafFit_of hf (mem_leaves.2 (by rw [hs]; simp))) hb
  have hd := Int.dvd_trans hfit hc
  have hcd : l.boundary ∣ c := by
    have := Int.dvd_sub hal hd
    rw [show ∀ x y : Int, x - (x - y) = y by intros; omega] at this
    exact this
  have : padBefore c l = 0 := by
    rw [padBefore_boundary c l hb]
    exact Int.emod_eq_zero_of_dvd (Int.dvd_neg.2 hcd)
  rw [this] at e
  simpa using e

/-- The sample tree meets the conditions; its Align has boundary 8. -/
example : NoZeroReport sampleTree ∧ CountsFit 8 sampleTree ∧ (Leaf.align .input 8).boundary > 1 := by
  refine ⟨?_, sampleTree_ok.2.2.2.2.2, by decide⟩
  intro t ht
  have := sampleTree_ok.2.2.2.2.1 t ht
  rw [← this.1]; exact this.2

/-- **C32 fails for Report(0) after another report**: no ReportID is written, so the value lands in report
1, whose one bit it follows directly although its alignment is 8. -/
theorem C32_zero_report_breaks :
    let n := Node.top [.report 1 [.value (mk (button 1))], .report 0 [.value (mk (axis 0x10030))]]
    ∃ items, compile [] n = .ok items ∧ (mk (axis 0x10030)).alignment = 8 ∧
      ∀ rule, ∃ before axisEvents, meaning rule (keys items) = before ++ axisEvents ∧
        axisEvents.length = 1 ∧ axisEvents.map Event.report = [some 1] ∧ reportBits .input 1 before = 1 := by
  refine ⟨_, by rfl, by decide +kernel, ?_⟩
  intro rule
  cases rule <;> refine ⟨List.take 1 _, List.drop 1 _, (List.take_append_drop 1 _).symm, ?_, ?_, ?_⟩ <;>
    decide +kernel

/-- **C33 fails for values with a count**: after a value of 8 one-bit fields the report is aligned, yet
7 bits of padding are inserted in front of a value of alignment 8. -/
theorem C33_counts_break :
    let eight : Value := mk { button 1 with count := 8 }
    let n := Node.top [.value eight, .value (mk (axis 0x10030))]
    ∃ items, compile [] n = .ok items ∧ (mk (axis 0x10030)).alignment = 8 ∧
      ∀ rule, (meaning rule (keys items)).length = 16 ∧
        reportBits .input 0 ((meaning rule (keys items)).take 8) = 8 ∧
        ((meaning rule (keys items)).drop 8).take 7 = List.replicate 7 (.padBit .input 0) ∧
        ((meaning rule (keys items)).drop 15).map Event.report = [some 0] := by
  refine ⟨_, by rfl, by decide +kernel, ?_⟩
  intro rule
  cases rule <;> decide +kernel

/-- **C33 fails for Report(0) after another report**: report 1 has 8 bits when `Align` comes, yet 7 bits are
inserted into it. -/
theorem C33_zero_report_breaks :
    let before := [Node.report 1 [.padding .input 7], .report 0 [.padding .input 1]]
    let n := Node.top [.report 1 [.padding .input 7], .report 0 [.padding .input 1, .align .input 8]]
    ∃ items items', compile [] (.top before) = .ok items ∧ compile [] n = .ok items' ∧
      ∀ rule, reportBits .input 1 (meaning rule (keys items)) = 8 ∧
        meaning rule (keys items') = meaning rule (keys items) ++ List.replicate 7 (.padBit .input 1) := by
  refine ⟨_, _, by rfl, by rfl, ?_⟩
  intro rule
  cases rule <;> decide +kernel

/-! ## C54 -/

/-- Hierarchical elements. -/
def Node.isContainer : Node → Bool
  | .report .. | .top .. | .coll .. => true
  | _ => false

/-- Python's list operations. -/
def Spec.listOp (l : List Node) : ContOp → Except PyErr (List Node × ContRes)
  | .append m => .ok (l ++ [m], .none)
  | .pop => match l.reverse with
    | [] => .error .index
    | m :: r => .ok (r.reverse, .node m)
  | .get i =>
    if 0 ≤ i then match l[i.toNat]? with | some m => .ok (l, .node m) | none => .error .index
    else match l.reverse[(-i - 1).toNat]? with | some m => .ok (l, .node m) | none => .error .index
  | .len => .ok (l, .num l.length)
  | .iter => .ok (l, .nodes l)

/-- Results of a sequence of operations; an operation that raises changes nothing. -/
def Node.ops (n : Node) : List ContOp → Node × List (Except PyErr ContRes)
  | [] => (n, [])
  | o :: os => match n.op o with
    | .ok (n', r) => let (m, rs) := n'.ops os; (m, .ok r :: rs)
    | .error e => let (m, rs) := n.ops os; (m, .error e :: rs)

/-- The same on a list. -/
def Spec.listOps (l : List Node) : List ContOp → List Node × List (Except PyErr ContRes)
  | [] => (l, [])
  | o :: os => match Spec.listOp l o with
    | .ok (l', r) => let (m, rs) := Spec.listOps l' os; (m, .ok r :: rs)
    | .error e => let (m, rs) := Spec.listOps l os; (m, .error e :: rs)

/-- Results up to the value `pop` returns. -/
def Spec.sameRes : ContOp → Except PyErr ContRes → Except PyErr ContRes → Prop
  | .pop, .ok _, .ok _ => True
  | _, a, b => a = b

/-- Results of a list of operations, compared one by one. -/
def Spec.sameResL : List ContOp → List (Except PyErr ContRes) → List (Except PyErr ContRes) → Prop
  | [], [], [] => True
  | o :: os, a :: as, b :: bs => Spec.sameRes o a b ∧ Spec.sameResL os as bs
  | _, _, _ => False

theorem members_with (n : Node) (l : List Node) (h : n.isContainer = true) :
    (n.withMembers l).members = l ∧ (n.withMembers l).isContainer = true := by
  cases n <;> simp_all [Node.isContainer, Node.withMembers, Node.members]

theorem op_list (n : Node) (h : n.isContainer = true) (o : ContOp) :
    (∃ e, n.op o = .error e ∧ Spec.listOp n.members o = .error e) ∨
    ∃ n' l' r r', n.op o = .ok (n', r) ∧ Spec.listOp n.members o = .ok (l', r') ∧ n'.members = l' ∧
      n'.isContainer = true ∧ Spec.sameRes o (.ok r) (.ok r') ∧
      (∀ l, n'.withMembers l = n.withMembers l) := by
  have hww : ∀ l l', (n.withMembers l).withMembers l' = n.withMembers l' := by
    intro l l'; cases n <;> rfl
  cases o with
  | append m =>
    exact .inr ⟨_, _, _, _, rfl, rfl, (members_with n _ h).1, (members_with n _ h).2, rfl, hww _⟩
  | pop =>
    cases hm : n.members with
    | nil => exact .inl ⟨.index, by simp [Node.op, hm], by simp [Spec.listOp]⟩
    | cons x xs =>
      right
      have hr : (x :: xs).reverse = (x :: xs).getLast (by simp) :: (x :: xs).dropLast.reverse := by
        have := congrArg List.reverse (List.dropLast_concat_getLast (l := x :: xs) (by simp))
        rw [List.reverse_append] at this
        exact this.symm
      refine ⟨n.withMembers (x :: xs).dropLast, (x :: xs).dropLast, .none, .node ((x :: xs).getLast (by simp)),
        by simp [Node.op, hm], ?_, (members_with n _ h).1, (members_with n _ h).2, trivial, hww _⟩
      simp only [Spec.listOp, hr, List.reverse_reverse]
  | get i =>
    simp only [Node.op, Spec.listOp, pyIndex]
    by_cases hi : 0 ≤ i
    · rw [if_neg (show ¬ i < 0 by omega), if_pos hi, if_pos hi]
      cases n.members[i.toNat]? with
      | none => exact .inl ⟨.index, rfl, rfl⟩
      | some m => exact .inr ⟨_, _, _, _, rfl, rfl, rfl, h, rfl, fun _ => rfl⟩
    · rw [if_pos (show i < 0 by omega), if_neg hi]
      by_cases hj : 0 ≤ i + n.members.length
      · rw [if_pos hj, List.getElem?_reverse (by omega)]
        rw [show n.members.length - 1 - (-i - 1).toNat = (i + n.members.length).toNat by omega]
        cases n.members[(i + ↑n.members.length).toNat]? with
        | none => exact .inl ⟨.index, rfl, rfl⟩
        | some m => exact .inr ⟨_, _, _, _, rfl, rfl, rfl, h, rfl, fun _ => rfl⟩
      · rw [if_neg hj, List.getElem?_eq_none (by simp; omega)]
        exact .inl ⟨.index, rfl, rfl⟩
  | len => exact .inr ⟨_, _, _, _, rfl, rfl, rfl, h, rfl, fun _ => rfl⟩
  | iter => exact .inr ⟨_, _, _, _, rfl, rfl, rfl, h, rfl, fun _ => rfl⟩

theorem withMembers_self (n : Node) : n.withMembers n.members = n := by cases n <;> rfl

/-- **C54 (partial).** Any sequence of operations on a Report, Collection or TopLevel has the
effects, results and exceptions it has on the list of members, and leaves the rest of the element
alone.  Missing, and false of the code: `pop` returns the removed element (`C54_pop_returns_none`). -/
theorem C54_container_partial (n : Node) (h : n.isContainer = true) (os : List ContOp) :
    (n.ops os).1 = n.withMembers (Spec.listOps n.members os).1 ∧
    Spec.sameResL os (n.ops os).2 (Spec.listOps n.members os).2 := by
  induction os generalizing n with
  | nil => exact ⟨(withMembers_self n).symm, trivial⟩
  | cons o os ih =>
    rcases op_list n h o with ⟨e, h1, h2⟩ | ⟨n', l', r, r', h1, h2, h3, h4, h5, h6⟩
    · simp only [Node.ops, Spec.listOps, h1, h2]
      refine ⟨(ih n h).1, ?_, (ih n h).2⟩
      cases o <;> rfl
    · simp only [Node.ops, Spec.listOps, h1, h2]
      obtain ⟨i1, i2⟩ := ih n' h4
      rw [h3, h6] at i1
      rw [h3] at i2
      exact ⟨i1, h5, i2⟩

/-- **C54 fails for `pop`**: it never returns an element, whatever the members. -/
theorem C54_pop_returns_none (n n' : Node) (r : ContRes) (h : n.op .pop = .ok (n', r)) : r = .none := by
  simp only [Node.op] at h
  split at h
  · simp at h
  · simp only [Except.ok.injEq, Prod.mk.injEq] at h; exact h.2.symm

example : (Node.top [.padding .input 3]).isContainer = true ∧
    ((Node.top [.padding .input 3]).op .pop).toOption.isSome := by
  exact ⟨rfl, rfl⟩

end Hrdc
