import Verif.Proofs.Extract
/-!
# Data items in the decompiler
-/
namespace Hrdc
open Spec

namespace Extractor

/-- The state before data item `i` as the host sees it. -/
structure AtMain (r : MainRec) (st : State) (ops : List (Int × Bool)) : Prop where
  g : ∀ c, (st.g c).toInt = r.g c
  usages : r.usages = st.usages.map (fun u => full (r.g .usagePage) u.toInt)
  strings : r.strings = st.strings.map PyVal.toInt
  desigs : r.desigs = st.desigs.map PyVal.toInt
  named : st.inNamed = false
  levels : Corr ops (st.level :: st.stack)
  page : 0 ≤ r.g .usagePage
  size : 0 ≤ r.g .reportSize
  count : 0 ≤ r.g .reportCount
  pos : ∀ u ∈ st.usages, 0 ≤ u.toInt

theorem sim_main {h : Host} {st : State} {ops : List (Int × Bool)} {mu ms md : Met}
    (S : Sim h st ops mu ms md) (i : SItem) : AtMain (h.main .atMain i) st.expandAll ops := by
  refine ⟨S.g, ?_, ?_, ?_, S.named, S.levels, S.page, S.size, S.count, ?_⟩
  · exact rel_values S.usages _ (fun l h hs => upTo_full _ l h hs)
  · have := rel_values S.strings id (by simp)
    simpa [Host.main, State.expandAll] using this
  · have := rel_values S.desigs id (by simp)
    simpa [Host.main, State.expandAll] using this
  · intro u hu
    simp only [State.expandAll] at hu
    unfold expand at hu
    split at hu
    · rename_i l h' h1 h2 h3
      simp only [List.mem_map, UsageRange.pyRange] at hu
      obtain ⟨_, ⟨k, _, rfl⟩, rfl⟩ := hu
      have := S.posLo l h1
      show 0 ≤ l.toInt + (k : Int)
      omega
    · exact S.pos u hu

theorem clamp_map {α : Type} (l : List α) (f : α → Int) (k : Nat) : (clamp l k).map f = pick (l.map f) k := by
  unfold clamp pick
  by_cases h : k < l.length
  · rw [Nat.min_eq_right (by omega)]
    simp [h]
  · rw [Nat.min_eq_left (by omega)]
    have : (l.map f)[k]? = none := by simp; omega
    rw [this, Option.none_or, List.getLast?_eq_getElem?]
    simp

theorem string_pick {r : MainRec} {st : State} {ops : List (Int × Bool)} (A : AtMain r st ops) (k : Nat) :
    st.string k = (pick r.strings k).getD 0 := by
  rw [State.string, clamp_map, A.strings]

theorem desig_pick {r : MainRec} {st : State} {ops : List (Int × Bool)} (A : AtMain r st ops) (k : Nat) :
    st.designator k = (pick r.desigs k).getD 0 := by
  rw [State.designator, clamp_map, A.desigs]

theorem clamp_mem {α : Type} {l : List α} {k : Nat} {a : α} (h : clamp l k = some a) : a ∈ l :=
  List.mem_of_getElem? h

theorem usage_pick (reg : Registry) {r : MainRec} {st : State} {ops : List (Int × Bool)}
    (A : AtMain r st ops) (k : Nat) :
    (st.usage reg k).map PyVal.toInt = pick r.usages k ∧ usageOf (st.usage reg k) = pick r.usages k := by
  rw [A.usages, ← clamp_map]
  unfold State.usage
  cases hc : clamp st.usages k with
  | none => exact ⟨rfl, rfl⟩
  | some u =>
    have h0 := A.pos u (clamp_mem hc)
    simp only
    split
    · rename_i hu
      have hf : full (r.g .usagePage) u.toInt = u.toInt := by
        unfold full; rw [if_neg (by omega)]
      refine ⟨by simp [hf], ?_⟩
      have ht : u.truthy = true := by
        cases u with
        | int i =>
          have : i ≠ 0 := by intro he; subst he; exact hu rfl
          simp [PyVal.truthy, this]
        | named n i => rfl
        | usage u => rfl
      simp [usageOf, ht, hf]
    · rename_i hu
      have hlt : u.toInt < 65536 := by omega
      have hp : 0 ≤ st.num .usagePage := by rw [State.num, A.g]; exact A.page
      have hv : (PyVal.usage (Usage.lookup reg (.int (Usage.joinPage (st.num .usagePage) u.toInt)))).toInt =
          full (r.g .usagePage) u.toInt := by
        show (Usage.lookup reg _).value = _
        rw [lookup_value]
        show Usage.joinPage _ _ = _
        rw [joinPage_eq hp h0 hlt, State.num, A.g]
        unfold full
        rw [if_pos hlt]
      refine ⟨by simp [hv], ?_⟩
      simp [usageOf, PyVal.truthy, hv]

theorem addMany_ok (st : State) (f : ValueArgs → Value) (as : List ValueArgs)
    (h : ∀ a ∈ as, Value.new a = .ok (f a)) :
    st.addMany as = .ok { st with level := { st.level with
      members := st.level.members ++ as.map (fun a => .leaf (st.num .reportID) (.value (f a))) } } := by
  induction as generalizing st with
  | nil => simp [State.addMany]
  | cons a as ih =>
    rw [State.addMany, State.addNew, h a (by simp)]
    simp only
    rw [ih _ (fun b hb => h b (by simp [hb]))]
    simp [State.addValue, State.num]

/-- Values the extractor makes; `C` holds of their counts. -/
def ValueOK (C : Int → Prop) (v : Value) : Prop :=
  v.Made ∧ v.alignment = min 8 v.size ∧ 0 ≤ v.size ∧ bitSet v.flags.toInt 0 = false ∧
    (arrayUsages v.namedArray ≠ [] → v.usage = none) ∧ C v.count

/-- Leaves the extractor makes. -/
def LeafOK (C : Int → Prop) (n : Node) : Prop :=
  (∃ w s, n = .padding w s) ∨ ∃ v, n = .value v ∧ ValueOK C v

theorem padding_ok (w : Way) (s : Int) : Padding.new w s = .ok (.padding w s) := by
  simp [Padding.new, Value.new, truthOpt, constFlag, bitSet, PyVal.toInt]

theorem wayOf_cls {c : Cls} (h : c.isData = true) : (wayOf c).cls = c := by
  cases c <;> simp [Cls.isData] at h <;> rfl

/-- The value made of `State.args`. -/
def State.plainValue (reg : Registry) (st : State) (i : Item) (k : Nat) (n : Int) : Value where
  way := wayOf i.cls
  flags := i.val
  usage := st.usage reg k
  size := st.num .reportSize
  alignment := min 8 (st.num .reportSize)
  logicalMin := some (st.num .logMin)
  logicalMax := some (st.num .logMax)
  physicalMin := some (if st.num .physMin = 0 ∧ st.num .physMax = 0 then st.num .logMin else st.num .physMin)
  physicalMax := some (if st.num .physMin = 0 ∧ st.num .physMax = 0 then st.num .logMax else st.num .physMax)
  namedArray := none
  unit := st.g .unit
  unitExponent := st.num .unitExp
  designator := st.designator k
  string := st.string k
  count := n

theorem new_plain (reg : Registry) (st : State) (i : Item) (k : Nat) (n : Int) :
    Value.new { st.args reg i k with count := n } = .ok (st.plainValue reg i k n) := by
  unfold Value.new State.args State.plainValue
  simp only [truthOpt, reduceCtorEq, or_self, false_and, if_false, Option.getD_none, intGiven]
  by_cases h1 : st.num .physMin = 0 <;> by_cases h2 : st.num .physMax = 0 <;> simp [h1, h2]

theorem bitSet_eight (i : Int) : bitSet i 8 = (i / 256 % 2 == 1) := by simp [bitSet]

/-- What a plain value describes. -/
theorem plain_events (reg : Registry) {r : MainRec} {st : State} {ops : List (Int × Bool)}
    (A : AtMain r st ops) {i : Item} (hd : i.cls.isData = true) (hr : r.cls = i.cls) (hv : r.val = i.ival)
    (hc : r.isConst = false) (k : Nat) (n : Int)
    (hw : r.isVar = true ∨ (r.usages.length ≤ 1 ∧ r.uniform = true)) :
    valueEvents (st.num .reportID) (st.plainValue reg i k n) =
      List.replicate n.toNat (.control r.cls r.val (r.g .reportID) r.attrs (r.what k)) := by
  have hu := (usage_pick reg A k).2
  have hb : bitSet i.val.toInt 0 = false := by
    rw [bitSet_zero]; rw [MainRec.isConst, hv] at hc; exact hc
  simp only [valueEvents_eq, State.plainValue, arrayUsages, hb, wayOf_cls hd]
  have hnum : ∀ c, st.num c = r.g c := A.g
  have hunit : (st.g .unit).toInt = r.g .unit := A.g .unit
  have hwhat : (if bitSet i.val.toInt 1 = true then [selectorOf (st.plainValue reg i k n) (usageOf (st.usage reg k))]
      else List.map (fun u => selectorOf (st.plainValue reg i k n) (some u)) (usageOf (st.usage reg k)).toList) =
      r.what k := by
    have hvar : r.isVar = bitSet i.val.toInt 1 := by
      rw [bitSet_one, MainRec.isVar, hv]; rfl
    rw [MainRec.what, hvar]
    split
    · simp [selectorOf, State.plainValue, MainRec.selector, hu, string_pick A, desig_pick A]
    · rename_i hnv
      rcases hw with hw | ⟨hw, hun⟩
      · rw [hvar] at hw; simp [hw] at hnv
      · simp only [MainRec.uniform, Bool.and_eq_true, decide_eq_true_eq] at hun
        have hone : ∀ l : List Int, l.length ≤ 1 → ∀ k, pick l k = pick l 0 := by
          intro l hl k
          match l, hl with
          | [], _ => simp [pick]
          | [a], _ => cases k <;> simp [pick]
        match hus : r.usages, hw with
        | [], _ => simp [hu, hus, pick]
        | [a], _ =>
          have : pick [a] k = some a := by rw [hone [a] (by simp)]; simp [pick]
          simp [hu, hus, this, selectorOf, State.plainValue, MainRec.selector, string_pick A, desig_pick A,
            hone _ hun.1 k, hone _ hun.2 k]
          simp [pick]
  rw [← hwhat]
  have hid : st.num .reportID = r.g .reportID := A.g _
  have hat : attrsOf (st.plainValue reg i k n) = r.attrs := by
    simp only [attrsOf, State.plainValue, MainRec.attrs, hnum, hunit, Option.getD_some]
  simp only [Bool.false_eq_true, if_false]
  rw [hid, hr, hv, ← hat]
  rfl

end Extractor
end Hrdc
