import Verif.Proofs.Extract2
/-!
# The decompiler on whole streams
-/
namespace Hrdc
open Spec

namespace Extractor

theorem filterMap_some {α β : Type} (f : α → Option β) (g : α → β) (l : List α)
    (h : ∀ a ∈ l, f a = some (g a)) : l.filterMap f = l.map g := by
  induction l with
  | nil => rfl
  | cons a l ih =>
    rw [List.filterMap_cons, h a (by simp), List.map_cons, ih (fun b hb => h b (by simp [hb]))]

theorem pick_range (l : List Int) : (List.range l.length).filterMap (pick l) = l := by
  rw [filterMap_some (pick l) (fun k => l.getD k 0)]
  · apply List.ext_getElem
    · simp
    · intro k h1 h2
      simp [h2]
  · intro k hk
    have : k < l.length := by simpa using hk
    simp [pick, this]

theorem array_elems (reg : Registry) {r : MainRec} {st : State} {ops : List (Int × Bool)}
    (A : AtMain r st ops) :
    ((List.range st.usages.length).filterMap (st.usage reg)).map PyVal.toInt = r.usages := by
  rw [List.map_filterMap]
  have : (fun k => Option.map PyVal.toInt (st.usage reg k)) = pick r.usages := by
    funext k; exact (usage_pick reg A k).1
  rw [this]
  have hl : st.usages.length = r.usages.length := by rw [A.usages]; simp
  rw [hl, pick_range]

theorem range_upTo (reg : Registry) {arr : List PyVal} {ur : UsageRange} (h : UsageRange.fromArray arr = .ok ur) :
    upTo ur.min.toInt ur.max.toInt = arr.map PyVal.toInt := by
  have := (C48_from_array reg arr).2 ur h
  rw [← this]
  simp only [UsageRange.iter, List.map_map]
  have he : (UsageC.value ∘ fun i => Usage.lookup reg (PyVal.int i)) = id := by
    funext i; exact lookup_value reg (.int i)
  rw [he, List.map_id]
  rfl

theorem array_usages (reg : Registry) {r : MainRec} {st : State} {ops : List (Int × Bool)}
    (A : AtMain r st ops) : arrayUsages (some (st.array reg)) = r.usages := by
  have he := array_elems reg A
  unfold State.array
  simp only
  cases hf : UsageRange.fromArray ((List.range st.usages.length).filterMap (st.usage reg)) with
  | ok ur => simp only [arrayUsages]; rw [range_upTo reg hf, he]
  | error e => simp only [arrayUsages]; exact he

theorem len_of_usages {a : NamedArray} {us : List Int} (h : arrayUsages (some a) = us) (hne : us ≠ []) :
    a.len = .ok us.length := by
  cases a with
  | list l => simp only [arrayUsages] at h; subst h; simp [NamedArray.len]
  | range ur =>
    simp only [arrayUsages] at h
    have hl : us.length = (ur.max.toInt - ur.min.toInt + 1).toNat := by rw [← h]; simp [upTo]
    have hp : us.length ≠ 0 := by simpa using hne
    have h0 : ¬ ur.rawLen < 0 := by unfold UsageRange.rawLen; omega
    simp only [NamedArray.len, UsageRange.len]
    rw [if_neg h0, hl]
    rfl

/-- The value made of `State.arrayArgs`. -/
def State.arrayValue (reg : Registry) (st : State) (i : Item) (n : Nat) : Value where
  way := wayOf i.cls
  flags := .int 0
  usage := none
  size := st.num .reportSize
  alignment := min 8 (st.num .reportSize)
  logicalMin := some (st.num .logMin)
  logicalMax := some (n + st.num .logMin - 1)
  physicalMin := some (st.num .logMin)
  physicalMax := none
  namedArray := some (st.array reg)
  unit := .int 0
  unitExponent := 0
  designator := st.designator 0
  string := st.string 0
  count := 1

theorem new_array (reg : Registry) {r : MainRec} {st : State} {ops : List (Int × Bool)}
    (A : AtMain r st ops) (i : Item) (hne : r.usages ≠ []) :
    Value.new (st.arrayArgs reg i none) = .ok (st.arrayValue reg i r.usages.length) := by
  have hlen := len_of_usages (array_usages reg A) hne
  have hp : r.usages.length ≠ 0 := by simpa using hne
  unfold Value.new State.arrayArgs State.arrayValue
  have hp' : (r.usages.length != 0) = true := by simp [hp]
  simp only [truthOpt, NamedArray.truth, hlen, hp']
  simp [intGiven, usageGiven]

theorem array_events (reg : Registry) {r : MainRec} {st : State} {ops : List (Int × Bool)}
    (A : AtMain r st ops) {i : Item} (hd : i.cls.isData = true) (hr : r.cls = i.cls) (hv : r.val = 0)
    (hne : r.usages ≠ []) (hfull : r.full = true) (hun : r.uniform = true) (hunit : r.g .unit = 0)
    (hexp : r.g .unitExp = 0) (hpm : r.attrs.physMin = r.g .logMin) (hpM : r.attrs.physMax = r.g .logMax)
    (k : Nat) :
    valueEvents (st.num .reportID) (st.arrayValue reg i r.usages.length) =
      [.control r.cls r.val (r.g .reportID) r.attrs (r.what k)] := by
  have hu : arrayUsages (st.arrayValue reg i r.usages.length).namedArray = r.usages := array_usages reg A
  have hnum : ∀ c, st.num c = r.g c := A.g
  rw [valueEvents_eq]
  rw [hu]
  simp only [MainRec.full, beq_iff_eq] at hfull
  simp only [MainRec.uniform, Bool.and_eq_true, decide_eq_true_eq] at hun
  have hone : ∀ l : List Int, l.length ≤ 1 → ∀ k, pick l k = pick l 0 := by
    intro l hl k
    match l, hl with
    | [], _ => simp [pick]
    | [a], _ => cases k <;> simp [pick]
  have hat : arrayAttrs (st.arrayValue reg i r.usages.length) r.usages.length = r.attrs := by
    have hs : r.attrs = ⟨r.g .reportSize, r.g .logMin, r.g .logMax, r.attrs.physMin, r.attrs.physMax,
        r.g .unit, r.g .unitExp⟩ := rfl
    rw [hs, hpm, hpM, hunit, hexp]
    simp only [arrayAttrs, attrsOf, State.arrayValue, hnum, Option.getD_some, PyVal.toInt]
    congr 1 <;> omega
  have hwhat : r.what k = r.usages.map (fun u => selectorOf (st.arrayValue reg i r.usages.length) (some u)) := by
    have hnv : r.isVar = false := by simp [MainRec.isVar, hv]
    simp only [MainRec.what, hnv, Bool.false_eq_true, if_false]
    apply List.ext_getElem
    · simp
    · intro j h1 h2
      have hj : j < r.usages.length := by simpa using h2
      have h3 : (pick r.strings j).getD 0 = st.string 0 := by rw [hone _ hun.1 j, string_pick A]
      have h4 : (pick r.desigs j).getD 0 = st.designator 0 := by rw [hone _ hun.2 j, desig_pick A]
      have h5 : pick r.usages j = some r.usages[j] := by simp [pick, hj]
      simp only [List.getElem_map, List.getElem_range, MainRec.selector, h3, h4, h5]
      rfl
  cases hus : r.usages with
  | nil => exact absurd hus hne
  | cons a l =>
    simp only
    rw [← hus, hat, hwhat, hv, hr, hnum]
    simp [State.arrayValue, usageOf, wayOf_cls hd]

/-- Adding leaves to the current level. -/
def State.addLeaves (st : State) (ns : List Node) : State :=
  { st with level := { st.level with members := st.level.members ++ ns.map (.leaf (st.num .reportID)) } }

theorem xpieces_leaves (id : Int) (ns : List Node) :
    xpiecesL (ns.map (.leaf id)) = ns.flatMap (Spec.pieces id) := by
  induction ns with
  | nil => rfl
  | cons n ns ih => simp [xpiecesL, XNode.pieces, ih]

/-- Data items not taken for named arrays add leaves that describe what the item describes. -/
theorem data_core (reg : Registry) {r : MainRec} {st : State} {ops : List (Int × Bool)}
    (A : AtMain r st ops) {i : Item} (hd : i.cls.isData = true) (hr : r.cls = i.cls) (hv : r.val = i.ival)
    (hok : dataOK (some 0) r = true) (htest : r.isConst = false → st.namedTest reg i = .ok false)
    (C : Int → Prop) (hC1 : C 1)
    (hC : r.isConst = false → r.val / 256 % 2 = 1 → C (r.g .reportCount)) :
    ∃ ns : List Node, st.data reg i = .ok (st.addLeaves ns) ∧
      (ns.flatMap (Spec.pieces (st.num .reportID))).flatMap bare = r.events ∧
      ns.isEmpty = !hasFields r ∧ ∀ n ∈ ns, LeafOK C n := by
  have hnum : ∀ c, st.num c = r.g c := A.g
  have hbit0 : bitSet i.ival 0 = r.isConst := by rw [bitSet_zero, MainRec.isConst, hv]
  have hev : r.events = if r.isConst then
      List.replicate ((r.g .reportSize).toNat * (r.g .reportCount).toNat) (.padBit r.cls (r.g .reportID))
    else
      (List.range (r.g .reportCount).toNat).map (fun k =>
        .control r.cls r.val (r.g .reportID) r.attrs (r.what k)) := by
    rw [← hr] at hd
    cases hc : r.cls <;> rw [hc] at hd <;> simp [Cls.isData] at hd <;> simp [MainRec.events, hc]
  unfold State.data
  rw [hbit0]
  cases hconst : r.isConst with
  | true =>
    refine ⟨[.padding (wayOf i.cls) (st.num .reportSize * st.num .reportCount)], ?_, ?_, ?_, ?_⟩
    · simp [padding_ok, State.addLeaves, State.addValue]
    · rw [hev, hconst]
      simp [Spec.pieces, bare, bareLeaf_value, bareLeaf_align, bareLeaf_padding, wayOf_cls hd, hnum, hr]
      rw [Int.toNat_mul A.size A.count]
    · simp [hasFields, hconst]
    · intro n hn
      simp at hn
      exact Or.inl ⟨_, _, hn⟩
  | false =>
    simp only [dataOK, hconst, Bool.false_or, Bool.and_eq_true] at hok
    obtain ⟨hok1, hok2⟩ := hok
    have hlen : (st.usages.length : Int) = r.usages.length := by rw [A.usages]; simp
    have hfull : ((st.usages.length : Int) = st.num .logMax - st.num .logMin + 1) ↔ r.full = true := by
      simp [MainRec.full, hnum, hlen]
    rw [htest hconst]
    simp only [Bool.false_eq_true, if_false]
    have hsize : 0 ≤ st.num .reportSize := by rw [hnum]; exact A.size
    by_cases ha : r.val = 0 ∧ r.full = true
    · rw [if_pos ⟨by rw [← hv]; exact ha.1, hfull.2 ha.2⟩]
      rw [if_pos (by simp [ha])] at hok2
      simp at hok2
      obtain ⟨⟨⟨⟨⟨h1, h2⟩, h3⟩, h4⟩, h5⟩, h6⟩ := hok2
      have hnew := new_array reg A i h1
      refine ⟨List.replicate (r.g .reportCount).toNat (.value (st.arrayValue reg i r.usages.length)), ?_, ?_, ?_, ?_⟩
      · rw [addMany_ok st (fun _ => st.arrayValue reg i r.usages.length)]
        · simp [State.addLeaves, hnum]
        · intro a hmem
          rw [List.eq_of_mem_replicate hmem]
          exact hnew
      · rw [hev, hconst]
        simp only [Bool.false_eq_true, if_false]
        have hev1 := fun k => array_events reg A hd hr ha.1 h1 ha.2 h2 h3 h4 h5 h6 k
        induction (r.g .reportCount).toNat with
        | zero => rfl
        | succ m ih =>
          rw [List.replicate_succ', List.range_succ]
          simp only [List.flatMap_append, List.map_append, ih]
          simp [Spec.pieces, bare, bareLeaf_value, bareLeaf_align, bareLeaf_padding, hev1 m]
      · have hb : r.val / 256 % 2 ≠ 1 := by rw [ha.1]; decide
        simp only [hasFields, hconst, Bool.false_or]
        have := A.count
        by_cases h0 : r.g .reportCount > 0
        · have : (r.g .reportCount).toNat ≠ 0 := by omega
          simp [h0]
        · have : (r.g .reportCount).toNat = 0 := by omega
          simp [h0, this, hb]
      · intro n hn
        rw [List.eq_of_mem_replicate hn]
        exact Or.inr ⟨_, rfl, ⟨_, hnew⟩, rfl, hsize, rfl, fun _ => rfl, hC1⟩
    · rw [if_neg (by rintro ⟨h1, h2⟩; exact ha ⟨by rw [hv]; exact h1, hfull.1 h2⟩)]
      rw [if_neg (by simpa using ha)] at hok2
      rw [bitSet_eight, ← hv]
      by_cases hb : r.val / 256 % 2 = 1
      · have hb' : (r.val / 256 % 2 == 1) = true := by simp [hb]
        rw [if_pos hb']
        rw [if_pos hb'] at hok2
        simp only [Bool.and_eq_true, decide_eq_true_eq] at hok2
        refine ⟨[.value (st.plainValue reg i 0 (st.num .reportCount))], ?_, ?_, ?_, ?_⟩
        · rw [State.addNew, new_plain]
          simp [State.addLeaves, State.addValue]
        · rw [hev, hconst]
          simp only [Bool.false_eq_true, if_false, List.flatMap_cons, List.flatMap_nil, Spec.pieces, bare, bareLeaf_value, bareLeaf_align, bareLeaf_padding,
            List.append_nil]
          rw [plain_events reg A hd hr hv hconst 0 _ (Or.inr hok2), hnum]
          have hone : ∀ l : List Int, l.length ≤ 1 → ∀ k, pick l k = pick l 0 := by
            intro l hl k
            match l, hl with
            | [], _ => simp [pick]
            | [a], _ => cases k <;> simp [pick]
          have hun := hok2.2
          simp only [MainRec.uniform, Bool.and_eq_true, decide_eq_true_eq] at hun
          have hwhat : ∀ k, r.what k = r.what 0 := by
            intro k
            simp only [MainRec.what, MainRec.selector, hone _ hok2.1 k, hone _ hun.1 k, hone _ hun.2 k]
          simp [hwhat, List.map_const']
        · simp [hasFields, hb]
        · intro n hn
          simp at hn
          refine Or.inr ⟨_, hn, ⟨_, new_plain reg st i 0 _⟩, rfl, hsize, ?_, fun h => absurd rfl h, ?_⟩
          · show bitSet i.ival 0 = false
            rw [hbit0, hconst]
          · show C (st.num .reportCount)
            rw [hnum]; exact hC hconst hb
      · have hb' : (r.val / 256 % 2 == 1) = false := by simp [hb]
        simp only [hb', Bool.false_eq_true, if_false] at hok2 ⊢
        simp only [Bool.or_eq_true, Bool.and_eq_true, decide_eq_true_eq] at hok2
        refine ⟨(List.range (r.g .reportCount).toNat).map (fun k => .value (st.plainValue reg i k 1)), ?_, ?_, ?_, ?_⟩
        · have hargs : ∀ k, Value.new (st.args reg i k) = .ok (st.plainValue reg i k 1) := fun k =>
            new_plain reg st i k 1
          have : ∀ ks : List Nat, ∀ s : State,
              s.addMany (ks.map (st.args reg i)) =
                .ok (s.addLeaves (ks.map (fun k => .value (st.plainValue reg i k 1)))) := by
            intro ks
            induction ks with
            | nil => intro s; simp [State.addMany, State.addLeaves]
            | cons k ks ih =>
              intro s
              rw [List.map_cons, State.addMany, State.addNew, hargs]
              simp only
              rw [ih]
              simp [State.addLeaves, State.addValue, State.num]
          rw [hnum]
          exact this _ st
        · rw [hev, hconst]
          simp only [Bool.false_eq_true, if_false]
          generalize List.range (r.g .reportCount).toNat = ks
          induction ks with
          | nil => rfl
          | cons k ks ih =>
            simp only [List.map_cons, List.flatMap_cons, List.flatMap_append, ih]
            simp [Spec.pieces, bare, bareLeaf_value, bareLeaf_align, bareLeaf_padding, plain_events reg A hd hr hv hconst k 1 hok2]
        · simp only [hasFields, hconst, Bool.false_or, hb', Bool.or_false]
          have := A.count
          by_cases h0 : r.g .reportCount > 0
          · have : (r.g .reportCount).toNat ≠ 0 := by omega
            simp [h0]
          · have : (r.g .reportCount).toNat = 0 := by omega
            simp [h0, this]
        · intro n hn
          simp only [List.mem_map] at hn
          obtain ⟨k, -, rfl⟩ := hn
          exact Or.inr ⟨_, rfl, ⟨_, new_plain reg st i k 1⟩, rfl, hsize, by show bitSet i.ival 0 = false; rw [hbit0, hconst],
            fun h => absurd rfl h, hC1⟩

/-- Data items add leaves that describe what the item describes. -/
theorem data_ok (reg : Registry) {r : MainRec} {st : State} {ops : List (Int × Bool)}
    (A : AtMain r st ops) {i : Item} (hd : i.cls.isData = true) (hr : r.cls = i.cls) (hv : r.val = i.ival)
    (hok : dataOK (ops.head?.map (·.1)) r = true) (C : Int → Prop) (hC1 : C 1)
    (hC : r.isConst = false → r.val / 256 % 2 = 1 → C (r.g .reportCount)) :
    ∃ ns : List Node, st.data reg i = .ok (st.addLeaves ns) ∧
      (ns.flatMap (Spec.pieces (st.num .reportID))).flatMap bare = r.events ∧
      ns.isEmpty = !hasFields r ∧ ∀ n ∈ ns, LeafOK C n := by
  have hnum : ∀ c, st.num c = r.g c := A.g
  refine data_core reg A hd hr hv ?_ ?_ C hC1 hC
  · unfold dataOK at hok ⊢
    cases hconst : r.isConst with
    | true => rfl
    | false =>
      rw [hconst, Bool.false_or, Bool.and_eq_true] at hok
      rw [Bool.false_or, hok.2]
      simp
  · intro hconst
    simp only [dataOK, hconst, Bool.false_or, Bool.and_eq_true] at hok
    obtain ⟨hok1, -⟩ := hok
    have hlen : (st.usages.length : Int) = r.usages.length := by rw [A.usages]; simp
    have hfull : ((st.usages.length : Int) = st.num .logMax - st.num .logMin + 1) ↔ r.full = true := by
      simp [MainRec.full, hnum, hlen]
    unfold State.namedTest
    split
    · rename_i hc
      rw [hnum, hfull] at hc
      simp only [hc.1, hc.2, BEq.rfl, Bool.and_self, Bool.not_true, Bool.false_or] at hok1
      have hlev := A.levels
      cases ops with
      | nil => simp at hok1
      | cons o ops =>
        obtain ⟨k, b⟩ := o
        simp only [Corr] at hlev
        obtain ⟨⟨k', u, hh, rfl⟩, -, -⟩ := hlev
        simp at hok1
        unfold inArrayCollection
        rw [hh]
        simp only
        rw [if_neg, if_neg hok1.1]
        rintro ⟨h1, h2⟩
        rcases hok1.2 with h | h
        · exact h h2
        · exact h (by rw [hv]; exact h1)
    · rfl

end Extractor
end Hrdc
