import Verif.Proofs.Settle2
import Verif.Proofs.Neighbours
/-!
# Reading back the items of a named array
-/
namespace Hrdc
open Spec Extractor
namespace Extractor

theorem array_calls (reg : Registry) {v : Value} (h : FromItems reg v) {a : NamedArray} (hn : v.namedArray = some a) :
    Streamer.attrCalls reg v true ++ [(.reportCount, .int v.count), (.reportSize, .int v.size)] =
      usageCalls v.usage ++ [(.physMin, .int 0), (.physMax, .int 0)] ++
        (if v.usage.isSome then [(.collection, .named (tx "Logical") 2)] else []) ++
        ((a.elems reg).map (fun u => (Cls.usage, u)) ++ tailCalls v) := by
  unfold Streamer.attrCalls
  cases e : v.usage with
  | none => simp [usageCalls, tailCalls, hn, usageGiven]
  | some u => simp [usageCalls, tailCalls, hn, usageGiven, truthy_known (h.usage u e)]

theorem contiguous_map {f : PyVal → PyVal} (hf : ∀ u, (f u).toInt = u.toInt) (l : List PyVal) :
    UsageRange.contiguous (l.map f) = UsageRange.contiguous l := by
  induction l with
  | nil => rfl
  | cons a l ih =>
    cases l with
    | nil => rfl
    | cons b l =>
      simp only [List.map_cons, UsageRange.contiguous, hf] at ih ⊢
      rw [ih]

theorem contiguous_ints (a : Int) (n : Nat) {f : Int → PyVal} (hf : ∀ i, (f i).toInt = i) :
    UsageRange.contiguous ((List.range n).map (fun (k : Nat) => f (a + (k : Int)))) = true := by
  induction n generalizing a with
  | zero => rfl
  | succ n ih =>
    cases n with
    | zero => rfl
    | succ n =>
      have h := ih (a + 1)
      rw [List.range_succ_eq_map, List.map_cons, List.map_map] at h ⊢
      rw [List.range_succ_eq_map, List.map_cons, List.map_map]
      simp only [UsageRange.contiguous, hf, Bool.and_eq_true, beq_iff_eq, Function.comp_apply] at h ⊢
      refine ⟨by simp, ?_⟩
      have e : ((a + ((0 : Nat).succ : Nat) : Int)) = a + 1 + ((0 : Nat) : Int) := by simp
      rw [e]
      have hfun : ((fun (k : Nat) => f (a + (k : Int))) ∘ Nat.succ) ∘ Nat.succ = (fun (k : Nat) => f (a + 1 + (k : Int))) ∘ Nat.succ := by
        funext k
        simp only [Function.comp_apply]
        congr 1
        simp only [Nat.succ_eq_add_one]
        omega
      rw [hfun]
      exact h

theorem fromArray_ints (a : Int) (n : Nat) {f : Int → PyVal} (hf : ∀ i, (f i).toInt = i) :
    UsageRange.fromArray ((List.range (n + 2)).map (fun (k : Nat) => f (a + (k : Int)))) = .ok ⟨f a, f (a + n + 1)⟩ := by
  have hc := contiguous_ints a (n + 2) hf
  have hlen : ((List.range (n + 2)).map (fun (k : Nat) => f (a + (k : Int)))).length = n + 2 := by simp
  have h0 : ((List.range (n + 2)).map (fun (k : Nat) => f (a + (k : Int))))[0]? = some (f a) := by simp
  have h1 : ((List.range (n + 2)).map (fun (k : Nat) => f (a + (k : Int))))[n + 1]? = some (f (a + n + 1)) := by
    rw [List.getElem?_map, List.getElem?_range (by omega)]
    simp only [Option.map_some, Option.some.injEq]
    congr 1
    omega
  generalize (List.range (n + 2)).map (fun (k : Nat) => f (a + (k : Int))) = l at hc hlen h0 h1
  match l, hlen with
  | x :: y :: r, hlen =>
    simp only [UsageRange.fromArray, hc, if_true, Except.ok.injEq, UsageRange.mk.injEq]
    simp only [List.length_cons] at hlen
    refine ⟨by simpa using h0, ?_⟩
    rw [List.getLast_eq_getElem]
    have e : n + 1 = (y :: r).length - 1 + 1 := by simp; omega
    rw [e, List.getElem?_cons_succ, List.getElem?_eq_getElem (by simp)] at h1
    simpa using h1

/-- The array of the usages an array lists. -/
theorem array_again (reg : Registry) {s : State} (hp : s.num .usagePage = 0) {a : NamedArray}
    (ha : KnownArray reg (some a)) (hu : s.usages = (a.elems reg).map (norm reg)) (h0 : ∀ u ∈ a.elems reg, 0 ≤ u.toInt) :
    s.array reg = normA reg a := by
  have hl : (List.range s.usages.length).filterMap (s.usage reg) = (a.elems reg).map (norm reg) := by
    rw [hu, List.length_map]
    have e : ∀ l : List Nat, (∀ k ∈ l, k < (a.elems reg).length) →
        l.filterMap (s.usage reg) = l.filterMap (fun k => ((a.elems reg).map (norm reg))[k]?) := by
      intro l hl
      induction l with
      | nil => rfl
      | cons k l ih =>
        have hk := hl k (by simp)
        have : s.usage reg k = ((a.elems reg).map (norm reg))[k]? := by
          rw [usage_norm reg hp hu h0 k, clamp, Nat.min_eq_right (by omega), List.getElem?_map]
        rw [List.filterMap_cons, List.filterMap_cons, this, ih (fun k hk => hl k (by simp [hk]))]
    rw [e _ (fun k hk => List.mem_range.1 hk), ← List.length_map (as := a.elems reg) (norm reg)]
    exact filterMap_get _
  unfold State.array
  rw [hl]
  cases a with
  | list l =>
    simp only [NamedArray.elems, normA]
    have hne := ha.1.2
    cases hr : UsageRange.fromArray (l.map (norm reg)) with
    | error e => rfl
    | ok r =>
      exfalso
      match l, hne with
      | [], hne => simp [UsageRange.fromArray] at hr
      | [x], hne => simp [UsageRange.fromArray] at hr
      | x :: y :: l, hne =>
        have hc := contiguous_map (norm_toInt reg) (x :: y :: l)
        simp only [List.map_cons] at hc hr
        simp only [UsageRange.fromArray, hc] at hr
        by_cases hh : UsageRange.contiguous (x :: y :: l) = true
        · exact hne ⟨x, (y :: l).getLast (by simp)⟩ (by simp only [UsageRange.fromArray, hh, if_true])
        · rw [if_neg hh] at hr; simp at hr
  | range r =>
    have hlt := ha.1
    obtain ⟨n, hn⟩ : ∃ n : Nat, (r.max.toInt - r.min.toInt + 1).toNat = n + 2 := ⟨(r.max.toInt - r.min.toInt + 1).toNat - 2, by omega⟩
    have e : ((NamedArray.range r).elems reg).map (norm reg) =
        (List.range (n + 2)).map (fun (k : Nat) => PyVal.usage (Usage.lookup reg (.int (r.min.toInt + (k : Int))))) := by
      simp only [NamedArray.elems, UsageRange.iter, UsageRange.pyRange, List.map_map, hn]
      refine List.map_congr_left (fun k _ => ?_)
      simp only [Function.comp_apply]
      rw [← norm_known (lookup_known reg _)]
      rfl
    simp only [e, fromArray_ints r.min.toInt n (f := fun i => .usage (Usage.lookup reg (.int i))) (fun i => lookup_value reg _)]
    simp only [normA, norm]
    rw [show r.min.toInt + (n : Int) + 1 = r.max.toInt by omega]

theorem elems_known {reg : Registry} {a : NamedArray} (ha : KnownArray reg (some a)) : ∀ u ∈ a.elems reg, KnownVal reg u := by
  intro u hu
  cases a with
  | list l => exact ha.2 u hu
  | range r =>
    simp only [NamedArray.elems, UsageRange.iter, List.mem_map] at hu
    obtain ⟨x, ⟨i, -, rfl⟩, rfl⟩ := hu
    exact lookup_known reg i

theorem normA_len (reg : Registry) (a : NamedArray) : (normA reg a).len = a.len := by
  cases a with
  | list l => simp [normA, NamedArray.len]
  | range r =>
    have e : (⟨norm reg r.min, norm reg r.max⟩ : UsageRange).rawLen = r.rawLen := by simp [UsageRange.rawLen, norm_toInt]
    simp only [normA, NamedArray.len, UsageRange.len, e]

theorem elems_len {reg : Registry} {a : NamedArray} (ha : KnownArray reg (some a)) :
    a.len = .ok (a.elems reg).length ∧ (a.elems reg).length ≠ 0 := by
  cases a with
  | list l =>
    refine ⟨rfl, ?_⟩
    simpa [NamedArray.elems] using ha.1.1
  | range r =>
    have h := ha.1
    have hr : r.rawLen = r.max.toInt - r.min.toInt + 1 := rfl
    simp only [NamedArray.len, UsageRange.len, NamedArray.elems, UsageRange.iter, UsageRange.pyRange,
      List.length_map, List.length_range]
    rw [if_neg (by omega), hr]
    exact ⟨rfl, by omega⟩

/-- Arrays are built again, with the names of the usage table. -/
theorem new_again {reg : Registry} {v : Value} (h : FromItems reg v) {a : NamedArray} (hn : v.namedArray = some a) :
    (∃ lo, v.logicalMin = some lo ∧ v.logicalMax = some ((a.elems reg).length + lo - 1) ∧ Value.new {
      way := v.way, usage := v.usage.map (norm reg), size := v.size, logicalMin := some lo, namedArray := some (normA reg a)
      designator := v.designator, string := v.string } = .ok (normV reg v)) ∧ v.count = 1 ∧ v.unit = .int 0 ∧ v.unitExponent = 0 ∧
      v.flags = if v.usage.isSome then .named (tx "Variable") 2 else .int 0 := by
  obtain ⟨lo, hv⟩ := h.named a hn
  have ha : KnownArray reg (some a) := by rw [← hn]; exact h.array
  obtain ⟨hlen, hne⟩ := elems_len ha
  have ht : ((a.elems reg).length != 0) = true := by simpa using hne
  have hg : usageGiven v.usage = v.usage.isSome := by
    cases e : v.usage with
    | none => rfl
    | some u => simp [usageGiven, truthy_known (h.usage u e)]
  have hg' : usageGiven (v.usage.map (norm reg)) = v.usage.isSome := by
    cases v.usage <;> rfl
  simp only [Value.new, truthOpt, NamedArray.truth, hlen, ht, not_true_eq_false, false_and, and_false, if_false, Except.ok.injEq,
    Option.getD_none, hg] at hv
  have key : ∀ w, w = v → w.logicalMin = v.logicalMin ∧ w.logicalMax = v.logicalMax ∧ w.count = v.count ∧ w.unit = v.unit ∧
      w.unitExponent = v.unitExponent ∧ w.flags = v.flags := by
    intro w hw
    rw [hw]
    exact ⟨rfl, rfl, rfl, rfl, rfl, rfl⟩
  obtain ⟨k1, k2, k3, k4, k5, k6⟩ := key _ hv
  refine ⟨⟨lo, k1.symm, k2.symm, ?_⟩, k3.symm, k4.symm, k5.symm, k6.symm⟩
  simp only [Value.new, truthOpt, NamedArray.truth, normA_len, hlen, ht, not_true_eq_false, false_and, and_false, if_false, Except.ok.injEq,
    Option.getD_none, hg']
  unfold normV
  conv => rhs; rw [← hv]
  simp

theorem tail_kinds (v : Value) : ∀ x ∈ tailCalls v, x.1.kind ≠ .main := by
  intro x hx
  simp only [tailCalls, List.mem_append, List.mem_cons, List.not_mem_nil, or_false] at hx
  rcases hx with ((hx | hx) | hx) | hx
  · rcases hx with rfl | rfl | rfl | rfl <;> simp [Cls.kind]
  · split at hx <;> simp at hx
    rw [hx]; simp [Cls.kind]
  · split at hx <;> simp at hx
    rw [hx]; simp [Cls.kind]
  · rcases hx with rfl | rfl <;> simp [Cls.kind]

/-- The attributes of an array as they are held, and the arguments they make. -/
theorem array_loaded (reg : Registry) {s1 : State} {v : Value} (h : FromItems reg v) {a : NamedArray}
    (hn : v.namedArray = some a) (hu : s1.usages = []) (hs : s1.strings = []) (hd : s1.desigs = [])
    (hl : ∀ c, s1.loc c = none) (hp : s1.num .usagePage = 0) (h0 : ∀ u ∈ a.elems reg, 0 ≤ u.toInt) :
    ∃ s2, (callItems reg ((a.elems reg).map (fun u => (Cls.usage, u)) ++ tailCalls v)).foldl put s1 = s2 ∧
      Loaded reg s1 s2 v (a.elems reg) ∧
      Value.new (s2.arrayArgs reg ⟨v.way.cls, keep reg v.way.cls v.flags⟩ (v.usage.map (norm reg))) = .ok (normV reg v) := by
  have ha : KnownArray reg (some a) := by rw [← hn]; exact h.array
  obtain ⟨⟨lo, hlo, hhi, hnew⟩, hcount, hunit, hexp, hflags⟩ := new_again h hn
  have hm := map_norm_known (elems_known ha)
  refine ⟨_, rfl, ?_⟩
  rw [callItems_append, List.foldl_append, usages_put, hu, List.nil_append, hm]
  obtain ⟨L, -, -⟩ := tail_loaded reg (st := { s1 with usages := (a.elems reg).map (norm reg) }) (us := a.elems reg) v rfl hs hd hl hp
  have hwo : wayOf v.way.cls = v.way := by cases v.way <;> rfl
  refine ⟨⟨L.usages, L.strings, L.desigs, L.loc, L.inNamed, L.page, L.stack, L.level, L.root, L.id, L.logMin, L.logMax, L.unit,
    L.unitExp, L.count, L.size⟩, ?_⟩
  generalize (callItems reg (tailCalls v)).foldl put { s1 with usages := (a.elems reg).map (norm reg) } = s2 at L
  rw [← hnew]
  unfold State.arrayArgs
  rw [array_again reg L.page ha L.usages h0, L.size, L.logMin, L.strings, L.desigs, hlo]
  simp only [hwo, Option.getD_some]

/-- A named array without usage reads back. -/
theorem run_array (reg : Registry) {st : State} (hr : Ready st) {v : Value} (h : FromItems reg v)
    {a : NamedArray} (hn : v.namedArray = some a) (hnone : v.usage = none) {b c : List Item}
    (hb : Streamer.emit reg (Streamer.attrCalls reg v true ++ [(.reportCount, .int v.count), (.reportSize, .int v.size)]) = .ok b)
    (hc : Streamer.emit reg [(v.way.cls, v.flags)] = .ok c)
    (hq : inArrayCollection reg st.level 0 = .ok false) :
    ∃ st', (∀ ys, runFrom reg st (b ++ c ++ ys) = runFrom reg st' ys) ∧ Next st st' (addLeaf st (.value (normV reg v))) := by
  have ha : KnownArray reg (some a) := by rw [← hn]; exact h.array
  have hwd : v.way.cls.isData = true := by cases v.way <;> rfl
  have hnc : v.way.cls ≠ .collection := by cases v.way <;> simp [Way.cls]
  obtain ⟨⟨lo, hlo, hhi, hnew⟩, hcount, hunit, hexp, hflags⟩ := new_again h hn
  rw [hnone] at hflags
  simp only [Option.isSome_none, Bool.false_eq_true, if_false] at hflags
  have e2 : c = [⟨v.way.cls, keep reg v.way.cls v.flags⟩] :=
    emit_items hc (by intro x hx hx'; simp only [List.mem_singleton] at hx; rw [hx] at hx'; exact absurd hx' hnc)
  rw [array_calls reg h hn, hnone] at hb
  simp only [usageCalls, Option.toList_none, List.map_nil, List.nil_append, Option.isSome_none, Bool.false_eq_true, if_false,
    List.append_nil] at hb
  have hkinds : ∀ x ∈ [(Cls.physMin, PyVal.int 0), (.physMax, .int 0)] ++ ((a.elems reg).map (fun u => (Cls.usage, u)) ++ tailCalls v),
      x.1.kind ≠ .main := by
    intro x hx
    simp only [List.mem_append, List.mem_map, List.mem_cons, List.not_mem_nil, or_false] at hx
    rcases hx with (rfl | rfl) | ⟨u, -, rfl⟩ | hx
    · simp [Cls.kind]
    · simp [Cls.kind]
    · simp [Cls.kind]
    · exact tail_kinds v x hx
  have e1 := emit_items hb (fun x hx e => absurd (by rw [e]; rfl) (hkinds x hx))
  have h0 : ∀ u ∈ a.elems reg, 0 ≤ u.toInt := fun u hu =>
    emit_nonneg hb (c := (.usage, u)) (by simp [hu]) (by simp) rfl
  obtain ⟨s2, hs2, L, hargs⟩ := array_loaded reg (s1 := (callItems reg [(.physMin, .int 0), (.physMax, .int 0)]).foldl put st) h hn
    (by rw [phys_put]; exact hr.usages) (by rw [phys_put]; exact hr.strings) (by rw [phys_put]; exact hr.desigs)
    (by rw [phys_put]; exact hr.loc) (by rw [phys_put]; exact hr.page) h0
  rw [phys_put] at L
  have hlen : (s2.usages.length : Int) = (a.elems reg).length := by rw [L.usages]; simp
  have hlm : s2.num .logMax - s2.num .logMin + 1 = (a.elems reg).length := by
    rw [L.logMax, L.logMin, hlo, hhi]
    simp only [Option.getD_some]
    omega
  have hlvl : s2.level = st.level := L.level
  have hkeep : (⟨v.way.cls, keep reg v.way.cls v.flags⟩ : Item).ival = 0 := by
    rw [hflags]; cases v.way <;> rfl
  have hdata : s2.data reg ⟨v.way.cls, keep reg v.way.cls v.flags⟩ = .ok (s2.addValue (.value (normV reg v))) := by
    have htest : s2.namedTest reg ⟨v.way.cls, keep reg v.way.cls v.flags⟩ = .ok false := by
      unfold State.namedTest
      rw [hlen, hlm, L.count, hcount, if_pos ⟨rfl, rfl⟩, hlvl, hkeep]
      exact hq
    unfold State.data
    rw [hkeep, if_neg (by decide), htest]
    simp only
    rw [hlen, hlm, if_pos ⟨trivial, rfl⟩, L.count, hcount]
    rw [hnone] at hargs
    show State.addMany s2 [_] = _
    simp only [State.addMany, State.addNew]
    rw [show Value.new (s2.arrayArgs reg ⟨v.way.cls, keep reg v.way.cls v.flags⟩ none) = .ok (normV reg v) from hargs]
  have hstep := step_data_ok reg L.loc (i := ⟨v.way.cls, keep reg v.way.cls v.flags⟩) hwd hdata
  refine ⟨(s2.addValue (.value (normV reg v))).clear, ?_, ?_⟩
  · intro ys
    have hfold : b.foldl put st = s2 := by
      rw [e1, ← hs2, ← List.foldl_append, ← callItems_append]
      rfl
    rw [List.append_assoc, run_put reg st b _ (by
      rw [e1]
      intro i hi
      obtain ⟨x, hx, rfl⟩ := List.mem_map.1 hi
      exact hkinds x hx), hfold, e2, List.cons_append, List.nil_append, runFrom, hstep]
  · refine ⟨⟨rfl, rfl, rfl, fun _ => rfl, L.inNamed.trans hr.inNamed, L.page⟩, L.stack, ?_, L.root, L.id⟩
    show ({ s2.level with members := s2.level.members ++ [XNode.leaf (s2.num .reportID) (.value (normV reg v))] } : Level) = addLeaf st _
    rw [hlvl, L.id]; rfl

/-- A named array with a usage reads back. -/
theorem run_wrapped (reg : Registry) {st : State} (hr : Ready st) {v : Value} (h : FromItems reg v)
    {a : NamedArray} (hn : v.namedArray = some a) {u : PyVal} (hsome : v.usage = some u) {b c : List Item}
    (hb : Streamer.emit reg (Streamer.attrCalls reg v true ++ [(.reportCount, .int v.count), (.reportSize, .int v.size)]) = .ok b)
    (hc : Streamer.emit reg [(v.way.cls, v.flags), (.endCollection, .int 0)] = .ok c)
    (hq : Usage.testKind reg .NAry (norm reg u) = true) :
    ∃ st', (∀ ys, runFrom reg st (b ++ c ++ ys) = runFrom reg st' ys) ∧ Ready st' ∧ st'.stack = st.stack ∧
      st'.level = addLeaf st (.value (normV reg v)) ∧ st'.num .reportID = st.num .reportID ∧
      (st.stack = [] → st'.root = some (ended st'.level)) := by
  have ha : KnownArray reg (some a) := by rw [← hn]; exact h.array
  have hwd : v.way.cls.isData = true := by cases v.way <;> rfl
  have hnc : v.way.cls ≠ .collection := by cases v.way <;> simp [Way.cls]
  obtain ⟨⟨lo, hlo, hhi, hnew⟩, hcount, hunit, hexp, hflags⟩ := new_again h hn
  rw [hsome] at hflags
  simp only [Option.isSome_some, if_true] at hflags
  have e2 : c = [⟨v.way.cls, keep reg v.way.cls v.flags⟩, ⟨.endCollection, .int 0⟩] :=
    emit_items hc (by
      intro x hx hx'
      simp only [List.mem_cons, List.not_mem_nil, or_false] at hx
      rcases hx with rfl | rfl
      · exact absurd hx' hnc
      · simp at hx')
  rw [array_calls reg h hn, hsome] at hb
  simp only [usageCalls, Option.toList_some, List.map_cons, List.map_nil, Option.isSome_some, if_true, List.append_assoc] at hb
  have hk2 : ∀ x ∈ (a.elems reg).map (fun u => (Cls.usage, u)) ++ tailCalls v, x.1.kind ≠ .main := by
    intro x hx
    simp only [List.mem_append, List.mem_map] at hx
    rcases hx with ⟨u, -, rfl⟩ | hx
    · simp [Cls.kind]
    · exact tail_kinds v x hx
  have e1 := emit_items hb (by
    intro x hx e
    simp only [List.mem_append (s := [(Cls.usage, u)]), List.mem_append (s := [(Cls.physMin, PyVal.int 0), (.physMax, .int 0)]),
      List.mem_append (s := [(Cls.collection, PyVal.named (tx "Logical") 2)]), List.mem_cons, List.not_mem_nil, or_false] at hx
    rcases hx with rfl | (rfl | rfl) | rfl | hx
    · simp at e
    · simp at e
    · simp at e
    · intro i hi; simp at hi
    · exact absurd (by rw [e]; rfl) (hk2 x hx))
  have h0 : ∀ u ∈ a.elems reg, 0 ≤ u.toInt := fun u hu =>
    emit_nonneg hb (c := (.usage, u)) (by simp [hu]) (by simp) rfl
  have hu0 : 0 ≤ u.toInt := emit_nonneg hb (c := (.usage, u)) (by simp) (by simp) rfl
  have hku : KnownVal reg u := h.usage u hsome
  -- up to the collection
  let s0 : State := { st with
    usages := [norm reg u]
    g := fun c => if c = .physMax then .int 0 else if c = .physMin then .int 0 else st.g c }
  have hs0 : (callItems reg ([(Cls.usage, u)] ++ [(.physMin, .int 0), (.physMax, .int 0)])).foldl put st = s0 := by
    rw [callItems_append, List.foldl_append, show [(Cls.usage, u)] = [u].map (fun u => (Cls.usage, u)) from rfl, usages_put, phys_put,
      hr.usages]
    simp only [List.nil_append, List.map_cons, List.map_nil, norm_known hku, s0]
  have hl0 : ∀ c, s0.loc c = none := hr.loc
  have hus : s0.usage reg 0 = some (norm reg u) := by
    rw [usage_norm reg (st := s0) hr.page (l := [u]) rfl (by simpa using hu0) 0]
    rfl
  have hstep0 : step reg s0 ⟨.collection, .named (tx "Logical") 2⟩ =
      .ok (s0.enter (.named (tx "Logical") 2) (some (norm reg u))).clear := by
    unfold step
    simp only [Cls.kind]
    rw [expandAll_none hl0, hus]
  let s1 := (s0.enter (.named (tx "Logical") 2) (some (norm reg u))).clear
  obtain ⟨s2, hs2, L, hargs⟩ := array_loaded reg (s1 := s1) h hn rfl rfl rfl (fun _ => rfl) hr.page h0
  have hlen : (s2.usages.length : Int) = (a.elems reg).length := by rw [L.usages]; simp
  have hlm : s2.num .logMax - s2.num .logMin + 1 = (a.elems reg).length := by
    rw [L.logMax, L.logMin, hlo, hhi]
    simp only [Option.getD_some]
    omega
  have hlvl : s2.level = { head := some (.named (tx "Logical") 2, some (norm reg u)) } := L.level
  have hstk : s2.stack = st.level :: st.stack := L.stack
  have hkeep : (⟨v.way.cls, keep reg v.way.cls v.flags⟩ : Item).ival = 2 := by
    rw [hflags, flags_kept hwd]; rfl
  let s3 : State := { s2 with inNamed := true, stack := st.stack, level := st.level }
  have hid : s3.num .reportID = st.num .reportID := L.id
  have hdata : s2.data reg ⟨v.way.cls, keep reg v.way.cls v.flags⟩ = .ok (s3.addValue (.value (normV reg v))) := by
    have htest : s2.namedTest reg ⟨v.way.cls, keep reg v.way.cls v.flags⟩ = .ok true := by
      unfold State.namedTest
      rw [hlen, hlm, L.count, hcount, if_pos ⟨rfl, rfl⟩, hlvl, hkeep]
      simp only [inArrayCollection]
      rw [if_neg (by simp [PyVal.toInt]), if_pos (by rfl), hq]
    unfold State.data
    rw [hkeep, if_neg (by decide), htest]
    simp only
    have hleave : ({ s2 with inNamed := true } : State).leave false = .ok s3 := by
      unfold State.leave
      simp only [hstk, hlvl, Bool.false_and, Bool.false_eq_true, if_false]
      rfl
    rw [hleave]
    simp only
    rw [hlvl]
    simp only [List.isEmpty_nil, if_true, Option.bind_some, State.addNew]
    rw [hsome] at hargs
    rw [show Value.new (s2.arrayArgs reg ⟨v.way.cls, keep reg v.way.cls v.flags⟩ (some (norm reg u))) = .ok (normV reg v) from hargs]
  have hstep := step_data_ok reg L.loc (i := ⟨v.way.cls, keep reg v.way.cls v.flags⟩) hwd hdata
  let s4 := (s3.addValue (.value (normV reg v))).clear
  have hl4 : s4.level = addLeaf st (.value (normV reg v)) := by
    show ({ st.level with members := st.level.members ++ [XNode.leaf (s3.num .reportID) (.value (normV reg v))] } : Level) = addLeaf st _
    rw [hid]; rfl
  let s5 : State := if st.stack.isEmpty then { s4 with inNamed := false, root := some (ended s4.level) } else { s4 with inNamed := false }
  have hstep5 : step reg s4 ⟨.endCollection, .int 0⟩ = .ok s5.clear := by
    unfold step
    simp only [Cls.kind]
    rw [expandAll_none (fun _ => rfl)]
    unfold State.close
    rw [if_pos (by rfl)]
    rfl
  have hs5 : s5.stack = st.stack ∧ s5.level = s4.level ∧ s5.num .reportID = st.num .reportID ∧ s5.inNamed = false ∧
      s5.num .usagePage = 0 ∧ (st.stack = [] → s5.root = some (ended s5.level)) := by
    by_cases he : st.stack.isEmpty = true
    · have e5 : s5 = { s4 with inNamed := false, root := some (ended s4.level) } := if_pos he
      rw [e5]
      exact ⟨rfl, rfl, hid, rfl, L.page, fun _ => rfl⟩
    · have e5 : s5 = { s4 with inNamed := false } := if_neg he
      rw [e5]
      exact ⟨rfl, rfl, hid, rfl, L.page, fun h => absurd (by rw [h]; rfl) he⟩
  obtain ⟨a1, a2, a3, a4, a5, a6⟩ := hs5
  refine ⟨s5.clear, ?_, ⟨rfl, rfl, rfl, fun _ => rfl, a4, a5⟩, a1, a2.trans hl4, a3, a6⟩
  intro ys
  have eb : b = callItems reg ([(Cls.usage, u)] ++ [(.physMin, .int 0), (.physMax, .int 0)]) ++
      (⟨.collection, .named (tx "Logical") 2⟩ :: callItems reg ((a.elems reg).map (fun u => (Cls.usage, u)) ++ tailCalls v)) := by
    rw [e1]
    simp [callItems, keep]
  rw [eb, List.append_assoc, List.append_assoc, run_put reg st _ _ (by simp [callItems, Cls.kind]), hs0, List.cons_append, runFrom, hstep0]
  simp only
  rw [run_put reg _ _ _ (by
    intro i hi
    obtain ⟨x, hx, rfl⟩ := List.mem_map.1 hi
    exact hk2 x hx)]
  show runFrom reg (List.foldl put s1 _) _ = _
  rw [hs2, e2, List.cons_append, runFrom, hstep]
  simp only
  rw [List.cons_append, List.nil_append, runFrom]
  have hstep5' : step reg (s3.addValue (.value (normV reg v))).clear ⟨.endCollection, .int 0⟩ = .ok s5.clear := hstep5
  rw [hstep5']

end Extractor
end Hrdc
