import Verif.Proofs.Streamer
import Verif.Proofs.Tag
/-!
# What the items of one value describe
-/
namespace Hrdc
open Spec

/-- Values the constructor returns. -/
def Value.Made (v : Value) : Prop := ∃ a, Value.new a = .ok v

/-- Between two values: nothing is declared and no usage page is in force. -/
def Clean (h : Host) : Prop := h.usages = {} ∧ h.strings = {} ∧ h.desigs = {} ∧ h.g .usagePage = 0

namespace NamedArray

/-- A named array is true exactly when it lists usages. -/
theorem truth_eq {o : Option NamedArray} {b : Bool} (h : truthOpt o = .ok b) :
    b = !(arrayUsages o).isEmpty := by
  cases o with
  | none => simp only [truthOpt, Except.ok.injEq] at h; subst h; rfl
  | some a =>
    cases a with
    | list l =>
      simp only [truthOpt, truth, len, Except.ok.injEq] at h
      subst h
      cases l <;> simp [arrayUsages]
    | range r =>
      simp only [truthOpt, truth, len, UsageRange.len] at h
      by_cases hr : r.rawLen < 0
      · simp [hr] at h
      · simp only [hr, if_false, Except.ok.injEq] at h
        subst h
        simp only [arrayUsages, upTo, UsageRange.rawLen] at hr ⊢
        generalize hk : (r.max.toInt - r.min.toInt + 1).toNat = k
        cases k <;> simp [List.range_succ]

theorem elems_toInt (reg : Registry) (a : NamedArray) :
    (a.elems reg).map PyVal.toInt = arrayUsages (some a) := by
  cases a with
  | list l => rfl
  | range r =>
    simp only [elems, UsageRange.iter, UsageRange.pyRange, arrayUsages, upTo, List.map_map]
    apply List.map_congr_left
    intro k _
    simp only [Function.comp, PyVal.toInt]
    exact lookup_value _ _

theorem len_eq {a : NamedArray} {n : Nat} (h : a.len = .ok n) : (arrayUsages (some a)).length = n := by
  cases a with
  | list l => simpa [len, arrayUsages] using h
  | range r =>
    simp only [len, UsageRange.len] at h
    by_cases hr : r.rawLen < 0
    · simp [hr] at h
    · simp only [hr, if_false, Except.ok.injEq] at h
      subst h
      simp [arrayUsages, upTo, UsageRange.rawLen]

end NamedArray

/-- What the constructor guarantees. -/
theorem Value.Made.facts {v : Value} (h : v.Made) :
    ∃ named, truthOpt v.namedArray = .ok named ∧
      (named = true → v.flags.toInt = (if usageGiven v.usage then 2 else 0) ∧
        ∃ lo, v.logicalMin = some lo ∧
          v.logicalMax = some ((arrayUsages v.namedArray).length + lo - 1)) ∧
      (named = false → (v.physicalMin = v.logicalMin ∧ v.physicalMax = v.logicalMax) ∨
        ¬ (v.physicalMin.getD 0 = 0 ∧ v.physicalMax.getD 0 = 0)) := by
  obtain ⟨a, ha⟩ := h
  unfold Value.new at ha
  cases hn : truthOpt a.namedArray with
  | error e => rw [hn] at ha; simp at ha
  | ok named =>
    rw [hn] at ha
    simp only at ha
    split at ha
    · simp at ha
    · have hphys : ∀ (p q : Option Int), (intGiven p || intGiven q) = true →
          ¬ (p.getD 0 = 0 ∧ q.getD 0 = 0) := by
        intro p q hpq ⟨h1, h2⟩
        cases p <;> cases q <;> simp_all [intGiven]
      cases hna : a.namedArray with
      | none =>
        rw [hna] at hn
        simp only [truthOpt, Except.ok.injEq] at hn
        subst hn
        rw [hna] at ha
        simp only [Except.ok.injEq] at ha
        subst ha
        refine ⟨false, rfl, by simp, fun _ => ?_⟩
        by_cases hp : (intGiven a.physicalMin || intGiven a.physicalMax) = true
        · right; simp only [hp, if_true, Option.getD_some]; exact hphys _ _ hp
        · left; simp [hp]
      | some arr =>
        rw [hna] at ha
        cases named with
        | false =>
          simp only [Except.ok.injEq] at ha
          subst ha
          refine ⟨false, by simp only; rw [← hna]; exact hn, by simp, fun _ => ?_⟩
          by_cases hp : (intGiven a.physicalMin || intGiven a.physicalMax) = true
          · right; simp only [hp, if_true, Option.getD_some]; exact hphys _ _ hp
          · left; simp [hp]
        | true =>
          simp only at ha
          split at ha
          · rename_i n lo hl hlo
            simp only [Except.ok.injEq] at ha
            subst ha
            refine ⟨true, by simp only; rw [← hna]; exact hn, fun _ => ⟨?_, lo, hlo, ?_⟩, by simp⟩
            · simp only; split <;> rfl
            · simp only [NamedArray.len_eq hl]
          · simp at ha
          · simp at ha

theorem data_events (r : MainRec) (w : Way) (hc : r.cls = w.cls) :
    r.events = if r.isConst then
      List.replicate ((r.g .reportSize).toNat * (r.g .reportCount).toNat)
        (.padBit w.cls (r.g .reportID))
    else (List.range (r.g .reportCount).toNat).map (fun k =>
        .control w.cls r.val (r.g .reportID) r.attrs (r.what k)) := by
  unfold MainRec.events
  rw [hc]
  cases w <;> rfl

theorem map_range_const {α : Type} (f : Nat → α) (a : α) (n : Nat) (h : ∀ k, f k = a) :
    (List.range n).map f = List.replicate n a := by
  exact List.eq_replicate_iff.2 ⟨by simp, fun b hb => by
    obtain ⟨k, -, rfl⟩ := List.mem_map.1 hb; exact h k⟩

theorem way_kind (w : Way) : w.cls.kind = .main := by cases w <;> rfl

theorem step_way (rule : PageRule) (h : Host) (w : Way) (v : Int) :
    h.step rule (w.cls, v) = { h with usages := {}, strings := {}, desigs := {} } := by
  cases w <;> rfl

theorem bitSet_zero (i : Int) : bitSet i 0 = (i % 2 == 1) := by simp [bitSet]
theorem bitSet_one (i : Int) : bitSet i 1 = (i / 2 % 2 == 1) := by simp [bitSet]

/-- Declaring usages one by one. -/
theorem after_usages (rule : PageRule) (h : Host) (hp : h.g .usagePage = 0) (us : List PyVal) :
    h.after rule (us.map (fun u => (Cls.usage, u.toInt)))
      = { h with usages := { h.usages with ranges := h.usages.ranges ++ us.map (fun u => (u.toInt, u.toInt)) } } := by
  induction us generalizing h with
  | nil => simp
  | cons u us ih =>
    rw [List.map_cons, after_cons, ih]
    · simp only [Host.step, Decl.one, hp, declare_zero, List.map_cons, List.append_assoc,
        List.cons_append, List.nil_append]
    · exact hp

theorem values_ones (us : List Int) (l : Option Int) (hi : Option Int) :
    Decl.values id ⟨us.map (fun u => (u, u)), l, hi⟩ = us := by
  induction us with
  | nil => rfl
  | cons u us ih =>
    simp only [Decl.values, List.map_cons, List.flatMap_cons, id, upTo_self] at ih ⊢
    rw [ih]; rfl

@[simp] theorem toInt_int (i : Int) : (PyVal.int i).toInt = i := rfl
@[simp] theorem orZero_toInt (o : Option Int) : (Streamer.orZero o).toInt = o.getD 0 := rfl

/-- Host state after the items preceding the ReportCount of a value without collection of its own. -/
def attrHost (h : Host) (us : List Int) (pm px : Int) (v : Value) : Host where
  g := fun c => match c with
    | .physMin => pm
    | .physMax => px
    | .logMin => v.logicalMin.getD 0
    | .logMax => v.logicalMax.getD 0
    | .unit => v.unit.toInt
    | .unitExp => v.unitExponent
    | c => h.g c
  stack := h.stack
  usages := ⟨us.map (fun u => (u, u)), none, none⟩
  strings := ⟨if v.string ≠ 0 then [(v.string, v.string)] else [], none, none⟩
  desigs := ⟨if v.designator ≠ 0 then [(v.designator, v.designator)] else [], none, none⟩

/-- The last items of `attrCalls`. -/
def attrTail (v : Value) : List (Cls × PyVal) :=
  [(.logMin, Streamer.orZero v.logicalMin), (.logMax, Streamer.orZero v.logicalMax),
   (.unit, v.unit), (.unitExp, .int v.unitExponent)] ++
  (if v.designator ≠ 0 then [(.desigIndex, .int v.designator)] else []) ++
  (if v.string ≠ 0 then [(.strIndex, .int v.string)] else [])

theorem attrTail_after (rule : PageRule) (h : Host) (v : Value) (us : List Int) (pm px : Int)
    (hs : h.strings = {}) (hd : h.desigs = {})
    (hu : h.usages = ⟨us.map (fun u => (u, u)), none, none⟩)
    (h1 : h.g .physMin = pm) (h2 : h.g .physMax = px) :
    h.after rule (Streamer.ck (attrTail v)) = attrHost h us pm px v := by
  obtain ⟨g, stack, usages, strings, desigs⟩ := h
  simp only at hs hd hu h1 h2
  subst hs hd hu h1 h2
  have hg : (fun c => if c = Cls.unitExp then v.unitExponent else
      if c = Cls.unit then v.unit.toInt else
      if c = Cls.logMax then v.logicalMax.getD 0 else
      if c = Cls.logMin then v.logicalMin.getD 0 else g c)
      = (attrHost ⟨g, stack, ⟨us.map (fun u => (u, u)), none, none⟩, {}, {}⟩ us
          (g .physMin) (g .physMax) v).g := by
    funext c
    cases c <;> rfl
  unfold attrTail
  by_cases h1 : v.designator = 0 <;> by_cases h2 : v.string = 0 <;>
    simp [h1, h2, Host.step, Decl.one, hg] <;>
    simp [attrHost, h1, h2]

theorem attr_after_plain (rule : PageRule) (reg : Registry) (h : Host) (hc : Clean h) (v : Value) :
    h.after rule (Streamer.ck (Streamer.attrCalls reg v false)) =
      attrHost h (usageOf v.usage).toList
        (if v.physicalMin = v.logicalMin ∧ v.physicalMax = v.logicalMax then 0 else v.physicalMin.getD 0)
        (if v.physicalMin = v.logicalMin ∧ v.physicalMax = v.logicalMax then 0 else v.physicalMax.getD 0)
        v := by
  obtain ⟨g, stack, usages, strings, desigs⟩ := h
  obtain ⟨h1, h2, h3, h4⟩ := hc
  simp only at h1 h2 h3 h4
  subst h1 h2 h3
  have e : Streamer.attrCalls reg v false =
      ((usageOf v.usage).toList.map (fun _ => (Cls.usage, v.usage.getD (.int 0)))) ++
      ([(Cls.physMin, if v.physicalMin = v.logicalMin ∧ v.physicalMax = v.logicalMax then .int 0 else
          Streamer.orZero v.physicalMin),
        (Cls.physMax, if v.physicalMin = v.logicalMin ∧ v.physicalMax = v.logicalMax then .int 0 else
          Streamer.orZero v.physicalMax)] ++ attrTail v) := by
    unfold Streamer.attrCalls attrTail usageOf
    cases hu : v.usage with
    | none => simp only [List.append_assoc]; split <;> rfl
    | some u =>
      simp only [List.append_assoc]
      split <;> split <;> rfl
  rw [e, Streamer.ck_append, Streamer.ck_append, after_append, after_append]
  have hu : Host.after rule ⟨g, stack, {}, {}, {}⟩ (Streamer.ck
      ((usageOf v.usage).toList.map (fun _ => (Cls.usage, v.usage.getD (.int 0)))))
      = ⟨g, stack, ⟨(usageOf v.usage).toList.map (fun u => (u, u)), none, none⟩, {}, {}⟩ := by
    unfold usageOf
    cases hu : v.usage with
    | none => rfl
    | some u =>
      by_cases ht : u.truthy = true
      · simp [ht, Host.step, Decl.one, h4, declare_zero]
      · simp [ht]
  rw [hu]
  rw [attrTail_after rule _ v (usageOf v.usage).toList _ _ rfl rfl rfl rfl rfl]
  have : ∀ (c : Prop) [Decidable c] (x : Option Int),
      PyVal.toInt (if c then .int 0 else Streamer.orZero x) = if c then 0 else x.getD 0 := by
    intro c _ x; split <;> rfl
  simp only [attrHost, Streamer.ck_cons, Streamer.ck_nil, after_cons, after_nil, Host.step, this]
  congr 1
  funext c
  cases c <;> simp

theorem attr_after_array (rule : PageRule) (reg : Registry) (h : Host) (hc : Clean h) (v : Value)
    (arr : NamedArray) (ha : v.namedArray = some arr) (hu : usageGiven v.usage = false) :
    h.after rule (Streamer.ck (Streamer.attrCalls reg v true)) =
      attrHost h (arrayUsages v.namedArray) 0 0 v := by
  obtain ⟨g, stack, usages, strings, desigs⟩ := h
  obtain ⟨h1, h2, h3, h4⟩ := hc
  simp only at h1 h2 h3 h4
  subst h1 h2 h3
  have e : Streamer.attrCalls reg v true =
      [(Cls.physMin, .int 0), (Cls.physMax, .int 0)] ++
      ((arr.elems reg).map (fun u => (Cls.usage, u)) ++ attrTail v) := by
    unfold Streamer.attrCalls attrTail
    rw [ha]
    cases hv : v.usage with
    | none => simp [usageGiven]
    | some u =>
      rw [hv] at hu
      simp only [usageGiven] at hu
      simp [usageGiven, hu]
  rw [e, Streamer.ck_append, Streamer.ck_append, after_append, after_append]
  have hk : Streamer.ck ((arr.elems reg).map (fun u => (Cls.usage, u)))
      = (arr.elems reg).map (fun u => (Cls.usage, u.toInt)) := by
    simp [Streamer.ck]
  rw [hk, after_usages]
  · rw [attrTail_after rule _ v (arrayUsages v.namedArray) 0 0 rfl rfl _ rfl rfl]
    · simp only [attrHost, Streamer.ck_cons, Streamer.ck_nil, after_cons, after_nil, Host.step]
      congr 1
      funext c
      cases c <;> simp
    · rw [ha, ← NamedArray.elems_toInt reg arr, List.map_map]
      rfl
  · simp [Host.step, h4]

theorem attr_no_main (reg : Registry) (v : Value) (named : Bool)
    (hu : named = true → usageGiven v.usage = false) :
    ∀ i ∈ Streamer.ck (Streamer.attrCalls reg v named), i.1.kind ≠ .main := by
  intro i hi
  obtain ⟨c, hc, rfl⟩ := List.mem_map.1 hi
  unfold Streamer.attrCalls at hc
  simp only [List.mem_append] at hc
  have hopt : ∀ (p : Prop) [Decidable p] (x : Cls × PyVal), c ∈ (if p then [x] else []) → c = x := by
    intro p _ x hx; split at hx <;> simp_all
  rcases hc with (((hc | hc) | hc) | hc) | hc
  · split at hc
    · rw [hopt _ _ hc]; simp [Cls.kind]
    · simp at hc
  · split at hc
    · rw [hu rfl] at hc
      simp only [List.append_nil, List.mem_append, Bool.false_eq_true, if_false] at hc
      rcases hc with hc | hc
      · simp at hc; rcases hc with rfl | rfl <;> simp [Cls.kind]
      · obtain ⟨u, -, rfl⟩ := List.mem_map.1 hc
        simp [Cls.kind]
    · split at hc <;> (simp at hc; rcases hc with rfl | rfl <;> simp [Cls.kind])
  · simp at hc; rcases hc with rfl | rfl | rfl | rfl <;> simp [Cls.kind]
  · rw [hopt _ _ hc]; simp [Cls.kind]
  · rw [hopt _ _ hc]; simp [Cls.kind]

/-- The items of a value, without its padding. -/
def valueCalls (reg : Registry) (v : Value) (named : Bool) : List (Cls × PyVal) :=
  (if constFlag v.flags then [] else Streamer.attrCalls reg v named) ++
    [(.reportCount, .int v.count), (.reportSize, .int v.size), (v.way.cls, v.flags)]

theorem tail_events (rule : PageRule) (h : Host) (v : Value) :
    eventsFrom rule h [(.reportCount, v.count), (.reportSize, v.size), (v.way.cls, v.flags.toInt)]
      = (Host.main rule { h with g := fun c => if c = .reportSize then v.size else
          if c = .reportCount then v.count else h.g c } (v.way.cls, v.flags.toInt)).events := by
  rw [eventsFrom_cons_of_not_main _ _ _ _ (by simp [Cls.kind]),
    eventsFrom_cons_of_not_main _ _ _ _ (by simp [Cls.kind]),
    eventsFrom_cons_main _ _ _ _ (way_kind _)]
  simp [Host.step]

theorem tail_after (rule : PageRule) (h : Host) (v : Value) :
    h.after rule [(.reportCount, v.count), (.reportSize, v.size), (v.way.cls, v.flags.toInt)]
      = ⟨fun c => if c = .reportSize then v.size else if c = .reportCount then v.count else h.g c,
          h.stack, {}, {}, {}⟩ := by
  rw [after_cons, after_cons, after_cons, step_way]
  rfl

/-- Selector `n` when usage, string and designator are declared as by the streamer. -/
theorem pick_one (x : Int) (n : Nat) : pick [x] n = some x := by
  cases n <;> simp [pick]

theorem pick_opt (x : Int) (n : Nat) : (pick (if x ≠ 0 then [x] else []) n).getD 0 = x := by
  by_cases h : x = 0
  · simp [h, pick]
  · simp [h, pick_one]

theorem opt_values (x : Int) : Decl.values id ⟨if x ≠ 0 then [(x, x)] else [], none, none⟩
    = if x ≠ 0 then [x] else [] := by
  by_cases h : x = 0
  · simp [h, Decl.values]
  · simp [h, Decl.values, upTo_self]

/-- The record of the main item of a value. -/
theorem attrHost_main (rule : PageRule) (h : Host) (hp : h.g .usagePage = 0) (us : List Int)
    (pm px : Int) (v : Value) :
    ∃ g', Host.main rule { attrHost h us pm px v with g := fun c => if c = .reportSize then v.size else
          if c = .reportCount then v.count else (attrHost h us pm px v).g c }
          (v.way.cls, v.flags.toInt)
      = ⟨v.way.cls, v.flags.toInt, g', us, if v.string ≠ 0 then [v.string] else [],
          if v.designator ≠ 0 then [v.designator] else []⟩ ∧
      g' .reportSize = v.size ∧ g' .reportCount = v.count ∧ g' .reportID = h.g .reportID ∧
      g' .physMin = pm ∧ g' .physMax = px ∧ g' .logMin = v.logicalMin.getD 0 ∧
      g' .logMax = v.logicalMax.getD 0 ∧ g' .unit = v.unit.toInt ∧ g' .unitExp = v.unitExponent := by
  refine ⟨fun c => if c = .reportSize then v.size else
    if c = .reportCount then v.count else (attrHost h us pm px v).g c, ?_, rfl, rfl, rfl, rfl, rfl,
    rfl, rfl, rfl, rfl⟩
  have : (attrHost h us pm px v).g .usagePage = 0 := hp
  simp only [Host.main, reduceCtorEq, if_false, this, consume_zero]
  congr 1
  · exact values_ones us none none
  · exact opt_values v.string
  · exact opt_values v.designator

theorem what_selector (v : Value) (val : Int) (g' : Cls → Int) (us : List Int) :
    (MainRec.mk v.way.cls val g' us (if v.string ≠ 0 then [v.string] else [])
      (if v.designator ≠ 0 then [v.designator] else [])).selector = fun n => selectorOf v (pick us n) := by
  funext n
  simp only [MainRec.selector, selectorOf, pick_opt]

theorem pick_lt (us : List Int) (n : Nat) (h : n < us.length) : pick us n = some us[n] := by
  simp [pick, h]

theorem range_selectors (v : Value) (us : List Int) :
    (List.range us.length).map (fun n => selectorOf v (pick us n))
      = us.map (fun u => selectorOf v (some u)) := by
  apply List.ext_getElem
  · simp
  · intro n h1 h2
    simp only [List.length_map] at h2
    simp [pick_lt us n h2]

theorem events_replicate (r : MainRec) (w : Way) (hc : r.cls = w.cls) (hk : r.isConst = false)
    (W : List Selector) (hW : ∀ k, r.what k = W) :
    r.events = List.replicate (r.g .reportCount).toNat
      (.control w.cls r.val (r.g .reportID) r.attrs W) := by
  rw [data_events r w hc, hk]
  simp only [Bool.false_eq_true, if_false]
  exact map_range_const _ _ _ (fun k => by rw [hW])

theorem valueEvents_array (id : Int) (v : Value) (hne : arrayUsages v.namedArray ≠ [])
    (hu : usageOf v.usage = none) :
    valueEvents id v = List.replicate v.count.toNat (Event.control v.way.cls 0 id
      (arrayAttrs v (arrayUsages v.namedArray).length)
      ((arrayUsages v.namedArray).map (fun u => selectorOf v (some u)))) := by
  rw [valueEvents_eq]
  split
  · rename_i h0; exact absurd h0 hne
  · rw [hu]

theorem value_events (rule : PageRule) (reg : Registry) (v : Value) (hm : v.Made) (named : Bool)
    (hn : truthOpt v.namedArray = .ok named) (hnu : named = true → usageGiven v.usage = false)
    (h : Host) (hc : Clean h) :
    eventsFrom rule h (Streamer.ck (valueCalls reg v named)) = valueEvents (h.g .reportID) v ∧
    Clean (h.after rule (Streamer.ck (valueCalls reg v named))) ∧
    (h.after rule (Streamer.ck (valueCalls reg v named))).g .reportID = h.g .reportID := by
  obtain ⟨named', hn', f1, f2⟩ := hm.facts
  rw [hn] at hn'; cases hn'
  have hus := NamedArray.truth_eq hn
  have htail : Streamer.ck [(Cls.reportCount, .int v.count), (.reportSize, .int v.size), (v.way.cls, v.flags)]
      = [(.reportCount, v.count), (.reportSize, v.size), (v.way.cls, v.flags.toInt)] := rfl
  unfold valueCalls
  rw [Streamer.ck_append, htail]
  by_cases hconst : constFlag v.flags = true
  · -- constant
    have hnf : named = false := by
      cases named with
      | false => rfl
      | true =>
        have := (f1 rfl).1
        rw [hnu rfl] at this
        simp only [constFlag, this] at hconst
        simp [bitSet] at hconst
    have he : arrayUsages v.namedArray = [] := by
      rw [hnf] at hus; simpa using hus.symm
    simp only [hconst, if_true, Streamer.ck_nil, List.nil_append]
    rw [tail_events, tail_after]
    refine ⟨?_, ⟨rfl, rfl, rfl, by simpa using hc.2.2.2⟩, by simp⟩
    rw [data_events _ v.way rfl]
    have h1 : (Host.main rule { h with g := fun c => if c = .reportSize then v.size else
          if c = .reportCount then v.count else h.g c } (v.way.cls, v.flags.toInt)).isConst = true := by
      simp only [MainRec.isConst, Host.main]
      rw [← bitSet_zero]; exact hconst
    simp only [h1, if_true]
    rw [valueEvents_eq]
    have : bitSet v.flags.toInt 0 = true := hconst
    simp only [he, this, if_true]
    rfl
  · have hconst' : constFlag v.flags = false := by simpa using hconst
    simp only [hconst', Bool.false_eq_true, if_false]
    rw [eventsFrom_append, eventsFrom_no_main _ _ _ (attr_no_main reg v named hnu), List.nil_append,
      after_append, tail_events, tail_after]
    cases named with
    | false =>
      have he : arrayUsages v.namedArray = [] := by simpa using hus.symm
      rw [attr_after_plain rule reg h hc v]
      refine ⟨?_, ⟨rfl, rfl, rfl, by simpa [attrHost] using hc.2.2.2⟩, by simp [attrHost]⟩
      obtain ⟨g', hg, g1, g2, g3, g4, g5, g6, g7, g8, g9⟩ := attrHost_main rule h hc.2.2.2
        (usageOf v.usage).toList
        (if v.physicalMin = v.logicalMin ∧ v.physicalMax = v.logicalMax then 0 else v.physicalMin.getD 0)
        (if v.physicalMin = v.logicalMin ∧ v.physicalMax = v.logicalMax then 0 else v.physicalMax.getD 0) v
      rw [hg]
      rw [valueEvents_eq]
      have hb : bitSet v.flags.toInt 0 = false := hconst'
      simp only [he, hb, Bool.false_eq_true, if_false]
      rw [events_replicate _ v.way rfl (by simp only [MainRec.isConst]; rw [← bitSet_zero]; exact hb)
        (if bitSet v.flags.toInt 1 then [selectorOf v (usageOf v.usage)]
         else (usageOf v.usage).toList.map (fun u => selectorOf v (some u)))]
      · simp only [g2, g3]
        congr 2
        simp only [MainRec.attrs, attrsOf, g1, g4, g5, g6, g7, g8, g9]
        by_cases hp : v.physicalMin = v.logicalMin ∧ v.physicalMax = v.logicalMax
        · simp [hp]
        · have := (f2 rfl).resolve_left hp
          simp [hp, this]
      · intro k
        simp only [MainRec.what, MainRec.isVar, ← bitSet_one, what_selector]
        split
        · cases usageOf v.usage with
          | none => simp [pick]
          | some u => simp [pick_one]
        · exact range_selectors v _
    | true =>
      obtain ⟨fl, lo, hlo, hhi⟩ := f1 rfl
      rw [hnu rfl] at fl
      simp only [Bool.false_eq_true, if_false] at fl
      cases harr : v.namedArray with
      | none => rw [harr] at hn; simp [truthOpt] at hn
      | some arr =>
        have hne : arrayUsages v.namedArray ≠ [] := by
          intro h0; rw [h0] at hus; simp at hus
        rw [attr_after_array rule reg h hc v arr harr (hnu rfl)]
        refine ⟨?_, ⟨rfl, rfl, rfl, by simpa [attrHost] using hc.2.2.2⟩, by simp [attrHost]⟩
        obtain ⟨g', hg, g1, g2, g3, g4, g5, g6, g7, g8, g9⟩ := attrHost_main rule h hc.2.2.2
          (arrayUsages v.namedArray) 0 0 v
        rw [hg]
        have huo : usageOf v.usage = none := by
          have := hnu rfl
          unfold usageOf
          cases hv : v.usage with
          | none => rfl
          | some u => rw [hv] at this; simp only [usageGiven] at this; simp [this]
        rw [valueEvents_array _ v hne huo, events_replicate _ v.way rfl (by simp [MainRec.isConst, fl])
            ((arrayUsages v.namedArray).map (fun u => selectorOf v (some u)))]
        · simp only [g2, g3, fl]
          congr 2
          simp only [MainRec.attrs, arrayAttrs, attrsOf, g1, g4, g5, g6, g7, g8, g9, hlo, hhi]
          simp; omega
        · intro k
          simp only [MainRec.what, MainRec.isVar, fl, what_selector]
          exact range_selectors v _

end Hrdc
