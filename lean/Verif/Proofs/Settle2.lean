import Verif.Proofs.Settle
import Verif.Proofs.Named3
/-!
# Reading back the items of a value
-/
namespace Hrdc
open Spec Extractor

namespace Extractor

/-! ## Items of the compiler -/

/-- What an item built from this holds, collections of odd kinds apart. -/
def keep (reg : Registry) : Cls → PyVal → PyVal
  | .usage, v => .usage (Usage.lookup reg v)
  | .usageMin, v => .usage (Usage.lookup reg v)
  | .usageMax, v => .usage (Usage.lookup reg v)
  | .unit, v => Item.usualUnit v
  | .input, .int k => .named (Item.dataName k) k
  | .output, .int k => .named (Item.dataName k) k
  | .feature, .int k => .named (Item.dataName k) k
  | .endCollection, _ => .int 0
  | .push, _ => .int 0
  | .pop, _ => .int 0
  | _, v => v

/-- Kinds collections keep as they are. -/
def PlainKind (k : PyVal) : Prop := (∀ i, k = .int i → 7 ≤ i)

theorem kindFrom_plain {k : PyVal} (h : KindFrom k) : PlainKind k := by
  intro i hi
  rcases h with ⟨j, hj, e⟩ | ⟨j, hj, e⟩
  · rw [e] at hi; simp at hi
  · rw [e] at hi; simp only [PyVal.int.injEq] at hi; omega

theorem new_keep {reg : Registry} {c : Cls} {v : PyVal} {i : Item} (h : Item.new reg c v = .ok i)
    (hk : c = .collection → PlainKind v) : i = ⟨c, keep reg c v⟩ := by
  have hb : ∀ w, Item.baseInit c w = .ok i → i = ⟨c, w⟩ := by
    intro w hw
    simp only [Item.baseInit] at hw
    split at hw
    · simp only [Except.ok.injEq] at hw; exact hw.symm
    · simp at hw
  by_cases hc : c = .collection
  · subst hc
    cases v with
    | int k =>
      rw [new_collection_int, if_neg (by have := hk rfl k rfl; omega)] at h
      exact hb _ h
    | named n k => exact hb _ h
    | usage u => exact hb _ h
  · cases c <;> first | exact absurd rfl hc | skip
    case endCollection | push | pop =>
      simp only [Item.new] at h
      split at h
      · exact hb _ h
      · simp at h
    all_goals first
      | exact hb _ h
      | (cases v <;> exact hb _ h)

theorem emit_items {reg : Registry} {cs : List (Cls × PyVal)} {is : List Item} (h : Streamer.emit reg cs = .ok is)
    (hk : ∀ c ∈ cs, c.1 = .collection → PlainKind c.2) : is = cs.map (fun c => (⟨c.1, keep reg c.1 c.2⟩ : Item)) := by
  induction cs generalizing is with
  | nil => simp only [Streamer.emit, Except.ok.injEq] at h; rw [← h]; rfl
  | cons c cs ih =>
    obtain ⟨c, v⟩ := c
    obtain ⟨i, t, rfl, h1, h2⟩ := Streamer.emit_cons_ok h
    rw [List.map_cons, ← ih h2 (fun x hx => hk x (by simp [hx])), ← new_keep h1 (fun e => hk (c, v) (List.mem_cons_self ..) e)]

/-! ## Attributes -/

/-- The effect of an item that is not a main item. -/
def put (st : State) (i : Item) : State :=
  if i.cls.kind = .global then { st with g := fun c => if c = i.cls then i.val else st.g c }
  else match i.cls with
    | .usage => { st with usages := st.usages ++ [i.val] }
    | .desigIndex => { st with desigs := st.desigs ++ [i.val] }
    | .strIndex => { st with strings := st.strings ++ [i.val] }
    | c => { st with loc := fun c' => if c' = c then some i.val else st.loc c' }

theorem step_put (reg : Registry) (st : State) (i : Item) (h : i.cls.kind ≠ .main) : step reg st i = .ok (put st i) := by
  unfold step put
  cases hc : i.cls <;> rw [hc] at h <;> first | exact absurd rfl h | rfl

theorem run_put (reg : Registry) (st : State) (xs ys : List Item) (h : ∀ i ∈ xs, i.cls.kind ≠ .main) :
    runFrom reg st (xs ++ ys) = runFrom reg (xs.foldl put st) ys := by
  induction xs generalizing st with
  | nil => rfl
  | cons x xs ih =>
    rw [List.cons_append, runFrom, step_put reg st x (h x (by simp))]
    exact ih _ (fun i hi => h i (by simp [hi]))

/-- Between elements: no local item is pending, and the usage page is 0. -/
structure Ready (st : State) : Prop where
  usages : st.usages = []
  strings : st.strings = []
  desigs : st.desigs = []
  loc : ∀ c, st.loc c = none
  inNamed : st.inNamed = false
  page : st.num .usagePage = 0

theorem norm_known {reg : Registry} {u : PyVal} (h : KnownVal reg u) : .usage (Usage.lookup reg u) = norm reg u := by
  rcases h with ⟨i, -, rfl⟩ | ⟨i, rfl⟩
  · rfl
  · show PyVal.usage (Usage.lookup reg (.int i)) = .usage (Usage.lookup reg (.int (Usage.lookup reg (.int i)).value))
    rw [lookup_value]
    rfl

theorem norm_toInt (reg : Registry) (u : PyVal) : (norm reg u).toInt = u.toInt := by
  simp [norm, PyVal.toInt, lookup_value]

theorem norm_norm (reg : Registry) (u : PyVal) : norm reg (norm reg u) = norm reg u := by
  conv => lhs; rw [norm, norm_toInt]
  rfl

theorem known_norm (reg : Registry) (u : PyVal) : KnownVal reg (norm reg u) := .inr ⟨_, rfl⟩

/-- Usages of page 0 are read as they are. -/
theorem usage_norm (reg : Registry) {st : State} (hp : st.num .usagePage = 0) {l : List PyVal} (hu : st.usages = l.map (norm reg))
    (h0 : ∀ u ∈ l, 0 ≤ u.toInt) (k : Nat) : st.usage reg k = (clamp l k).map (norm reg) := by
  unfold State.usage
  rw [hu, clamp_map', hp]
  cases hc : clamp l k with
  | none => rfl
  | some u =>
    simp only [Option.map_some, norm_toInt]
    split
    · rfl
    · rename_i h
      have hm := h0 u (List.mem_of_getElem? hc)
      rw [joinPage_eq (by omega) hm (by omega)]
      simp [norm]

/-- What an element leaves behind. -/
structure Next (st st' : State) (lvl : Level) : Prop where
  ready : Ready st'
  stack : st'.stack = st.stack
  level : st'.level = lvl
  root : st'.root = st.root
  id : st'.num .reportID = st.num .reportID

/-- The level with one more value. -/
def addLeaf (st : State) (n : Node) : Level :=
  { st.level with members := st.level.members ++ [.leaf (st.num .reportID) n] }

theorem expandAll_none {st : State} (h : ∀ c, st.loc c = none) : st.expandAll = st := by
  simp [State.expandAll, expand, h]

theorem emit_nonneg {reg : Registry} {cs : List (Cls × PyVal)} {is : List Item} (h : Streamer.emit reg cs = .ok is)
    {c : Cls × PyVal} (hc : c ∈ cs) (hn : c.1 ≠ .collection) (hs : c.1.signed = false) : 0 ≤ c.2.toInt := by
  induction cs generalizing is with
  | nil => simp at hc
  | cons d cs ih =>
    obtain ⟨d, v⟩ := d
    obtain ⟨i, t, rfl, h1, h2⟩ := Streamer.emit_cons_ok h
    rcases List.mem_cons.1 hc with rfl | hc
    · rw [← new_ival h1 (fun e => absurd e hn)]
      rcases Item.Made.nonneg ⟨reg, v, by rw [(new_cls h1).1]; exact h1⟩ with h3 | h3
      · rw [(new_cls h1).1] at h3; simp only at hs; rw [hs] at h3; simp at h3
      · exact h3
    · exact ih h2 hc

theorem emit_append {reg : Registry} {a b : List (Cls × PyVal)} {is : List Item} (h : Streamer.emit reg (a ++ b) = .ok is) :
    ∃ x y, is = x ++ y ∧ Streamer.emit reg a = .ok x ∧ Streamer.emit reg b = .ok y := by
  induction a generalizing is with
  | nil => exact ⟨[], is, rfl, rfl, h⟩
  | cons c a ih =>
    obtain ⟨c, v⟩ := c
    obtain ⟨i, t, rfl, h1, h2⟩ := Streamer.emit_cons_ok h
    obtain ⟨x, y, rfl, h3, h4⟩ := ih h2
    exact ⟨i :: x, y, rfl, by simp [Streamer.emit, h1, h3], h4⟩

/-- Padding reads back. -/
theorem run_pad (reg : Registry) {st : State} (hr : Ready st) (w : Way) {pad : Int} {is a b : List Item}
    (ha : Streamer.emit reg [(.reportCount, .int 1), (.reportSize, .int pad)] = .ok a)
    (hb : Streamer.emit reg [(w.cls, .int 3)] = .ok b) (e : is = a ++ b) :
    ∃ st', (∀ ys, runFrom reg st (is ++ ys) = runFrom reg st' ys) ∧ Next st st' (addLeaf st (.padding w pad)) := by
  have e1 := emit_items ha (by simp)
  have e2 := emit_items hb (by cases w <;> simp [Way.cls])
  have hw : keep reg w.cls (.int 3) = .named (Item.dataName 3) 3 := by cases w <;> rfl
  have hwk : w.cls.kind = .main := by cases w <;> rfl
  have hwo : wayOf w.cls = w := by cases w <;> rfl
  let s2 := a.foldl put st
  have hs2 : s2 = { st with g := fun c => if c = .reportSize then .int pad else if c = .reportCount then .int 1 else st.g c } := by
    simp only [s2, e1, List.map_cons, List.map_nil, List.foldl_cons, List.foldl_nil]
    simp [put, Cls.kind, keep]
  have hl : ∀ c, s2.loc c = none := by rw [hs2]; exact hr.loc
  have hnum1 : s2.num .reportSize = pad := by rw [hs2]; rfl
  have hnum2 : s2.num .reportCount = 1 := by rw [hs2]; rfl
  have hstep : step reg s2 ⟨w.cls, .named (Item.dataName 3) 3⟩ = .ok (s2.addValue (.padding w pad)).clear := by
    unfold step
    rw [hwk]
    simp only
    rw [expandAll_none hl]
    have hd : s2.data reg ⟨w.cls, .named (Item.dataName 3) 3⟩ = .ok (s2.addValue (.padding w pad)) := by
      unfold State.data
      rw [if_pos (by rfl), hnum1, hnum2, padding_ok, hwo, Int.mul_one]
    cases w <;> simp only [Way.cls] at hd ⊢ <;> rw [hd]
  refine ⟨(s2.addValue (.padding w pad)).clear, ?_, ?_⟩
  · intro ys
    rw [e, List.append_assoc, run_put reg st a _ (by rw [e1]; simp [Cls.kind]), e2]
    simp only [List.map_cons, List.map_nil, List.cons_append, List.nil_append, hw]
    rw [runFrom]
    show (match step reg s2 _ with | .error e => _ | .ok st' => _) = _
    rw [hstep]
  · rw [hs2]
    refine ⟨⟨rfl, rfl, rfl, fun _ => rfl, hr.inNamed, ?_⟩, rfl, rfl, rfl, rfl⟩
    exact hr.page

/-! ## Plain values -/

theorem usualUnit_again (v : PyVal) : Item.usualUnit (Item.usualUnit v) = Item.usualUnit v := by
  cases hf : Item.usualUnits.find? (fun p => p.1 == v.toInt) with
  | none =>
    have e : Item.usualUnit v = v := by simp only [Item.usualUnit, hf]
    rw [e, e]
  | some q =>
    obtain ⟨i, n⟩ := q
    have e : Item.usualUnit v = .named n i := by simp only [Item.usualUnit, hf]
    have hi := List.find?_some hf
    simp only [beq_iff_eq] at hi
    rw [e]
    unfold Item.usualUnit
    rw [show (PyVal.named n i).toInt = v.toInt from hi, hf]

theorem toInt_int (i : Int) : (PyVal.int i).toInt = i := rfl

theorem unit_kept {reg : Registry} {v : Value} (h : FromItems reg v) : Item.usualUnit v.unit = v.unit := by
  rcases h.unit with h | ⟨k, h⟩
  · rw [h]; rfl
  · rw [h, usualUnit_again]

theorem truthy_known {reg : Registry} {u : PyVal} (h : KnownVal reg u) : u.truthy = true := by
  rcases h with ⟨i, h, rfl⟩ | ⟨i, rfl⟩
  · simp only [PyVal.truthy, bne_iff_ne, ne_eq]
    intro e
    subst e
    exact h rfl
  · rfl

theorem usageOf_known {reg : Registry} {o : Option PyVal} (h : ∀ u, o = some u → KnownVal reg u) :
    usageOf o = o.map PyVal.toInt := by
  cases o with
  | none => rfl
  | some u => simp [usageOf, truthy_known (h u rfl)]

theorem step_data_ok (reg : Registry) {st s : State} (hl : ∀ c, st.loc c = none) {i : Item} (hd : i.cls.isData = true)
    (h : st.data reg i = .ok s) : step reg st i = .ok s.clear := by
  unfold step
  have hk : i.cls.kind = .main := by cases e : i.cls <;> rw [e] at hd <;> simp [Cls.isData] at hd <;> rfl
  rw [hk]
  simp only
  rw [expandAll_none hl]
  cases e : i.cls <;> rw [e] at hd <;> simp [Cls.isData] at hd <;> simp only [h]

/-- The attributes of a value, as the extractor holds them. -/
structure Loaded (reg : Registry) (st s : State) (v : Value) (us : List PyVal) : Prop where
  usages : s.usages = us.map (norm reg)
  strings : s.string 0 = v.string
  desigs : s.designator 0 = v.designator
  loc : ∀ c, s.loc c = none
  inNamed : s.inNamed = st.inNamed
  page : s.num .usagePage = 0
  stack : s.stack = st.stack
  level : s.level = st.level
  root : s.root = st.root
  id : s.num .reportID = st.num .reportID
  logMin : s.num .logMin = v.logicalMin.getD 0
  logMax : s.num .logMax = v.logicalMax.getD 0
  unit : s.g .unit = Item.usualUnit v.unit
  unitExp : s.num .unitExp = v.unitExponent
  count : s.num .reportCount = v.count
  size : s.num .reportSize = v.size

/-- The calls of the attributes all values have. -/
def tailCalls (v : Value) : List (Cls × PyVal) :=
  [(.logMin, Streamer.orZero v.logicalMin), (.logMax, Streamer.orZero v.logicalMax),
   (.unit, v.unit), (.unitExp, .int v.unitExponent)] ++
  (if v.designator ≠ 0 then [(.desigIndex, .int v.designator)] else []) ++
  (if v.string ≠ 0 then [(.strIndex, .int v.string)] else []) ++
  [(.reportCount, .int v.count), (.reportSize, .int v.size)]

/-- Items of calls. -/
def callItems (reg : Registry) (cs : List (Cls × PyVal)) : List Item := cs.map (fun c => ⟨c.1, keep reg c.1 c.2⟩)

theorem callItems_append (reg : Registry) (a b : List (Cls × PyVal)) :
    callItems reg (a ++ b) = callItems reg a ++ callItems reg b := by simp [callItems]

theorem tail_loaded (reg : Registry) {st : State} {us : List PyVal} (v : Value) (hu : st.usages = us.map (norm reg))
    (hs : st.strings = []) (hd : st.desigs = []) (hl : ∀ c, st.loc c = none) (hp : st.num .usagePage = 0) :
    Loaded reg st ((callItems reg (tailCalls v)).foldl put st) v us ∧
      ((callItems reg (tailCalls v)).foldl put st).num .physMin = st.num .physMin ∧
      ((callItems reg (tailCalls v)).foldl put st).num .physMax = st.num .physMax := by
  have hp' : (st.g .usagePage).toInt = 0 := hp
  unfold tailCalls callItems
  by_cases h1 : v.designator = 0 <;> by_cases h2 : v.string = 0 <;>
    simp only [h1, h2, ne_eq, not_true_eq_false, if_false, if_true, not_false_eq_true, List.append_nil, List.cons_append,
      List.nil_append, List.map_cons, List.map_nil, List.foldl_cons, List.foldl_nil] <;>
    (refine ⟨?_, ?_, ?_⟩
     · constructor <;>
         simp [put, Cls.kind, keep, State.num, State.string, State.designator, clamp, hu, hs, hd, hl, hp', h1, h2, toInt_int,
           Streamer.orZero]
     · simp [put, Cls.kind, keep, State.num]
     · simp [put, Cls.kind, keep, State.num])

/-- The calls of the physical bounds. -/
def physCalls (v : Value) : List (Cls × PyVal) :=
  if v.physicalMin = v.logicalMin ∧ v.physicalMax = v.logicalMax then [(.physMin, .int 0), (.physMax, .int 0)]
  else [(.physMin, Streamer.orZero v.physicalMin), (.physMax, Streamer.orZero v.physicalMax)]

/-- The call of a usage. -/
def usageCalls (o : Option PyVal) : List (Cls × PyVal) := o.toList.map (fun u => (Cls.usage, u))

theorem plain_calls (reg : Registry) {v : Value} (h : FromItems reg v) (hn : v.namedArray = none) :
    Streamer.attrCalls reg v false ++ [(.reportCount, .int v.count), (.reportSize, .int v.size)] =
      usageCalls v.usage ++ physCalls v ++ tailCalls v := by
  unfold Streamer.attrCalls
  cases e : v.usage with
  | none => simp [usageCalls, physCalls, tailCalls]
  | some u => simp [usageCalls, physCalls, tailCalls, truthy_known (h.usage u e)]

theorem usages_put (reg : Registry) (st : State) (us : List PyVal) :
    (callItems reg (us.map (fun u => (Cls.usage, u)))).foldl put st =
      { st with usages := st.usages ++ us.map (fun u => .usage (Usage.lookup reg u)) } := by
  induction us generalizing st with
  | nil => simp [callItems]
  | cons u us ih =>
    simp only [List.map_cons, callItems, List.foldl_cons] at ih ⊢
    rw [ih]
    simp [put, Cls.kind, keep]

theorem phys_put (reg : Registry) (st : State) (p q : Int) :
    (callItems reg [(.physMin, .int p), (.physMax, .int q)]).foldl put st =
      { st with g := fun c => if c = .physMax then .int q else if c = .physMin then .int p else st.g c } := by
  simp [callItems, put, Cls.kind, keep]

theorem map_norm_known {reg : Registry} {us : List PyVal} (h : ∀ u ∈ us, KnownVal reg u) :
    us.map (fun u => PyVal.usage (Usage.lookup reg u)) = us.map (norm reg) :=
  List.map_congr_left (fun u hu => norm_known (h u hu))

theorem flags_kept {reg : Registry} {c : Cls} {n : Text} {k : Int} (hd : c.isData = true) :
    keep reg c (.named n k) = .named n k := by
  cases c <;> simp [Cls.isData] at hd <;> rfl

/-- A plain value reads back. -/
theorem run_plain (reg : Registry) {st : State} (hr : Ready st) {v : Value} (h : FromItems reg v)
    (hn : v.namedArray = none) {b c : List Item}
    (hb : Streamer.emit reg (Streamer.attrCalls reg v false ++ [(.reportCount, .int v.count), (.reportSize, .int v.size)]) = .ok b)
    (hc : Streamer.emit reg [(v.way.cls, v.flags)] = .ok c)
    (hq : v.count = 1 → (v.usage.toList.length : Int) = v.logicalMax.getD 0 - v.logicalMin.getD 0 + 1 →
      inArrayCollection reg st.level v.flags.toInt = .ok false)
    (h0 : ¬ (v.flags.toInt = 0 ∧ (v.usage.toList.length : Int) = v.logicalMax.getD 0 - v.logicalMin.getD 0 + 1)) :
    ∃ st', (∀ ys, runFrom reg st (b ++ c ++ ys) = runFrom reg st' ys) ∧ Next st st' (addLeaf st (.value (normV reg v))) := by
  obtain ⟨f, hf0, hf⟩ := h.flags hn
  have hwd : v.way.cls.isData = true := by cases v.way <;> rfl
  have hnc : v.way.cls ≠ .collection := by cases v.way <;> simp [Way.cls]
  have e2 : c = [⟨v.way.cls, v.flags⟩] := by
    rw [emit_items hc (by intro x hx hx'; simp only [List.mem_singleton] at hx; rw [hx] at hx'; exact absurd hx' hnc)]
    simp only [List.map_cons, List.map_nil]
    rw [hf, flags_kept hwd]
  have hcalls := plain_calls reg h hn
  rw [hcalls] at hb
  have hnocoll : ∀ x ∈ usageCalls v.usage ++ physCalls v ++ tailCalls v, x.1.kind ≠ .main := by
    intro x hx
    simp only [usageCalls, physCalls, tailCalls, List.mem_append, List.mem_map, List.mem_cons, List.not_mem_nil, or_false] at hx
    rcases hx with (⟨u, -, rfl⟩ | hx) | hx
    · simp [Cls.kind]
    · split at hx <;> simp only [List.mem_cons, List.not_mem_nil, or_false] at hx <;> rcases hx with rfl | rfl <;> simp [Cls.kind]
    · rcases hx with ((hx | hx) | hx) | hx
      · rcases hx with rfl | rfl | rfl | rfl <;> simp [Cls.kind]
      · split at hx <;> simp at hx
        rw [hx]; simp [Cls.kind]
      · split at hx <;> simp at hx
        rw [hx]; simp [Cls.kind]
      · rcases hx with rfl | rfl <;> simp [Cls.kind]
  have e1 : b = callItems reg (usageCalls v.usage ++ physCalls v ++ tailCalls v) :=
    emit_items hb (fun x hx e => absurd (by rw [e]; rfl) (hnocoll x hx))
  have hu0 : ∀ u ∈ v.usage.toList, 0 ≤ u.toInt := by
    intro u hu
    exact emit_nonneg hb (c := (.usage, u)) (by simp [usageCalls, Option.mem_toList.1 hu]) (by simp) rfl
  have hkn : ∀ u ∈ v.usage.toList, KnownVal reg u := fun u hu => h.usage u (by simpa using hu)
  obtain ⟨hb0, h8, lo, hi, p, q, g1, g2, g3, g4⟩ := h.plain hn
  -- the state before the attributes all values have
  let s1 := (callItems reg (usageCalls v.usage ++ physCalls v)).foldl put st
  have hs1 : ∃ P Q, s1 = { st with
      usages := v.usage.toList.map (norm reg)
      g := fun c => if c = .physMax then .int Q else if c = .physMin then .int P else st.g c } ∧
      (if P = 0 ∧ Q = 0 then lo else P) = (if p = 0 ∧ q = 0 then lo else p) ∧
      (if P = 0 ∧ Q = 0 then hi else Q) = (if p = 0 ∧ q = 0 then hi else q) := by
    have hcommon : ∀ P Q : Int, physCalls v = [(.physMin, .int P), (.physMax, .int Q)] → s1 = { st with
      usages := v.usage.toList.map (norm reg)
      g := fun c => if c = .physMax then .int Q else if c = .physMin then .int P else st.g c } := by
      intro P Q hpq
      simp only [s1, callItems_append, List.foldl_append, usageCalls, usages_put, hpq, phys_put, hr.usages, List.nil_append]
      rw [map_norm_known hkn]
    by_cases hpl : v.physicalMin = v.logicalMin ∧ v.physicalMax = v.logicalMax
    · refine ⟨0, 0, hcommon 0 0 (by rw [physCalls, if_pos hpl]), ?_⟩
      rw [g1, g2, g3, g4] at hpl
      simp only [Option.some.injEq] at hpl
      rw [hpl.1, hpl.2]
      simp
    · refine ⟨_, _, hcommon _ _ (by rw [physCalls, if_neg hpl, Streamer.orZero, Streamer.orZero]), ?_⟩
      rw [g1, g2, g3, g4] at hpl
      simp only [Option.some.injEq] at hpl
      rw [g3, g4]
      simp only [Option.getD_some]
      by_cases hz : p = 0 ∧ q = 0
      · simp [hz] at hpl
      · simp [hz]
  obtain ⟨P, Q, hs1, hP, hQ⟩ := hs1
  obtain ⟨L, hp1, hp2⟩ := tail_loaded reg (st := s1) (us := v.usage.toList) v (by rw [hs1]) (by rw [hs1]; exact hr.strings)
    (by rw [hs1]; exact hr.desigs) (by rw [hs1]; exact hr.loc) (by rw [hs1]; exact hr.page)
  generalize hs2 : (callItems reg (tailCalls v)).foldl put s1 = s2 at L hp1 hp2
  have hp1 : s2.num .physMin = P := by rw [hp1, hs1]; rfl
  have hp2 : s2.num .physMax = Q := by rw [hp2, hs1]; rfl
  have hlen : (s2.usages.length : Int) = v.usage.toList.length := by rw [L.usages]; simp
  have hwo : wayOf v.way.cls = v.way := by cases v.way <;> rfl
  have hlvl : s2.level = st.level := by rw [L.level, hs1]
  have husage : s2.usage reg 0 = v.usage.map (norm reg) := by
    rw [usage_norm reg L.page L.usages hu0 0]
    cases v.usage <;> rfl
  have hplain : s2.plainValue reg ⟨v.way.cls, v.flags⟩ 0 v.count = normV reg v := by
    unfold State.plainValue normV
    rw [husage, L.size, L.logMin, L.logMax, hp1, hp2, L.unit, L.unitExp, L.strings, L.desigs, unit_kept h, g1, g2, hn, hwo, ← h.align]
    simp only [Option.getD_some, hP, hQ, Option.map_none]
    rw [← g1, ← g2, ← g3, ← g4, ← hn]
  have hdata : s2.data reg ⟨v.way.cls, v.flags⟩ = .ok (s2.addValue (.value (normV reg v))) := by
    have hival : (⟨v.way.cls, v.flags⟩ : Item).ival = v.flags.toInt := rfl
    have htest : s2.namedTest reg ⟨v.way.cls, v.flags⟩ = .ok false := by
      unfold State.namedTest
      rw [L.count, hlen, L.logMax, L.logMin, hlvl]
      split
      · rename_i hh; exact hq hh.1 hh.2
      · rfl
    unfold State.data
    rw [hival, hb0, if_neg (by simp), htest]
    simp only
    rw [hlen, L.logMax, L.logMin, if_neg h0, L.count]
    by_cases h8' : bitSet v.flags.toInt 8 = true
    · rw [if_pos h8', State.addNew, new_plain, hplain]
    · rw [if_neg h8']
      have h1 : v.count = 1 := by
        rcases h8 with h8 | h8
        · exact h8
        · exact absurd h8 h8'
      rw [h1]
      have e : Value.new (s2.args reg ⟨v.way.cls, v.flags⟩ 0) = .ok (normV reg v) := by
        rw [← hplain, ← new_plain, h1]
        rfl
      show State.addMany s2 [s2.args reg ⟨v.way.cls, v.flags⟩ 0] = _
      simp only [State.addMany, State.addNew, e]
  have hstep := step_data_ok reg L.loc (i := ⟨v.way.cls, v.flags⟩) hwd hdata
  refine ⟨(s2.addValue (.value (normV reg v))).clear, ?_, ?_⟩
  · intro ys
    have hfold : b.foldl put st = s2 := by
      rw [e1, callItems_append, List.foldl_append, ← hs2]
    rw [List.append_assoc, run_put reg st b _ (by
      rw [e1]
      intro i hi
      obtain ⟨x, hx, rfl⟩ := List.mem_map.1 hi
      exact hnocoll x hx), hfold, e2, List.cons_append, List.nil_append, runFrom, hstep]
  · refine ⟨⟨rfl, rfl, rfl, fun _ => rfl, ?_, L.page⟩, ?_, ?_, ?_, ?_⟩
    · show s2.inNamed = false
      rw [L.inNamed, hs1]; exact hr.inNamed
    · show s2.stack = _
      rw [L.stack, hs1]
    · show ({ s2.level with members := s2.level.members ++ [XNode.leaf (s2.num .reportID) (.value (normV reg v))] } : Level) = addLeaf st _
      rw [hlvl, L.id, hs1]; rfl
    · show s2.root = _
      rw [L.root, hs1]
    · show s2.num .reportID = _
      rw [L.id, hs1]; rfl

end Extractor
end Hrdc
