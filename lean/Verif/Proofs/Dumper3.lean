import Verif.Proofs.Extract5
import Verif.Props.Table
/-!
# Scripts of decompiled descriptors
-/
namespace Hrdc
open Spec Extractor

/-! ## What the decompiler builds -/

/-- Usages the decompiler finds: numbers with a page, and what the registry has for a number. -/
def KnownVal (reg : Registry) (v : PyVal) : Prop :=
  (∃ i : Int, i / 65536 ≠ 0 ∧ v = .int i) ∨ ∃ i, v = .usage (Usage.lookup reg (.int i))

/-- Arrays of such usages: ranges of at least two, and other lists. -/
def KnownArray (reg : Registry) : Option NamedArray → Prop
  | none => True
  | some (.list l) => (l ≠ [] ∧ ∀ r, UsageRange.fromArray l ≠ .ok r) ∧ ∀ u ∈ l, KnownVal reg u
  | some (.range r) => r.min.toInt < r.max.toInt ∧ KnownVal reg r.min ∧ KnownVal reg r.max

/-- Values the decompiler builds. -/
structure FromItems (reg : Registry) (v : Value) : Prop where
  made : ∃ a, Value.new a = .ok v
  usage : ∀ u, v.usage = some u → KnownVal reg u
  flags : v.namedArray = none → ∃ k : Int, 0 ≤ k ∧ v.flags = .named (Item.dataName k) k
  array : KnownArray reg v.namedArray
  phys : v.namedArray ≠ none → v.physicalMin = v.logicalMin ∧ v.physicalMax = none
  unit : v.unit = .int 0 ∨ ∃ k, v.unit = Item.usualUnit (.int k)
  align : v.alignment = min 8 v.size
  plain : v.namedArray = none → bitSet v.flags.toInt 0 = false ∧ (v.count = 1 ∨ bitSet v.flags.toInt 8 = true) ∧
    ∃ lo hi p q, v.logicalMin = some lo ∧ v.logicalMax = some hi ∧
      v.physicalMin = some (if p = 0 ∧ q = 0 then lo else p) ∧ v.physicalMax = some (if p = 0 ∧ q = 0 then hi else q)
  named : ∀ a, v.namedArray = some a → ∃ lo, Value.new {
      way := v.way, usage := v.usage, size := v.size, logicalMin := some lo, namedArray := some a
      designator := v.designator, string := v.string } = .ok v

/-- Collection kinds. -/
def KindFrom (k : PyVal) : Prop :=
  (∃ j : Nat, j < 7 ∧ k = .named (Item.collNames.getD j []) j) ∨ ∃ j : Int, 7 ≤ j ∧ k = .int j

/-- Elements the decompiler builds. -/
def TokFrom (reg : Registry) : Tok → Prop
  | .leaf (.value v) => FromItems reg v
  | .enter k u => KindFrom k ∧ ∀ x, u = some x → KnownVal reg x
  | _ => True

/-- An item built from a number, as when it is read from bytes. -/
def RawItem (reg : Registry) (i : Item) : Prop := ∃ k : Int, Item.new reg i.cls (.int k) = .ok i

/-- An item read from a stream: pages and the usages within a page get other names. -/
def ReadItem (reg : Registry) (i : Item) : Prop :=
  RawItem reg i ∨ i.cls = .usagePage ∨ (Optimizer.usageLike i.cls = true ∧ i.ival / 65536 = 0)

theorem lookup_known (reg : Registry) (i : Int) : KnownVal reg (.usage (Usage.lookup reg (.int i))) := .inr ⟨i, rfl⟩

theorem lookup_listed (reg : Registry) (i : Int) : Usage.lookup reg (.int i) ∈ reg ∨
    (Usage.lookup reg (.int i)).name = pyHex (Usage.lookup reg (.int i)).value := by
  simp only [Usage.lookup]
  split
  · cases hg : reg.get i with
    | none => exact .inr rfl
    | some u => exact .inl (List.mem_of_find?_eq_some hg)
  · exact .inr rfl

theorem ReadItem.raw {reg : Registry} {i : Item} (h : ReadItem reg i) (h1 : i.cls ≠ .usagePage)
    (h2 : Optimizer.usageLike i.cls = false) : RawItem reg i := by
  rcases h with h | h | h
  · exact h
  · exact absurd h h1
  · rw [h2] at h; simp at h

/-- Usages met so far: the ones within a page are looked up later. -/
def MetVal (reg : Registry) (v : PyVal) : Prop := KnownVal reg v ∨ v.toInt / 65536 = 0

theorem read_usage {reg : Registry} {i : Item} (h : ReadItem reg i) (hc : i.cls = .usage) : MetVal reg i.val := by
  rcases h with h | h | h
  rotate_left
  · rw [hc] at h; simp at h
  · exact .inr h.2
  refine .inl ?_
  obtain ⟨k, hk⟩ := h
  rw [hc] at hk
  simp only [Item.new, Item.baseInit] at hk
  split at hk
  · simp only [Except.ok.injEq] at hk
    rw [← hk]
    exact lookup_known reg k
  · simp at hk

theorem read_unit {reg : Registry} {i : Item} (h : ReadItem reg i) (hc : i.cls = .unit) :
    ∃ k, i.val = Item.usualUnit (.int k) := by
  obtain ⟨k, hk⟩ := h.raw (by rw [hc]; simp) (by rw [hc]; rfl)
  rw [hc] at hk
  simp only [Item.new, Item.baseInit] at hk
  split at hk
  · simp only [Except.ok.injEq] at hk
    rw [← hk]
    exact ⟨k, rfl⟩
  · simp at hk

theorem read_data {reg : Registry} {i : Item} (h : ReadItem reg i) (hc : i.cls.isData = true) :
    ∃ k : Int, 0 ≤ k ∧ i.val = .named (Item.dataName k) k := by
  obtain ⟨k, hk⟩ := h.raw (by intro e; rw [e] at hc; simp [Cls.isData] at hc)
    (by cases hcl : i.cls <;> rw [hcl] at hc <;> simp [Cls.isData] at hc <;> rfl)
  have : Item.baseInit i.cls (.named (Item.dataName k) k) = .ok i := by
    cases hcl : i.cls <;> rw [hcl] at hc hk <;> simp [Cls.isData] at hc <;> simpa [Item.new] using hk
  simp only [Item.baseInit] at this
  split at this
  · rename_i h0
    simp only [Except.ok.injEq] at this
    refine ⟨k, ?_, by rw [← this]⟩
    rcases h0 with h0 | h0
    · cases hcl : i.cls <;> rw [hcl] at hc h0 <;> simp [Cls.isData, Cls.signed] at hc h0
    · exact h0
  · simp at this

theorem read_coll {reg : Registry} {i : Item} (h : ReadItem reg i) (hc : i.cls = .collection) : KindFrom i.val := by
  obtain ⟨k, hk⟩ := h.raw (by rw [hc]; simp) (by rw [hc]; rfl)
  rw [hc] at hk
  have hb : ∀ v, Item.baseInit .collection v = .ok i → i.val = v := by
    intro v hv
    simp only [Item.baseInit] at hv
    split at hv
    · simp only [Except.ok.injEq] at hv; rw [← hv]
    · simp at hv
  rw [new_collection_int] at hk
  split at hk
  · rename_i h7
    split at hk
    · rename_i h0
      refine .inl ⟨k.toNat, by omega, ?_⟩
      rw [hb _ hk]
      congr
      omega
    · split at hk
      · rename_i h0
        refine .inl ⟨(k + 7).toNat, by omega, ?_⟩
        rw [hb _ hk]
        congr
        omega
      · simp at hk
  · exact .inr ⟨k, by omega, hb _ hk⟩

/-! ## States -/

/-- What holds of the elements and attributes met so far. -/
structure Holds (reg : Registry) (st : State) : Prop where
  usages : ∀ u ∈ st.usages, MetVal reg u
  unit : st.g .unit = .int 0 ∨ ∃ k, st.g .unit = Item.usualUnit (.int k)
  members : ∀ t ∈ tokensL (nodeL st.level.members), TokFrom reg t
  head : ∀ k u, st.level.head = some (k, u) → TokFrom reg (.enter k u)
  stack : ∀ l ∈ st.stack, (∀ t ∈ tokensL (nodeL l.members), TokFrom reg t) ∧
    ∀ k u, l.head = some (k, u) → TokFrom reg (.enter k u)
  root : ∀ n, st.root = some n → ∀ t ∈ tokens n, TokFrom reg t

theorem nodeL_append (a b : List XNode) : nodeL (a ++ b) = nodeL a ++ nodeL b := by
  induction a with
  | nil => rfl
  | cons x a ih => simp [nodeL, ih]

theorem holds_usage {reg : Registry} {st : State} (h : ∀ u ∈ st.usages, MetVal reg u) (k : Nat) (x : PyVal)
    (hx : st.usage reg k = some x) : KnownVal reg x := by
  unfold State.usage at hx
  split at hx
  · simp at hx
  · rename_i u hu
    split at hx
    · rename_i hne
      simp only [Option.some.injEq] at hx
      rw [← hx]
      rcases h u (List.mem_of_getElem? hu) with h | h
      · exact h
      · exact absurd h hne
    · simp only [Option.some.injEq] at hx
      rw [← hx]
      exact lookup_known _ _

theorem contiguous_le (a b : PyVal) (t : List PyVal) (hc : UsageRange.contiguous (a :: b :: t) = true) :
    a.toInt < ((b :: t).getLast (by simp)).toInt := by
  induction t generalizing a b with
  | nil =>
    simp only [UsageRange.contiguous, Bool.and_eq_true, beq_iff_eq] at hc
    simp only [List.getLast_singleton]
    omega
  | cons c t ih =>
    rw [UsageRange.contiguous] at hc
    simp only [Bool.and_eq_true, beq_iff_eq] at hc
    have := ih b c hc.2
    rw [List.getLast_cons (by simp)]
    omega

theorem fromArray_ends {arr : List PyVal} {r : UsageRange} (h : UsageRange.fromArray arr = .ok r) :
    r.min ∈ arr ∧ r.max ∈ arr ∧ r.min.toInt < r.max.toInt := by
  unfold UsageRange.fromArray at h
  split at h
  · rename_i a b t
    split at h
    · rename_i hc
      simp only [Except.ok.injEq] at h
      subst h
      refine ⟨by simp, List.mem_cons_of_mem _ (List.getLast_mem _), ?_⟩
      exact contiguous_le a b t hc
    · simp at h
  · simp at h

/-- Arrays, apart from empty ones. -/
theorem array_known {reg : Registry} {st : State} (h : ∀ u ∈ st.usages, MetVal reg u)
    (hne : st.array reg ≠ .list []) : KnownArray reg (some (st.array reg)) := by
  have hk : ∀ u ∈ (List.range st.usages.length).filterMap (st.usage reg), KnownVal reg u := by
    intro u hu
    obtain ⟨k, -, hk⟩ := List.mem_filterMap.mp hu
    exact holds_usage h k u hk
  have harr : st.array reg = match UsageRange.fromArray ((List.range st.usages.length).filterMap (st.usage reg)) with
    | .ok r => NamedArray.range r
    | .error _ => .list ((List.range st.usages.length).filterMap (st.usage reg)) := rfl
  cases hr : UsageRange.fromArray ((List.range st.usages.length).filterMap (st.usage reg)) with
  | ok r =>
    rw [harr, hr]
    obtain ⟨h1, h2, h3⟩ := fromArray_ends hr
    exact ⟨h3, hk _ h1, hk _ h2⟩
  | error e =>
    rw [harr, hr] at hne ⊢
    exact ⟨⟨fun he => hne (by simp only [he]), fun r h => by rw [hr] at h; simp at h⟩, hk⟩

theorem plain_from {reg : Registry} {st : State} (h : Holds reg st) {i : Item} (hi : ReadItem reg i)
    (hc : i.cls.isData = true) (hb : bitSet i.ival 0 = false) (k : Nat) (c : Int) (v : Value)
    (h8 : c = 1 ∨ bitSet i.ival 8 = true)
    (hv : Value.new { st.args reg i k with count := c } = .ok v) : FromItems reg v := by
  have e : Value.new { st.args reg i k with count := c } = .ok (st.plainValue reg i k c) := new_plain reg st i k c
  rw [hv] at e
  simp only [Except.ok.injEq] at e
  subst e
  obtain ⟨f, h0, hf⟩ := read_data hi hc
  exact {
    made := ⟨_, hv⟩
    usage := fun u hu => holds_usage h.usages k u hu
    flags := fun _ => ⟨f, h0, hf⟩
    array := trivial
    phys := fun hn => absurd rfl hn
    unit := h.unit
    align := rfl
    plain := fun _ => ⟨hb, h8, _, _, _, _, rfl, rfl, rfl, rfl⟩
    named := fun a ha => by simp [State.plainValue] at ha }

theorem array_from {reg : Registry} {st : State} (h : Holds reg st) {i : Item} (us : Option PyVal)
    (hus : ∀ u, us = some u → KnownVal reg u) (v : Value)
    (hv : Value.new (st.arrayArgs reg i us) = .ok v) : FromItems reg v := by
  have hne : st.array reg ≠ .list [] := by
    intro he
    have : Value.new (st.arrayArgs reg i us) = .error .value := by
      simp only [Value.new, State.arrayArgs, he]
      rfl
    rw [hv] at this
    simp at this
  have hk := array_known h.usages hne
  have hv0 := hv
  unfold Value.new at hv
  split at hv
  · simp at hv
  · rename_i named ht
    split at hv
    · simp at hv
    · have key : v.usage = us ∧ v.namedArray = some (st.array reg) ∧ v.physicalMin = v.logicalMin ∧ v.physicalMax = none ∧
          v.unit = .int 0 ∧ v.way = wayOf i.cls ∧ v.size = st.num .reportSize ∧ v.designator = st.designator 0 ∧
          v.string = st.string 0 ∧ v.alignment = min 8 (st.num .reportSize) := by
        simp only at hv
        split at hv
        · split at hv
          · simp only [Except.ok.injEq] at hv
            subst hv
            exact ⟨rfl, rfl, rfl, rfl, rfl, rfl, rfl, rfl, rfl, rfl⟩
          · simp at hv
          · simp at hv
        · simp only [Except.ok.injEq] at hv
          subst hv
          exact ⟨rfl, rfl, rfl, rfl, rfl, rfl, rfl, rfl, rfl, rfl⟩
      obtain ⟨k1, k2, k3, k4, k5, k6, k7, k8, k9, k10⟩ := key
      exact {
        made := ⟨_, hv0⟩
        usage := fun u hu => hus u (by rw [← k1, hu])
        flags := fun hn => by rw [k2] at hn; simp at hn
        array := by rw [k2]; exact hk
        phys := fun _ => ⟨k3, k4⟩
        unit := .inl k5
        align := by rw [k10, k7]
        plain := fun hn => by rw [k2] at hn; simp at hn
        named := fun a ha => by
          rw [k2] at ha
          simp only [Option.some.injEq] at ha
          refine ⟨st.num .logMin, ?_⟩
          rw [k1, k6, k7, k8, k9, ← ha]
          exact hv0 }

theorem holds_addValue {reg : Registry} {st : State} {n : Node} (h : Holds reg st)
    (hn : ∀ t ∈ tokens n, TokFrom reg t) : Holds reg (st.addValue n) := by
  refine ⟨h.usages, h.unit, ?_, h.head, h.stack, h.root⟩
  intro t ht
  simp only [State.addValue, nodeL_append, tokensL_append, List.mem_append] at ht
  rcases ht with ht | ht
  · exact h.members t ht
  · simp only [nodeL, XNode.node, tokensL, List.append_nil] at ht
    exact hn t ht

theorem holds_addNew {reg : Registry} {st st' : State} {a : ValueArgs} (h : Holds reg st)
    (ha : ∀ v, Value.new a = .ok v → FromItems reg v) (hs : st.addNew a = .ok st') : Holds reg st' := by
  unfold State.addNew at hs
  split at hs
  · simp at hs
  · rename_i v hv
    simp only [Except.ok.injEq] at hs
    rw [← hs]
    refine holds_addValue h ?_
    intro t ht
    simp only [tokens, List.mem_singleton] at ht
    rw [ht]
    exact ha v hv

theorem holds_addMany {reg : Registry} {st st' : State} {as : List ValueArgs} (h : Holds reg st)
    (ha : ∀ a ∈ as, ∀ v, Value.new a = .ok v → FromItems reg v) (hs : st.addMany as = .ok st') : Holds reg st' := by
  induction as generalizing st with
  | nil => simp only [State.addMany, Except.ok.injEq] at hs; rw [← hs]; exact h
  | cons a as ih =>
    rw [State.addMany] at hs
    split at hs
    · simp at hs
    · rename_i s hadd
      exact ih (holds_addNew h (ha a (by simp)) hadd) (fun b hb => ha b (by simp [hb])) hs

theorem holds_leave {reg : Registry} {st st' : State} {b : Bool} (h : Holds reg st) (hs : st.leave b = .ok st') :
    Holds reg st' := by
  unfold State.leave at hs
  split at hs
  · simp at hs
  · rename_i p r hst
    have hp := h.stack p (by rw [hst]; simp)
    have hr : ∀ l ∈ r, _ := fun l hl => h.stack l (by rw [hst]; simp [hl])
    split at hs
    · simp at hs
    · rename_i k u hhd
      split at hs <;> (simp only [Except.ok.injEq] at hs; rw [← hs])
      · refine ⟨h.usages, h.unit, ?_, hp.2, hr, h.root⟩
        intro t ht
        simp only [nodeL_append, tokensL_append, List.mem_append] at ht
        rcases ht with ht | ht
        · exact hp.1 t ht
        · simp only [nodeL, XNode.node, tokensL, tokens, List.append_nil, List.cons_append, List.mem_cons,
            List.mem_append, List.not_mem_nil, or_false] at ht
          rcases ht with rfl | ht | rfl
          · exact h.head k u hhd
          · exact h.members t ht
          · trivial
      · exact ⟨h.usages, h.unit, hp.1, hp.2, hr, h.root⟩

theorem holds_expand {reg : Registry} {st : State} (h : Holds reg st) : Holds reg st.expandAll := by
  refine ⟨?_, h.unit, h.members, h.head, h.stack, h.root⟩
  intro u hu
  simp only [State.expandAll, expand] at hu
  split at hu
  · obtain ⟨i, -, rfl⟩ := List.mem_map.mp hu
    by_cases h0 : i / 65536 = 0
    · exact .inr h0
    · exact .inl (.inl ⟨i, h0, rfl⟩)
  · exact h.usages u hu

theorem holds_clear {reg : Registry} {st : State} (h : Holds reg st) : Holds reg st.clear :=
  ⟨by intro u hu; simp [State.clear] at hu, h.unit, h.members, h.head, h.stack, h.root⟩

theorem holds_data {reg : Registry} {st st' : State} {i : Item} (h : Holds reg st) (hi : ReadItem reg i)
    (hc : i.cls.isData = true) (hs : st.data reg i = .ok st') : Holds reg st' := by
  have hhead : ∀ u, st.level.head.bind (·.2) = some u → KnownVal reg u := by
    intro u hu
    cases hh : st.level.head with
    | none => rw [hh] at hu; simp at hu
    | some p =>
      rw [hh] at hu
      exact (h.head p.1 p.2 hh).2 u hu
  unfold State.data at hs
  split at hs
  · rw [padding_ok] at hs
    simp only [Except.ok.injEq] at hs
    rw [← hs]
    refine holds_addValue h ?_
    intro t ht
    simp only [tokens, List.mem_singleton] at ht
    rw [ht]
    trivial
  · rename_i hb0
    split at hs
    · simp at hs
    · split at hs
      · simp at hs
      · rename_i s hl
        split at hs
        · have h1 : Holds reg { st with inNamed := true } :=
            ⟨h.usages, h.unit, h.members, h.head, h.stack, h.root⟩
          exact holds_addNew (holds_leave h1 hl) (fun v hv => array_from h _ hhead v hv) hs
        · simp at hs
    · split at hs
      · refine holds_addMany h ?_ hs
        intro a ha v hv
        rw [List.eq_of_mem_replicate ha] at hv
        exact array_from h none (by simp) v hv
      · split at hs
        · rename_i h8
          exact holds_addNew h (fun v hv => plain_from h hi hc (by simpa using hb0) 0 _ v (.inr h8) hv) hs
        · refine holds_addMany h ?_ hs
          intro a ha v hv
          obtain ⟨k, -, rfl⟩ := List.mem_map.mp ha
          exact plain_from h hi hc (by simpa using hb0) k 1 v (.inl rfl) hv

/-! ## Reports -/

mutual
theorem reportInsert_tok (T : Tok → Prop) (hr : ∀ i, T (.report i)) (he : T .endReport) : ∀ x : XNode,
    (∀ t ∈ tokens x.node, T t) → ∀ t ∈ tokens (reportInsert x), T t
  | .leaf j n, h => by simpa [reportInsert, XNode.node] using h
  | .coll k u ms, h => by
    intro t ht
    simp only [reportInsert, tokens, List.cons_append, List.mem_cons, List.mem_append, List.not_mem_nil, or_false] at ht
    have hin : ∀ t ∈ tokensL (nodeL ms), T t := fun t ht => h t (by simp [XNode.node, tokens, ht])
    rcases ht with rfl | ht | rfl
    · exact h _ (by simp [XNode.node, tokens])
    · exact insertL_tok T hr he ms [] none hin (by simp [tokensL]) t ht
    · exact h _ (by simp [XNode.node, tokens])
theorem insertL_tok (T : Tok → Prop) (hr : ∀ i, T (.report i)) (he : T .endReport) : ∀ (xs : List XNode) (r : List Node)
    (cur : Option Int), (∀ t ∈ tokensL (nodeL xs), T t) → (∀ t ∈ tokensL r, T t) →
    ∀ t ∈ tokensL (insertL r cur xs), T t
  | [], r, cur, _, h => by simpa [insertL] using h
  | x :: xs, r, cur, hx, h => by
    have hx1 : ∀ t ∈ tokens x.node, T t := fun t ht => hx t (by simp [nodeL, tokensL, ht])
    have hx2 : ∀ t ∈ tokensL (nodeL xs), T t := fun t ht => hx t (by simp [nodeL, tokensL, ht])
    rw [insertL]
    cases hs : x.single with
    | some i =>
      simp only
      split
      · refine insertL_tok T hr he xs _ cur hx2 (addToLast_tok T hr he x.node hx1 r h)
      · refine insertL_tok T hr he xs _ (some i) hx2 ?_
        intro t ht
        simp only [tokensL_append, tokensL, tokens, List.append_nil, List.mem_append, List.cons_append, List.mem_cons,
          List.not_mem_nil, or_false] at ht
        rcases ht with ht | rfl | ht | rfl
        · exact h t ht
        · exact hr i
        · exact hx1 t ht
        · exact he
    | none =>
      simp only
      refine insertL_tok T hr he xs _ none hx2 ?_
      intro t ht
      simp only [tokensL_append, tokensL, List.append_nil, List.mem_append] at ht
      rcases ht with ht | ht
      · exact h t ht
      · exact reportInsert_tok T hr he x hx1 t ht
theorem addToLast_tok (T : Tok → Prop) (hr : ∀ i, T (.report i)) (he : T .endReport) (n : Node)
    (hn : ∀ t ∈ tokens n, T t) : ∀ r : List Node, (∀ t ∈ tokensL r, T t) → ∀ t ∈ tokensL (addToLast n r), T t
  | [], _ => by simp [addToLast, tokensL]
  | [m], h => by
    intro t ht
    cases m with
    | report i ms =>
      simp only [addToLast, tokensL, tokens, tokensL_append, List.append_nil, List.cons_append, List.mem_cons,
        List.mem_append, List.not_mem_nil, or_false] at ht
      rcases ht with rfl | (ht | ht) | rfl
      · exact hr i
      · exact h t (by simp [tokensL, tokens, ht])
      · exact hn t ht
      · exact he
    | _ => exact h t (by simpa [addToLast] using ht)
  | m :: m' :: r, h => by
    intro t ht
    have e : addToLast n (m :: m' :: r) = m :: addToLast n (m' :: r) := by
      rw [addToLast]
      intro i ms _ h2
      simp at h2
    rw [e] at ht
    simp only [tokensL, List.mem_append] at ht
    rcases ht with ht | ht
    · exact h t (by simp [tokensL, ht])
    · exact addToLast_tok T hr he n hn (m' :: r) (fun t ht => h t (by simp only [tokensL, List.mem_append] at ht ⊢; exact .inr ht)) t ht
end

theorem holds_step {reg : Registry} {st st' : State} {i : Item} (h : Holds reg st) (hi : ReadItem reg i)
    (hs : step reg st i = .ok st') : Holds reg st' := by
  unfold step at hs
  cases hk : i.cls.kind with
  | global =>
    rw [hk] at hs
    simp only [Except.ok.injEq] at hs
    rw [← hs]
    refine ⟨h.usages, ?_, h.members, h.head, h.stack, h.root⟩
    simp only
    split
    · rename_i hu; exact .inr (read_unit hi hu.symm)
    · exact h.unit
  | loc =>
    rw [hk] at hs
    simp only [Except.ok.injEq] at hs
    rw [← hs]
    split
    · rename_i hu
      refine ⟨?_, h.unit, h.members, h.head, h.stack, h.root⟩
      intro u hu'
      simp only [List.mem_append, List.mem_singleton] at hu'
      rcases hu' with hu' | rfl
      · exact h.usages u hu'
      · exact read_usage hi hu
    all_goals exact ⟨h.usages, h.unit, h.members, h.head, h.stack, h.root⟩
  | main =>
    rw [hk] at hs
    have he := holds_expand h
    have hd : i.cls.isData = true → ∀ s, st.expandAll.data reg i = .ok s → st' = s.clear → Holds reg st' := by
      intro hc s hs he'
      rw [he']
      exact holds_clear (holds_data he hi hc hs)
    cases hc : i.cls <;> rw [hc] at hk hs hd <;> simp [Cls.kind] at hk <;> simp only at hs
    case collection =>
      simp only [Except.ok.injEq] at hs
      rw [← hs]
      refine holds_clear ⟨he.usages, he.unit, by simp [State.enter, nodeL, tokensL], ?_, ?_, he.root⟩
      · intro k u hku
        simp only [State.enter, Option.some.injEq, Prod.mk.injEq] at hku
        obtain ⟨rfl, rfl⟩ := hku
        exact ⟨read_coll hi hc, fun x hx => holds_usage he.usages 0 x hx⟩
      · intro l hl
        rcases List.mem_cons.1 hl with rfl | hl
        · exact ⟨he.members, he.head⟩
        · exact he.stack l hl
    case endCollection =>
      split at hs
      · simp at hs
      · rename_i s hcl
        simp only [Except.ok.injEq] at hs
        rw [← hs]
        refine holds_clear ?_
        unfold State.close at hcl
        split at hcl
        · simp at hcl
        · rename_i s1 hs1
          have h1 : Holds reg s1 := by
            split at hs1
            · simp only [Except.ok.injEq] at hs1
              rw [← hs1]
              exact ⟨he.usages, he.unit, he.members, he.head, he.stack, he.root⟩
            · exact holds_leave he hs1
          simp only [Except.ok.injEq] at hcl
          rw [← hcl]
          split
          · refine ⟨h1.usages, h1.unit, h1.members, h1.head, h1.stack, ?_⟩
            intro n hn
            simp only [Option.some.injEq] at hn
            rw [← hn]
            intro t ht
            exact insertL_tok (TokFrom reg) (fun _ => trivial) trivial _ _ _ h1.members (by simp [tokensL]) t ht
          · exact h1
    all_goals
      split at hs
      · simp at hs
      · rename_i s hs'
        simp only [Except.ok.injEq] at hs
        exact hd rfl s hs' hs.symm

theorem holds_run {reg : Registry} {xs : List Item} {st st' : State} (h : Holds reg st)
    (hx : ∀ i ∈ xs, ReadItem reg i) (hs : runFrom reg st xs = .ok st') : Holds reg st' := by
  induction xs generalizing st with
  | nil => simp only [runFrom, Except.ok.injEq] at hs; rw [← hs]; exact h
  | cons i xs ih =>
    rw [runFrom] at hs
    split at hs
    · simp at hs
    · rename_i s hst
      exact ih (holds_step h (hx i (by simp)) hst) (fun j hj => hx j (by simp [hj])) hs

/-- The elements of a decompiled tree. -/
theorem extract_from {reg : Registry} {xs : List Item} {n : Node} (hx : ∀ i ∈ xs, ReadItem reg i)
    (h : extract reg xs = .ok n) : ∀ t ∈ tokens n, TokFrom reg t := by
  unfold extract at h
  split at h
  · simp at h
  · rename_i st hr
    split at h
    · simp at h
    · rename_i m hm
      simp only [Except.ok.injEq] at h
      subst h
      have h0 : Holds reg {} := ⟨by simp, .inl rfl, by simp [nodeL, tokensL], by simp, by simp, by simp⟩
      exact (holds_run h0 hx hr).root m hm

/-! ## Names -/

open Spec.Script

/-- The registry after import, with any buttons and ordinals created since. -/
def Imported (reg : Registry) : Prop :=
  ∃ extra, reg = extra ++ UsageTable.registry ∧ ∀ u ∈ extra, ∃ n : Int, u = Button n ∨ u = Ordinal n

/-- The constants whose name is wrong. -/
def wrongNames : List Int := [0x10009, 0x1003d, 0x1003e, 0x200b2]

theorem known_denotes {reg : Registry} (hreg : Imported reg) {v : PyVal} (h : KnownVal reg v)
    (hv : v.toInt ∉ wrongNames) :
    denotes UsageTable.lookup v.str v.toInt = true ∧
    denotes UsageTable.lookup (Dumper.usageStr reg v) v.toInt = true := by
  obtain ⟨extra, he, hx⟩ := hreg
  have hu : ∀ u : UsageC, (u ∈ reg ∨ u.name = pyHex u.value) → u.value ∉ wrongNames →
      denotes UsageTable.lookup u.name u.value = true := by
    rintro u (hu | hu) hw
    · exact (denotes_iff _ _ _).mpr ⟨_, C51_names_partial extra hx u (he ▸ hu) hw, rfl⟩
    · rw [hu]
      exact (denotes_iff _ _ _).mpr ⟨_, eval_pyHex _ _, rfl⟩
  have hl : ∀ i, i ∉ wrongNames → denotes UsageTable.lookup (Usage.lookup reg (.int i)).name i = true := by
    intro i hi
    have h3 : (Usage.lookup reg (.int i)).value = i := C47_lookup_value reg (.int i)
    have := hu _ (lookup_listed reg i) (by rw [h3]; exact hi)
    rwa [h3] at this
  rcases h with ⟨i, -, rfl⟩ | ⟨i, rfl⟩
  · exact ⟨(denotes_iff _ _ _).mpr ⟨_, eval_pyStr _ i, rfl⟩, hl i hv⟩
  · have h3 : (PyVal.usage (Usage.lookup reg (.int i))).toInt = i := C47_lookup_value reg (.int i)
    rw [h3] at hv ⊢
    exact ⟨hl i hv, hl i hv⟩

theorem flags_named : (List.range 512).all (fun (k : Nat) =>
    denotes (fun _ _ => none) (Dumper.prefixWords (tx "Value.") false (Item.dataName k)) k) = true := by
  decide +kernel

theorem kinds_named : (List.range 7).all (fun (k : Nat) =>
    denotes (fun _ _ => none) (tx "Collection." ++ Item.collNames.getD k []) k) = true := by
  decide +kernel

/-- The usages written for a named array. -/
def arrayVals : Option NamedArray → List PyVal
  | none => []
  | some (.list l) => l
  | some (.range r) => [r.min, r.max]

/-- Elements a script can express. -/
def Expressible : Spec.Tok → Prop
  | .leaf (.value v) =>
    (∀ u, v.usage = some u → u.toInt ∉ 0 :: wrongNames) ∧
    (∀ u ∈ arrayVals v.namedArray, u.toInt ∉ wrongNames) ∧
    v.flags.toInt < 512 ∧ v.unit.toInt ≠ 0xf011
  | .enter k u => k.toInt < 7 ∧ ∀ x, u = some x → x.toInt ∉ wrongNames
  | _ => True

theorem from_valueOK {reg : Registry} (hreg : Imported reg) {v : Value} (h : FromItems reg v)
    (he : Expressible (.leaf (.value v))) : Spec.Script.ValueOK UsageTable.lookup reg v := by
  obtain ⟨e1, e2, e3, e4⟩ := he
  refine ⟨h.made, ?_, ?_, ?_, h.phys, ?_⟩
  · intro u hu _
    have := e1 u hu
    simp only [List.mem_cons, not_or] at this
    have hd := (known_denotes hreg (h.usage u hu) this.2).2
    refine ⟨hd, fun h0 => this.1 ?_⟩
    obtain ⟨w, hw, hwi⟩ := (denotes_iff _ _ _).mp hd
    rw [h0] at hw
    simp only [Option.some.injEq, Obj.val.injEq] at hw
    rw [← hwi, ← hw]
    rfl
  · intro hn _
    obtain ⟨k, h0, hk⟩ := h.flags hn
    rw [hk] at e3 ⊢
    have hk3 : k < 512 := e3
    have := List.all_eq_true.mp flags_named k.toNat (List.mem_range.mpr (by omega))
    have e : ((k.toNat : Nat) : Int) = k := by omega
    rw [e] at this
    exact denotes_mono _ _ _ this
  · have ha := h.array
    cases hn : v.namedArray with
    | none => trivial
    | some a =>
      rw [hn] at e2 ha
      cases a with
      | list l => exact ⟨ha.1.1, fun u hu => (known_denotes hreg (ha.2 u hu) (e2 u hu)).1⟩
      | range r =>
        exact ⟨Int.le_of_lt ha.1, (known_denotes hreg ha.2.1 (e2 _ (by simp [arrayVals]))).1, (known_denotes hreg ha.2.2 (e2 _ (by simp [arrayVals]))).1⟩
  · intro h0
    rcases h.unit with hu | ⟨k, hk⟩
    · rw [hu] at h0; exact absurd rfl h0
    · have hi : (Item.usualUnit (.int k)).toInt = k := by
        unfold Item.usualUnit
        cases hf : Item.usualUnits.find? (fun p => p.1 == (PyVal.int k).toInt) with
        | none => rfl
        | some p =>
          have h1 := List.find?_some hf
          rw [beq_iff_eq] at h1
          exact h1
      rw [hk] at e4 ⊢
      rw [hi] at e4 ⊢
      exact unit_denotes _ k e4

mutual
theorem writable_of_tokens {reg : Registry} (hreg : Imported reg) : ∀ n : Node, (∀ t ∈ tokens n, TokFrom reg t) →
    (∀ t ∈ tokens n, Expressible t) → Writable UsageTable.lookup reg n
  | .value v, h, he => from_valueOK hreg (h (.leaf (.value v)) (by simp [tokens])) (he (.leaf (.value v)) (by simp [tokens]))
  | .align _ _, _, _ => trivial
  | .padding _ _, _, _ => trivial
  | .report _ ms, h, he => writableL_of_tokens hreg ms (fun t ht => h t (by simp [tokens, ht])) (fun t ht => he t (by simp [tokens, ht]))
  | .top ms, h, he => writableL_of_tokens hreg ms (fun t ht => h t (by simp [tokens, ht])) (fun t ht => he t (by simp [tokens, ht]))
  | .coll k u ms, h, he => by
    have h1 := h (.enter k u) (by simp [tokens])
    have h2 := he (.enter k u) (by simp [tokens])
    refine ⟨?_, ?_, writableL_of_tokens hreg ms (fun t ht => h t (by simp [tokens, ht])) (fun t ht => he t (by simp [tokens, ht]))⟩
    · rcases h1.1 with ⟨j, hj, rfl⟩ | ⟨j, hj, rfl⟩
      · have := List.all_eq_true.mp kinds_named j (List.mem_range.mpr hj)
        exact denotes_mono _ _ _ this
      · have := h2.1
        have : j < 7 := this
        omega
    · intro x hx
      exact (known_denotes hreg (h1.2 x hx) (h2.2 x hx)).2
theorem writableL_of_tokens {reg : Registry} (hreg : Imported reg) : ∀ ns : List Node, (∀ t ∈ tokensL ns, TokFrom reg t) →
    (∀ t ∈ tokensL ns, Expressible t) → WritableL UsageTable.lookup reg ns
  | [], _, _ => trivial
  | n :: ns, h, he => ⟨writable_of_tokens hreg n (fun t ht => h t (by simp [tokensL, ht])) (fun t ht => he t (by simp [tokensL, ht])),
      writableL_of_tokens hreg ns (fun t ht => h t (by simp [tokensL, ht])) (fun t ht => he t (by simp [tokensL, ht]))⟩
end

end Hrdc
