import Verif.Proofs.Legal
import Verif.Proofs.Extract6
/-!
# Decompiled descriptors are legal
-/
namespace Hrdc
open Spec

/-- Tokens legal in any report below `M`, when collections have a usage. -/
def TokUnder (M : Int) : Tok → Prop
  | .report i => 0 ≤ i ∧ i < M
  | .endReport => True
  | .enter k u => 0 ≤ keptValue .collection k ∧ ∀ x, u = some x → 0 ≤ x.toInt
  | .leave => True
  | .leaf (.value v) => valueLegal v = true
  | .leaf (.padding _ s) => 0 ≤ s
  | .leaf (.align _ _) => False

/-- The same for the reports there are. -/
abbrev TokOK : Tok → Prop := TokUnder 256

theorem legal_of_toks (ts : List Tok) (id : Int) (hid : id < 256) (h : ∀ t ∈ ts, TokOK t)
    (hu : ∀ k, Tok.enter k none ∉ ts) : legal id ts = true := by
  induction ts generalizing id with
  | nil => rfl
  | cons t ts ih =>
    have ht := h t (by simp)
    have ih' := fun id hid => ih id hid (fun t' h' => h t' (by simp [h'])) (fun k hk => hu k (by simp [hk]))
    cases t with
    | report i => simp [legal, ht.1, ih' i ht.2]
    | endReport => simpa [legal] using ih' id hid
    | leave => simpa [legal] using ih' id hid
    | enter k u =>
      cases u with
      | none => exact absurd (by simp) (hu k)
      | some u => simp [legal, ht.1, ht.2 u rfl, ih' id hid]
    | leaf l =>
      cases l with
      | value v =>
        have hv : valueLegal v = true := ht
        simp [legal, hid, hv, ih' id hid]
      | align w b => exact absurd ht (by simp [TokUnder])
      | padding w s =>
        have hs : 0 ≤ s := ht
        simp [legal, hid, ih' id hid]
        omega

theorem kept_nonneg {v : PyVal} (h : 0 ≤ v.toInt) : 0 ≤ keptValue .collection v := by
  cases v with
  | int k =>
    have h : 0 ≤ k := h
    have : keptValue .collection (.int k) = if (-7 ≤ k ∧ k < 0) then k + 7 else k := by simp [keptValue]
    rw [this]
    split <;> omega
  | named => exact h
  | usage => exact h

/-- Arguments of legal values. -/
structure ArgsLegal (a : ValueArgs) : Prop where
  size : 0 ≤ a.size
  count : 0 ≤ a.count
  flags : 0 ≤ a.flags.toInt
  usage : ∀ u, a.usage = some u → 0 ≤ u.toInt
  array : ∀ u ∈ arrayUsages a.namedArray, 0 ≤ u
  unit : 0 ≤ a.unit.toInt
  designator : 0 ≤ a.designator
  string : 0 ≤ a.string

theorem usageOf_mem {o : Option PyVal} {u : Int} (h : u ∈ (usageOf o).toList) : ∃ v, o = some v ∧ v.toInt = u := by
  cases o with
  | none => simp [usageOf] at h
  | some v =>
    by_cases ht : v.truthy = true
    · simp [usageOf, ht] at h; exact ⟨v, rfl, h.symm⟩
    · simp [usageOf, ht] at h

theorem new_legal {a : ValueArgs} {v : Value} (h : Value.new a = .ok v) (ha : ArgsLegal a) :
    valueLegal v = true := by
  have key : ∀ (f : PyVal) (al : Int) (lo hi plo phi : Option Int), 0 ≤ f.toInt → arrayLegal a.namedArray = true →
      valueLegal (Value.mk a.way f a.usage a.size al lo hi plo phi a.namedArray a.unit a.unitExponent a.designator
        a.string a.count) = true := by
    intro f al lo hi plo phi hf harr
    simp only [valueLegal, Bool.and_eq_true, Bool.or_eq_true, decide_eq_true_eq, List.all_eq_true]
    refine ⟨⟨⟨⟨harr, ha.size⟩, ha.count⟩, hf⟩, Or.inr ⟨⟨⟨?_, ha.unit⟩, ha.designator⟩, ha.string⟩⟩
    intro u hu
    rcases List.mem_append.1 hu with hu | hu
    · obtain ⟨x, hx, rfl⟩ := usageOf_mem hu
      exact ha.usage x hx
    · exact ha.array u hu
  unfold Value.new at h
  split at h
  · simp at h
  · rename_i named hn
    have harr := (Streamer.array_legal a.namedArray).1 ⟨_, hn⟩
    split at h
    · simp at h
    · simp only at h
      split at h
      · split at h
        · simp only [Except.ok.injEq] at h
          subst h
          refine key _ _ _ _ _ _ ?_ harr
          split <;> simp [PyVal.toInt]
        · simp at h
        · simp at h
      · simp only [Except.ok.injEq] at h
        subst h
        exact key _ _ _ _ _ _ ha.flags harr

namespace Extractor

variable {M : Int}

/-! ## Trees under construction -/

mutual
/-- Everything inside is legal. -/
def XNode.OK (M : Int) : XNode → Prop
  | .leaf i n => (0 ≤ i ∧ i < M) ∧ ∀ t ∈ tokens n, TokUnder M t
  | .coll k u ms => TokUnder M (.enter k u) ∧ OKL M ms
/-- The same for a list. -/
def OKL (M : Int) : List XNode → Prop
  | [] => True
  | x :: xs => x.OK M ∧ OKL M xs
end

theorem OKL_append (a b : List XNode) : OKL M (a ++ b) ↔ OKL M a ∧ OKL M b := by
  induction a with
  | nil => simp [OKL]
  | cons x a ih => simp [OKL, ih, and_assoc]

mutual
theorem ok_ids : ∀ x : XNode, x.OK M → ∀ i ∈ x.ids, 0 ≤ i ∧ i < M
  | .leaf i n, h, j, hj => by simp [XNode.ids] at hj; subst hj; exact h.1
  | .coll k u ms, h, j, hj => ok_idsL ms h.2 j hj
theorem ok_idsL : ∀ xs : List XNode, OKL M xs → ∀ i ∈ idsL xs, 0 ≤ i ∧ i < M
  | [], _, j, hj => by simp [idsL] at hj
  | x :: xs, h, j, hj => by
    simp only [idsL, List.mem_append] at hj
    rcases hj with hj | hj
    · exact ok_ids x h.1 j hj
    · exact ok_idsL xs h.2 j hj
end

mutual
theorem ok_node : ∀ x : XNode, x.OK M → ∀ t ∈ tokens x.node, TokUnder M t
  | .leaf i n, h => h.2
  | .coll k u ms, h => by
    intro t ht
    simp only [XNode.node, tokens, List.cons_append, List.mem_cons, List.mem_append, List.not_mem_nil, or_false] at ht
    rcases ht with rfl | ht | rfl
    · exact h.1
    · exact ok_nodeL ms h.2 t ht
    · trivial
theorem ok_nodeL : ∀ xs : List XNode, OKL M xs → ∀ t ∈ tokensL (nodeL xs), TokUnder M t
  | [], _ => by intro t ht; simp [nodeL, tokensL] at ht
  | x :: xs, h => by
    intro t ht
    simp only [nodeL, tokensL, List.mem_append] at ht
    rcases ht with ht | ht
    · exact ok_node x h.1 t ht
    · exact ok_nodeL xs h.2 t ht
end

theorem addToLast_toks (n : Node) (r : List Node) (t : Tok) (h : t ∈ tokensL (addToLast n r)) :
    t ∈ tokensL r ∨ t ∈ tokens n := by
  induction r with
  | nil => simp [addToLast, tokensL] at h
  | cons m r ih =>
    have hgo : t ∈ tokensL (m :: addToLast n r) → t ∈ tokensL (m :: r) ∨ t ∈ tokens n := by
      intro h
      simp only [tokensL, List.mem_append] at h ⊢
      rcases h with h | h
      · exact Or.inl (Or.inl h)
      · rcases ih h with h | h
        · exact Or.inl (Or.inr h)
        · exact Or.inr h
    cases r with
    | cons y r =>
      refine hgo ?_
      cases m <;> simpa [addToLast] using h
    | nil =>
      cases m with
      | report i ms =>
        simp only [addToLast, tokensL, tokens, tokensL_append, List.append_nil, List.mem_append, List.mem_cons,
          List.not_mem_nil, or_false, List.cons_append] at h ⊢
        rcases h with h | (h | h) | h
        · exact Or.inl (Or.inl h)
        · exact Or.inl (Or.inr (Or.inl h))
        · exact Or.inr h
        · exact Or.inl (Or.inr (Or.inr h))
      | value v => exact hgo (by simpa [addToLast] using h)
      | align w b => exact hgo (by simpa [addToLast] using h)
      | padding w s => exact hgo (by simpa [addToLast] using h)
      | coll k u ms => exact hgo (by simpa [addToLast] using h)
      | top ms => exact hgo (by simpa [addToLast] using h)

mutual
theorem ok_insert : ∀ x : XNode, x.OK M → ∀ t ∈ tokens (reportInsert x), TokUnder M t
  | .leaf i n, h => h.2
  | .coll k u ms, h => by
    intro t ht
    simp only [reportInsert, tokens, List.cons_append, List.mem_cons, List.mem_append, List.not_mem_nil, or_false] at ht
    rcases ht with rfl | ht | rfl
    · exact h.1
    · exact ok_insertL ms h.2 [] none (by simp [tokensL]) t ht
    · trivial
theorem ok_insertL : ∀ xs : List XNode, OKL M xs → ∀ r cur, (∀ t ∈ tokensL r, TokUnder M t) →
    ∀ t ∈ tokensL (insertL r cur xs), TokUnder M t
  | [], _, r, cur, hr => by simpa [insertL] using hr
  | x :: xs, h, r, cur, hr => by
    rw [insertL]
    cases hs : x.single with
    | some i =>
      simp only
      split
      · refine ok_insertL xs h.2 _ _ ?_
        intro t ht
        rcases addToLast_toks _ _ _ ht with ht | ht
        · exact hr t ht
        · exact ok_node x h.1 t ht
      · refine ok_insertL xs h.2 _ _ ?_
        intro t ht
        simp only [tokensL_append, tokensL, tokens, List.append_nil, List.cons_append, List.mem_append, List.mem_cons,
          List.not_mem_nil, or_false] at ht
        rcases ht with ht | rfl | ht | rfl
        · exact hr t ht
        · exact ok_ids x h.1 i (single_mem hs)
        · exact ok_node x h.1 t ht
        · trivial
    | none =>
      simp only
      refine ok_insertL xs h.2 _ _ ?_
      intro t ht
      simp only [tokensL_append, tokensL, List.append_nil, List.mem_append] at ht
      rcases ht with ht | ht
      · exact hr t ht
      · exact ok_insert x h.1 t ht
end

/-! ## States -/

/-- The open collection and what is inside are legal. -/
def Level.OK (M : Int) (l : Level) : Prop := (∀ k u, l.head = some (k, u) → TokUnder M (.enter k u)) ∧ OKL M l.members

/-- Nothing negative was met, and no report beyond 255. -/
structure Sound (M : Int) (st : State) : Prop where
  g : ∀ c, c.signed = false → 0 ≤ (st.g c).toInt
  id : (st.g .reportID).toInt < M
  usages : ∀ u ∈ st.usages, 0 ≤ u.toInt
  strings : ∀ u ∈ st.strings, 0 ≤ u.toInt
  desigs : ∀ u ∈ st.desigs, 0 ≤ u.toInt
  loc : ∀ c u, st.loc c = some u → 0 ≤ u.toInt
  level : st.level.OK M
  stack : ∀ l ∈ st.stack, l.OK M
  root : ∀ n, st.root = some n → ∀ t ∈ tokens n, TokUnder M t

theorem sound_init (h0 : 0 < M) : Sound M {} := by
  refine ⟨fun _ _ => by simp [PyVal.toInt], h0, by simp, by simp, by simp, by simp, ⟨by simp, trivial⟩, by simp, by simp⟩

theorem expand_nonneg {lo hi : Option PyVal} {t : List PyVal} (hlo : ∀ u, lo = some u → 0 ≤ u.toInt)
    (ht : ∀ u ∈ t, 0 ≤ u.toInt) : ∀ u ∈ expand lo hi t, 0 ≤ u.toInt := by
  unfold expand
  split
  · rename_i l h
    intro u hu
    simp only [UsageRange.pyRange, List.mem_map, List.mem_range] at hu
    obtain ⟨x, ⟨k, -, rfl⟩, rfl⟩ := hu
    have := hlo l rfl
    show 0 ≤ l.toInt + (k : Int)
    omega
  · exact ht

theorem sound_expand {st : State} (h : Sound M st) : Sound M st.expandAll :=
  ⟨h.g, h.id, expand_nonneg (h.loc _) h.usages, expand_nonneg (h.loc _) h.strings, expand_nonneg (h.loc _) h.desigs,
    h.loc, h.level, h.stack, h.root⟩

theorem sound_clear {st : State} (h : Sound M st) : Sound M st.clear :=
  ⟨h.g, h.id, by simp [State.clear], by simp [State.clear], by simp [State.clear], by simp [State.clear], h.level,
    h.stack, h.root⟩

theorem sound_usage (reg : Registry) {st : State} (h : Sound M st) (k : Nat) (u : PyVal)
    (hu : st.usage reg k = some u) : 0 ≤ u.toInt := by
  unfold State.usage at hu
  split at hu
  · simp at hu
  · rename_i x hx
    have hx0 := h.usages x (clamp_mem hx)
    split at hu
    · simp only [Option.some.injEq] at hu; subst hu; exact hx0
    · simp only [Option.some.injEq] at hu
      subst hu
      have hp := h.g .usagePage rfl
      simp only [PyVal.toInt, lookup_value, Usage.joinPage, State.num] at hp ⊢
      omega

theorem sound_local {l : List PyVal} (h : ∀ u ∈ l, 0 ≤ u.toInt) (k : Nat) :
    0 ≤ ((clamp l k).map PyVal.toInt).getD 0 := by
  cases hc : clamp l k with
  | none => simp
  | some u => exact h u (clamp_mem hc)

theorem sound_addValue {st : State} (h : Sound M st) {n : Node} (hn : ∀ t ∈ tokens n, TokUnder M t) :
    Sound M (st.addValue n) := by
  refine ⟨h.g, h.id, h.usages, h.strings, h.desigs, h.loc, ⟨h.level.1, ?_⟩, h.stack, h.root⟩
  simp only [State.addValue, OKL_append]
  exact ⟨h.level.2, ⟨⟨h.g _ rfl, h.id⟩, hn⟩, trivial⟩

theorem sound_addNew {st st' : State} (h : Sound M st) {a : ValueArgs} (ha : ArgsLegal a)
    (hs : st.addNew a = .ok st') : Sound M st' := by
  unfold State.addNew at hs
  split at hs
  · simp at hs
  · rename_i v hv
    simp only [Except.ok.injEq] at hs
    subst hs
    refine sound_addValue h ?_
    intro t ht
    simp [tokens] at ht
    subst ht
    exact new_legal hv ha

theorem sound_addMany {st st' : State} (h : Sound M st) (as : List ValueArgs) (ha : ∀ a ∈ as, ArgsLegal a)
    (hs : st.addMany as = .ok st') : Sound M st' := by
  induction as generalizing st with
  | nil => simp [State.addMany] at hs; subst hs; exact h
  | cons a as ih =>
    rw [State.addMany] at hs
    split at hs
    · simp at hs
    · rename_i st1 h1
      exact ih (sound_addNew h (ha a (by simp)) h1) (fun a' h' => ha a' (by simp [h'])) hs

theorem sound_leave {st st' : State} (h : Sound M st) {keep : Bool} (hs : st.leave keep = .ok st') : Sound M st' := by
  unfold State.leave at hs
  split at hs
  · simp at hs
  · rename_i p r hst
    have hp := h.stack p (by rw [hst]; simp)
    have hr : ∀ l ∈ r, l.OK M := fun l hl => h.stack l (by rw [hst]; simp [hl])
    split at hs
    · simp at hs
    · rename_i k u hh
      split at hs
      · simp only [Except.ok.injEq] at hs
        subst hs
        refine ⟨h.g, h.id, h.usages, h.strings, h.desigs, h.loc, ⟨hp.1, ?_⟩, hr, h.root⟩
        simp only [OKL_append]
        exact ⟨hp.2, ⟨h.level.1 _ _ hh, h.level.2⟩, trivial⟩
      · simp only [Except.ok.injEq] at hs
        subst hs
        exact ⟨h.g, h.id, h.usages, h.strings, h.desigs, h.loc, hp, hr, h.root⟩

theorem sound_array (reg : Registry) {st : State} (h : Sound M st) :
    ∀ u ∈ arrayUsages (some (st.array reg)), 0 ≤ u := by
  have hus : ∀ u ∈ (List.range st.usages.length).filterMap (st.usage reg), 0 ≤ u.toInt := by
    intro u hu
    obtain ⟨k, -, hk⟩ := List.mem_filterMap.1 hu
    exact sound_usage reg h k u hk
  unfold State.array
  simp only
  split
  · rename_i r hr
    have hmin : 0 ≤ r.min.toInt := by
      unfold UsageRange.fromArray at hr
      split at hr
      · rename_i a b l hl
        split at hr
        · simp only [Except.ok.injEq] at hr
          subst hr
          exact hus a (by rw [hl]; simp)
        · simp at hr
      · simp at hr
    intro u hu
    simp only [arrayUsages, upTo, List.mem_map, List.mem_range] at hu
    obtain ⟨k, -, rfl⟩ := hu
    omega
  · intro u hu
    simp only [arrayUsages, List.mem_map] at hu
    obtain ⟨x, hx, rfl⟩ := hu
    exact hus x hx

theorem sound_args (reg : Registry) {st : State} (h : Sound M st) {i : Item} (hi : 0 ≤ i.ival) (k : Nat) (n : Int)
    (hn : 0 ≤ n) : ArgsLegal { st.args reg i k with count := n } :=
  ⟨h.g .reportSize rfl, hn, hi, fun u hu => sound_usage reg h k u hu, by simp [State.args, arrayUsages], h.g .unit rfl,
    sound_local h.desigs k, sound_local h.strings k⟩

theorem sound_arrayArgs (reg : Registry) {st : State} (h : Sound M st) (i : Item) (u : Option PyVal)
    (hu : ∀ x, u = some x → 0 ≤ x.toInt) : ArgsLegal (st.arrayArgs reg i u) :=
  ⟨h.g .reportSize rfl, by simp [State.arrayArgs], by simp [State.arrayArgs, PyVal.toInt], hu, sound_array reg h,
    by simp [State.arrayArgs, PyVal.toInt], sound_local h.desigs 0, sound_local h.strings 0⟩

theorem sound_data (reg : Registry) {st st' : State} (h : Sound M st) {i : Item} (hi : 0 ≤ i.ival)
    (hs : st.data reg i = .ok st') : Sound M st' := by
  unfold State.data at hs
  split at hs
  · rw [padding_ok] at hs
    simp only [Except.ok.injEq] at hs
    subst hs
    refine sound_addValue h ?_
    intro t ht
    simp [tokens] at ht
    subst ht
    exact Int.mul_nonneg (h.g .reportSize rfl) (h.g .reportCount rfl)
  · split at hs
    · simp at hs
    · split at hs
      · simp at hs
      · rename_i st1 h1
        split at hs
        · refine sound_addNew (sound_leave (st := { st with inNamed := true })
            ⟨h.g, h.id, h.usages, h.strings, h.desigs, h.loc, h.level, h.stack, h.root⟩ h1)
            (sound_arrayArgs reg h i _ ?_) hs
          intro x hx
          cases hh : st.level.head with
          | none => rw [hh] at hx; simp at hx
          | some p => rw [hh] at hx; exact (h.level.1 p.1 p.2 hh).2 x (by simpa using hx)
        · simp at hs
    · split at hs
      · refine sound_addMany h _ ?_ hs
        intro a ha
        rw [(List.mem_replicate.1 ha).2]
        exact sound_arrayArgs reg h i none (by simp)
      · split at hs
        · exact sound_addNew h (sound_args reg h hi 0 _ (h.g .reportCount rfl)) hs
        · refine sound_addMany h _ ?_ hs
          intro a ha
          obtain ⟨k, -, rfl⟩ := List.mem_map.1 ha
          exact sound_args reg h hi k 1 (by decide)

theorem sound_close {st st' : State} (h : Sound M st) (hs : st.close = .ok st') : Sound M st' := by
  unfold State.close at hs
  split at hs
  · simp at hs
  · rename_i st1 h1
    have hs1 : Sound M st1 := by
      split at h1
      · simp only [Except.ok.injEq] at h1
        subst h1
        exact ⟨h.g, h.id, h.usages, h.strings, h.desigs, h.loc, h.level, h.stack, h.root⟩
      · exact sound_leave h h1
    simp only [Except.ok.injEq] at hs
    subst hs
    split
    · refine ⟨hs1.g, hs1.id, hs1.usages, hs1.strings, hs1.desigs, hs1.loc, hs1.level, hs1.stack, ?_⟩
      intro n hn
      simp only [Option.some.injEq] at hn
      subst hn
      simp only [ended, tokens]
      exact ok_insertL _ hs1.level.2 [] none (by simp [tokensL])
    · exact hs1

theorem sound_step (reg : Registry) {st st' : State} (h : Sound M st) {i : Item} (hm : i.Made)
    (hid : i.cls = .reportID → i.ival < M) (hs : step reg st i = .ok st') : Sound M st' := by
  unfold step at hs
  split at hs
  · simp only [Except.ok.injEq] at hs
    subst hs
    refine ⟨?_, ?_, h.usages, h.strings, h.desigs, h.loc, h.level, h.stack, h.root⟩
    · intro c hc
      simp only
      split
      · rename_i he
        subst he
        exact made_unsigned hm hc
      · exact h.g c hc
    · simp only
      split
      · rename_i he; exact hid he.symm
      · exact h.id
  · rename_i hk
    have h0 := made_local hm hk
    simp only [Except.ok.injEq] at hs
    subst hs
    have happ : ∀ l : List PyVal, (∀ u ∈ l, 0 ≤ u.toInt) → ∀ u ∈ l ++ [i.val], 0 ≤ u.toInt := by
      intro l hl u hu
      rcases List.mem_append.1 hu with hu | hu
      · exact hl u hu
      · simp at hu; subst hu; exact h0
    split
    · exact ⟨h.g, h.id, happ _ h.usages, h.strings, h.desigs, h.loc, h.level, h.stack, h.root⟩
    · exact ⟨h.g, h.id, h.usages, h.strings, happ _ h.desigs, h.loc, h.level, h.stack, h.root⟩
    · exact ⟨h.g, h.id, h.usages, happ _ h.strings, h.desigs, h.loc, h.level, h.stack, h.root⟩
    · refine ⟨h.g, h.id, h.usages, h.strings, h.desigs, ?_, h.level, h.stack, h.root⟩
      intro c u hu
      simp only at hu
      split at hu
      · simp only [Option.some.injEq] at hu; subst hu; exact h0
      · exact h.loc c u hu
  · rename_i hk
    have h0 : 0 ≤ i.ival := made_unsigned hm (by cases hc : i.cls <;> rw [hc] at hk <;> simp [Cls.kind] at hk <;> rfl)
    have he := sound_expand h
    simp only at hs
    split at hs
    · simp at hs
    · rename_i st1 h1
      simp only [Except.ok.injEq] at hs
      subst hs
      refine sound_clear ?_
      split at h1
      · simp only [Except.ok.injEq] at h1
        subst h1
        refine ⟨he.g, he.id, he.usages, he.strings, he.desigs, he.loc, ⟨?_, trivial⟩, ?_, he.root⟩
        · intro k u hku
          simp only [State.enter, Option.some.injEq, Prod.mk.injEq] at hku
          obtain ⟨rfl, rfl⟩ := hku
          exact ⟨kept_nonneg h0, fun x hx => sound_usage reg he 0 x hx⟩
        · intro l hl
          simp only [State.enter, List.mem_cons] at hl
          rcases hl with rfl | hl
          · exact he.level
          · exact he.stack l hl
      · exact sound_close he h1
      · exact sound_data reg he h0 h1

theorem sound_run (reg : Registry) (xs : List Item) (hm : ∀ i ∈ xs, i.Made)
    (hid : ∀ i ∈ xs, i.cls = .reportID → i.ival < M) {st st' : State} (h : Sound M st)
    (hs : runFrom reg st xs = .ok st') : Sound M st' := by
  induction xs generalizing st with
  | nil => simp [runFrom] at hs; subst hs; exact h
  | cons i xs ih =>
    rw [runFrom] at hs
    split at hs
    · simp at hs
    · rename_i st1 h1
      exact ih (fun j hj => hm j (by simp [hj])) (fun j hj => hid j (by simp [hj]))
        (sound_step reg h (hm i (by simp)) (hid i (by simp)) h1) hs

theorem extract_under (reg : Registry) (xs : List Item) (h0 : 0 < M) (hm : ∀ i ∈ xs, i.Made)
    (hid : ∀ i ∈ xs, i.cls = .reportID → i.ival < M) {t : Node} (h : extract reg xs = .ok t) :
    ∀ k ∈ tokens t, TokUnder M k := by
  unfold extract at h
  split at h
  · simp at h
  · rename_i st hst
    split at h
    · simp at h
    · rename_i n hn
      simp only [Except.ok.injEq] at h
      subst h
      exact (sound_run reg xs hm hid (sound_init h0) hst).root _ hn

theorem extract_toks (reg : Registry) (xs : List Item) (hm : ∀ i ∈ xs, i.Made)
    (hid : ∀ i ∈ xs, i.cls = .reportID → i.ival < 256) {t : Node} (h : extract reg xs = .ok t) :
    ∀ k ∈ tokens t, TokOK k := extract_under reg xs (by decide) hm hid h

end Extractor
end Hrdc
