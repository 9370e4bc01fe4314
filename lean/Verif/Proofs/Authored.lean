import Verif.Proofs.Dumper4
import Verif.Props.Dumper
import Verif.Spec.Authored
/-!
# Scripts of descriptors written by hand
-/
namespace Hrdc
open Spec Extractor Spec.Script

theorem arrayParts_eq (a : Option NamedArray) : arrayParts a = arrayVals a := by
  cases a with
  | none => rfl
  | some a => cases a <;> rfl

theorem lookup_registered {m a : Text} {u : UsageC} (h : UsageTable.lookup m a = some u) : u ∈ UsageTable.registry := by
  obtain ⟨r, hr, -, hu⟩ := (UsageTable.lookup_iff _ _ _).mp h
  have : u ∈ UsageTable.registered := (UsageTable.mem_registered u).mpr (.inr (.inr ⟨m, r, hr, hu⟩))
  simpa [UsageTable.registry] using this

theorem published_reads {u : UsageC} (h : Published u) (hs : u.name ∉ strayNames) :
    eval UsageTable.lookup u.name = some (.val (.usage u)) := by
  rcases h with ⟨m, a, h⟩ | ⟨n, h⟩
  · exact name_reads (reg := UsageTable.registry) ⟨[], (List.nil_append _).symm, by simp⟩ u (lookup_registered h) hs
  · rcases h with rfl | rfl
    · exact eval_button _ n
    · exact eval_ordinal _ n

/-- A usage written after a lookup. -/
theorem looked_reads {reg : Registry} (hreg : Imported reg) {v : PyVal} (h : UsageLike v)
    (hs : Dumper.usageStr reg v ∉ strayNames) :
    ∃ w : PyVal, eval UsageTable.lookup (Dumper.usageStr reg v) = some (.val w) ∧ w.toInt = v.toInt ∧
      (v.truthy = true → w ≠ .int 0) := by
  rcases h with ⟨i, rfl⟩ | ⟨u, rfl, hu⟩
  · obtain ⟨w, h1, h2, -⟩ := lookup_reads hreg i hs
    refine ⟨w, h1, h2, ?_⟩
    rintro ht rfl
    simp only [PyVal.toInt] at h2
    subst h2
    simp [PyVal.truthy] at ht
  · exact ⟨.usage u, published_reads hu hs, rfl, by simp⟩

/-- A usage written as it is. -/
theorem plain_reads {v : PyVal} (h : UsageLike v) (hs : v.str ∉ strayNames) :
    denotes UsageTable.lookup v.str v.toInt = true := by
  rw [denotes_iff]
  rcases h with ⟨i, rfl⟩ | ⟨u, rfl, hu⟩
  · exact ⟨_, eval_pyStr _ i, rfl⟩
  · exact ⟨_, published_reads hu hs, rfl⟩

theorem int_denotes (env : Env) (p : Text) (i : Int) : denotes env (Dumper.prefixWords p false (PyVal.int i).str) i = true := by
  simp only [PyVal.str]
  rw [prefixWords_plain _ _ _ (pyStr_plain i)]
  exact (denotes_iff _ _ _).mpr ⟨_, eval_pyStr env i, rfl⟩

theorem flagConsts_read : valueAttrs.all (fun p =>
    denotes (fun _ _ => none) (Dumper.prefixWords (tx "Value.") false p.1) p.2) = true := by decide +kernel

theorem unitConsts_read : unitConsts.all (fun p => p.1 == tx "Velocity" ||
    denotes (fun _ _ => none) (Dumper.prefixWords (tx "Unit.") false p.1) p.2) = true := by decide +kernel

theorem unitConsts_velocity : unitConsts.all (fun p => p.1 != tx "Velocity" || p.2 == 0xf011) = true := by decide +kernel

theorem kindConsts_read : collAttrs.all (fun p =>
    denotes (fun _ _ => none) (tx "Collection." ++ p.1) p.2 && decide (0 ≤ p.2)) = true := by decide +kernel

theorem flags_read {v : PyVal} (h : AmongConsts valueAttrs v) :
    denotes UsageTable.lookup (Dumper.prefixWords (tx "Value.") false v.str) v.toInt = true := by
  rcases h with ⟨i, rfl⟩ | ⟨p, hp, rfl⟩
  · exact int_denotes _ _ i
  · exact denotes_mono _ _ _ (List.all_eq_true.mp flagConsts_read p hp)

theorem unit_read {v : PyVal} (h : AmongConsts unitConsts v) (hv : v.str ≠ tx "Velocity") :
    denotes UsageTable.lookup (Dumper.prefixWords (tx "Unit.") false v.str) v.toInt = true := by
  rcases h with ⟨i, rfl⟩ | ⟨p, hp, rfl⟩
  · exact int_denotes _ _ i
  · have := List.all_eq_true.mp unitConsts_read p hp
    rw [Bool.or_eq_true, beq_iff_eq] at this
    rcases this with h | h
    · exact absurd h hv
    · exact denotes_mono _ _ _ h

theorem kind_read {v : PyVal} (h : AmongConsts collAttrs v) (hv : ∀ i, v ≠ .int i) :
    denotes UsageTable.lookup (tx "Collection." ++ v.str) v.toInt = true ∧ 0 ≤ v.toInt := by
  rcases h with ⟨i, rfl⟩ | ⟨p, hp, rfl⟩
  · exact absurd rfl (hv i)
  · have := List.all_eq_true.mp kindConsts_read p hp
    rw [Bool.and_eq_true, decide_eq_true_eq] at this
    exact ⟨denotes_mono _ _ _ this.1, this.2⟩

/-! ## Without what is not printed -/

/-- The value the script of `v` makes. -/
def bare (v : Value) : Value :=
  if v.namedArray = none then v else { v with physicalMin := v.logicalMin, physicalMax := none }

theorem bare_same (v : Value) : (bare v).way = v.way ∧ (bare v).flags = v.flags ∧ (bare v).usage = v.usage ∧ (bare v).size = v.size ∧
    (bare v).alignment = v.alignment ∧ (bare v).logicalMin = v.logicalMin ∧ (bare v).logicalMax = v.logicalMax ∧
    (bare v).namedArray = v.namedArray ∧ (bare v).unit = v.unit := by
  unfold bare
  split <;> simp

theorem bare_value (reg : Registry) (ind : Nat) (v : Value) : Dumper.value reg ind (bare v) = Dumper.value reg ind v := by
  unfold bare
  split
  · rfl
  · rename_i h
    cases ha : v.namedArray with
    | none => exact absurd ha h
    | some a => cases a <;>
        simp only [Dumper.value, Dumper.flagsShown, Dumper.headStr, Dumper.flagsStr, Dumper.arrayStr, Dumper.restStr, ha]

/-- The length of an array that is not empty. -/
theorem array_length {v : Value} {a : ValueArgs} (h : Value.new a = .ok v) {b : NamedArray} (hb : v.namedArray = some b)
    (h0 : b.len ≠ .ok 0) : ∃ n lo, b.len = .ok n ∧ n ≠ 0 ∧ v.logicalMin = some lo ∧ v.logicalMax = some (n + lo - 1) ∧
      v.flags = (if usageGiven v.usage then .named (tx "Variable") 2 else .int 0) := by
  rcases made_cases h with ⟨c, n, lo, h1, h2, h3, h4, h5, h6⟩ | ⟨h1, -, -⟩
  · rw [hb] at h1
    obtain rfl := Option.some.inj h1
    exact ⟨n, lo, h2, h3, h4, h5, h6⟩
  · rw [hb] at h1
    simp only [truthOpt, NamedArray.truth] at h1
    cases hl : b.len with
    | error e => rw [hl] at h1; simp at h1
    | ok n =>
      rw [hl] at h1
      simp only [Except.ok.injEq, bne_eq_false_iff_eq] at h1
      rw [hl, h1] at h0
      exact absurd rfl h0

theorem bare_made {v : Value} {a : ValueArgs} (h : Value.new a = .ok v) (h0 : ∀ b, v.namedArray = some b → b.len ≠ .ok 0) :
    ∃ a, Value.new a = .ok (bare v) := by
  unfold bare
  split
  · exact ⟨a, h⟩
  · rename_i hn
    cases hb : v.namedArray with
    | none => exact absurd hb hn
    | some b =>
      obtain ⟨n, lo, h1, h2, h3, h4, h5⟩ := array_length h hb (h0 b hb)
      refine ⟨{
        way := v.way, usage := v.usage, size := v.size, logicalMin := v.logicalMin, namedArray := some b
        unit := v.unit, unitExponent := v.unitExponent, designator := v.designator, string := v.string
        count := v.count, alignment := some v.alignment }, ?_⟩
      rw [Spec.Script.new_named rfl h1 h2 (by exact h3)]
      cases v
      simp_all [intGiven, plainOf]

mutual
/-- The tree the script makes. -/
def bareTree : Node → Node
  | .value v => .value (bare v)
  | .align w b => .align w b
  | .padding w s => .padding w s
  | .report i ms => .report i (bareTrees ms)
  | .top ms => .top (bareTrees ms)
  | .coll k u ms => .coll k u (bareTrees ms)
def bareTrees : List Node → List Node
  | [] => []
  | n :: ns => bareTree n :: bareTrees ns
end

mutual
theorem bareTree_written (reg : Registry) : ∀ (n : Node) (ind : Nat), Dumper.node reg ind (bareTree n) = Dumper.node reg ind n
  | .value v, ind => by simp only [bareTree, Dumper.node, bare_value]
  | .align _ _, _ => rfl
  | .padding _ _, _ => rfl
  | .report _ ms, ind => by simp only [bareTree, Dumper.node, bareTrees_written reg ms]
  | .top ms, ind => by simp only [bareTree, Dumper.node, bareTrees_written reg ms]
  | .coll _ _ ms, ind => by simp only [bareTree, Dumper.node, bareTrees_written reg ms]
theorem bareTrees_written (reg : Registry) : ∀ (ns : List Node) (ind : Nat), Dumper.nodes reg ind (bareTrees ns) = Dumper.nodes reg ind ns
  | [], _ => rfl
  | n :: ns, ind => by simp only [bareTrees, Dumper.nodes, bareTree_written reg n, bareTrees_written reg ns]
end

theorem bareTree_container (n : Node) : isContainer (bareTree n) = isContainer n := by cases n <;> rfl

mutual
theorem bareTree_id : ∀ n : Node, (∀ t ∈ tokens n, Complete t) → bareTree n = n
  | .value v, h => by
    have := h (.leaf (.value v)) (by simp [tokens])
    simp only [bareTree, bare]
    split
    · rfl
    · rename_i hn
      obtain ⟨h1, h2⟩ := this hn
      cases v
      simp only at h1 h2
      simp only [h1, h2]
  | .align _ _, _ => rfl
  | .padding _ _, _ => rfl
  | .report _ ms, h => by rw [bareTree, bareTrees_id ms (fun t ht => h t (by simp [tokens, ht]))]
  | .top ms, h => by rw [bareTree, bareTrees_id ms (fun t ht => h t (by simp [tokens, ht]))]
  | .coll _ _ ms, h => by rw [bareTree, bareTrees_id ms (fun t ht => h t (by simp [tokens, ht]))]
theorem bareTrees_id : ∀ ns : List Node, (∀ t ∈ tokensL ns, Complete t) → bareTrees ns = ns
  | [], _ => rfl
  | n :: ns, h => by
    rw [bareTrees, bareTree_id n (fun t ht => h t (by simp [tokensL, ht])), bareTrees_id ns (fun t ht => h t (by simp [tokensL, ht]))]
end

mutual
theorem bareTree_complete : ∀ n m : Node, Same (bareTree n) m → Same n m → ∀ t ∈ tokens n, Complete t
  | .value v, m, h1, h2, t, ht => by
    simp only [tokens, List.mem_singleton] at ht
    subst ht
    cases m with
    | value w =>
      intro hn
      have e1 : (bare v).physicalMin = v.physicalMin := (SameValue.physicalMin h1).trans (SameValue.physicalMin h2).symm
      have e2 : (bare v).physicalMax = v.physicalMax := (SameValue.physicalMax h1).trans (SameValue.physicalMax h2).symm
      unfold bare at e1 e2
      rw [if_neg hn] at e1 e2
      exact ⟨e1.symm, e2.symm⟩
    | align _ _ => exact h2.elim
    | padding _ _ => exact h2.elim
    | report _ _ => exact h2.elim
    | top _ => exact h2.elim
    | coll _ _ _ => exact h2.elim
  | .align _ _, _, _, _, t, ht => by
    simp only [tokens, List.mem_singleton] at ht
    subst ht
    trivial
  | .padding _ _, _, _, _, t, ht => by
    simp only [tokens, List.mem_singleton] at ht
    subst ht
    trivial
  | .report _ ms, m, h1, h2, t, ht => by
    simp only [tokens, List.cons_append, List.mem_cons, List.mem_append, List.not_mem_nil, or_false] at ht
    rcases ht with rfl | ht | rfl
    · trivial
    · cases m with
      | report _ ns => exact bareTrees_complete ms ns h1.2 h2.2 t ht
      | value _ => exact h2.elim
      | align _ _ => exact h2.elim
      | padding _ _ => exact h2.elim
      | top _ => exact h2.elim
      | coll _ _ _ => exact h2.elim
    · trivial
  | .top ms, m, h1, h2, t, ht => by
    simp only [tokens] at ht
    cases m with
    | top ns => exact bareTrees_complete ms ns h1 h2 t ht
    | value _ => exact h2.elim
    | align _ _ => exact h2.elim
    | padding _ _ => exact h2.elim
    | report _ _ => exact h2.elim
    | coll _ _ _ => exact h2.elim
  | .coll _ _ ms, m, h1, h2, t, ht => by
    simp only [tokens, List.cons_append, List.mem_cons, List.mem_append, List.not_mem_nil, or_false] at ht
    rcases ht with rfl | ht | rfl
    · trivial
    · cases m with
      | coll _ _ ns => exact bareTrees_complete ms ns h1.2.2 h2.2.2 t ht
      | value _ => exact h2.elim
      | align _ _ => exact h2.elim
      | padding _ _ => exact h2.elim
      | top _ => exact h2.elim
      | report _ _ => exact h2.elim
    · trivial
theorem bareTrees_complete : ∀ ns ms : List Node, SameL (bareTrees ns) ms → SameL ns ms → ∀ t ∈ tokensL ns, Complete t
  | [], _, _, _, t, ht => by simp [tokensL] at ht
  | n :: ns, ms, h1, h2, t, ht => by
    simp only [tokensL, List.mem_append] at ht
    cases ms with
    | nil => exact h2.elim
    | cons m ms =>
      rcases ht with ht | ht
      · exact bareTree_complete n m h1.1 h2.1 t ht
      · exact bareTrees_complete ns ms h1.2 h2.2 t ht
end

/-! ## Printable elements -/

theorem authored_valueOK {reg : Registry} (hreg : Imported reg) {v : Value} (h : Authored (.leaf (.value v)))
    (hp : Printable reg (.leaf (.value v))) : ValueOK UsageTable.lookup reg (bare v) := by
  obtain ⟨⟨a, ha⟩, h1, h2, h3, h4, h5⟩ := h
  obtain ⟨p1, p2, p3⟩ := hp
  obtain ⟨-, bf, bu, -, -, bl, -, bn, bt⟩ := bare_same v
  refine ⟨bare_made ha h3, ?_, ?_, ?_, ?_, ?_⟩
  · intro u hu ht
    rw [bu] at hu
    obtain ⟨w, e1, e2, e3⟩ := looked_reads hreg (h1 u hu) (p1 u hu ht)
    refine ⟨(denotes_iff _ _ _).mpr ⟨w, e1, e2⟩, fun he => e3 ht ?_⟩
    rw [he] at e1
    simp only [Option.some.injEq, Obj.val.injEq] at e1
    exact e1.symm
  · intro _ _
    rw [bf]
    exact flags_read h2
  · rw [bn]
    cases hb : v.namedArray with
    | none => trivial
    | some b =>
      obtain ⟨n, lo, e1, e2, -⟩ := array_length ha hb (h3 b hb)
      rw [hb] at h4 p2
      cases b with
      | list l =>
        refine ⟨?_, fun u hu => plain_reads (h4 u hu) (p2 u hu)⟩
        rintro rfl
        simp only [NamedArray.len, List.length_nil, Except.ok.injEq] at e1
        omega
      | range r =>
        refine ⟨?_, plain_reads (h4 _ (by simp [arrayParts])) (p2 _ (by simp [arrayParts])),
          plain_reads (h4 _ (by simp [arrayParts])) (p2 _ (by simp [arrayParts]))⟩
        simp only [NamedArray.len, UsageRange.len] at e1
        split at e1
        · simp at e1
        · rename_i hneg
          simp only [Except.ok.injEq] at e1
          unfold UsageRange.rawLen at e1 hneg
          omega
  · intro hn
    rw [bn] at hn
    unfold bare
    rw [if_neg hn]
    exact ⟨rfl, rfl⟩
  · intro _
    rw [bt]
    exact unit_read h5 p3

mutual
theorem authored_writable {reg : Registry} (hreg : Imported reg) : ∀ n : Node, (∀ t ∈ tokens n, Authored t) →
    (∀ t ∈ tokens n, Printable reg t) → Writable UsageTable.lookup reg (bareTree n)
  | .value v, h, hp => authored_valueOK hreg (h (.leaf (.value v)) (by simp [tokens])) (hp (.leaf (.value v)) (by simp [tokens]))
  | .align _ _, _, _ => trivial
  | .padding _ _, _, _ => trivial
  | .report _ ms, h, hp => authored_writables hreg ms (fun t ht => h t (by simp [tokens, ht])) (fun t ht => hp t (by simp [tokens, ht]))
  | .top ms, h, hp => authored_writables hreg ms (fun t ht => h t (by simp [tokens, ht])) (fun t ht => hp t (by simp [tokens, ht]))
  | .coll k u ms, h, hp => by
    have h1 := h (.enter k u) (by simp [tokens])
    have h2 := hp (.enter k u) (by simp [tokens])
    refine ⟨(kind_read h1.1 h2.1).1, fun x hx => ?_,
      authored_writables hreg ms (fun t ht => h t (by simp [tokens, ht])) (fun t ht => hp t (by simp [tokens, ht]))⟩
    obtain ⟨w, hw, hwi, -⟩ := looked_reads hreg (h1.2 x hx) (h2.2 x hx)
    exact (denotes_iff _ _ _).mpr ⟨w, hw, hwi⟩
theorem authored_writables {reg : Registry} (hreg : Imported reg) : ∀ ns : List Node, (∀ t ∈ tokensL ns, Authored t) →
    (∀ t ∈ tokensL ns, Printable reg t) → WritableL UsageTable.lookup reg (bareTrees ns)
  | [], _, _ => trivial
  | n :: ns, h, hp => ⟨authored_writable hreg n (fun t ht => h t (by simp [tokensL, ht])) (fun t ht => hp t (by simp [tokensL, ht])),
      authored_writables hreg ns (fun t ht => h t (by simp [tokensL, ht])) (fun t ht => hp t (by simp [tokensL, ht]))⟩
end

/-! ## Elements that stop the script -/

theorem minus_stuck {env : Env} {n : Text} {o : Obj} (j : Nat) (hn : NoAttr env n) (hg : globals n = some o) :
    Stuck env [.name n, .op '.', .op '-', .int j] := by
  rintro ⟨fs, ⟨kw, left, neg, cur⟩, dn⟩
  simp only [Spec.Script.run, Spec.Script.step]
  cases dn with
  | true => simp
  | false =>
    simp only [Bool.false_eq_true, if_false, name1]
    cases cur with
    | none => simp [punct, Cur.get, hg]
    | name _ => rfl
    | obj _ => rfl
    | dot p => simp [hn p]

theorem intKind_stuck (j : Int) : ∃ k, lex .idle (tx "Collection." ++ pyStr j) = some k ∧ Stuck UsageTable.lookup k := by
  refine ⟨[.name (tx "Collection"), .op '.'] ++ intToks j, ?_, ?_⟩
  · exact lex_of_lexM .idle .idle _ _ _ _ (by decide +kernel) (lex_pyStr j)
  · by_cases h : j < 0
    · have : intToks j = [.op '-', .int j.natAbs] := by unfold intToks; rw [if_pos h]
      rw [this]
      exact minus_stuck (o := .fn .collection) _ noAttr_collection (by rfl)
    · have : intToks j = [.int j.natAbs] := by unfold intToks; rw [if_neg h]
      rw [this]
      exact stuck_number (o := .fn .collection) _ noAttr_collection (by rfl)

theorem unprintable_stuck {reg : Registry} {tk : Spec.Tok} (h : Authored tk) (hl : ¬ Printable reg tk) :
    ∃ s k, Writes reg tk s ∧ lex .idle s = some k ∧ Stuck UsageTable.lookup k := by
  match tk, h, hl with
  | .leaf (.value v), h, hl =>
    by_cases h1 : ∀ u, v.usage = some u → u.truthy = true → lookedUp reg u ∉ strayUsages
    · by_cases h2 : ∀ u ∈ arrayParts v.namedArray, u.str ∉ strayUsages
      · have h3 : v.unit.str = tx "Velocity" := Classical.byContradiction (fun h3 => hl ⟨h1, h2, h3⟩)
        obtain ⟨k, hk, hs⟩ := velocity_stuck
        have hv : (Item.usualUnit (.int 0xf011)).str = tx "Velocity" := by decide +kernel
        rw [hv] at hk
        refine ⟨_, k, .inr (.inr ⟨?_, rfl⟩), by rw [h3]; exact hk, hs⟩
        rcases h.2.2.2.2.2 with ⟨i, hi⟩ | ⟨p, hp, he⟩
        · rw [hi] at h3
          have := pyStr_plain i
          simp only [PyVal.str] at h3
          rw [h3] at this
          exact absurd this (by decide +kernel)
        · rw [he] at h3 ⊢
          have := List.all_eq_true.mp unitConsts_velocity p hp
          simp only [PyVal.str] at h3
          simp only [h3, bne_self_eq_false, Bool.false_or, beq_iff_eq] at this
          simp [PyVal.toInt, this]
      · simp only [Classical.not_forall, Decidable.not_not] at h2
        obtain ⟨u, hu, hs⟩ := h2
        obtain ⟨k, hk, hst⟩ := stray_stuck hs
        exact ⟨_, k, .inr (.inl ⟨u, arrayParts_eq _ ▸ hu, rfl⟩), hk, hst⟩
    · simp only [Classical.not_forall, Decidable.not_not] at h1
      obtain ⟨u, hu, ht, hs⟩ := h1
      obtain ⟨k, hk, hst⟩ := stray_stuck hs
      exact ⟨_, k, .inl ⟨u, hu, ht, rfl⟩, hk, hst⟩
  | .enter c u, h, hl =>
    by_cases h1 : ∀ i, c ≠ .int i
    · have : ¬ ∀ x, u = some x → lookedUp reg x ∉ strayUsages := fun h2 => hl ⟨h1, h2⟩
      simp only [Classical.not_forall, Decidable.not_not] at this
      obtain ⟨x, hx, hs⟩ := this
      obtain ⟨k, hk, hst⟩ := stray_stuck hs
      exact ⟨_, k, .inr ⟨x, hx, rfl⟩, hk, hst⟩
    · simp only [Classical.not_forall, ne_eq, Decidable.not_not] at h1
      obtain ⟨i, rfl⟩ := h1
      obtain ⟨k, hk, hst⟩ := intKind_stuck i
      exact ⟨_, k, .inl rfl, hk, hst⟩
  | .leaf (.align _ _), _, hl => exact absurd trivial hl
  | .leaf (.padding _ _), _, hl => exact absurd trivial hl
  | .report _, _, hl => exact absurd trivial hl
  | .endReport, _, hl => exact absurd trivial hl
  | .leave, _, hl => exact absurd trivial hl

/-! ## Any container -/

/-- The script of a container. -/
theorem dump_container {reg : Registry} {n : Node} (hc : isContainer n = true) {t : Text} (h : Dumper.dump reg n = .ok t) :
    ∃ b, t = header ++ b ++ footer ∧ ∀ tk ∈ tokens n, ∀ s, Writes reg tk s → Inside s b := by
  have e : tx ")\n" = tx ")" ++ tx "\n" := by decide +kernel
  unfold Dumper.dump at h
  cases n with
  | value _ => simp [isContainer] at hc
  | align _ _ => simp [isContainer] at hc
  | padding _ _ => simp [isContainer] at hc
  | top ms =>
    obtain ⟨x, hx, rfl⟩ := dump_top (reg := reg) (ms := ms) h
    exact ⟨_, rfl, fun tk htk s hs =>
      Inside.after (Inside.before (writes_nodes ms 1 x hx tk (by simpa [tokens] using htk) s hs) _) _⟩
  | report i ms =>
    rw [Dumper.node] at h
    split at h
    · simp at h
    · rename_i x hx
      simp only [Except.ok.injEq] at h
      subst h
      refine ⟨(tx "Report(" ++ pyStr i ++ tx ",\n") ++ x ++ tx ")\n", ?_, ?_⟩
      · rw [e]
        simp only [Dumper.head, Dumper.foot, if_true, ne_eq, not_true_eq_false, if_false, header, footer, Dumper.indent,
          Nat.zero_mul, List.replicate_zero, List.append_nil, List.nil_append, List.append_assoc]
      · intro tk ht s hs
        simp only [tokens, List.cons_append, List.mem_cons, List.mem_append, List.not_mem_nil, or_false] at ht
        rcases ht with rfl | ht | rfl
        · exact hs.elim
        · exact Inside.after (Inside.before (writes_nodes ms _ x hx tk ht s hs) _) _
        · exact hs.elim
  | coll k u ms =>
    rw [Dumper.node] at h
    split at h
    · simp at h
    · rename_i x hx
      simp only [Except.ok.injEq] at h
      subst h
      refine ⟨(tx "Collection(Collection." ++ k.str ++ tx ", " ++ Dumper.collUsage reg u ++ tx ",\n") ++ x ++ tx ")\n", ?_, ?_⟩
      · rw [e]
        simp only [Dumper.head, Dumper.foot, if_true, ne_eq, not_true_eq_false, if_false, header, footer, Dumper.indent,
          Nat.zero_mul, List.replicate_zero, List.append_nil, List.nil_append, List.append_assoc]
      · intro tk ht s hs
        simp only [tokens, List.cons_append, List.mem_cons, List.mem_append, List.not_mem_nil, or_false] at ht
        rcases ht with rfl | ht | rfl
        · refine Inside.after (Inside.after ?_ _) _
          rcases hs with rfl | ⟨y, rfl, rfl⟩
          · have e : tx "Collection(Collection." = tx "Collection" ++ ['('] ++ tx "Collection." := by decide +kernel
            have e2 : ∀ a b c d e : Text, a ++ b ++ c ++ d ++ e = a ++ (b ++ (c ++ d ++ e)) := by
              intros; simp only [List.append_assoc]
            have e3 : tx "Collection(Collection." ++ k.str ++ tx ", " ++ Dumper.collUsage reg u ++ tx ",\n" =
                tx "Collection" ++ ['('] ++ (tx "Collection." ++ k.str) ++ (tx ", " ++ Dumper.collUsage reg u ++ tx ",\n") := by
              rw [e]; simp only [List.append_assoc]
            rw [e3]
            exact inside_fenced (by decide) ⟨',', _, rfl, by decide⟩
          · have : tx ", " = [','] ++ [' '] := rfl
            rw [this, ← List.append_assoc _ [',']]
            exact inside_fenced (by decide) ⟨',', _, rfl, by decide⟩
        · exact Inside.after (Inside.before (writes_nodes ms _ x hx tk ht s hs) _) _
        · exact hs.elim

mutual
theorem authored_written {reg : Registry} : ∀ (n : Node) (ind : Nat), (∀ t ∈ tokens n, Authored t) →
    ∃ t, Dumper.node reg ind n = .ok t
  | .value v, ind, h => by
    obtain ⟨⟨a, ha⟩, -⟩ := h (.leaf (.value v)) (by simp [tokens])
    have : ∃ b, Dumper.flagsShown v = .ok b := by
      unfold Dumper.flagsShown
      split
      · exact ⟨_, rfl⟩
      · rcases made_cases ha with ⟨b, n, lo, hb, hlen, hn, -⟩ | ⟨hf, -, -⟩
        · rw [hb, truthOpt_of_len hlen hn]
          exact ⟨_, rfl⟩
        · rw [hf]
          exact ⟨_, rfl⟩
    obtain ⟨b, hb⟩ := this
    exact ⟨_, by rw [Dumper.node, Dumper.value, hb]⟩
  | .align _ _, _, _ => ⟨_, rfl⟩
  | .padding _ _, _, _ => ⟨_, rfl⟩
  | .report _ ms, ind, h => by
    obtain ⟨t, ht⟩ := authored_writtens (reg := reg) ms (ind + 1) (fun t ht => h t (by simp [tokens, ht]))
    exact ⟨_, by rw [Dumper.node, ht]⟩
  | .top ms, ind, h => by
    obtain ⟨t, ht⟩ := authored_writtens (reg := reg) ms (ind + 1) (fun t ht => h t (by simp [tokens, ht]))
    exact ⟨_, by rw [Dumper.node, ht]⟩
  | .coll _ _ ms, ind, h => by
    obtain ⟨t, ht⟩ := authored_writtens (reg := reg) ms (ind + 1) (fun t ht => h t (by simp [tokens, ht]))
    exact ⟨_, by rw [Dumper.node, ht]⟩
theorem authored_writtens {reg : Registry} : ∀ (ns : List Node) (ind : Nat), (∀ t ∈ tokensL ns, Authored t) →
    ∃ t, Dumper.nodes reg ind ns = .ok t
  | [], _, _ => ⟨_, rfl⟩
  | n :: ns, ind, h => by
    obtain ⟨a, ha⟩ := authored_written (reg := reg) n ind (fun t ht => h t (by simp [tokensL, ht]))
    obtain ⟨b, hb⟩ := authored_writtens (reg := reg) ns ind (fun t ht => h t (by simp [tokensL, ht]))
    exact ⟨a ++ b, by rw [Dumper.nodes, ha]; simp only [hb]⟩
end

end Hrdc
