import Verif.Proofs.Settle3
import Verif.Proofs.OptTree
/-!
# Reading back what the compiler writes for a tree
-/
namespace Hrdc
open Spec Extractor
open Streamer (wrapped endsClosed)
namespace Extractor

/-! ## Trees from pieces -/

/-- A leaf as an element. -/
def leafNode : Leaf → Node
  | .value v => .value v
  | .align w b => .align w b
  | .padding w s => .padding w s

/-- Open collections and the innermost level, as a tree is put together. -/
abbrev Site := List Level × Level

/-- One more piece. -/
def bstep (b : Site) : Piece → Site
  | .enter k u => (b.2 :: b.1, { head := some (k, u) })
  | .leave =>
    match b.1, b.2.head with
    | p :: r, some (k, u) => (r, { p with members := p.members ++ [.coll k u b.2.members] })
    | _, _ => b
  | .leaf id l => (b.1, { b.2 with members := b.2.members ++ [.leaf id (leafNode l)] })

/-! ## Open collections -/

/-- The collections open for the specification are those open in the extractor. -/
def OpenIn (reg : Registry) : List Opened → List Level → Level → Prop
  | [], stk, l => stk = [] ∧ l.head = none
  | (k, u, b) :: o, stk, l => ∃ kv uv p r, stk = p :: r ∧ l.head = some (kv, some uv) ∧ kv.toInt = k ∧ u = some uv.toInt ∧
      Usage.testKind reg .NAry uv = arrayUsage reg uv.toInt ∧ (b = true → l.members ≠ []) ∧ OpenIn reg o r p

theorem open_add {reg : Registry} {ops : List Opened} {stk : List Level} {l : Level} (h : OpenIn reg ops stk l) (f : Bool)
    (x : XNode) : OpenIn reg (markOpen f ops) stk { l with members := l.members ++ [x] } := by
  match ops, h with
  | [], h => exact h
  | (k, u, b) :: o, ⟨kv, uv, p, r, h1, h2, h3, h4, h5, _, h7⟩ => exact ⟨kv, uv, p, r, h1, h2, h3, h4, h5, by simp, h7⟩

theorem open_same {reg : Registry} {ops : List Opened} {stk : List Level} {l : Level} (h : OpenIn reg ops stk l)
    (x : XNode) : OpenIn reg ops stk { l with members := l.members ++ [x] } := by
  have := open_add h false x
  rwa [markOpen_false] at this

theorem open_quiet {reg : Registry} {ops : List Opened} {stk : List Level} {l : Level} (h : OpenIn reg ops stk l) {f : Int}
    (hf : arrayPlace (arrayUsage reg) ops f = false) : inArrayCollection reg l f = .ok false := by
  match ops, h with
  | [], h => simp [arrayPlace] at hf
  | (k, u, b) :: o, ⟨kv, uv, p, r, h1, h2, h3, h4, h5, _, h7⟩ =>
    simp only [arrayPlace, h4, Option.isNone_some, Bool.false_or, Option.any_some, Bool.or_eq_false_iff] at hf
    unfold inArrayCollection
    rw [h2]
    simp only
    rw [if_neg (by
      intro ⟨e1, e2⟩
      rw [h3] at e2
      simp [e1, e2] at hf)]
    by_cases hk : kv.toInt = 2
    · rw [if_pos hk, h5]
      rw [h3] at hk
      simp [hk] at hf
      rw [hf]
    · rw [if_neg hk]

theorem testKind_norm (reg : Registry) (u : PyVal) : Usage.testKind reg .NAry (norm reg u) = arrayUsage reg u.toInt :=
  testKind_int reg u.toInt

/-! ## Leaves -/

theorem addPad_ok {reg : Registry} {sst sst' : Streamer.State} {w : Way} {pad : Int} {is : List Item}
    (h : Streamer.addPad reg sst w pad = .ok (sst', is)) (hid : 0 ≤ sst.id) :
    sst'.id = sst.id ∧ (pad = 0 → sst' = sst ∧ is = []) ∧
      (pad ≠ 0 → sst'.size = Offs.add sst.size w sst.id pad ∧ ∃ a b,
        Streamer.emit reg [(.reportCount, .int 1), (.reportSize, .int pad)] = .ok a ∧
        Streamer.emit reg [(w.cls, .int 3)] = .ok b ∧ is = a ++ b) := by
  unfold Streamer.addPad at h
  split at h
  · rename_i hp
    split at h
    · simp at h
    · rename_i a ha
      split at h
      · simp at h
      · rename_i s hs
        split at h
        · simp at h
        · rename_i b hb
          simp only [Except.ok.injEq, Prod.mk.injEq] at h
          obtain ⟨rfl, rfl⟩ := h
          unfold Streamer.bump Streamer.slot at hs
          by_cases h1 : 0 ≤ sst.id ∧ sst.id < 256
          · rw [if_pos h1] at hs
            simp only [Except.ok.injEq] at hs
            subst hs
            exact ⟨rfl, fun e => absurd e hp, fun _ => ⟨rfl, a, b, ha, hb, rfl⟩⟩
          · rw [if_neg h1, if_neg (by omega)] at hs
            simp at hs
  · rename_i hp
    simp only [Except.ok.injEq, Prod.mk.injEq] at h
    obtain ⟨rfl, rfl⟩ := h
    exact ⟨rfl, fun _ => ⟨rfl, rfl⟩, fun e => absurd e (by simpa using hp)⟩

theorem padFor_ok {sst : Streamer.State} {w : Way} {a pad : Int} (h : Streamer.padFor sst w a 0 = .ok pad) (hid : 0 ≤ sst.id) :
    pad = padTo a (sst.size w sst.id.toNat) := by
  unfold Streamer.padFor at h
  unfold padTo
  split at h
  · rename_i h1
    rw [if_pos h1]
    unfold Streamer.slot at h
    by_cases h2 : 0 ≤ sst.id ∧ sst.id < 256
    · rw [if_pos h2] at h
      simpa using h.symm
    · rw [if_neg h2, if_neg (by omega)] at h
      simp at h
  · rename_i h1
    rw [if_neg h1]
    simpa using h.symm

theorem Offs.add_zero (off : Offs) (w : Way) (id : Int) : off.add w id 0 = off := by
  funext w' k
  simp only [Offs.add, Int.add_zero]
  split
  · rename_i h; rw [h.1, h.2]
  · rfl

/-- Padding the compiler writes reads back. -/
theorem run_addPad (reg : Registry) {sst sst' : Streamer.State} {w : Way} {pad : Int} {is : List Item}
    (h : Streamer.addPad reg sst w pad = .ok (sst', is)) (hid : 0 ≤ sst.id) {st : State} (hr : Ready st)
    (hs : st.num .reportID = sst.id) {ops : List Opened} (ho : OpenIn reg ops st.stack st.level) :
    ∃ st', (∀ ys, runFrom reg st (is ++ ys) = runFrom reg st' ys) ∧ Ready st' ∧ st'.num .reportID = sst.id ∧
      (st'.stack, st'.level) = (padPiece sst.id w pad).foldl bstep (st.stack, st.level) ∧
      OpenIn reg (markOpen (pad != 0) ops) st'.stack st'.level ∧ st'.root = st.root ∧ (pad = 0 → st' = st) ∧
      sst'.id = sst.id ∧ sst'.size = Offs.add sst.size w sst.id pad := by
  obtain ⟨h1, h2, h3⟩ := addPad_ok h hid
  by_cases hp : pad = 0
  · obtain ⟨e1, e2⟩ := h2 hp
    refine ⟨st, by rw [e2]; intro ys; rfl, hr, hs, by rw [padPiece, if_neg (by simpa using hp)]; rfl, ?_, rfl, fun _ => rfl, h1, ?_⟩
    · rw [hp]; simpa [markOpen_false] using ho
    · rw [hp, e1, Offs.add_zero]
  · obtain ⟨e1, a, b, ha, hb, e⟩ := h3 hp
    obtain ⟨st', r1, r2⟩ := run_pad reg hr w ha hb e
    refine ⟨st', r1, r2.ready, by rw [r2.id, hs], ?_, ?_, r2.root, fun e => absurd e hp, h1, e1⟩
    · rw [padPiece, if_pos hp, r2.stack, r2.level]
      simp [bstep, addLeaf, leafNode, hs]
    · rw [r2.stack, r2.level]
      exact open_add ho _ _

theorem const_false {reg : Registry} {v : Value} (h : FromItems reg v) : constFlag v.flags = false := by
  cases hn : v.namedArray with
  | none => exact (h.plain hn).1
  | some a =>
    obtain ⟨-, -, -, -, hf⟩ := new_again h hn
    rw [hf]
    split <;> rfl

/-- What the compiler writes for a value reads back. -/
theorem run_value (reg : Registry) {sst sst' : Streamer.State} {v : Value} {is : List Item}
    (h : Streamer.value reg sst v = .ok (sst', is)) (hf : FromItems reg v) (hid : 0 ≤ sst.id) {st : State} (hr : Ready st)
    (hs : st.num .reportID = sst.id) {ops : List Opened} (ho : OpenIn reg ops st.stack st.level)
    (hv : valueNamed (arrayUsage reg) ops v = true) :
    ∃ st', (∀ ys, runFrom reg st (is ++ ys) = runFrom reg st' ys) ∧ Ready st' ∧ st'.num .reportID = sst.id ∧
      (st'.stack, st'.level) = (padPiece sst.id v.way (padTo v.alignment (sst.size v.way sst.id.toNat)) ++
        [Piece.leaf sst.id (.value (normV reg v))]).foldl bstep (st.stack, st.level) ∧
      OpenIn reg (markOpen true ops) st'.stack st'.level ∧
      (wrapped v = true → st'.stack = [] → st'.root = some (ended st'.level)) ∧
      sst'.id = sst.id ∧
      sst'.size = Offs.add (Offs.add sst.size v.way sst.id (padTo v.alignment (sst.size v.way sst.id.toNat))) v.way sst.id v.size := by
  have hcf := const_false hf
  unfold Streamer.value at h
  split at h
  · simp at h
  rename_i pad hpad
  have hpad := padFor_ok hpad hid
  split at h
  · simp at h
  rename_i sst1 a ha
  split at h
  · simp at h
  rename_i named hnamed
  simp only [hcf, Bool.false_eq_true, if_false] at h
  split at h
  · simp at h
  rename_i b hb
  split at h
  · simp at h
  rename_i sst2 hbump
  split at h
  · simp at h
  rename_i c hc
  simp only [Except.ok.injEq, Prod.mk.injEq] at h
  obtain ⟨rfl, rfl⟩ := h
  obtain ⟨s1, r1, r2, r3, r4, r5, r6, r7, r8, r9⟩ := run_addPad reg ha hid hr hs ho
  have r5' : OpenIn reg ops s1.stack s1.level := by
    by_cases hp : pad = 0
    · rw [r7 hp]; exact ho
    · have e : (s1.stack, s1.level) = (st.stack, { st.level with members := st.level.members ++ [.leaf sst.id (.padding v.way pad)] }) := by
        rw [r4, padPiece, if_pos hp]; rfl
      simp only [Prod.mk.injEq] at e
      rw [e.1, e.2]
      exact open_same ho _
  have hsize : sst2.id = sst.id ∧ sst2.size = Offs.add (Offs.add sst.size v.way sst.id pad) v.way sst.id v.size := by
    unfold Streamer.bump Streamer.slot at hbump
    by_cases h1 : 0 ≤ sst1.id ∧ sst1.id < 256
    · rw [if_pos h1] at hbump
      simp only [Except.ok.injEq] at hbump
      subst hbump
      refine ⟨r8, ?_⟩
      rw [← r9, ← r8]
      rfl
    · rw [if_neg h1, if_neg (by omega)] at hbump
      simp at hbump
  -- the value itself
  have key : ∃ st', (∀ ys, runFrom reg s1 (b ++ c ++ ys) = runFrom reg st' ys) ∧ Ready st' ∧ st'.num .reportID = sst.id ∧
      st'.stack = s1.stack ∧ st'.level = addLeaf s1 (.value (normV reg v)) ∧
      (wrapped v = true → st'.stack = [] → st'.root = some (ended st'.level)) := by
    have hcf' : bitSet v.flags.toInt 0 = false := hcf
    simp only [valueNamed, hcf', Bool.false_or, Bool.and_eq_true, decide_eq_true_eq] at hv
    cases hn : v.namedArray with
    | none =>
      rw [hn] at hnamed
      simp only [truthOpt, Except.ok.injEq] at hnamed
      subst hnamed
      simp only [Bool.false_and, Bool.false_eq_true, if_false, List.append_nil] at hc
      have hv2 := hv.2
      rw [hn] at hv2
      simp only [arrayUsages, List.isEmpty_nil, if_true, usageOf_known hf.usage, Bool.or_eq_true, decide_eq_true_eq, Bool.and_eq_true,
        bne_iff_ne, Bool.not_eq_true', Bool.and_eq_false_iff, beq_eq_false_iff_ne] at hv2
      have hlen : (v.usage.map PyVal.toInt).toList.length = v.usage.toList.length := by cases v.usage <;> rfl
      rw [hlen] at hv2
      obtain ⟨st', q1, q2⟩ := run_plain reg r2 hf hn hb hc (by
        intro e1 e2
        rcases hv2 with h2 | ⟨-, h2⟩
        · exact absurd e2 h2
        · rcases h2 with h2 | h2
          · exact absurd e1 h2
          · exact open_quiet r5' h2) (by
        intro ⟨e1, e2⟩
        rcases hv2 with h2 | ⟨h2, -⟩
        · exact h2 e2
        · exact h2 e1)
      refine ⟨st', q1, q2.ready, by rw [q2.id, r3], q2.stack, q2.level, ?_⟩
      intro hw
      simp [wrapped, hn, arrayUsages] at hw
    | some arr =>
      have harr : KnownArray reg (some arr) := by rw [← hn]; exact hf.array
      obtain ⟨hlen, hne⟩ := elems_len harr
      have hnm : named = true := by
        rw [hn] at hnamed
        simp only [truthOpt, NamedArray.truth, hlen, Except.ok.injEq] at hnamed
        rw [← hnamed]
        simpa using hne
      subst hnm
      obtain ⟨-, hcount, -, -, -⟩ := new_again hf hn
      have hau : (arrayUsages v.namedArray).isEmpty = false := by
        rw [hn]
        cases arr with
        | list l => simpa [arrayUsages] using harr.1.1
        | range r =>
          have h1 : r.min.toInt < r.max.toInt := harr.1
          simp only [arrayUsages, upTo, List.isEmpty_eq_false_iff, ne_eq, List.map_eq_nil_iff, List.range_eq_nil]
          omega
      have hv2 := hv.2
      rw [hau] at hv2
      simp only [Bool.false_eq_true, if_false, Bool.and_eq_true, usageOf_known hf.usage] at hv2
      cases hu : v.usage with
      | none =>
        rw [hu] at hv2
        simp only [Option.map_none, hcount, beq_self_eq_true, Bool.true_and, Bool.not_eq_true'] at hv2
        rw [hu] at hc
        simp only [usageGiven, Bool.and_false, Bool.false_eq_true, if_false, List.append_nil] at hc
        obtain ⟨st', q1, q2⟩ := run_array reg r2 hf hn hu hb hc (open_quiet r5' hv2.2)
        refine ⟨st', q1, q2.ready, by rw [q2.id, r3], q2.stack, q2.level, ?_⟩
        intro hw
        simp [wrapped, hu, usageOf] at hw
      | some u =>
        rw [hu] at hv2
        simp only [Option.map_some, Bool.and_eq_true] at hv2
        rw [hu] at hc
        simp only [usageGiven, truthy_known (hf.usage u hu), Bool.not_false, Bool.and_self, if_true] at hc
        obtain ⟨st', q1, q2, q3, q4, q5, q6⟩ := run_wrapped reg r2 hf hn hu hb hc (by rw [testKind_norm]; exact hv2.2.2)
        refine ⟨st', q1, q2, by rw [q5, r3], q3, q4, ?_⟩
        intro _ he
        exact q6 (by rw [← q3]; exact he)
  obtain ⟨st', q1, q2, q3, q4, q5, q6⟩ := key
  refine ⟨st', ?_, q2, q3, ?_, ?_, q6, hsize.1, ?_⟩
  · intro ys
    rw [List.append_assoc, List.append_assoc, r1, ← List.append_assoc, q1]
  · rw [List.foldl_append, ← hpad, ← r4, q4, q5]
    simp [bstep, addLeaf, leafNode, r3]
  · rw [q4, q5]
    exact open_add r5' true _
  · rw [hsize.2, hpad]

/-! ## Trees -/

/-- The whole list of tokens reads back. -/
theorem run_toks (reg : Registry) : ∀ (ts : List Tok) (sst sst' : Streamer.State) (is : List Item) (st : State) (ids : List Int)
    (ops : List Opened) (nz : Int) (b : Bool),
    Streamer.toks reg sst ts = .ok (sst', is) → 0 ≤ sst.id → Ready st → (∀ t ∈ ts, TokFrom reg t) →
    (∀ t ∈ leafIds ids sst.id nz ts, t.1 = t.2.1 ∧ t.1 = t.2.2) → st.num .reportID = nz →
    namedReadable (arrayUsage reg) ops ts = true → OpenIn reg ops st.stack st.level →
    (b = true → st.stack = [] → st.root = some (ended st.level)) →
    ∃ st', runFrom reg st is = .ok st' ∧
      (st'.stack, st'.level) = (padded sst.size ((inScope ids ts).map (normP reg))).foldl bstep (st.stack, st.level) ∧
      st'.stack = [] ∧ st'.level.head = none ∧ (endsClosed b ts = true → st'.root = some (ended st'.level)) := by
  intro ts
  induction ts with
  | nil =>
    intro sst sst' is st ids ops nz b h hid hr hts hl hnz hro ho hb
    simp only [Streamer.toks, Except.ok.injEq, Prod.mk.injEq] at h
    obtain ⟨rfl, rfl⟩ := h
    match ops, hro, ho with
    | [], _, ho => exact ⟨st, rfl, rfl, ho.1, ho.2, fun hb' => hb hb' ho.1⟩
  | cons t ts ih =>
    intro sst sst' is st ids ops nz b h hid hr hts hl hnz hro ho hb
    simp only [Streamer.toks] at h
    split at h
    · simp at h
    rename_i sst1 a ha
    split at h
    · simp at h
    rename_i sst2 c hc
    simp only [Except.ok.injEq, Prod.mk.injEq] at h
    obtain ⟨rfl, rfl⟩ := h
    have hts' : ∀ t ∈ ts, TokFrom reg t := fun t ht => hts t (by simp [ht])
    have ht := hts t (by simp)
    cases t with
    | report i =>
      simp only [Streamer.tok] at ha
      split at ha
      · simp at ha
      rename_i x hx
      simp only [Except.ok.injEq, Prod.mk.injEq] at ha
      obtain ⟨rfl, rfl⟩ := ha
      simp only [leafIds] at hl
      simp only [namedReadable] at hro
      by_cases hi : i = 0
      · subst hi
        simp only [ne_eq, not_true_eq_false, if_false, Streamer.emit, Except.ok.injEq] at hx
        subst hx
        rw [if_pos rfl] at hl
        exact ih { sst with id := 0 } _ _ st (0 :: ids) ops nz b hc (Int.le_refl 0) hr hts' hl hnz hro ho hb
      · rw [if_neg hi] at hl
        rw [if_pos hi] at hx
        have h0 := emit_nonneg hx (c := (.reportID, .int i)) (by simp) (by simp) rfl
        have e := emit_items hx (by simp)
        rw [e]
        simp only [List.map_cons, List.map_nil, List.cons_append, List.nil_append, keep]
        obtain ⟨st', q1, q2, q3, q4, q5⟩ := ih _ _ _ (put st ⟨.reportID, .int i⟩) (i :: ids) ops i b hc h0
          ⟨hr.usages, hr.strings, hr.desigs, hr.loc, hr.inNamed, hr.page⟩ hts' hl rfl hro ho hb
        refine ⟨st', ?_, q2, q3, q4, q5⟩
        rw [runFrom, step_put reg st _ (by simp [Cls.kind])]
        exact q1
    | endReport =>
      simp only [Streamer.tok, Except.ok.injEq, Prod.mk.injEq] at ha
      obtain ⟨rfl, rfl⟩ := ha
      simp only [leafIds] at hl
      simp only [namedReadable] at hro
      exact ih _ _ _ st ids.tail ops nz b hc hid hr hts' hl hnz hro ho hb
    | enter k u =>
      simp only [Streamer.tok] at ha
      split at ha
      · simp at ha
      rename_i u
      split at ha
      · simp at ha
      rename_i x hx
      simp only [Except.ok.injEq, Prod.mk.injEq] at ha
      obtain ⟨rfl, rfl⟩ := ha
      simp only [leafIds] at hl
      simp only [namedReadable, Option.map_some, Option.getD_some] at hro
      have hku : KnownVal reg u := ht.2 u rfl
      have hu0 := emit_nonneg hx (c := (.usage, u)) (by simp) (by simp) rfl
      have e := emit_items hx (by
        intro c hc e
        simp only [List.mem_cons, List.not_mem_nil, or_false] at hc
        rcases hc with rfl | rfl
        · simp at e
        · exact kindFrom_plain ht.1)
      rw [e]
      simp only [List.map_cons, List.map_nil, List.cons_append, List.nil_append, keep, norm_known hku]
      let s1 : State := put st ⟨.usage, norm reg u⟩
      have hs1 : s1.usages = [u].map (norm reg) := by
        show st.usages ++ [norm reg u] = _
        rw [hr.usages]; rfl
      have hus : s1.usage reg 0 = some (norm reg u) := by
        rw [usage_norm reg (st := s1) hr.page (l := [u]) hs1 (by simpa using hu0) 0]
        rfl
      have hstep : step reg s1 ⟨.collection, k⟩ = .ok (s1.enter k (some (norm reg u))).clear := by
        unfold step
        simp only [Cls.kind]
        rw [expandAll_none (st := s1) hr.loc, hus]
      obtain ⟨st', q1, q2, q3, q4, q5⟩ := ih _ _ _ (s1.enter k (some (norm reg u))).clear ids
        ((k.toInt, some u.toInt, false) :: ops) nz true hc hid
        ⟨rfl, rfl, rfl, fun _ => rfl, hr.inNamed, hr.page⟩ hts' hl hnz hro
        ⟨k, norm reg u, st.level, st.stack, rfl, rfl, rfl, by rw [norm_toInt], by rw [testKind_norm, norm_toInt], by simp, ho⟩
        (by intro _ he; simp [State.enter, State.clear] at he)
      refine ⟨st', ?_, q2, q3, q4, q5⟩
      rw [runFrom, step_put reg st _ (by simp [Cls.kind])]
      show runFrom reg s1 _ = _
      rw [runFrom, hstep]
      exact q1
    | leave =>
      simp only [Streamer.tok] at ha
      split at ha
      · simp at ha
      rename_i x hx
      simp only [Except.ok.injEq, Prod.mk.injEq] at ha
      obtain ⟨rfl, rfl⟩ := ha
      simp only [leafIds] at hl
      have e := emit_items hx (by simp)
      rw [e]
      simp only [List.map_cons, List.map_nil, List.cons_append, List.nil_append, keep]
      match ops, hro, ho with
      | (k0, u0, true) :: o, hro, ⟨kv, uv, p, r, h1, h2, h3, h4, h5, h6, h7⟩ =>
        simp only [namedReadable] at hro
        have hm : st.level.members.isEmpty = false := by simpa using h6 rfl
        let l1 : Level := { p with members := p.members ++ [.coll kv (some uv) st.level.members] }
        let s1 : State := { st with stack := r, level := l1 }
        let s2 : State := if r.isEmpty then { s1 with root := some (ended l1) } else s1
        have hstep : step reg st ⟨.endCollection, .int 0⟩ = .ok s2.clear := by
          unfold step
          simp only [Cls.kind]
          rw [expandAll_none hr.loc]
          have hcl : st.close = .ok s2 := by
            unfold State.close
            rw [hr.inNamed]
            simp only [Bool.false_eq_true, if_false, State.leave, h1, h2, hm, Bool.not_false, Bool.and_self, if_true]
            rfl
          rw [hcl]
        have hs2 : s2.stack = r ∧ s2.level = l1 ∧ s2.inNamed = false ∧ s2.num .usagePage = 0 ∧ s2.num .reportID = nz ∧
            (r = [] → s2.root = some (ended l1)) := by
          by_cases he : r.isEmpty = true
          · have e5 : s2 = { s1 with root := some (ended l1) } := if_pos he
            rw [e5]
            exact ⟨rfl, rfl, hr.inNamed, hr.page, hnz, fun _ => rfl⟩
          · have e5 : s2 = s1 := if_neg he
            rw [e5]
            exact ⟨rfl, rfl, hr.inNamed, hr.page, hnz, fun h => absurd (by rw [h]; rfl) he⟩
        obtain ⟨a1, a2, a3, a4, a5, a6⟩ := hs2
        obtain ⟨st', q1, q2, q3, q4, q5⟩ := ih _ _ _ s2.clear ids (markOpen true o) nz true hc hid
          ⟨rfl, rfl, rfl, fun _ => rfl, a3, a4⟩ hts' hl a5 hro
          (by
            show OpenIn reg _ s2.stack s2.level
            rw [a1, a2]
            exact open_add h7 true _)
          (by
            intro _ he
            show s2.root = some (ended s2.level)
            rw [a2]
            exact a6 (by rw [← a1]; exact he))
        refine ⟨st', ?_, ?_, q3, q4, q5⟩
        · rw [runFrom, hstep]
          exact q1
        · rw [q2]
          show _ = List.foldl bstep (bstep (st.stack, st.level) .leave) _
          congr 1
          show (s2.stack, s2.level) = _
          rw [a1, a2]
          simp [bstep, h1, h2, l1]
    | leaf l =>
      cases l with
      | value v =>
        simp only [Streamer.tok] at ha
        simp only [leafIds, List.mem_cons, forall_eq_or_imp] at hl
        simp only [namedReadable, Bool.and_eq_true] at hro
        have hsid : st.num .reportID = sst.id := by rw [hnz, ← hl.1.2, hl.1.1]
        obtain ⟨s1, r1, r2, r3, r4, r5, r6, r7, r8⟩ := run_value reg ha ht hid hr hsid ho hro.1
        obtain ⟨st', q1, q2, q3, q4, q5⟩ := ih _ _ _ s1 ids (markOpen true ops) nz (wrapped v) hc (by rw [r7]; exact hid) r2 hts'
          (by rw [r7]; exact hl.2) (by rw [r3, ← hsid, hnz]) hro.2 r5 r6
        refine ⟨st', by rw [r1]; exact q1, ?_, q3, q4, q5⟩
        rw [q2, r4, r8]
        have e1 : ids.headD 0 = sst.id := hl.1.1
        simp only [inScope, List.map_cons, normP, normLeaf, e1, padded]
        rw [List.foldl_append, List.foldl_append]
        rfl
      | align w n =>
        simp only [Streamer.tok] at ha
        split at ha
        · simp at ha
        rename_i pad hpad
        have hpad := padFor_ok hpad hid
        simp only [leafIds, List.mem_cons, forall_eq_or_imp] at hl
        simp only [namedReadable] at hro
        have hsid : st.num .reportID = sst.id := by rw [hnz, ← hl.1.2, hl.1.1]
        obtain ⟨s1, r1, r2, r3, r4, r5, r6, r7, r8, r9⟩ := run_addPad reg ha hid hr hsid ho
        have r5' : OpenIn reg ops s1.stack s1.level := by
          by_cases hp : pad = 0
          · rw [r7 hp]; exact ho
          · have e : (s1.stack, s1.level) = (st.stack, { st.level with members := st.level.members ++ [.leaf sst.id (.padding w pad)] }) := by
              rw [r4, padPiece, if_pos hp]; rfl
            simp only [Prod.mk.injEq] at e
            rw [e.1, e.2]
            exact open_same ho _
        obtain ⟨st', q1, q2, q3, q4, q5⟩ := ih _ _ _ s1 ids ops nz false hc (by rw [r8]; exact hid) r2 hts'
          (by rw [r8]; exact hl.2) (by rw [r3, ← hsid, hnz]) hro r5' (by simp)
        refine ⟨st', by rw [r1]; exact q1, ?_, q3, q4, q5⟩
        rw [q2, r4, r9, hpad]
        have e1 : ids.headD 0 = sst.id := hl.1.1
        simp only [inScope, List.map_cons, normP, normLeaf, e1, padded]
        rw [List.foldl_append]
      | padding w n =>
        simp only [Streamer.tok] at ha
        simp only [leafIds, List.mem_cons, forall_eq_or_imp] at hl
        simp only [namedReadable] at hro
        have hsid : st.num .reportID = sst.id := by rw [hnz, ← hl.1.2, hl.1.1]
        obtain ⟨s1, r1, r2, r3, r4, r5, r6, r7, r8, r9⟩ := run_addPad reg ha hid hr hsid ho
        obtain ⟨st', q1, q2, q3, q4, q5⟩ := ih _ _ _ s1 ids (markOpen (n != 0) ops) nz (if n = 0 then b else false) hc (by rw [r8]; exact hid) r2 hts'
          (by rw [r8]; exact hl.2) (by rw [r3, ← hsid, hnz]) hro r5 (by
            intro hb' he
            by_cases hn : n = 0
            · rw [if_pos hn] at hb'
              rw [r7 hn] at he ⊢
              exact hb hb' he
            · rw [if_neg hn] at hb'; simp at hb')
        refine ⟨st', by rw [r1]; exact q1, ?_, q3, q4, q5⟩
        rw [q2, r4, r9]
        have e1 : ids.headD 0 = sst.id := hl.1.1
        simp only [inScope, List.map_cons, normP, normLeaf, e1, padded]
        rw [List.foldl_append]

end Extractor
end Hrdc
