import Verif.Proofs.Extract5
import Verif.Spec.Named
/-!
# Named arrays in the decompiler
-/
namespace Hrdc
open Spec

namespace Extractor

theorem testKind_int (reg : Registry) (u : Int) : Usage.testKind reg .NAry (.int u) = arrayUsage reg u := by
  unfold Usage.testKind Usage.lookup arrayUsage Registry.get
  by_cases h : u / 65536 = 0
  · simp [h]
  · simp only [ne_eq, h, not_false_eq_true, if_true, decide_true, Bool.true_and]
    cases reg.find? (fun x => x.value == u) with
    | none => simp
    | some x => simp

theorem testKind_known {reg : Registry} {v : PyVal} (h : kindKnown reg v = true) :
    Usage.testKind reg .NAry v = arrayUsage reg v.toInt := by
  cases v with
  | int i => exact testKind_int reg i
  | named n i =>
    simp only [kindKnown, Bool.not_eq_true'] at h
    simp [Usage.testKind, Usage.lookup, PyVal.toInt, h]
  | usage x => simpa [kindKnown, Usage.testKind, Usage.lookup, PyVal.toInt] using h

/-- The usages of the items are of the kinds the registry knows. -/
def KindsOf (reg : Registry) (xs : List Item) : Prop :=
  ∀ i ∈ xs, i.cls = .usage → i.ival / 65536 ≠ 0 → Usage.testKind reg .NAry i.val = arrayUsage reg i.ival

/-- The same for the usages in the state. -/
def UsagesKnown (reg : Registry) (us : List PyVal) : Prop :=
  ∀ u ∈ us, u.toInt / 65536 ≠ 0 → Usage.testKind reg .NAry u = arrayUsage reg u.toInt

/-- The usages of the levels. -/
def LevelsKnown (reg : Registry) : List Opened → List Level → Prop
  | (_, u, _) :: o, l :: r =>
    (∃ k' u', l.head = some (k', u') ∧ u'.map PyVal.toInt = u ∧
      ∀ x, u' = some x → Usage.testKind reg .NAry x = arrayUsage reg x.toInt) ∧ LevelsKnown reg o r
  | [], _ => True
  | _, _ => False

/-- Kinds of the open collections. -/
def shut (ops : List Opened) : List (Int × Bool) := ops.map (fun o => (o.1, o.2.2))

theorem shut_mark (b : Bool) (ops : List Opened) : shut (markOpen b ops) = markFull b (shut ops) := by
  cases ops <;> rfl

theorem levels_mark {reg : Registry} {b : Bool} {ops : List Opened} {l l' : Level} {r : List Level}
    (h : LevelsKnown reg ops (l :: r)) (hl : l'.head = l.head) : LevelsKnown reg (markOpen b ops) (l' :: r) := by
  cases ops with
  | nil => trivial
  | cons o ops =>
    obtain ⟨k, u, b'⟩ := o
    obtain ⟨h1, h2⟩ := h
    exact ⟨by rw [hl]; exact h1, h2⟩

/-- The extractor's state and the host's, with what is known of the usages. -/
structure NSim (reg : Registry) (h : Host) (st : State) (ops : List Opened) (mu ms md : Met) : Prop where
  sim : Sim h st (shut ops) mu ms md
  known : UsagesKnown reg st.usages
  levels : LevelsKnown reg ops (st.level :: st.stack)

theorem usage_known {reg : Registry} {st : State} (hk : UsagesKnown reg st.usages) {x : PyVal}
    (h : st.usage reg 0 = some x) : Usage.testKind reg .NAry x = arrayUsage reg x.toInt := by
  unfold State.usage at h
  split at h
  · simp at h
  · rename_i u hu
    split at h
    · rename_i hne
      simp only [Option.some.injEq] at h
      subst h
      exact hk u (clamp_mem hu) hne
    · simp only [Option.some.injEq] at h
      subst h
      rw [show (PyVal.usage (Usage.lookup reg _)).toInt = (Usage.lookup reg _).value from rfl, lookup_value, ← testKind_int]
      rfl

theorem expand_known {reg : Registry} {st : State} (hk : UsagesKnown reg st.usages) :
    UsagesKnown reg st.expandAll.usages := by
  intro u hu hne
  simp only [State.expandAll] at hu
  unfold expand at hu
  split at hu
  · simp only [List.mem_map] at hu
    obtain ⟨k, -, rfl⟩ := hu
    exact testKind_int reg k
  · exact hk u hu hne

theorem step_known {reg : Registry} {st st1 : State} {i : Item} (hk : i.cls.kind ≠ .main)
    (h : step reg st i = .ok st1) (hu : UsagesKnown reg st.usages)
    (hi : i.cls = .usage → i.ival / 65536 ≠ 0 → Usage.testKind reg .NAry i.val = arrayUsage reg i.ival) :
    UsagesKnown reg st1.usages := by
  obtain ⟨c, v⟩ := i
  cases c <;> simp [Cls.kind] at hk <;> simp only [step, Cls.kind, Except.ok.injEq] at h <;> subst h <;>
    first | exact hu | skip
  intro u hm hne
  simp only [List.mem_append, List.mem_singleton] at hm
  rcases hm with hm | rfl
  · exact hu u hm hne
  · exact hi rfl hne

theorem step_flag {reg : Registry} {st st1 : State} {i : Item} (hk : i.cls.kind ≠ .main) (b : Bool)
    (h : step reg st i = .ok st1) : step reg { st with inNamed := b } i = .ok { st1 with inNamed := b } := by
  obtain ⟨c, v⟩ := i
  cases c <;> simp [Cls.kind] at hk <;> simp only [step, Cls.kind, Except.ok.injEq] at h <;> subst h <;> rfl

theorem run_append (reg : Registry) (st : State) (xs ys : List Item) {st1 : State}
    (h : runFrom reg st xs = .ok st1) : runFrom reg st (xs ++ ys) = runFrom reg st1 ys := by
  induction xs generalizing st with
  | nil => simp only [runFrom, Except.ok.injEq] at h; subst h; rfl
  | cons x xs ih =>
    simp only [List.cons_append, runFrom] at h ⊢
    cases hs : step reg st x with
    | error e => rw [hs] at h; simp at h
    | ok st2 => rw [hs] at h; exact ih st2 h

theorem run_others (reg : Registry) (xs : List Item) (hx : ∀ i ∈ xs, i.cls.kind ≠ .main) (hm : ∀ i ∈ xs, i.Made)
    (hp : ∀ i ∈ xs, i.cls ≠ .push ∧ i.cls ≠ .pop) (hk : KindsOf reg xs) :
    ∀ (h : Host) (st : State) (ops : List Opened) (mu ms md : Met) (ys : List SItem),
      NSim reg h st ops mu ms md → Ranges mu ms md (keys xs ++ ys) →
      ∃ st1 mu' ms' md', runFrom reg st xs = .ok st1 ∧
        (∀ b, runFrom reg { st with inNamed := b } xs = .ok { st1 with inNamed := b }) ∧
        NSim reg (h.after .atMain (keys xs)) st1 ops mu' ms' md' ∧
        Ranges mu' ms' md' ys ∧ st1.level = st.level ∧ st1.stack = st.stack ∧ st1.root = st.root := by
  induction xs with
  | nil =>
    intro h st ops mu ms md ys S R
    exact ⟨st, mu, ms, md, rfl, fun _ => rfl, S, R, rfl, rfl, rfl⟩
  | cons i xs ih =>
    intro h st ops mu ms md ys S R
    have hki := hx i (by simp)
    rw [keys_cons, List.cons_append] at R
    obtain ⟨st1, mu1, ms1, md1, h1, h2, h3, h4, h5, h6⟩ := sim_other reg S.sim R hki (hm i (by simp)) (hp i (by simp))
    obtain ⟨st2, mu2, ms2, md2, e1, e2, e3, e4, e5, e6, e7⟩ := ih (fun j hj => hx j (by simp [hj]))
      (fun j hj => hm j (by simp [hj])) (fun j hj => hp j (by simp [hj])) (fun j hj => hk j (by simp [hj])) _ st1 ops
      mu1 ms1 md1 ys ⟨h2, step_known hki h1 S.known (hk i (by simp)), by rw [h4, h5]; exact S.levels⟩ h3
    refine ⟨st2, mu2, ms2, md2, ?_, ?_, e3, e4, by rw [e5, h4], by rw [e6, h5], by rw [e7, h6]⟩
    · rw [runFrom, h1]; exact e1
    · intro b
      rw [runFrom, step_flag hki b h1]; exact e2 b

/-! ## The value made of a named array -/

/-- The value made of a named array. -/
def State.namedValue (reg : Registry) (st : State) (i : Item) (n : Nat) (u : Option PyVal) : Value :=
  { st.arrayValue reg i n with
    usage := u, flags := if usageGiven u then .named (tx "Variable") 2 else .int 0 }

theorem new_named (reg : Registry) {r : MainRec} {st : State} {ops : List (Int × Bool)}
    (A : AtMain r st ops) (i : Item) (hne : r.usages ≠ []) (u : Option PyVal) :
    Value.new (st.arrayArgs reg i u) = .ok (st.namedValue reg i r.usages.length u) := by
  have hlen := len_of_usages (array_usages reg A) hne
  have hp : r.usages.length ≠ 0 := by simpa using hne
  unfold Value.new State.arrayArgs State.namedValue State.arrayValue
  have hp' : (r.usages.length != 0) = true := by simp [hp]
  simp only [truthOpt, NamedArray.truth, hlen, hp']
  simp [intGiven]

theorem named_events (reg : Registry) {r : MainRec} {st : State} {ops : List (Int × Bool)}
    (A : AtMain r st ops) {i : Item} (hd : i.cls.isData = true) (hr : r.cls = i.cls)
    (hne : r.usages ≠ []) (hfull : r.full = true) (hcnt : r.g .reportCount = 1) (u : Option PyVal) :
    valueEvents (st.num .reportID) (st.namedValue reg i r.usages.length u) =
      match usageOf u with
      | none => r.arrayField.events
      | some x => .enter 2 ⟨some x, 0, 0⟩ :: r.arrayField.events ++ [.leave] := by
  have hu : arrayUsages (st.namedValue reg i r.usages.length u).namedArray = r.usages := array_usages reg A
  have hnum : ∀ c, st.num c = r.g c := A.g
  rw [valueEvents_eq]
  rw [hu]
  simp only [MainRec.full, beq_iff_eq] at hfull
  have hat : arrayAttrs (st.namedValue reg i r.usages.length u) r.usages.length = r.arrayField.attrs := by
    simp only [arrayAttrs, attrsOf, State.namedValue, State.arrayValue, hnum, Option.getD_some, PyVal.toInt,
      MainRec.attrs, MainRec.arrayField]
    simp
    omega
  have hwhat : r.arrayField.what 0 =
      r.usages.map (fun x => selectorOf (st.namedValue reg i r.usages.length u) (some x)) := by
    have hnv : r.arrayField.isVar = false := by simp [MainRec.isVar, MainRec.arrayField]
    have htake : ∀ (l : List Int) j, pick (l.take 1) j = pick l 0 := by
      intro l j
      cases l with
      | nil => simp [pick]
      | cons a l => cases j <;> simp [pick]
    simp only [MainRec.what, hnv, Bool.false_eq_true, if_false]
    apply List.ext_getElem
    · simp [MainRec.arrayField]
    · intro j h1 h2
      have hj : j < r.usages.length := by simpa using h2
      have h5 : pick r.usages j = some r.usages[j] := by simp [pick, hj]
      simp only [List.getElem_map, List.getElem_range, MainRec.selector]
      simp only [MainRec.arrayField, htake, h5, selectorOf, State.namedValue, State.arrayValue, string_pick A, desig_pick A]
  have hev : r.arrayField.events =
      [.control r.cls 0 (r.g .reportID) r.arrayField.attrs (r.arrayField.what 0)] := by
    have hd' : r.cls.isData = true := by rw [hr]; exact hd
    have hc1 : (r.arrayField.g .reportCount).toNat = 1 := by simp [MainRec.arrayField, hcnt]
    have hcl : r.arrayField.cls = r.cls := rfl
    have hidd : r.arrayField.g .reportID = r.g .reportID := by simp [MainRec.arrayField]
    have hcon : r.arrayField.isConst = false := by simp [MainRec.isConst, MainRec.arrayField]
    cases hc : r.cls <;> rw [hc] at hd' <;> simp [Cls.isData] at hd' <;>
      simp [MainRec.events, hcl, hc, hcon, hc1, hidd] <;> rfl
  cases hus : r.usages with
  | nil => exact absurd hus hne
  | cons a l =>
    simp only
    rw [← hus, hat, hev, hwhat, hnum, hr]
    cases husg : usageOf u with
    | none => simp [State.namedValue, State.arrayValue, wayOf_cls hd, husg]
    | some x => simp [State.namedValue, State.arrayValue, wayOf_cls hd, husg]

/-! ## Whole streams -/

/-- Values made of named arrays with a usage. -/
def NamedOK (v : Value) : Prop :=
  v.Made ∧ v.alignment = min 8 v.size ∧ 0 ≤ v.size ∧ arrayUsages v.namedArray ≠ [] ∧ v.count = 1

/-- Pieces the extractor makes. -/
def PieceOKN (C : Int → Prop) (p : Piece) : Prop :=
  PieceOK C p ∨ ∃ id v, p = .leaf id (.value v) ∧ NamedOK v

theorem recs_split (rule : PageRule) (xs : List Item) : ∀ (h : Host) (r : MainRec) (rs : List MainRec),
    recs rule h (keys xs) = r :: rs → ∃ pre i post, xs = pre ++ i :: post ∧ (∀ j ∈ pre, j.cls.kind ≠ .main) ∧
      i.cls.kind = .main ∧ r = (h.after rule (keys pre)).main rule i.key ∧
      rs = recs rule ((h.after rule (keys pre)).step rule i.key) (keys post) := by
  induction xs with
  | nil => intro h r rs he; simp [recs] at he
  | cons x xs ih =>
    intro h r rs he
    rw [keys_cons, recs_cons] at he
    by_cases hm : x.key.1.kind = .main
    · rw [if_pos hm] at he
      simp only [List.singleton_append, List.cons.injEq] at he
      exact ⟨[], x, xs, rfl, by simp, hm, he.1.symm, he.2.symm⟩
    · rw [if_neg hm, List.nil_append] at he
      obtain ⟨pre, i, post, h1, h2, h3, h4, h5⟩ := ih _ r rs he
      refine ⟨x :: pre, i, post, by rw [h1]; rfl, ?_, h3, h4, h5⟩
      intro j hj
      rcases List.mem_cons.1 hj with rfl | hj
      · exact hm
      · exact h2 j hj

theorem corr_mark {ops : List (Int × Bool)} {l : Level} {r : List Level} (h : Corr ops (l :: r)) (x : XNode) :
    Corr (markFull true ops) ({ l with members := l.members ++ [x] } :: r) := by
  cases ops with
  | nil =>
    obtain ⟨rfl, hp⟩ := corr_nil h
    exact hp
  | cons o ops =>
    obtain ⟨k, b⟩ := o
    obtain ⟨h1, -, h3⟩ := corr_cons h
    exact ⟨h1, by simp, h3⟩

/-- Reading a named array adds one value. -/
theorem run_block (reg : Registry) {h : Host} {st : State} {ops : List Opened} {mu ms md : Met}
    {c d e : Item} {p2 p3 : List Item} {ys : List SItem} (S : NSim reg h st ops mu ms md)
    (R : Ranges mu ms md (c.key :: keys p2 ++ d.key :: keys p3 ++ e.key :: ys))
    (hm : ∀ i ∈ p2 ++ p3, i.Made) (hp : ∀ i ∈ p2 ++ p3, i.cls ≠ .push ∧ i.cls ≠ .pop) (hk : KindsOf reg (p2 ++ p3))
    (hx : ∀ i ∈ p2 ++ p3, i.cls.kind ≠ .main) (hc : c.cls = .collection) (hd : d.cls.isData = true)
    (he : e.cls = .endCollection) {h2 h3 : Host} (hh2 : h2 = (h.step .atMain c.key).after .atMain (keys p2))
    (hh3 : h3 = (h2.step .atMain d.key).after .atMain (keys p3))
    (hn : namedArray (arrayUsage reg) (h.main .atMain c.key) (h2.main .atMain d.key) (h3.main .atMain e.key) = true)
    (C : Int → Prop) :
    ∃ st' new, runFrom reg st (c :: p2 ++ d :: p3 ++ [e]) = .ok st' ∧
      NSim reg (h3.step .atMain e.key) st' (markOpen true ops) {} {} {} ∧ Ranges {} {} {} ys ∧
      openPieces (st'.level :: st'.stack) = openPieces (st.level :: st.stack) ++ new ∧
      new.flatMap bare = (arrayRecs (h.main .atMain c.key) (h2.main .atMain d.key) (h3.main .atMain e.key)).flatMap
        MainRec.events ∧ (∀ p ∈ new, PieceOKN C p) ∧
      ((st'.root = some (ended st'.level) ∧ markOpen true ops = []) ∨
        (st'.root = st.root ∧ markOpen true ops ≠ [])) := by
  have hck : c.cls.kind = .main := by rw [hc]; rfl
  have hdk : d.cls.kind = .main := by
    cases hc : d.cls <;> rw [hc] at hd <;> simp [Cls.isData] at hd <;> rfl
  have hek : e.cls.kind = .main := by rw [he]; rfl
  simp only [namedArray, Bool.and_eq_true] at hn
  obtain ⟨⟨⟨⟨-, hch⟩, hne⟩, haround⟩, -⟩ := hn
  simp only [MainRec.chooses, Bool.and_eq_true, beq_iff_eq, Bool.not_eq_true'] at hch
  obtain ⟨⟨⟨-, hconst⟩, hcnt⟩, hfull⟩ := hch
  have hne' : (h2.main .atMain d.key).usages ≠ [] := by simpa using hne
  -- the collection
  let u := st.expandAll.usage reg 0
  let st1 := (st.expandAll.enter c.val u).clear
  have A0 := sim_main S.sim c.key
  have hu0 := usage_pick reg A0 0
  have hstep1 : step reg st c = .ok st1 := by
    unfold step; simp only [hck]; rw [hc]
  have hpick0 : ∀ l : List Int, pick l 0 = l.head? := by
    intro l; cases l <;> simp [pick]
  have S1 : NSim reg (h.step .atMain c.key) st1 ((c.ival, (h.main .atMain c.key).usages.head?, false) :: ops) {} {} {} := by
    refine ⟨sim_clear S.sim hck rfl S.sim.named ⟨⟨_, _, rfl, rfl⟩, rfl, S.sim.levels⟩, ?_, ?_⟩
    · intro x hx'; simp [st1, State.clear] at hx'
    · refine ⟨⟨c.val, u, rfl, ?_, ?_⟩, S.levels⟩
      · rw [hu0.1, hpick0]
      · intro x hx'
        exact usage_known (expand_known S.known) hx'
  have R1 : Ranges {} {} {} (keys p2 ++ (d.key :: keys p3 ++ e.key :: ys)) := by
    rw [List.append_assoc] at R
    exact ranges_main R hck
  obtain ⟨st2, mu2, ms2, md2, e1, -, S2, R2, l2, s2, r2⟩ := run_others reg p2 (fun i hi => hx i (by simp [hi]))
    (fun i hi => hm i (by simp [hi])) (fun i hi => hp i (by simp [hi])) (fun i hi => hk i (by simp [hi])) _ st1 _ _ _ _ _ S1 R1
  rw [← hh2] at S2
  -- the data item
  have A2 := sim_main S2.sim d.key
  have hlev2 : st2.expandAll.level = ⟨some (c.val, u), []⟩ := by
    show st2.level = _
    rw [l2]; rfl
  have hstk2 : st2.expandAll.stack = st.level :: st.stack := by
    show st2.stack = _
    rw [s2]; rfl
  have hnum2 : ∀ t, st2.expandAll.num t = h2.g t := A2.g
  have hlen : (st2.expandAll.usages.length : Int) = (h2.main .atMain d.key).usages.length := by rw [A2.usages]; simp
  have htest : st2.expandAll.namedTest reg d = .ok true := by
    unfold State.namedTest
    rw [if_pos]
    · unfold inArrayCollection
      rw [hlev2]
      simp only
      simp only [arrayAround, Bool.or_eq_true, Bool.and_eq_true, beq_iff_eq] at haround
      by_cases h4 : d.ival = 2 ∧ c.val.toInt = 4
      · rw [if_pos h4]
      · rw [if_neg h4]
        rcases haround with hr | ⟨hr1, hr2⟩
        · exact absurd ⟨hr.2, hr.1⟩ h4
        · rw [if_pos (show c.val.toInt = 2 from hr1)]
          rw [← hpick0, ← hu0.1] at hr2
          cases hu' : u with
          | none => rw [show st.expandAll.usage reg 0 = none from hu'] at hr2; simp at hr2
          | some x =>
            rw [show st.expandAll.usage reg 0 = some x from hu'] at hr2
            simp only [Option.map_some, Option.any_some] at hr2
            simp only [usage_known (expand_known S.known) (show st.expandAll.usage reg 0 = some x from hu'), hr2]
    · rw [hnum2, hnum2, hnum2, hlen]
      refine ⟨hcnt, ?_⟩
      simp only [MainRec.full, beq_iff_eq] at hfull
      exact hfull
  let v := st2.expandAll.namedValue reg d (h2.main .atMain d.key).usages.length u
  have hnew := new_named reg A2 d hne' u
  let lv : Level := { st.level with members := st.level.members ++ [.leaf (h2.g .reportID) (.value v)] }
  let st3 : State := ({ st2.expandAll with level := lv, stack := st.stack } : State).clear
  have hbit : bitSet d.ival 0 = false := by
    rw [bitSet_zero]; exact hconst
  have hstep3 : step reg st2 d = .ok { st3 with inNamed := true } := by
    have hdata : st2.expandAll.data reg d =
        .ok { st2.expandAll with level := lv, stack := st.stack, inNamed := true } := by
      unfold State.data
      rw [hbit, htest]
      simp only [Bool.false_eq_true, if_false, State.leave, hstk2, hlev2, Bool.false_and]
      simp only [List.isEmpty_nil, if_true, Option.bind_some]
      rw [State.addNew, hnew]
      simp only [State.addValue, lv]
      have : State.num { st2.expandAll with inNamed := true, stack := st.stack, level := st.level } .reportID = h2.g .reportID :=
        hnum2 _
      rw [this]
    unfold step
    simp only [hdk]
    cases hc : d.cls <;> rw [hc] at hd <;> simp [Cls.isData] at hd <;> simp only [hdata] <;> rfl
  have S3 : NSim reg (h2.step .atMain d.key) st3 (markOpen true ops) {} {} {} := by
    refine ⟨sim_clear S2.sim hdk rfl S2.sim.named ?_, ?_, levels_mark S.levels rfl⟩
    · rw [shut_mark]; exact corr_mark S.sim.levels _
    · intro x hx'; simp [st3, State.clear] at hx'
  have R3 : Ranges {} {} {} (keys p3 ++ e.key :: ys) := ranges_main R2 hdk
  obtain ⟨st4, mu4, ms4, md4, -, e4, S4, R4, l4, s4, r4⟩ := run_others reg p3 (fun i hi => hx i (by simp [hi]))
    (fun i hi => hm i (by simp [hi])) (fun i hi => hp i (by simp [hi])) (fun i hi => hk i (by simp [hi])) _ st3 _ _ _ _ _ S3 R3
  rw [← hh3] at S4
  -- the end
  let st5 : State := (if st4.stack.isEmpty then { st4.expandAll with root := some (ended st4.level) } else st4.expandAll).clear
  have hstep5 : step reg { st4 with inNamed := true } e = .ok st5 := by
    have hn4 := S4.sim.named
    unfold step
    simp only [hek]
    rw [he]
    simp only [State.close, State.expandAll, if_true, st5]
    obtain ⟨g, us, ds, ss, loc, inN, lev, stk, root⟩ := st4
    simp only at hn4
    subst hn4
    split <;> rfl
  have hroot4 : st4.root = st.root := by rw [r4]; show st2.root = _; rw [r2]; rfl
  refine ⟨st5, [.leaf (h2.g .reportID) (.value v)], ?_, ?_, ranges_main R4 hek, ?_, ?_, ?_, ?_⟩
  · have hrun : runFrom reg st (c :: p2 ++ d :: p3 ++ [e]) = runFrom reg st1 (p2 ++ (d :: p3 ++ [e])) := by
      rw [show c :: p2 ++ d :: p3 ++ [e] = c :: (p2 ++ (d :: p3 ++ [e])) by simp, runFrom, hstep1]
    rw [hrun, run_append reg _ _ _ e1, List.cons_append, runFrom, hstep3]
    simp only
    rw [run_append reg _ _ _ (e4 true), runFrom, hstep5]
    rfl
  · refine ⟨sim_clear S4.sim hek ?_ ?_ ?_, ?_, ?_⟩
    · split <;> rfl
    · split <;> exact S4.sim.named
    · split <;> exact S4.sim.levels
    · intro x hx'; simp [st5, State.clear] at hx'
    · have : st5.level = st4.level ∧ st5.stack = st4.stack := by
        simp only [st5, State.clear]; split <;> exact ⟨rfl, rfl⟩
      rw [this.1, this.2]; exact S4.levels
  · have : st5.level = st4.level ∧ st5.stack = st4.stack := by
      simp only [st5, State.clear]; split <;> exact ⟨rfl, rfl⟩
    rw [this.1, this.2, l4, s4]
    simp [st3, State.clear, lv, openPieces, Level.pieces, xpiecesL_append, xpiecesL, XNode.pieces, Spec.pieces]
  · simp only [List.flatMap_cons, List.flatMap_nil, List.append_nil, bare, bareLeaf_value, bareLeaf_align, bareLeaf_padding]
    have hev := named_events reg A2 hd rfl hne' hfull hcnt u
    rw [show st2.expandAll.num .reportID = h2.g .reportID from hnum2 _] at hev
    rw [hev, hu0.2, hpick0]
    unfold arrayRecs
    cases hcu : (h.main .atMain c.key).usages with
    | nil => simp
    | cons a l =>
      simp only [List.head?_cons, List.isEmpty_cons, Bool.false_eq_true, if_false, List.flatMap_cons, List.flatMap_nil,
        List.append_nil]
      have h1 : MainRec.events { h.main .atMain c.key with val := 2, strings := [], desigs := [] } =
          [.enter 2 ⟨some a, 0, 0⟩] := by
        have : (h.main .atMain c.key).cls = .collection := hc
        simp [MainRec.events, this, MainRec.selector, hcu, pick]
      have h2' : MainRec.events (h3.main .atMain e.key) = [.leave] := by
        have : (h3.main .atMain e.key).cls = .endCollection := he
        simp [MainRec.events, this]
      rw [h2', ← hcu, h1]
      rfl
  · intro p hp'
    simp only [List.mem_singleton] at hp'
    subst hp'
    refine Or.inr ⟨_, _, rfl, ⟨_, hnew⟩, rfl, ?_, ?_, rfl⟩
    · show 0 ≤ st2.expandAll.num .reportSize
      rw [hnum2]; exact A2.size
    · show arrayUsages (some (st2.expandAll.array reg)) ≠ []
      rw [array_usages reg A2]; exact hne'
  · have hcorr := S4.sim.levels
    cases hs : st4.stack with
    | nil =>
      left
      refine ⟨by simp [st5, hs, State.clear]; rfl, ?_⟩
      rw [hs] at hcorr
      cases hmo : markOpen true ops with
      | nil => rfl
      | cons o os =>
        rw [hmo] at hcorr
        obtain ⟨k, u, b⟩ := o
        exact absurd rfl (corr_ne (corr_cons hcorr).2.2)
    | cons l r =>
      right
      refine ⟨by simp [st5, hs, State.clear]; exact hroot4, ?_⟩
      intro hmo
      rw [hmo] at hcorr
      have := (corr_nil hcorr).1
      rw [hs] at this; simp at this

theorem namedStep_walk {known : Int → Bool} {ops o : List Opened} {r : MainRec} (h : namedStep known ops r = some o)
    (hd : r.cls.isData = false) (hk : r.cls.kind = .main) : walkStep (shut ops) r = some (shut o) := by
  unfold namedStep at h
  unfold walkStep
  cases hc : r.cls <;> rw [hc] at hd hk <;> simp [Cls.isData] at hd <;> simp [Cls.kind] at hk <;> rw [hc] at h <;>
    simp only at h ⊢
  · split at h
    · rename_i hsd
      simp only [Option.some.injEq] at h
      subst h
      rw [if_pos hsd]
      rfl
    · simp at h
  · split at h
    · simp only [Option.some.injEq] at h
      subst h
      simp only [shut, List.map_cons]
      rw [show List.map (fun o => (o.1, o.2.2)) (markOpen true _) = _ from shut_mark true _]
      rfl
    · simp at h

theorem endsClosed_cons (r : MainRec) {rs : List MainRec} (h : rs ≠ []) : endsClosedRec (r :: rs) = endsClosedRec rs := by
  unfold endsClosedRec
  rw [List.getLast?_cons_of_ne_nil h]

theorem data_of_main {c : Cls} (hk : c.kind = .main) (h1 : c ≠ .collection) (h2 : c ≠ .endCollection) : c.isData = true := by
  cases c <;> simp [Cls.kind] at hk h1 h2 <;> rfl

theorem run_named (reg : Registry) (C : Int → Prop) (hC1 : C 1) : ∀ (n : Nat) (xs : List Item), xs.length ≤ n →
    (∀ i ∈ xs, i.Made) → (∀ i ∈ xs, i.cls ≠ .push ∧ i.cls ≠ .pop) → KindsOf reg xs →
    ∀ (h : Host) (st : State) (ops ops' : List Opened) (mu ms md : Met), NSim reg h st ops mu ms md →
      Ranges mu ms md (keys xs) → namedWalk (arrayUsage reg) 0 ops (recs .atMain h (keys xs)) = some ops' →
      (∀ r ∈ recs .atMain h (keys xs), r.cls.isData = true → r.isConst = false →
        r.val / 256 % 2 = 1 → C (r.g .reportCount)) →
      ∃ st' new, runFrom reg st xs = .ok st' ∧ Corr (shut ops') (st'.level :: st'.stack) ∧
        openPieces (st'.level :: st'.stack) = openPieces (st.level :: st.stack) ++ new ∧
        new.flatMap bare = (asArrays (arrayUsage reg) 0 (recs .atMain h (keys xs))).flatMap MainRec.events ∧
        (∀ p ∈ new, PieceOKN C p) ∧
        (recs .atMain h (keys xs) = [] → st'.root = st.root ∧ st'.level = st.level ∧ ops' = ops) ∧
        (endsClosedRec (recs .atMain h (keys xs)) = true → ops' = [] → st'.root = some (ended st'.level)) := by
  intro n
  induction n with
  | zero =>
    intro xs hl _ _ _ h st ops ops' mu ms md S R hw hC
    have : xs = [] := by cases xs with | nil => rfl | cons a l => simp at hl
    subst this
    simp only [keys_nil, recs, namedWalk, Option.some.injEq] at hw
    subst hw
    exact ⟨st, [], rfl, S.sim.levels, by simp, rfl, by simp, fun _ => ⟨rfl, rfl, rfl⟩, by simp [recs, endsClosedRec]⟩
  | succ n ih =>
    intro xs hl hm hp hkd h st ops ops' mu ms md S R hw hC
    cases hrs : recs .atMain h (keys xs) with
    | nil =>
      rw [hrs] at hw
      simp only [namedWalk, Option.some.injEq] at hw
      subst hw
      have hnm : ∀ i ∈ xs, i.cls.kind ≠ .main := by
        clear hl hm hp hkd S R hC
        induction xs generalizing h with
        | nil => simp
        | cons x xs ihx =>
          rw [keys_cons, recs_cons] at hrs
          by_cases hmx : x.key.1.kind = .main
          · rw [if_pos hmx] at hrs; simp at hrs
          · rw [if_neg hmx, List.nil_append] at hrs
            intro i hi
            rcases List.mem_cons.1 hi with rfl | hi
            · exact hmx
            · exact ihx _ hrs i hi
      obtain ⟨st1, mu1, ms1, md1, e1, -, S1, -, l1, s1, r1⟩ := run_others reg xs hnm hm hp hkd h st ops mu ms md [] S
        (by rw [List.append_nil]; exact R)
      refine ⟨st1, [], e1, S1.sim.levels, by rw [l1, s1]; simp, rfl, by simp, fun _ => ⟨r1, l1, rfl⟩, by simp [endsClosedRec]⟩
    | cons r rs =>
      obtain ⟨pre, i, post, rfl, hpre, hik, hr, hrs'⟩ := recs_split .atMain xs h r rs hrs
      have hkeys : keys (pre ++ i :: post) = keys pre ++ i.key :: keys post := by simp [keys_append, keys_cons]
      rw [hkeys] at R
      obtain ⟨st1, mu1, ms1, md1, e1, -, S1, R1, l1, s1, r1⟩ := run_others reg pre hpre
        (fun j hj => hm j (by simp [hj])) (fun j hj => hp j (by simp [hj])) (fun j hj => hkd j (by simp [hj]))
        h st ops mu ms md _ S R
      rw [hrs] at hw hC
      have hbase : openPieces (st1.level :: st1.stack) = openPieces (st.level :: st.stack) := by rw [l1, s1]
      generalize hh1 : h.after .atMain (keys pre) = h1 at S1 hr hrs'
      rw [namedWalk] at hw
      rw [asArrays]
      cases hah : arrayAhead (arrayUsage reg) r rs with
      | some de =>
        obtain ⟨d, e⟩ := de
        rw [hah] at hw
        simp only at hw ⊢
        unfold arrayAhead at hah
        split at hah
        · rename_i d' e' rs2
          split at hah
          · rename_i hnamed
            simp only [Option.some.injEq, Prod.mk.injEq] at hah
            obtain ⟨rfl, rfl⟩ := hah
            obtain ⟨p2, id, post2, hpost, hp2, hidk, hd', hrs2⟩ := recs_split .atMain post _ d' (e' :: rs2) hrs'.symm
            obtain ⟨p3, ie, post3, hpost2, hp3, hiek, he', hrs3⟩ := recs_split .atMain post2 _ e' rs2 hrs2.symm
            subst hpost hpost2
            have hcc : i.cls = .collection := by
              simp only [namedArray, Bool.and_eq_true, beq_iff_eq] at hnamed
              rw [hr] at hnamed
              exact hnamed.1.1.1.1
            have hdd : id.cls.isData = true := by
              simp only [namedArray, Bool.and_eq_true, beq_iff_eq, MainRec.chooses] at hnamed
              rw [hd'] at hnamed
              exact hnamed.1.1.1.2.1.1.1
            have hee : ie.cls = .endCollection := by
              simp only [namedArray, Bool.and_eq_true, beq_iff_eq] at hnamed
              rw [he'] at hnamed
              exact hnamed.2
            have hsub : ∀ j ∈ p2 ++ p3, j ∈ pre ++ i :: (p2 ++ id :: (p3 ++ ie :: post3)) := by
              intro j hj
              rcases List.mem_append.1 hj with hj | hj <;> simp [hj]
            have hkeys2 : i.key :: keys (p2 ++ id :: (p3 ++ ie :: post3)) =
                i.key :: keys p2 ++ id.key :: keys p3 ++ ie.key :: keys post3 := by
              simp [keys_append, keys_cons]
            rw [hkeys2] at R1
            rw [hr, hd', he'] at hnamed
            obtain ⟨st5, new, f1, S5, R5, f2, f3, f4, f5⟩ := run_block reg S1 R1
              (fun j hj => hm j (hsub j hj)) (fun j hj => hp j (hsub j hj)) (fun j hj => hkd j (hsub j hj))
              (fun j hj => by
                rcases List.mem_append.1 hj with hj | hj
                · exact hp2 j hj
                · exact hp3 j hj) hcc hdd hee rfl rfl hnamed C
            have hsub3 : ∀ j ∈ post3, j ∈ pre ++ i :: (p2 ++ id :: (p3 ++ ie :: post3)) := by
              intro j hj; simp [hj]
            rw [hrs3] at hw hC
            obtain ⟨st', new2, g1, g2, g3, g4, g5, g6, g7⟩ := ih post3 (by simp at hl; omega)
              (fun j hj => hm j (hsub3 j hj)) (fun j hj => hp j (hsub3 j hj)) (fun j hj => hkd j (hsub3 j hj))
              _ st5 _ ops' {} {} {} S5 R5 hw (fun r hr => hC r (by simp [hr]))
            refine ⟨st', new ++ new2, ?_, g2, ?_, ?_, ?_, by simp, ?_⟩
            · rw [run_append reg _ _ _ e1]
              rw [show i :: (p2 ++ id :: (p3 ++ ie :: post3)) = (i :: p2 ++ id :: p3 ++ [ie]) ++ post3 by simp]
              rw [run_append reg _ _ _ f1]
              exact g1
            · rw [g3, f2, hbase, List.append_assoc]
            · rw [List.flatMap_append, List.flatMap_append, f3, g4, hr, hd', he', hrs3]
              rfl
            · intro p hp'
              rcases List.mem_append.1 hp' with hp' | hp'
              · exact f4 p hp'
              · exact g5 p hp'
            · intro hend ho
              rw [endsClosed_cons _ (by simp), endsClosed_cons _ (by simp)] at hend
              by_cases hnil : recs .atMain (Host.step .atMain (Host.after .atMain (Host.step .atMain (Host.after .atMain
                  (Host.step .atMain h1 i.key) (keys p2)) id.key) (keys p3)) ie.key) (keys post3) = []
              · obtain ⟨k1, k2, k3⟩ := g6 hnil
                rw [k1, k2]
                rcases f5 with ⟨f5, -⟩ | ⟨-, f5⟩
                · exact f5
                · rw [k3] at ho; exact absurd ho f5
              · rw [hrs3, endsClosed_cons _ hnil] at hend
                exact g7 hend ho
          · simp at hah
        · simp at hah
      | none =>
        rw [hah] at hw
        simp only at hw ⊢
        split at hw
        · simp at hw
        rename_i o hstep
        have hstepGoal : ∃ st2 new, step reg st1 i = .ok st2 ∧ NSim reg (h1.step .atMain i.key) st2 o {} {} {} ∧
            openPieces (st2.level :: st2.stack) = openPieces (st1.level :: st1.stack) ++ new ∧
            new.flatMap bare = r.events ∧ (∀ p ∈ new, PieceOKN C p) ∧
            (i.cls = .endCollection → o = [] → st2.root = some (ended st2.level)) := by
          by_cases hdat : i.cls.isData = true
          · -- a data item
            unfold namedStep at hstep
            have hrc : r.cls = i.cls := by rw [hr]; rfl
            have hcond : ((r.isConst || !lonely (arrayUsage reg) ops r) && dataOK (some 0) r) = true ∧
                o = markOpen (hasFields r) ops := by
              rw [hrc] at hstep
              cases hc : i.cls <;> rw [hc] at hdat <;> simp [Cls.isData] at hdat
              all_goals
                simp only [hc] at hstep
                split at hstep
                · rename_i hh
                  exact ⟨hh, by simpa using hstep.symm⟩
                · simp at hstep
            obtain ⟨hcond, rfl⟩ := hcond
            rw [Bool.and_eq_true, Bool.or_eq_true] at hcond
            obtain ⟨hlon, hok⟩ := hcond
            have A1 := sim_main S1.sim i.key
            rw [hr] at hok hlon
            have htest : (h1.main .atMain i.key).isConst = false → st1.expandAll.namedTest reg i = .ok false := by
              intro hconst
              rw [hconst] at hlon
              simp only [Bool.false_eq_true, false_or, Bool.not_eq_true'] at hlon
              unfold State.namedTest
              split
              · rename_i hcf
                have hnum : ∀ c, st1.expandAll.num c = h1.g c := A1.g
                have hlen : (st1.expandAll.usages.length : Int) = (h1.main .atMain i.key).usages.length := by
                  rw [A1.usages]; simp
                rw [hnum, hnum, hnum, hlen] at hcf
                have hfull : (h1.main .atMain i.key).full = true := by
                  simp only [MainRec.full, beq_iff_eq]; exact hcf.2
                have hcnt : (h1.main .atMain i.key).g .reportCount = 1 := hcf.1
                simp only [lonely, arrayPlace, hfull, hcnt, BEq.rfl, Bool.and_self, Bool.true_and] at hlon
                have hlv := S1.levels
                cases ops with
                | nil => simp at hlon
                | cons o ops =>
                  obtain ⟨k, u, b⟩ := o
                  obtain ⟨⟨k', u', q1, q2, q3⟩, -⟩ := hlv
                  have hcorr := S1.sim.levels
                  obtain ⟨⟨k2, u2, w1, w2⟩, -, -⟩ := corr_cons hcorr
                  rw [q1] at w1
                  simp only [Option.some.injEq, Prod.mk.injEq] at w1
                  obtain ⟨rfl, rfl⟩ := w1
                  simp only [Bool.or_eq_false_iff, Bool.and_eq_false_iff, beq_eq_false_iff_ne, ne_eq] at hlon
                  obtain ⟨t1, t2⟩ := hlon
                  unfold inArrayCollection
                  rw [show st1.expandAll.level.head = some (k', u') from q1]
                  simp only
                  rw [if_neg (by
                    rintro ⟨x, y⟩
                    rcases t1 with t1 | t1
                    · exact t1 (by rw [show k = k'.toInt from w2.symm]; exact y)
                    · exact t1 x)]
                  by_cases h2 : k'.toInt = 2
                  · rw [if_pos h2]
                    rcases t2 with t2 | ⟨t2, t3⟩
                    · exact absurd (by rw [show k = k'.toInt from w2.symm]; exact h2) t2
                    · cases hu' : u' with
                      | none => rw [hu'] at q2; simp only [Option.map_none] at q2; rw [← q2] at t2; simp at t2
                      | some x =>
                        simp only
                        rw [hu'] at q2
                        rw [← q2] at t3
                        simp only [Option.map_some, Option.any_some] at t3
                        rw [q3 x hu', t3]
                  · rw [if_neg h2]
              · rfl
            obtain ⟨st2, new, a1, a2, a3, a4, a5, a6, a7, a8⟩ := step_data reg S1.sim hdat hok htest C hC1
              (fun x y => by
                have z := hC r (by simp) (by rw [hrc]; exact hdat) (by rw [hr]; exact x) (by rw [hr]; exact y)
                rw [hr] at z
                exact z)
            refine ⟨st2, new, a1, ⟨?_, ?_, ?_⟩, a3, by rw [a4, hr], fun p hp' => Or.inl (a5 p hp').1, ?_⟩
            · rw [shut_mark, hr]; exact a2
            · have hcl : st2.usages = [] := by
                have := a2.usages
                unfold step at a1
                simp only [hik] at a1
                split at a1
                · simp at a1
                · simp only [Except.ok.injEq] at a1
                  rw [← a1]; rfl
              rw [hcl]; intro x hx; simp at hx
            · rw [a8]
              exact levels_mark S1.levels a7
            · intro he; rw [he] at hdat; simp [Cls.isData] at hdat
          · -- a collection or an end
            have hdat' : i.cls.isData = false := by simpa using hdat
            have hw1 := namedStep_walk (known := arrayUsage reg) hstep (by rw [hr]; exact hdat') (by rw [hr]; exact hik)
            rw [hr] at hw1
            obtain ⟨st2, new, a1, a2, a3, a4, a5, a6⟩ := step_main reg S1.sim hik (hm i (by simp)) hw1 C hC1
              (fun hdt => absurd hdt hdat)
            refine ⟨st2, new, a1, ⟨a2, ?_, ?_⟩, a3, by rw [a4, hr], fun p hp' => Or.inl (a5 p hp').1, ?_⟩
            · have hcl : st2.usages = [] := by
                unfold step at a1
                simp only [hik] at a1
                split at a1
                · simp at a1
                · simp only [Except.ok.injEq] at a1
                  rw [← a1]; rfl
              rw [hcl]; intro x hx; simp at hx
            · unfold namedStep at hstep
              have hrc : r.cls = i.cls := by rw [hr]; rfl
              by_cases hco : i.cls = .collection
              · rw [hrc, hco] at hstep
                simp only at hstep
                split at hstep
                · simp only [Option.some.injEq] at hstep
                  subst hstep
                  have A1 := sim_main S1.sim i.key
                  have hu0 := usage_pick reg A1 0
                  unfold step at a1
                  simp only [hik] at a1
                  rw [hco] at a1
                  simp only [Except.ok.injEq] at a1
                  subst a1
                  refine ⟨⟨_, _, rfl, ?_, ?_⟩, S1.levels⟩
                  · rw [hu0.1, hr]
                    cases (h1.main .atMain i.key).usages <;> simp [pick]
                  · intro x hx
                    exact usage_known (expand_known S1.known) hx
                · simp at hstep
              · have hen : i.cls = .endCollection := by
                  by_cases hen : i.cls = .endCollection
                  · exact hen
                  · exact absurd (data_of_main hik hco hen) hdat
                rw [hrc, hen] at hstep
                simp only at hstep
                split at hstep
                · rename_i k u ops0
                  simp only [Option.some.injEq] at hstep
                  subst hstep
                  have hn1 : st1.inNamed = false := S1.sim.named
                  obtain ⟨-, hl1⟩ := S1.levels
                  obtain ⟨⟨k', u', w1, w2⟩, w3, w4⟩ := corr_cons S1.sim.levels
                  unfold step at a1
                  simp only [hik] at a1
                  rw [hen] at a1
                  simp only [State.close, State.expandAll, hn1, Bool.false_eq_true, if_false, State.leave] at a1
                  cases hs : st1.stack with
                  | nil => rw [hs] at w4; exact absurd rfl (corr_ne w4)
                  | cons p q =>
                    rw [hs] at hl1
                    rw [hs, w1] at a1
                    simp only [Bool.true_and] at a1
                    have hm0 : st1.level.members.isEmpty = false := by simpa using w3.symm
                    rw [hm0] at a1
                    simp only [Bool.not_false, if_true] at a1
                    have hres : st2.level.head = p.head ∧ st2.stack = q := by
                      split at a1 <;> simp only [Except.ok.injEq] at a1 <;> subst a1 <;> exact ⟨rfl, rfl⟩
                    rw [hres.2]
                    exact levels_mark hl1 hres.1
                · simp at hstep
            · intro he ho
              rcases a6 with ⟨a6, -⟩ | ⟨-, a6⟩
              · exact a6
              · exact absurd ⟨he, by rw [ho]; rfl⟩ a6
        obtain ⟨st2, new, a1, S2, a3, a4, a5, a6⟩ := hstepGoal
        have R2 : Ranges {} {} {} (keys post) := ranges_main R1 hik
        rw [hrs'] at hw hC
        obtain ⟨st', new2, g1, g2, g3, g4, g5, g6, g7⟩ := ih post (by simp at hl; omega)
          (fun j hj => hm j (by simp [hj])) (fun j hj => hp j (by simp [hj])) (fun j hj => hkd j (by simp [hj]))
          _ st2 o ops' {} {} {} S2 R2 hw (fun r hr => hC r (by simp [hr]))
        refine ⟨st', new ++ new2, ?_, g2, ?_, ?_, ?_, by simp, ?_⟩
        · rw [run_append reg _ _ _ e1, runFrom, a1]
          exact g1
        · rw [g3, a3, hbase, List.append_assoc]
        · rw [List.flatMap_append, List.flatMap_cons, a4, g4, hrs']
        · intro p hp'
          rcases List.mem_append.1 hp' with hp' | hp'
          · exact a5 p hp'
          · exact g5 p hp'
        · intro hend ho
          by_cases hnil : recs .atMain (h1.step .atMain i.key) (keys post) = []
          · obtain ⟨k1, k2, k3⟩ := g6 hnil
            rw [k1, k2]
            refine a6 ?_ (by rw [← k3]; exact ho)
            rw [hrs', hnil] at hend
            simpa [endsClosedRec, hr, Host.main] using hend
          · rw [hrs', endsClosed_cons _ hnil] at hend
            exact g7 hend ho

theorem nsim_init (reg : Registry) : NSim reg {} {} [] {} {} {} :=
  ⟨sim_init, by intro u hu; simp at hu, trivial⟩

/-- Reading back a stream with named arrays. -/
theorem extract_named (reg : Registry) (xs : List Item) (hm : ∀ i ∈ xs, i.Made) (hk : KindsOf reg xs)
    (he : NamedExtractable (arrayUsage reg) (keys xs)) (C : Int → Prop) (hC1 : C 1)
    (hC : ∀ r ∈ recs .atMain {} (keys xs), r.cls.isData = true → r.isConst = false →
        r.val / 256 % 2 = 1 → C (r.g .reportCount)) :
    ∃ t, extract reg xs = .ok t ∧
      bareMeaning t = (asArrays (arrayUsage reg) 0 (recs .atMain {} (keys xs))).flatMap MainRec.events ∧
      (∀ p ∈ Spec.pieces 0 t, PieceOKN C p) := by
  obtain ⟨st', new, e1, e2, e3, e4, e5, -, e7⟩ := run_named reg C hC1 xs.length xs (Nat.le_refl _) hm
    (fun i hi => he.noPush i.key (mem_keys.2 ⟨i, hi, rfl⟩)) hk {} {} [] [] {} {} {} (nsim_init reg)
    ⟨he.usages, he.strings, he.desigs⟩ he.closed hC
  obtain ⟨hs, hh⟩ := corr_nil e2
  have hroot := e7 he.ends rfl
  have hp : Spec.pieces 0 (ended st'.level) = new := by
    rw [ended_pieces]
    rw [hs] at e3
    simpa [openPieces, Level.pieces, hh, xpiecesL] using e3
  refine ⟨ended st'.level, ?_, ?_, ?_⟩
  · unfold extract
    rw [e1]
    simp only [hroot]
  · unfold bareMeaning; rw [hp, e4]
  · rw [hp]; exact e5

end Extractor
end Hrdc
