import Verif.Spec.Seam
import Verif.Spec.Extract
import Verif.Proofs.Named
/-!
# Decompiling behind another document

The decompiler's state while it reads a document behind another one is that of reading it alone, put onto
what the first one left.
-/
namespace Hrdc
namespace Extractor
open Spec

/-! ## Reports at the seam -/

theorem addToLast_behind (n : Node) (a b : List Node) (hb : b ≠ []) : addToLast n (a ++ b) = a ++ addToLast n b := by
  induction a with
  | nil => rfl
  | cons x a ih =>
    have hne : a ++ b ≠ [] := by simp [hb]
    have : addToLast n (x :: (a ++ b)) = x :: addToLast n (a ++ b) := by
      cases hab : a ++ b with
      | nil => exact absurd hab hne
      | cons y r => cases x <;> rfl
    rw [List.cons_append, this, ih, List.cons_append]

theorem addToLast_ne_nil (n : Node) (b : List Node) (hb : b ≠ []) : addToLast n b ≠ [] := by
  match b with
  | [] => exact absurd rfl hb
  | [.report i ms] => simp [addToLast]
  | [.value _] | [.align _ _] | [.padding _ _] | [.top _] | [.coll _ _ _] => simp [addToLast]
  | x :: y :: r => cases x <;> simp [addToLast]

theorem insertL_front (xs : List XNode) : ∀ (a b : List Node) (cur : Option Int), (cur = none ∨ b ≠ []) →
    insertL (a ++ b) cur xs = a ++ insertL b cur xs := by
  induction xs with
  | nil => intro a b cur _; simp [insertL]
  | cons x xs ih =>
    intro a b cur h
    rw [insertL, insertL]
    cases hs : x.single with
    | none =>
      simp only
      rw [List.append_assoc]
      exact ih a _ none (Or.inl rfl)
    | some i =>
      simp only
      by_cases hc : cur = some i
      · have hb : b ≠ [] := by
          rcases h with h | h
          · rw [hc] at h; simp at h
          · exact h
        rw [if_pos hc, if_pos hc, addToLast_behind _ _ _ hb]
        exact ih a _ cur (Or.inr (addToLast_ne_nil _ _ hb))
      · rw [if_neg hc, if_neg hc, List.append_assoc]
        exact ih a _ _ (Or.inr (by simp))

theorem insertL_step_one (i : Int) (ms : List Node) (n : Node) :
    addToLast n [.report i ms] = [.report i (ms ++ [n])] := rfl

theorem seam_nil (a : List Node) : seam a [] = a := by
  unfold seam
  cases h : a.getLast? with
  | none => simp
  | some x => cases x <;> simp

theorem seam_one (i j : Int) (ms ms' r : List Node) :
    seam [.report i ms] (.report j ms' :: r) =
      if i = j then .report i (ms ++ ms') :: r else .report i ms :: .report j ms' :: r := by
  simp [seam]

theorem seam_one_other (i : Int) (ms : List Node) (b : List Node) (hb : ∀ j ms' r, b ≠ .report j ms' :: r) :
    seam [.report i ms] b = .report i ms :: b := by
  unfold seam
  simp only [List.getLast?_singleton]
  match b with
  | [] => rfl
  | .report j ms' :: r => exact absurd rfl (hb j ms' r)
  | .value _ :: r | .align _ _ :: r | .padding _ _ :: r | .top _ :: r | .coll _ _ _ :: r => rfl

/-- Joining a report with what begins with more of it gives something beginning with that report. -/
theorem seam_head (i : Int) (ms b : List Node) : ∃ ms' r, seam [.report i ms] b = .report i ms' :: r := by
  by_cases hb : ∃ j ms' r, b = .report j ms' :: r
  · obtain ⟨j, ms', r, rfl⟩ := hb
    rw [seam_one]
    split
    · exact ⟨_, _, rfl⟩
    · exact ⟨_, _, rfl⟩
  · rw [seam_one_other _ _ _ (fun j ms' r e => hb ⟨j, ms', r, e⟩)]
    exact ⟨_, _, rfl⟩

theorem seam_assoc_one (i : Int) (ms ms' b : List Node) :
    seam [.report i ms] (seam [.report i ms'] b) = seam [.report i (ms ++ ms')] b := by
  by_cases hb : ∃ j ms'' r, b = .report j ms'' :: r
  · obtain ⟨j, ms'', r, rfl⟩ := hb
    rw [seam_one, seam_one]
    by_cases h : i = j
    · rw [if_pos h, if_pos h, seam_one, if_pos rfl, List.append_assoc]
    · rw [if_neg h, if_neg h, seam_one, if_pos rfl]
  · have hb' : ∀ j ms' r, b ≠ .report j ms' :: r := fun j ms' r e => hb ⟨j, ms', r, e⟩
    rw [seam_one_other _ _ _ hb', seam_one_other _ _ _ hb', seam_one, if_pos rfl]

theorem reportInsert_coll {x : XNode} (h : x.single = none) : ∃ k u ms, reportInsert x = .coll k u ms := by
  cases x with
  | leaf i n => simp [XNode.single, XNode.ids] at h
  | coll k u ms => exact ⟨k, u, _, by rw [reportInsert]⟩

theorem insertL_open (xs : List XNode) : ∀ (i : Int) (ms : List Node),
    insertL [.report i ms] (some i) xs = seam [.report i ms] (insertL [] none xs) := by
  induction xs with
  | nil => intro i ms; simp [insertL, seam_nil]
  | cons x xs ih =>
    intro i ms
    rw [insertL]
    conv => rhs; rw [insertL]
    cases hs : x.single with
    | none =>
      simp only [List.nil_append]
      obtain ⟨k, u, ns, hr⟩ := reportInsert_coll hs
      have e1 := insertL_front xs ([.report i ms] ++ [reportInsert x]) [] none (Or.inl rfl)
      have e2 := insertL_front xs [reportInsert x] [] none (Or.inl rfl)
      rw [List.append_nil] at e1 e2
      rw [e1, e2, hr, seam_one_other]
      · rfl
      · intro j ms' r e; simp at e
    | some j =>
      simp only [List.nil_append, reduceCtorEq, if_false]
      by_cases h : i = j
      · subst h
        rw [if_pos rfl, insertL_step_one, ih, ih, seam_assoc_one]
      · rw [if_neg (by simpa using h), insertL_front xs [.report i ms] [.report j [x.node]] (some j) (Or.inr (by simp)), ih]
        obtain ⟨ms', r, e⟩ := seam_head j [x.node] (insertL [] none xs)
        rw [e, seam_one, if_neg h]
        rfl

theorem seam_front (a : List Node) (i : Int) (ms b : List Node) :
    seam (a ++ [.report i ms]) b = a ++ seam [.report i ms] b := by
  unfold seam
  simp only [List.getLast?_append, List.getLast?_singleton, Option.some_or]
  match b with
  | [] => simp
  | .report j ms' :: r =>
    simp only
    split <;> simp
  | .value _ :: r | .align _ _ :: r | .padding _ _ :: r | .top _ :: r | .coll _ _ _ :: r => simp

theorem seam_plain (a b : List Node) (ha : ∀ i ms, a.getLast? ≠ some (.report i ms)) : seam a b = a ++ b := by
  unfold seam
  cases h : a.getLast? with
  | none => rfl
  | some x =>
    cases x with
    | report i ms => exact absurd h (ha i ms)
    | value _ => rfl
    | align _ _ => rfl
    | padding _ _ => rfl
    | top _ => rfl
    | coll _ _ _ => rfl

/-- The report that is open is the last member. -/
def LastIs (r : List Node) : Option Int → Prop
  | none => ∀ i ms, r.getLast? ≠ some (.report i ms)
  | some i => ∃ r0 ms, r = r0 ++ [.report i ms]

theorem insertL_then (m l : List XNode) : ∀ (r : List Node) (cur : Option Int), LastIs r cur →
    insertL r cur (m ++ l) = seam (insertL r cur m) (insertL [] none l) := by
  induction m with
  | nil =>
    intro r cur h
    rw [List.nil_append]
    have e : insertL r cur [] = r := by rw [insertL]
    rw [e]
    cases cur with
    | none =>
      have e1 := insertL_front l r [] none (Or.inl rfl)
      rw [List.append_nil] at e1
      rw [e1, seam_plain _ _ h]
    | some i =>
      obtain ⟨r0, ms, rfl⟩ := h
      rw [insertL_front l r0 _ _ (Or.inr (by simp)), insertL_open, seam_front]
  | cons x m ih =>
    intro r cur h
    rw [List.cons_append, insertL, insertL]
    cases hs : x.single with
    | none =>
      simp only
      obtain ⟨k, u, ns, hr⟩ := reportInsert_coll hs
      exact ih _ none (by intro i ms; rw [hr]; simp)
    | some i =>
      simp only
      by_cases hc : cur = some i
      · rw [if_pos hc, if_pos hc]
        subst hc
        obtain ⟨r0, ms, rfl⟩ := h
        rw [addToLast_behind _ _ _ (by simp), insertL_step_one]
        exact ih _ _ ⟨_, _, rfl⟩
      · rw [if_neg hc, if_neg hc]
        exact ih _ _ ⟨_, _, rfl⟩

/-- The members of the root when its elements come in two parts. -/
theorem ended_append (h : Option (PyVal × Option PyVal)) (m l : List XNode) :
    ended ⟨h, m ++ l⟩ = .top (seam (insertL [] none m) (insertL [] none l)) := by
  rw [ended, insertL_then m l [] none (by intro i ms; simp)]

/-! ## The state put onto another -/

/-- The level with elements before its own. -/
def Level.behind (m : List XNode) (l : Level) : Level := { l with members := m ++ l.members }

/-- The levels left, the outermost with elements before its own. -/
def stackBehind (m : List XNode) : List Level → List Level
  | [] => []
  | [b] => [b.behind m]
  | l :: r => l :: stackBehind m r

/-- The tree with members before its own. -/
def rootBehind (a : List Node) : Option Node → Option Node
  | some (.top b) => some (.top (seam a b))
  | _ => some (.top a)

/-- The state with elements before those of its root, and other globals. -/
def State.behind (m : List XNode) (g : Cls → PyVal) (st : State) : State :=
  { st with
    g := g
    stack := stackBehind m st.stack
    level := if st.stack.isEmpty then st.level.behind m else st.level
    root := rootBehind (insertL [] none m) st.root }

theorem stackBehind_isEmpty (m : List XNode) (s : List Level) : (stackBehind m s).isEmpty = s.isEmpty := by
  match s with
  | [] => rfl
  | [_] => rfl
  | _ :: _ :: _ => rfl

theorem stackBehind_cons (m : List XNode) (l : Level) (s : List Level) :
    stackBehind m (l :: s) = (if s.isEmpty then l.behind m else l) :: stackBehind m s := by
  cases s <;> rfl

theorem behind_enter (m : List XNode) (g : Cls → PyVal) (st : State) (k : PyVal) (u : Option PyVal) :
    (st.behind m g).enter k u = (st.enter k u).behind m g := by
  simp [State.enter, State.behind, stackBehind_cons]

theorem behind_addValue (m : List XNode) (g : Cls → PyVal) (st : State) (n : Node)
    (hg : g .reportID = st.g .reportID) : (st.behind m g).addValue n = (st.addValue n).behind m g := by
  simp only [State.addValue, State.behind, State.num, hg]
  by_cases he : st.stack.isEmpty = true
  · simp [he, Level.behind]
  · simp [he]

theorem behind_leave (m : List XNode) (g : Cls → PyVal) (st : State) (keep : Bool) :
    (st.behind m g).leave keep = (st.leave keep).map (State.behind m g) := by
  unfold State.leave
  cases hs : st.stack with
  | nil => simp [State.behind, hs, stackBehind, Except.map]
  | cons p r =>
    have hst : (st.behind m g).stack = (if r.isEmpty then p.behind m else p) :: stackBehind m r := by
      simp [State.behind, hs, stackBehind_cons]
    have hlv : (st.behind m g).level = st.level := by simp [State.behind, hs]
    rw [hst, hlv]
    simp only
    cases hh : st.level.head with
    | none => rfl
    | some ku =>
      obtain ⟨k, u⟩ := ku
      simp only
      by_cases hk : (keep && !st.level.members.isEmpty) = true
      · rw [if_pos hk, if_pos hk]
        simp only [Except.map, State.behind]
        cases r <;> simp [Level.behind]
      · rw [if_neg hk, if_neg hk]
        simp only [Except.map, State.behind]

theorem behind_close (m : List XNode) (g : Cls → PyVal) (st : State) :
    (st.behind m g).close = st.close.map (State.behind m g) := by
  have hfin : ∀ s : State, (if (s.behind m g).stack.isEmpty then
        { s.behind m g with root := some (ended (s.behind m g).level) } else s.behind m g) =
      (if s.stack.isEmpty then { s with root := some (ended s.level) } else s).behind m g := by
    intro s
    have : (s.behind m g).stack.isEmpty = s.stack.isEmpty := stackBehind_isEmpty m s.stack
    rw [this]
    by_cases he : s.stack.isEmpty = true
    · rw [if_pos he, if_pos he]
      have : (s.behind m g).level = s.level.behind m := by simp [State.behind, he]
      rw [this]
      have hE : ended (s.level.behind m) = .top (seam (insertL [] none m) (insertL [] none s.level.members)) :=
        ended_append s.level.head m s.level.members
      rw [hE]
      simp [State.behind, rootBehind, ended]
    · rw [if_neg he, if_neg he]
  unfold State.close
  have hn : (st.behind m g).inNamed = st.inNamed := rfl
  rw [hn]
  cases hi : st.inNamed with
  | true =>
    simp only [if_true]
    have := hfin { st with inNamed := false }
    simp only [Except.map]
    exact congrArg Except.ok this
  | false =>
    simp only [Bool.false_eq_true, if_false]
    rw [behind_leave]
    cases st.leave true with
    | error e => rfl
    | ok s => simp only [Except.map]; exact congrArg Except.ok (hfin s)

theorem behind_addNew (m : List XNode) (g : Cls → PyVal) (st : State) (a : ValueArgs)
    (hg : g .reportID = st.g .reportID) : (st.behind m g).addNew a = (st.addNew a).map (State.behind m g) := by
  unfold State.addNew
  cases Value.new a with
  | error e => rfl
  | ok v => simp only [Except.map]; rw [behind_addValue m g st _ hg]

theorem addNew_g {st st' : State} {a : ValueArgs} (h : st.addNew a = .ok st') : st'.g = st.g := by
  unfold State.addNew at h
  cases hv : Value.new a with
  | error e => rw [hv] at h; simp at h
  | ok v => rw [hv] at h; simp only [Except.ok.injEq] at h; subst h; rfl

theorem behind_addMany (m : List XNode) (g : Cls → PyVal) (as : List ValueArgs) : ∀ st : State,
    g .reportID = st.g .reportID → (st.behind m g).addMany as = (st.addMany as).map (State.behind m g) := by
  induction as with
  | nil => intro st _; rfl
  | cons a as ih =>
    intro st hg
    rw [State.addMany, State.addMany, behind_addNew m g st a hg]
    cases h : st.addNew a with
    | error e => rfl
    | ok st' => simp only [Except.map]; exact ih st' (by rw [addNew_g h]; exact hg)

theorem leave_g {st st' : State} {b : Bool} (h : st.leave b = .ok st') : st'.g = st.g := by
  unfold State.leave at h
  split at h
  · simp at h
  · split at h
    · simp at h
    · split at h <;> (simp only [Except.ok.injEq] at h; subst h; rfl)

/-- What an item makes of the state depends only on the globals it refers to. -/
theorem behind_data (reg : Registry) (m : List XNode) (g : Cls → PyVal) (st : State) (i : Item)
    (hd : i.cls = .input ∨ i.cls = .output ∨ i.cls = .feature)
    (hg : ∀ c, refersTo i.key c = true → g c = st.g c) :
    (st.behind m g).data reg i = (st.data reg i).map (State.behind m g) := by
  have href : ∀ c, refersTo i.key c = ([.reportSize, .reportCount, .reportID].contains c ||
      (!bitSet i.ival 0 && [.usagePage, .logMin, .logMax, .physMin, .physMax, .unit, .unitExp].contains c)) := by
    intro c
    rcases hd with h | h | h <;> simp [refersTo, Item.key, h]
  have hsz : g .reportSize = st.g .reportSize := hg _ (by rw [href]; simp)
  have hct : g .reportCount = st.g .reportCount := hg _ (by rw [href]; simp)
  have hid : g .reportID = st.g .reportID := hg _ (by rw [href]; simp)
  have nsz : (st.behind m g).num .reportSize = st.num .reportSize := by simp [State.num, State.behind, hsz]
  have nct : (st.behind m g).num .reportCount = st.num .reportCount := by simp [State.num, State.behind, hct]
  unfold State.data
  by_cases hb : bitSet i.ival 0 = true
  · rw [if_pos hb, if_pos hb, nsz, nct]
    cases Padding.new (wayOf i.cls) (st.num .reportSize * st.num .reportCount) with
    | error e => rfl
    | ok n => simp only [Except.map]; rw [behind_addValue m g st n hid]
  · rw [if_neg hb, if_neg hb]
    have hbf : bitSet i.ival 0 = false := by simpa using hb
    have hpg : g .usagePage = st.g .usagePage := hg _ (by rw [href, hbf]; simp)
    have hlo : g .logMin = st.g .logMin := hg _ (by rw [href, hbf]; simp)
    have hhi : g .logMax = st.g .logMax := hg _ (by rw [href, hbf]; simp)
    have hpl : g .physMin = st.g .physMin := hg _ (by rw [href, hbf]; simp)
    have hph : g .physMax = st.g .physMax := hg _ (by rw [href, hbf]; simp)
    have hun : g .unit = st.g .unit := hg _ (by rw [href, hbf]; simp)
    have hue : g .unitExp = st.g .unitExp := hg _ (by rw [href, hbf]; simp)
    have nlo : (st.behind m g).num .logMin = st.num .logMin := by simp [State.num, State.behind, hlo]
    have nhi : (st.behind m g).num .logMax = st.num .logMax := by simp [State.num, State.behind, hhi]
    have hus : ∀ k, (st.behind m g).usage reg k = st.usage reg k := by
      intro k; simp [State.usage, State.num, State.behind, hpg]
    have hus' : (st.behind m g).usage reg = st.usage reg := funext hus
    have hul : (st.behind m g).usages = st.usages := rfl
    have har : (st.behind m g).array reg = st.array reg := by
      unfold State.array; rw [hus', hul]
    have haa : ∀ u, (st.behind m g).arrayArgs reg i u = st.arrayArgs reg i u := by
      intro u
      unfold State.arrayArgs
      rw [har, nsz, nlo]
      rfl
    have hra : ∀ k, (st.behind m g).args reg i k = st.args reg i k := by
      intro k
      simp only [State.args, hus, nsz, nlo, nhi]
      simp only [State.num, State.behind, hpl, hph, hun, hue, State.designator, State.string]
    have hra' : (st.behind m g).args reg i = st.args reg i := funext hra
    have hhd : (st.behind m g).level.head = st.level.head := by
      simp only [State.behind]; split <;> rfl
    have hnt : (st.behind m g).namedTest reg i = st.namedTest reg i := by
      unfold State.namedTest inArrayCollection
      rw [nct, nlo, nhi, hul, hhd]
    rw [hnt]
    cases st.namedTest reg i with
    | error e => rfl
    | ok b =>
      cases b with
      | true =>
        simp only
        have hlv := behind_leave m g ({ st with inNamed := true } : State) false
        have hst : ({ st.behind m g with inNamed := true } : State) = ({ st with inNamed := true } : State).behind m g := rfl
        rw [hst, hlv]
        cases hl : ({ st with inNamed := true } : State).leave false with
        | error e => rfl
        | ok st' =>
          simp only [Except.map]
          have hne : st.stack.isEmpty = false := by
            cases hs : st.stack with
            | nil => simp [State.leave, hs] at hl
            | cons p r => rfl
          have hlv' : (st.behind m g).level = st.level := by simp [State.behind, hne]
          rw [hlv', haa]
          by_cases he : st.level.members.isEmpty = true
          · rw [if_pos he, if_pos he]
            have hg' : st'.g = ({ st with inNamed := true } : State).g := leave_g hl
            rw [behind_addNew m g st' _ (by rw [hg']; exact hid)]
            cases st'.addNew _ <;> rfl
          · rw [if_neg he, if_neg he]
      | false =>
        simp only
        rw [hul, nlo, nhi, nct, haa]
        split
        · exact behind_addMany m g _ st hid
        · split
          · rw [hra]; exact behind_addNew m g st _ hid
          · rw [hra']; exact behind_addMany m g _ st hid

/-- One item read behind another document. -/
theorem behind_step (reg : Registry) (m : List XNode) (g : Cls → PyVal) (st : State) (i : Item)
    (hg : ∀ c, refersTo i.key c = true → g c = st.g c) :
    step reg (st.behind m g) i =
      (step reg st i).map (State.behind m (fun c => if i.cls.kind = .global ∧ c = i.cls then i.val else g c)) := by
  unfold step
  cases hk : i.cls.kind with
  | global => simp [Except.map, State.behind]
  | loc =>
    simp only [reduceCtorEq, false_and, if_false, Except.map]
    cases hc : i.cls <;> simp [State.behind]
  | main =>
    simp only [reduceCtorEq, false_and, if_false]
    have hex : (st.behind m g).expandAll = st.expandAll.behind m g := rfl
    rw [hex]
    have hgx : st.expandAll.g = st.g := rfl
    have hcl : ∀ s : State, (s.behind m g).clear = s.clear.behind m g := fun s => rfl
    have hfin : ∀ r : Except PyErr State,
        (match r.map (State.behind m g) with | .error e => Except.error e | .ok st' => .ok st'.clear) =
        (match r with | .error e => Except.error e | .ok st' => Except.ok st'.clear).map (State.behind m g) := by
      intro r; cases r <;> rfl
    have hdata : (i.cls = .input ∨ i.cls = .output ∨ i.cls = .feature) →
        (st.expandAll.behind m g).data reg i = (st.expandAll.data reg i).map (State.behind m g) :=
      fun hd => behind_data reg m g st.expandAll i hd hg
    cases hc : i.cls with
    | collection =>
      simp only
      have hp : g .usagePage = st.expandAll.g .usagePage := hg _ (by simp [refersTo, Item.key, hc])
      have hu : (st.expandAll.behind m g).usage reg 0 = st.expandAll.usage reg 0 := by
        simp only [State.usage, State.num]
        have : (st.expandAll.behind m g).g = g := rfl
        rw [this, hp]
        rfl
      rw [hu, behind_enter]
      rfl
    | endCollection =>
      simp only
      rw [behind_close]
      exact hfin _
    | input => simp only; rw [hdata (by simp [hc])]; exact hfin _
    | output => simp only; rw [hdata (by simp [hc])]; exact hfin _
    | feature => simp only; rw [hdata (by simp [hc])]; exact hfin _
    | _ => rw [hc] at hk; simp [Cls.kind] at hk

/-! ## What a whole document leaves -/

/-- Same globals, levels and named array. -/
structure Stays (st st' : State) : Prop where
  g : st'.g = st.g
  stack : st'.stack = st.stack
  named : st'.inNamed = st.inNamed
  head : st'.level.head = st.level.head

theorem addNew_stays {st st' : State} {a : ValueArgs} (h : st.addNew a = .ok st') : Stays st st' := by
  unfold State.addNew at h
  cases hv : Value.new a with
  | error e => rw [hv] at h; simp at h
  | ok v => rw [hv] at h; simp only [Except.ok.injEq] at h; subst h; exact ⟨rfl, rfl, rfl, rfl⟩

theorem addMany_stays (as : List ValueArgs) : ∀ {st st' : State}, st.addMany as = .ok st' → Stays st st' := by
  induction as with
  | nil => intro st st' h; simp only [State.addMany, Except.ok.injEq] at h; subst h; exact ⟨rfl, rfl, rfl, rfl⟩
  | cons a as ih =>
    intro st st' h
    rw [State.addMany] at h
    cases hn : st.addNew a with
    | error e => rw [hn] at h; simp at h
    | ok s =>
      rw [hn] at h
      have h1 := addNew_stays hn
      have h2 := ih h
      exact ⟨h2.g.trans h1.g, h2.stack.trans h1.stack, h2.named.trans h1.named, h2.head.trans h1.head⟩

/-- Collections that are open, one more between a named array and the end of its collection. -/
def State.weight (st : State) : Int := st.stack.length + if st.inNamed then 1 else 0

/-- The outermost level is the root. -/
def Rooted (l : Level) : List Level → Prop
  | [] => l.head = none
  | p :: r => Rooted p r

theorem rooted_head {l l' : Level} (s : List Level) (h : l'.head = l.head) : Rooted l s → Rooted l' s := by
  cases s with
  | nil => intro hr; exact h.trans hr
  | cons p r => exact id

theorem leave_shape {st st' : State} {b : Bool} (h : st.leave b = .ok st') :
    st'.g = st.g ∧ st'.inNamed = st.inNamed ∧ st'.stack.length + 1 = st.stack.length ∧
    (Rooted st.level st.stack → Rooted st'.level st'.stack) := by
  unfold State.leave at h
  cases hs : st.stack with
  | nil => rw [hs] at h; simp at h
  | cons p r =>
    rw [hs] at h
    cases hh : st.level.head with
    | none => rw [hh] at h; simp at h
    | some ku =>
      obtain ⟨k, u⟩ := ku
      rw [hh] at h
      simp only at h
      split at h <;> (simp only [Except.ok.injEq] at h; subst h; refine ⟨rfl, rfl, by simp, ?_⟩)
      · exact rooted_head r rfl
      · exact id

theorem data_shape {reg : Registry} {st st' : State} {i : Item} (h : st.data reg i = .ok st') :
    st'.g = st.g ∧ st'.weight ≤ st.weight ∧ (Rooted st.level st.stack → Rooted st'.level st'.stack) := by
  have stays : ∀ {s s' : State}, Stays s s' → s'.g = s.g ∧ s'.weight ≤ s.weight ∧
      (Rooted s.level s.stack → Rooted s'.level s'.stack) := by
    intro s s' S
    refine ⟨S.g, ?_, ?_⟩
    · simp [State.weight, S.stack, S.named]
    · rw [S.stack]; exact rooted_head _ S.head
  unfold State.data at h
  split at h
  · split at h
    · simp at h
    · simp only [Except.ok.injEq] at h; subst h; exact stays ⟨rfl, rfl, rfl, rfl⟩
  · split at h
    · simp at h
    · cases hl : ({ st with inNamed := true } : State).leave false with
      | error e => rw [hl] at h; simp at h
      | ok s =>
        rw [hl] at h
        simp only at h
        split at h
        · obtain ⟨h1, h2, h3⟩ := stays (addNew_stays h)
          obtain ⟨l1, l2, l3, l4⟩ := leave_shape hl
          refine ⟨h1.trans l1, ?_, fun hr => h3 (l4 hr)⟩
          simp only [State.weight, l2] at h2 ⊢
          simp only at l3
          have : (0 : Int) ≤ if st.inNamed = true then 1 else 0 := by split <;> simp
          simp only [if_true] at h2
          omega
        · simp at h
    · split at h
      · exact stays (addMany_stays _ h)
      · split at h
        · exact stays (addNew_stays h)
        · exact stays (addMany_stays _ h)

theorem step_shape {reg : Registry} {st st' : State} {i : Item} (h : step reg st i = .ok st') :
    (∀ c, st'.g c = if i.cls.kind = .global ∧ c = i.cls then i.val else st.g c) ∧
    st'.weight ≤ st.weight + netOpen [i.key] ∧ (Rooted st.level st.stack → Rooted st'.level st'.stack) := by
  have hoc : netOpen [i.key] = if i.cls = .collection then 1 else if i.cls = .endCollection then -1 else 0 := by
    show _ + (0 : Int) = _
    rw [Int.add_zero]
    rfl
  rw [hoc]
  unfold step at h
  cases hk : i.cls.kind with
  | global =>
    rw [hk] at h
    simp only [Except.ok.injEq] at h
    subst h
    have h1 : i.cls ≠ .collection := by intro e; rw [e] at hk; simp [Cls.kind] at hk
    have h2 : i.cls ≠ .endCollection := by intro e; rw [e] at hk; simp [Cls.kind] at hk
    rw [if_neg h1, if_neg h2]
    exact ⟨fun c => by simp, by simp [State.weight], id⟩
  | loc =>
    rw [hk] at h
    simp only [Except.ok.injEq] at h
    have h1 : i.cls ≠ .collection := by intro e; rw [e] at hk; simp [Cls.kind] at hk
    have h2 : i.cls ≠ .endCollection := by intro e; rw [e] at hk; simp [Cls.kind] at hk
    rw [if_neg h1, if_neg h2]
    have : st'.g = st.g ∧ st'.stack = st.stack ∧ st'.inNamed = st.inNamed ∧ st'.level = st.level := by
      subst h
      split <;> exact ⟨rfl, rfl, rfl, rfl⟩
    obtain ⟨e1, e2, e3, e4⟩ := this
    refine ⟨fun c => by simp [e1], by simp [State.weight, e2, e3], by rw [e2, e4]; exact id⟩
  | main =>
    rw [hk] at h
    simp only [reduceCtorEq, false_and, if_false]
    have fin : ∀ r : Except PyErr State,
        (match r with | .error e => Except.error e | .ok s => Except.ok s.clear) = .ok st' → ∃ s, r = .ok s ∧ st' = s.clear := by
      intro r hr
      cases r with
      | error e => simp at hr
      | ok s => simp only [Except.ok.injEq] at hr; exact ⟨s, rfl, hr.symm⟩
    obtain ⟨s, h1, rfl⟩ := fin _ h
    have key : s.g = st.expandAll.g ∧
        s.weight ≤ st.expandAll.weight + (if i.cls = .collection then 1 else if i.cls = .endCollection then -1 else 0) ∧
        (Rooted st.expandAll.level st.expandAll.stack → Rooted s.level s.stack) := by
      cases hc : i.cls with
      | collection =>
        rw [hc] at h1
        simp only [Except.ok.injEq] at h1
        subst h1
        refine ⟨rfl, ?_, id⟩
        show ((st.expandAll.stack.length + 1 : Nat) : Int) + (if st.expandAll.inNamed then 1 else 0) ≤
          (st.expandAll.stack.length : Int) + (if st.expandAll.inNamed then 1 else 0) + 1
        omega
      | endCollection =>
        rw [hc] at h1
        simp only at h1
        unfold State.close at h1
        cases hn : st.expandAll.inNamed with
        | true =>
          rw [hn] at h1
          simp only [if_true, Except.ok.injEq] at h1
          have : s.g = st.expandAll.g ∧ s.stack = st.expandAll.stack ∧ s.inNamed = false ∧ s.level = st.expandAll.level := by
            subst h1; split <;> exact ⟨rfl, rfl, rfl, rfl⟩
          obtain ⟨e1, e2, e3, e4⟩ := this
          refine ⟨e1, ?_, by rw [e2, e4]; exact id⟩
          simp [State.weight, e2, e3, hn]
          omega
        | false =>
          rw [hn] at h1
          simp only [Bool.false_eq_true, if_false] at h1
          cases hl : st.expandAll.leave true with
          | error e => rw [hl] at h1; simp at h1
          | ok s' =>
            rw [hl] at h1
            simp only [Except.ok.injEq] at h1
            obtain ⟨l1, l2, l3, l4⟩ := leave_shape hl
            have : s.g = s'.g ∧ s.stack = s'.stack ∧ s.inNamed = s'.inNamed ∧ s.level = s'.level := by
              subst h1; split <;> exact ⟨rfl, rfl, rfl, rfl⟩
            obtain ⟨e1, e2, e3, e4⟩ := this
            refine ⟨e1.trans l1, ?_, by rw [e2, e4]; exact l4⟩
            simp only [State.weight, e2, e3, l2, reduceCtorEq, if_false, if_true]
            omega
      | input => rw [hc] at h1; obtain ⟨a, b, c⟩ := data_shape h1; exact ⟨a, by simpa using b, c⟩
      | output => rw [hc] at h1; obtain ⟨a, b, c⟩ := data_shape h1; exact ⟨a, by simpa using b, c⟩
      | feature => rw [hc] at h1; obtain ⟨a, b, c⟩ := data_shape h1; exact ⟨a, by simpa using b, c⟩
      | _ => rw [hc] at hk; simp [Cls.kind] at hk
    exact ⟨fun c => by have := congrFun key.1 c; exact this, key.2.1, key.2.2⟩

theorem step_g {reg : Registry} {st st' : State} {i : Item} (h : step reg st i = .ok st') (c : Cls) :
    st'.g c = if i.cls.kind = .global ∧ c = i.cls then i.val else st.g c := (step_shape h).1 c

/-- A document read behind another: the globals that differ are set before they are referred to. -/
theorem behind_run (reg : Registry) (m : List XNode) (ys : List Item) : ∀ (g : Cls → PyVal) (st : State),
    (∀ c, g c = st.g c ∨ (c.kind = .global ∧ GivenFirst c (keys ys))) →
    ∃ g', runFrom reg (st.behind m g) ys = (runFrom reg st ys).map (State.behind m g') := by
  induction ys with
  | nil => intro g st _; exact ⟨g, rfl⟩
  | cons i ys ih =>
    intro g st hg
    have hr : ∀ c, refersTo i.key c = true → g c = st.g c := by
      intro c hc
      rcases hg c with h | h
      · exact h
      · obtain ⟨-, h⟩ := h
        simp only [keys, List.map_cons, GivenFirst] at h
        rcases h with h | h
        · exfalso
          have hc' : refersTo i.key i.key.1 = true := by rw [h]; exact hc
          simp only [refersTo] at hc'
          cases hk : i.key.1 <;> rw [hk] at hc' <;> simp at hc'
        · rw [h.1] at hc; simp at hc
    rw [runFrom, runFrom, behind_step reg m g st i hr]
    cases hs : step reg st i with
    | error e => exact ⟨g, rfl⟩
    | ok st' =>
      simp only [Except.map]
      apply ih
      intro c
      rw [step_g hs]
      by_cases hc : i.cls.kind = .global ∧ c = i.cls
      · left; rw [if_pos hc, if_pos hc]
      · rw [if_neg hc, if_neg hc]
        rcases hg c with h | h
        · exact Or.inl h
        · obtain ⟨hg1, h⟩ := h
          simp only [keys, List.map_cons, GivenFirst] at h
          rcases h with h | h
          · have h : i.cls = c := h
            exact absurd ⟨by rw [h]; exact hg1, h.symm⟩ hc
          · exact Or.inr ⟨hg1, h.2⟩

theorem netOpen_append (a b : List SItem) : netOpen (a ++ b) = netOpen a + netOpen b := by
  induction a with
  | nil => simp [netOpen]
  | cons x a ih => simp only [List.cons_append, netOpen, ih]; omega

theorem run_shape (reg : Registry) (xs : List Item) : ∀ {st st' : State}, runFrom reg st xs = .ok st' →
    (∀ c, (∀ i ∈ xs, i.cls.kind = .global → i.cls ≠ c) → st'.g c = st.g c) ∧
    st'.weight ≤ st.weight + netOpen (keys xs) ∧ (Rooted st.level st.stack → Rooted st'.level st'.stack) := by
  induction xs with
  | nil =>
    intro st st' h
    simp only [runFrom, Except.ok.injEq] at h
    subst h
    exact ⟨fun _ _ => rfl, by simp [keys, netOpen], id⟩
  | cons i xs ih =>
    intro st st' h
    rw [runFrom] at h
    cases hs : step reg st i with
    | error e => rw [hs] at h; simp at h
    | ok s =>
      rw [hs] at h
      obtain ⟨a1, a2, a3⟩ := step_shape hs
      obtain ⟨b1, b2, b3⟩ := ih h
      refine ⟨?_, ?_, fun hr => b3 (a3 hr)⟩
      · intro c hc
        rw [b1 c (fun j hj => hc j (by simp [hj])), a1 c, if_neg]
        rintro ⟨h1, h2⟩
        exact hc i (by simp) h1 h2.symm
      · have : netOpen (keys (i :: xs)) = netOpen [i.key] + netOpen (keys xs) := by
          simp [keys, netOpen]
        omega

/-- What a whole document leaves behind: its elements, its tree and its globals, nothing else. -/
theorem whole_left {reg : Registry} {xs : List Item} {st : State} (h : runFrom reg {} xs = .ok st)
    (hw : Whole (keys xs)) : st = ({} : State).behind st.level.members st.g := by
  obtain ⟨hb, hl⟩ := hw
  obtain ⟨-, hwt, hr⟩ := run_shape reg xs h
  rw [hb] at hwt
  have hw0 : ({} : State).weight = 0 := rfl
  rw [hw0] at hwt
  have hstack : st.stack = [] := by
    have : (st.stack.length : Int) ≤ 0 := by
      have : (0 : Int) ≤ if st.inNamed = true then 1 else 0 := by split <;> simp
      simp only [State.weight] at hwt
      omega
    exact List.length_eq_zero_iff.1 (by omega)
  have hnamed : st.inNamed = false := by
    simp only [State.weight, hstack] at hwt
    cases hn : st.inNamed with
    | false => rfl
    | true => rw [hn] at hwt; simp at hwt
  have hhead : st.level.head = none := by
    have := hr rfl
    rw [hstack] at this
    exact this
  -- the last item
  obtain ⟨ys, i, rfl⟩ : ∃ ys i, xs = ys ++ [i] := by
    rcases List.eq_nil_or_concat xs with e | ⟨ys, i, e⟩
    · subst e; simp [keys] at hl
    · exact ⟨ys, i, by simpa using e⟩
  have hi : i.cls = .endCollection := by
    simpa [keys, Item.key] using hl
  obtain ⟨s, hs1, hs2⟩ : ∃ s, runFrom reg {} ys = .ok s ∧ step reg s i = .ok st := by
    cases hy : runFrom reg {} ys with
    | error e =>
      have : ∀ (ys : List Item) (s0 : State), runFrom reg s0 ys = .error e → runFrom reg s0 (ys ++ [i]) = .error e := by
        intro ys
        induction ys with
        | nil => intro s0 h0; simp [runFrom] at h0
        | cons y ys ih =>
          intro s0 h0
          rw [List.cons_append, runFrom]
          rw [runFrom] at h0
          cases hst : step reg s0 y with
          | error e' => rw [hst] at h0; simpa using h0
          | ok s1 => rw [hst] at h0; exact ih s1 h0
      rw [this ys {} hy] at h
      simp at h
    | ok s =>
      rw [run_append reg {} ys [i] hy] at h
      rw [runFrom] at h
      refine ⟨s, rfl, ?_⟩
      cases hst : step reg s i with
      | error e => rw [hst] at h; simp at h
      | ok s' => rw [hst] at h; simpa [runFrom] using h
  unfold step at hs2
  rw [hi] at hs2
  simp only [Cls.kind] at hs2
  cases hc : s.expandAll.close with
  | error e => rw [hc] at hs2; simp at hs2
  | ok s' =>
    rw [hc] at hs2
    simp only [Except.ok.injEq] at hs2
    have hroot : s'.root = some (ended s'.level) := by
      have hse : s'.stack = [] := by rw [← hs2] at hstack; exact hstack
      unfold State.close at hc
      split at hc
      · simp at hc
      · simp only [Except.ok.injEq] at hc
        split at hc
        · subst hc; rfl
        · rename_i hne
          subst hc
          rw [hse] at hne
          simp at hne
    have hmem : ended s'.level = .top (insertL [] none s'.level.members) := rfl
    have e1 : st.level = s'.level := by rw [← hs2]; rfl
    have e2 : st.root = some (.top (insertL [] none st.level.members)) := by
      rw [e1, ← hmem, ← hroot, ← hs2]; rfl
    have e3 : st.level = ⟨none, st.level.members⟩ := by rw [← hhead]
    have e4 : st.usages = [] ∧ st.strings = [] ∧ st.desigs = [] ∧ st.loc = fun _ => none := by
      rw [← hs2]; exact ⟨rfl, rfl, rfl, rfl⟩
    obtain ⟨f1, f2, f3, f4⟩ := e4
    cases st with
    | mk g us ss ds loc stack level inN root =>
      simp only at *
      subst f1 f2 f3 f4 hstack hnamed e2
      simp only [State.behind, stackBehind, List.isEmpty_nil, if_true, Level.behind, List.append_nil, rootBehind]
      rw [← e3]

end Extractor
end Hrdc
