import Verif.Proofs.Dumper
/-!
# Evaluating written scripts: values and containers
-/
namespace Hrdc.Spec.Script
open Hrdc.Dumper

/-! ## What can be written -/

/-- The elements of a named array are written so that Python reads the same usages. -/
def ArrayOK (env : Env) : Option NamedArray → Prop
  | none => True
  | some (.list l) => l ≠ [] ∧ ∀ u ∈ l, denotes env u.str u.toInt = true
  | some (.range r) => r.min.toInt ≤ r.max.toInt ∧ denotes env r.min.str r.min.toInt = true ∧
      denotes env r.max.str r.max.toInt = true

/-- A constructed value whose names Python reads back. -/
structure ValueOK (env : Env) (reg : Registry) (v : Value) : Prop where
  made : ∃ a, Value.new a = .ok v
  usage : ∀ u, v.usage = some u → u.truthy = true →
    denotes env (usageStr reg u) u.toInt = true ∧ eval env (usageStr reg u) ≠ some (.val (.int 0))
  flags : v.namedArray = none → v.flags.toInt ≠ 2 →
    denotes env (prefixWords (tx "Value.") false v.flags.str) v.flags.toInt = true
  array : ArrayOK env v.namedArray
  phys : v.namedArray ≠ none → v.physicalMin = v.logicalMin ∧ v.physicalMax = none
  unit : v.unit.toInt ≠ 0 → denotes env (prefixWords (tx "Unit.") false v.unit.str) v.unit.toInt = true

/-! ## Brackets -/

/-- The frame of a call to a global function. -/
def callFrame (g : Fn) (n : Text) : Frame := { callee := some (.fn g), saved := { cur := .name n } }

theorem run_open (env : Env) (g : Fn) (n : Text) (fs : List Frame) (h : globals n = some (.fn g)) :
    run env ⟨fs, {}, false⟩ [.name n, .op '('] = some ⟨callFrame g n :: fs, {}, false⟩ := by
  simp [run, step, name1, punct, Cur.get, h, callFrame]

/-- One more positional argument. -/
theorem Reads.arg {env : Env} {l : List Tok} {o : Obj} (h : Reads env l o) (f : Frame)
    (fs : List Frame) (hk : f.kws = []) :
    run env ⟨f :: fs, {}, false⟩ (l ++ [.op ',']) = some ⟨{ f with pos := f.pos ++ [o] } :: fs, {}, false⟩ := by
  obtain ⟨st, h1, h2⟩ := h.pend f { f with pos := f.pos ++ [o] } fs none (by simp [Frame.add, hk])
  rw [run_append, h1]
  simp only [Option.bind_some, run, h2.comma]

/-- A bracket whose text ends with the bracket. -/
def Body (env : Env) (t : Text) (o : Obj) : Prop :=
  ∃ k, Whole t k ∧ ∀ fs, run env ⟨fs, {}, false⟩ k = some ⟨fs, { cur := .obj o }, false⟩

theorem Body.reads {env : Env} {t : Text} {o : Obj} (h : Body env t o) : eval env t = some o := by
  obtain ⟨k, hk, hr⟩ := h
  exact (eval_iff _ _ _).mpr ⟨k, hk.lex, _, hr [], rfl, rfl⟩

/-- A comma and a line end after an expression in a bracket. -/
def sepToks : List Tok := [.op ',', .nl]

theorem Whole.comma_nl : Whole (tx ",\n") sepToks := Whole.of_lexM (by decide +kernel)

/-- One member of a list display. -/
theorem reads_elem {env : Env} {l : List Tok} {o : Obj} (h : Reads env l o) (f : Frame)
    (fs : List Frame) (hk : f.kws = []) :
    run env ⟨f :: fs, {}, false⟩ (l ++ sepToks) = some ⟨{ f with pos := f.pos ++ [o] } :: fs, {}, false⟩ := by
  have : l ++ sepToks = (l ++ [.op ',']) ++ [.nl] := by simp [sepToks]
  rw [this, run_append, h.arg f fs hk]
  simp [run, step]

theorem vals_map (l : List PyVal) : vals (l.map Obj.val) = some l := by
  induction l with
  | nil => rfl
  | cons a r ih => simp [vals, ih]

theorem members_map (l : List Node) : members (l.map Obj.node) = some l := by
  induction l with
  | nil => rfl
  | cons a r ih => simp [members, ih]

/-! ## Named arrays -/

/-- The elements of a list display. -/
theorem elems_run (env : Env) (ind : Nat) (l : List PyVal)
    (h : ∀ u ∈ l, denotes env u.str u.toInt = true) :
    ∃ (k : List Tok) (m : List PyVal),
      Whole (l.flatMap (fun u => indent ind ++ u.str ++ tx ",\n")) k ∧
      m.map PyVal.toInt = l.map PyVal.toInt ∧
      ∀ f fs, f.kws = [] → run env ⟨f :: fs, {}, false⟩ k =
        some ⟨{ f with pos := f.pos ++ m.map Obj.val } :: fs, {}, false⟩ := by
  induction l with
  | nil =>
    refine ⟨[], [], Whole.nil, rfl, ?_⟩
    intro f fs _
    simp [run]
  | cons u r ih =>
    obtain ⟨k, m, hk, hm, hr⟩ := ih (fun x hx => h x (List.mem_cons_of_mem _ hx))
    obtain ⟨w, hw, hwi⟩ := (denotes_iff _ _ _).mp (h u List.mem_cons_self)
    obtain ⟨l, hl, hrd⟩ := (eval_iff _ _ _).mp hw
    refine ⟨([] ++ (l ++ sepToks)) ++ k, w :: m, ?_, by simp [hwi, hm], ?_⟩
    · rw [List.flatMap_cons]
      refine Whole.append ?_ hk
      rw [List.append_assoc]
      refine Whole.append (Whole.blanks _) ?_
      exact (Wordy.of_lex hl).whole (by decide) Whole.comma_nl
    · intro f fs hf
      rw [List.nil_append, run_append, reads_elem hrd f fs hf]
      simp only [Option.bind_some]
      rw [hr { f with pos := f.pos ++ [Obj.val w] } fs hf]
      simp

theorem run_close_list (env : Env) (f : Frame) (fs : List Frame) (l : List PyVal) (hc : f.callee = none)
    (hp : f.pos = l.map Obj.val) :
    run env ⟨f :: fs, {}, false⟩ [.op ']'] = some ⟨fs, { f.saved with cur := .obj (.list l) }, false⟩ := by
  simp only [run]
  rw [close_list f fs hc (.list l) (by simp [Frame.result, hc, hp, vals_map])]

/-- A list of usages. -/
theorem list_eval (env : Env) (ind : Nat) (l : List PyVal)
    (h : ∀ u ∈ l, denotes env u.str u.toInt = true) :
    ∃ m : List PyVal, m.map PyVal.toInt = l.map PyVal.toInt ∧
      eval env (tx "[\n" ++ l.flatMap (fun u => indent ind ++ u.str ++ tx ",\n") ++ indent ind ++ tx "]") =
        some (.list m) := by
  obtain ⟨k, m, hk, hm, hr⟩ := elems_run env ind l h
  refine ⟨m, hm, (eval_iff _ _ _).mpr ⟨[.op '[', .nl] ++ k ++ [] ++ [.op ']'], ?_, ?_⟩⟩
  · refine Whole.lex ?_
    refine Whole.append (Whole.append (Whole.append (Whole.of_lexM (by decide +kernel)) hk) (Whole.blanks _))
      (Whole.of_lexM (by decide +kernel))
  · refine ⟨⟨[], { cur := .obj (.list m) }, false⟩, ?_, rfl, rfl⟩
    rw [List.append_nil, run_append, run_append]
    have h1 : run env {} [.op '[', .nl] = some ⟨[{ callee := none, saved := {} }], {}, false⟩ := by
      simp [run, step, punct]
    rw [h1]
    simp only [Option.bind_some]
    rw [hr _ _ rfl]
    simp only [Option.bind_some]
    rw [run_close_list env _ _ m rfl (by simp)]

theorem lex_comma_space : Whole (tx ", ") [.op ','] := Whole.of_lexM (by decide +kernel)

/-- The last argument of a call. -/
theorem run_last {env : Env} {l : List Tok} {o r : Obj} (h : Reads env l o) (f : Frame)
    (fs : List Frame) (hk : f.kws = []) (g : Obj) (hg : f.callee = some g)
    (hr : ({ f with pos := f.pos ++ [o] } : Frame).result = some r) :
    run env ⟨f :: fs, {}, false⟩ (l ++ [.op ')']) = some ⟨fs, { f.saved with cur := .obj r }, false⟩ := by
  obtain ⟨st, h1, h2⟩ := h.pend f { f with pos := f.pos ++ [o] } fs none (by simp [Frame.add, hk])
  rw [run_append, h1]
  simp only [Option.bind_some, run]
  rw [h2.close g hg r hr]

/-- A call with two arguments. -/
theorem call2 (env : Env) (g : Fn) (n : Text) (a b : Text) (x y r : Obj)
    (hg : globals n = some (.fn g)) (hn : lexM .idle (n ++ tx "(") = some (.idle, [.name n, .op '(']))
    (ha : eval env a = some x) (hb : eval env b = some y) (hr : call g [x, y] [] = some r) :
    Body env (n ++ tx "(" ++ a ++ tx ", " ++ b ++ tx ")") r := by
  obtain ⟨l, hl, hx⟩ := (eval_iff _ _ _).mp ha
  obtain ⟨m, hm, hy⟩ := (eval_iff _ _ _).mp hb
  refine ⟨[.name n, .op '('] ++ ((l ++ [.op ',']) ++ (m ++ [.op ')'])), ?_, ?_⟩
  · have e : n ++ tx "(" ++ a ++ tx ", " ++ b ++ tx ")" = (n ++ tx "(") ++ ((a ++ tx ", ") ++ (b ++ tx ")")) := by
      simp [List.append_assoc]
    rw [e]
    refine Whole.append (Whole.of_lexM hn) (Whole.append ?_ ?_)
    · exact (Wordy.of_lex hl).whole (by decide) lex_comma_space
    · exact (Wordy.of_lex hm).whole (by decide) (Whole.of_lexM (by decide +kernel))
  · intro fs
    rw [run_append, run_open env g n fs hg]
    simp only [Option.bind_some]
    rw [run_append, hx.arg _ _ rfl]
    simp only [Option.bind_some]
    rw [run_last hy _ _ rfl (.fn g) rfl (r := r) (by simpa [Frame.result, callFrame] using hr)]
    rfl

/-- A range of usages. -/
theorem range_eval (env : Env) (r : UsageRange) (h1 : denotes env r.min.str r.min.toInt = true)
    (h2 : denotes env r.max.str r.max.toInt = true) :
    ∃ s : UsageRange, s.min.toInt = r.min.toInt ∧ s.max.toInt = r.max.toInt ∧
      eval env (tx "UsageRange(" ++ r.min.str ++ tx ", " ++ r.max.str ++ tx ")") = some (.range s) := by
  obtain ⟨a, ha, hai⟩ := (denotes_iff _ _ _).mp h1
  obtain ⟨b, hb, hbi⟩ := (denotes_iff _ _ _).mp h2
  refine ⟨⟨a, b⟩, hai, hbi, Body.reads ?_⟩
  exact call2 env .usageRange (tx "UsageRange") _ _ _ _ _ rfl (by decide +kernel) ha hb rfl

/-! ## Values -/

theorem eval_optStr (env : Env) (x : Option Int) : eval env (optStr x) = some (optObj x) := by
  cases x with
  | none => exact eval_mono env _ _ rfl
  | some i => exact eval_pyStr env i

theorem eval_way (env : Env) (w : Way) : eval env (tx "Value." ++ wayName w) = some (wayObj w) := by
  cases w <;> exact eval_mono env _ _ rfl

/-- A call to `Value`. -/
theorem value_body (env : Env) (w : Way) (us : Text) (u : Option PyVal) (s : Int) (k : Kw) (tt : Text)
    (kt : List Tok) (v : Value) (hu : eval env us = some (usageObj u)) (ht : Tail env tt kt k.binds)
    (hv : Value.new (k.args w u s) = .ok v) :
    Body env (tx "Value(Value." ++ wayName w ++ tx ", " ++ us ++ tx ", " ++ pyStr s ++ tt ++ tx ")")
      (.node (.value v)) := by
  obtain ⟨l1, hl1, r1⟩ := (eval_iff _ _ _).mp (eval_way env w)
  obtain ⟨l2, hl2, r2⟩ := (eval_iff _ _ _).mp hu
  obtain ⟨l3, hl3, r3⟩ := (eval_iff _ _ _).mp (eval_pyStr env s)
  refine ⟨[.name (tx "Value"), .op '('] ++ ((l1 ++ [.op ',']) ++ ((l2 ++ [.op ',']) ++ ((l3 ++ kt) ++ [.op ')']))), ?_, ?_⟩
  · have e : tx "Value(Value." ++ wayName w ++ tx ", " ++ us ++ tx ", " ++ pyStr s ++ tt ++ tx ")" =
        tx "Value(" ++ (((tx "Value." ++ wayName w) ++ tx ", ") ++ ((us ++ tx ", ") ++ ((pyStr s ++ tt) ++ tx ")"))) := by
      have : tx "Value(Value." = tx "Value(" ++ tx "Value." := by decide +kernel
      rw [this]
      simp only [List.append_assoc]
    rw [e]
    refine Whole.append (Whole.of_lexM (by decide +kernel)) (Whole.append ?_ (Whole.append ?_ ?_))
    · exact (Wordy.of_lex hl1).whole (by decide) lex_comma_space
    · exact (Wordy.of_lex hl2).whole (by decide) lex_comma_space
    · exact ((Wordy.of_lex hl3).append_sep ht.wordy ht.first (fun e => ht.toks_nil e)).whole (by decide)
        (Whole.of_lexM (by decide +kernel))
  · intro fs
    rw [run_append, run_open env .value (tx "Value") fs rfl]
    simp only [Option.bind_some]
    rw [run_append, r1.arg _ _ rfl]
    simp only [Option.bind_some]
    rw [run_append, r2.arg _ _ rfl]
    simp only [Option.bind_some]
    rw [run_append, run_append]
    have hadd : ∀ f : Frame, f.kws = [] → f.add none (.val (.int s)) = some { f with pos := f.pos ++ [.val (.int s)] } := by
      intro f hf; simp [Frame.add, hf]
    obtain ⟨st, hs1, hs2⟩ := r3.pend
      { callFrame .value (tx "Value") with pos := [wayObj w] ++ [usageObj u] } _ fs none (hadd _ rfl)
    have hs1' : run env ⟨{ callFrame .value (tx "Value") with pos := [wayObj w] ++ [usageObj u] } :: fs, {}, false⟩ l3 = some st := hs1
    simp only [callFrame, List.nil_append] at hs1' ⊢
    rw [hs1']
    simp only [Option.bind_some]
    obtain ⟨st', ht1, ht2⟩ := ht.runs _ _ _ hs2
      (by simpa [callFrame] using k.names.nodup kwNames_nodup) rfl
    rw [ht1]
    simp only [Option.bind_some, run]
    rw [ht2.close (.fn .value) rfl (.node (.value v))
      (by simpa [Frame.result, callFrame] using k.call w u s v hv)]
    rfl

/-- The keyword arguments written for a value, with the objects its names denote. -/
def kwOf (v : Value) (shown : Bool) (fl un : PyVal) (arr : Option NamedArray) : Kw where
  flags := (shown, fl)
  logicalMin := (decide (v.logicalMin ≠ some 1), v.logicalMin)
  namedArray := (arr.isSome, arr.getD (.list []))
  logicalMax := (decide (arr = none ∧ v.logicalMax ≠ none), v.logicalMax)
  physicalMin := (decide (arr = none ∧ (v.physicalMin ≠ v.logicalMin ∨ v.physicalMax ≠ v.logicalMax) ∧
    v.physicalMin ≠ none), v.physicalMin)
  physicalMax := (decide (arr = none ∧ (v.physicalMin ≠ v.logicalMin ∨ v.physicalMax ≠ v.logicalMax) ∧
    v.physicalMax ≠ none), v.physicalMax)
  unit := (decide (v.unit.toInt ≠ 0), un)
  unitExponent := (decide (v.unitExponent ≠ 0), v.unitExponent)
  designator := (decide (v.designator ≠ 0), v.designator)
  string := (decide (v.string ≠ 0), v.string)
  count := (decide (v.count ≠ 1), v.count)
  alignment := (decide (v.alignment ≠ min 8 v.size), v.alignment)

/-- The text of a named array. -/
def arrText (ind : Nat) : Option NamedArray → Text
  | some (.range r) => tx "UsageRange(" ++ r.min.str ++ tx ", " ++ r.max.str ++ tx ")"
  | some (.list l) => tx "[\n" ++ l.flatMap (fun u => indent (ind + 1) ++ u.str ++ tx ",\n") ++
      indent (ind + 1) ++ tx "]"
  | none => []

/-- The text of the keyword arguments. -/
def tailText (ind : Nat) (v : Value) (shown : Bool) : Text :=
  optT shown (tx "flags") (prefixWords (tx "Value.") false v.flags.str) ++
  (optT (decide (v.logicalMin ≠ some 1)) (tx "logicalMin") (optStr v.logicalMin) ++
  (optT v.namedArray.isSome (tx "namedArray") (arrText ind v.namedArray) ++
  (optT (decide (v.namedArray = none ∧ v.logicalMax ≠ none)) (tx "logicalMax") (optStr v.logicalMax) ++
  (optT (decide (v.namedArray = none ∧ (v.physicalMin ≠ v.logicalMin ∨ v.physicalMax ≠ v.logicalMax) ∧
    v.physicalMin ≠ none)) (tx "physicalMin") (optStr v.physicalMin) ++
  (optT (decide (v.namedArray = none ∧ (v.physicalMin ≠ v.logicalMin ∨ v.physicalMax ≠ v.logicalMax) ∧
    v.physicalMax ≠ none)) (tx "physicalMax") (optStr v.physicalMax) ++
  (optT (decide (v.unit.toInt ≠ 0)) (tx "unit") (prefixWords (tx "Unit.") false v.unit.str) ++
  (optT (decide (v.unitExponent ≠ 0)) (tx "unitExponent") (pyStr v.unitExponent) ++
  (optT (decide (v.designator ≠ 0)) (tx "designator") (pyStr v.designator) ++
  (optT (decide (v.string ≠ 0)) (tx "string") (pyStr v.string) ++
  (optT (decide (v.count ≠ 1)) (tx "count") (pyStr v.count) ++
  optT (decide (v.alignment ≠ min 8 v.size)) (tx "alignment") (pyStr v.alignment)))))))))))

theorem ite_optT (p : Prop) [Decidable p] (n t : Text) : (if p then kw n t else []) = optT (decide p) n t := by
  unfold optT; by_cases h : p <;> simp [h]

theorem tail_text (ind : Nat) (v : Value) (shown : Bool) :
    flagsStr v shown ++ (if v.logicalMin ≠ some 1 then kw (tx "logicalMin") (optStr v.logicalMin) else []) ++
      arrayStr ind v ++ restStr v = tailText ind v shown := by
  unfold tailText flagsStr restStr
  simp only [ite_optT]
  have ha : arrayStr ind v = optT v.namedArray.isSome (tx "namedArray") (arrText ind v.namedArray) ++
      (optT (decide (v.namedArray = none ∧ v.logicalMax ≠ none)) (tx "logicalMax") (optStr v.logicalMax) ++
      (optT (decide (v.namedArray = none ∧ (v.physicalMin ≠ v.logicalMin ∨ v.physicalMax ≠ v.logicalMax) ∧
        v.physicalMin ≠ none)) (tx "physicalMin") (optStr v.physicalMin) ++
      optT (decide (v.namedArray = none ∧ (v.physicalMin ≠ v.logicalMin ∨ v.physicalMax ≠ v.logicalMax) ∧
        v.physicalMax ≠ none)) (tx "physicalMax") (optStr v.physicalMax))) := by
    unfold arrayStr
    cases h : v.namedArray with
    | some a => cases a <;> simp [optT, arrText]
    | none =>
      simp only [physStr, ite_optT]
      by_cases hp : (v.physicalMin ≠ v.logicalMin ∨ v.physicalMax ≠ v.logicalMax)
      · simp only [hp, if_true, true_and, Option.isSome_none]
        simp [optT]
      · simp only [hp, if_false, false_and, and_false, Option.isSome_none]
        simp [optT]
  rw [ha]
  simp only [Bool.decide_eq_true, List.append_assoc]

/-- The keyword arguments evaluate. -/
theorem tail_value (env : Env) (ind : Nat) (v : Value) (shown : Bool) (fl un : PyVal) (arr : Option NamedArray)
    (hf : shown = true → eval env (prefixWords (tx "Value.") false v.flags.str) = some (.val fl))
    (hu : v.unit.toInt ≠ 0 → eval env (prefixWords (tx "Unit.") false v.unit.str) = some (.val un))
    (hs : arr.isSome = v.namedArray.isSome)
    (ha : ∀ a, arr = some a → eval env (arrText ind v.namedArray) = some (arrObj a)) :
    ∃ k, Tail env (tailText ind v shown) k (kwOf v shown fl un arr).binds := by
  have hn : (arr = none) = (v.namedArray = none) := by
    cases arr <;> cases h : v.namedArray <;> simp_all
  unfold tailText Kw.binds kwOf
  simp only [hn, hs]
  obtain ⟨k1, t1⟩ := Tail.opt (n := tx "flags") shown (by decide +kernel) hf
  obtain ⟨k2, t2⟩ := Tail.opt (n := tx "logicalMin") (decide (v.logicalMin ≠ some 1)) (by decide +kernel)
    (fun _ => eval_optStr env v.logicalMin)
  obtain ⟨k3, t3⟩ := Tail.opt (env := env) (n := tx "namedArray") (t := arrText ind v.namedArray)
    (o := arrObj (arr.getD (.list []))) v.namedArray.isSome (by decide +kernel)
    (fun h => by
      rw [← hs] at h
      obtain ⟨a, rfl⟩ := Option.isSome_iff_exists.mp h
      exact ha a rfl)
  obtain ⟨k4, t4⟩ := Tail.opt (n := tx "logicalMax")
    (decide (v.namedArray = none ∧ v.logicalMax ≠ none)) (by decide +kernel)
    (fun _ => eval_optStr env v.logicalMax)
  obtain ⟨k5, t5⟩ := Tail.opt (n := tx "physicalMin")
    (decide (v.namedArray = none ∧ (v.physicalMin ≠ v.logicalMin ∨ v.physicalMax ≠ v.logicalMax) ∧
      v.physicalMin ≠ none)) (by decide +kernel)
    (fun _ => eval_optStr env v.physicalMin)
  obtain ⟨k6, t6⟩ := Tail.opt (n := tx "physicalMax")
    (decide (v.namedArray = none ∧ (v.physicalMin ≠ v.logicalMin ∨ v.physicalMax ≠ v.logicalMax) ∧
      v.physicalMax ≠ none)) (by decide +kernel)
    (fun _ => eval_optStr env v.physicalMax)
  obtain ⟨k7, t7⟩ := Tail.opt (n := tx "unit") (decide (v.unit.toInt ≠ 0)) (by decide +kernel)
    (fun h => hu (by simpa using h))
  obtain ⟨k8, t8⟩ := Tail.opt (n := tx "unitExponent") (decide (v.unitExponent ≠ 0)) (by decide +kernel)
    (fun _ => eval_pyStr env v.unitExponent)
  obtain ⟨k9, t9⟩ := Tail.opt (n := tx "designator") (decide (v.designator ≠ 0)) (by decide +kernel)
    (fun _ => eval_pyStr env v.designator)
  obtain ⟨k10, t10⟩ := Tail.opt (n := tx "string") (decide (v.string ≠ 0)) (by decide +kernel)
    (fun _ => eval_pyStr env v.string)
  obtain ⟨k11, t11⟩ := Tail.opt (n := tx "count") (decide (v.count ≠ 1)) (by decide +kernel)
    (fun _ => eval_pyStr env v.count)
  obtain ⟨k12, t12⟩ := Tail.opt (n := tx "alignment") (decide (v.alignment ≠ min 8 v.size)) (by decide +kernel)
    (fun _ => eval_pyStr env v.alignment)
  exact ⟨_, t1.append (t2.append (t3.append (t4.append (t5.append (t6.append (t7.append (t8.append
    (t9.append (t10.append (t11.append t12))))))))))⟩

/-! ## Rebuilding -/

/-- The same named array, in the same form. -/
theorem sameArray_len {a b : NamedArray} (h : sameArray (some a) (some b)) : a.len = b.len := by
  cases a with
  | list l =>
    cases b with
    | list m =>
      have := congrArg List.length (h : l.map PyVal.toInt = m.map PyVal.toInt)
      simp at this
      simp [NamedArray.len, this]
    | range r => exact absurd h (fun h => h)
  | range r =>
    cases b with
    | list m => exact absurd h (fun h => h)
    | range s =>
      obtain ⟨h1, h2⟩ := h
      have hr : r.rawLen = s.rawLen := by unfold UsageRange.rawLen; rw [h1, h2]
      simp [NamedArray.len, UsageRange.len, hr]

theorem arrayOK_truth {env : Env} {a : NamedArray} (h : ArrayOK env (some a)) :
    ∃ n, a.len = .ok n ∧ n ≠ 0 := by
  cases a with
  | list l =>
    refine ⟨l.length, rfl, ?_⟩
    have := h.1
    intro h0
    exact this (List.length_eq_zero_iff.mp h0)
  | range r =>
    have h1 := h.1
    have hr : 0 < r.rawLen := by unfold UsageRange.rawLen; omega
    refine ⟨r.rawLen.toNat, ?_, ?_⟩
    · simp only [NamedArray.len, UsageRange.len]
      rw [if_neg (by omega)]
    · omega

theorem truthOpt_of_len {a : NamedArray} {n : Nat} (h : a.len = .ok n) (hn : n ≠ 0) :
    truthOpt (some a) = .ok true := by
  simp [truthOpt, NamedArray.truth, h, hn]

/-- The same array read back. -/
theorem array_eval (env : Env) (ind : Nat) (o : Option NamedArray) (h : ArrayOK env o) :
    ∃ arr, sameArray o arr ∧ arr.isSome = o.isSome ∧
      ∀ a, arr = some a → eval env (arrText ind o) = some (arrObj a) := by
  cases o with
  | none => exact ⟨none, trivial, rfl, by simp⟩
  | some b =>
    cases b with
    | list l =>
      obtain ⟨m, hm, he⟩ := list_eval env (ind + 1) l h.2
      refine ⟨some (.list m), hm.symm, rfl, ?_⟩
      rintro a ha
      simp only [Option.some.injEq] at ha
      subst ha
      exact he
    | range r =>
      obtain ⟨s, h1, h2, he⟩ := range_eval env r h.2.1 h.2.2
      refine ⟨some (.range s), ⟨h1.symm, h2.symm⟩, rfl, ?_⟩
      rintro a ha
      simp only [Option.some.injEq] at ha
      subst ha
      exact he

/-- A constructed value, seen from its attributes. -/
theorem made_cases {v : Value} {a : ValueArgs} (h : Value.new a = .ok v) :
    (∃ b n lo, v.namedArray = some b ∧ b.len = .ok n ∧ n ≠ 0 ∧ v.logicalMin = some lo ∧
      v.logicalMax = some (n + lo - 1) ∧
      v.flags = (if usageGiven v.usage then .named (tx "Variable") 2 else .int 0)) ∨
    (truthOpt v.namedArray = .ok false ∧
      ((v.logicalMax = none ∨ v.logicalMin = none) → constFlag v.flags = true) ∧
      ((v.physicalMin = v.logicalMin ∧ v.physicalMax = v.logicalMax) ∨
        ∃ p q, v.physicalMin = some p ∧ v.physicalMax = some q ∧ (p ≠ 0 ∨ q ≠ 0))) := by
  unfold Value.new at h
  split at h
  · simp at h
  · rename_i named ht
    split at h
    · simp at h
    · rename_i hc
      simp only at h
      cases named with
      | true =>
        cases hna : a.namedArray with
        | none => rw [hna] at ht; simp [truthOpt] at ht
        | some arr =>
          rw [hna] at h ht
          simp only at h
          cases hlen : arr.len with
          | error e => rw [hlen] at h; simp at h
          | ok n =>
            rw [hlen] at h
            cases hlo : a.logicalMin with
            | none => rw [hlo] at h; simp at h
            | some lo =>
              rw [hlo] at h
              simp only [Except.ok.injEq] at h
              subst h
              refine .inl ⟨arr, n, lo, rfl, hlen, ?_, rfl, rfl, rfl⟩
              simp only [truthOpt, NamedArray.truth, hlen, Except.ok.injEq] at ht
              simpa using ht
      | false =>
        simp only [Except.ok.injEq] at h
        subst h
        refine .inr ⟨ht, ?_, ?_⟩
        · intro hb
          simp only at hb
          by_cases hcf : constFlag a.flags = true
          · exact hcf
          · exact absurd ⟨hb, by simp, hcf⟩ hc
        · simp only
          by_cases hp : (intGiven a.physicalMin || intGiven a.physicalMax) = true
          · right
            simp only [hp, if_true]
            refine ⟨_, _, rfl, rfl, ?_⟩
            simp only [Bool.or_eq_true] at hp
            rcases hp with hp | hp
            · left
              cases hq : a.physicalMin with
              | none => rw [hq] at hp; simp [intGiven] at hp
              | some q => rw [hq] at hp; simpa [intGiven] using hp
            · right
              cases hq : a.physicalMax with
              | none => rw [hq] at hp; simp [intGiven] at hp
              | some q => rw [hq] at hp; simpa [intGiven] using hp
          · left
            simp [hp]

/-- The usage argument read back. -/
theorem usage_eval (env : Env) (reg : Registry) (v : Value) (h : ValueOK env reg v) :
    ∃ u, eval env (valueUsage reg v.usage) = some (usageObj u) ∧
      usageGiven u = usageGiven v.usage ∧ (usageGiven v.usage = true → sameUsage v.usage u) := by
  cases hv : v.usage with
  | none => exact ⟨none, eval_mono env _ _ rfl, rfl, by simp [usageGiven]⟩
  | some u =>
    by_cases ht : u.truthy = true
    · obtain ⟨h1, h2⟩ := h.usage u hv ht
      obtain ⟨w, hw, hwi⟩ := (denotes_iff _ _ _).mp h1
      refine ⟨some w, ?_, ?_, ?_⟩
      · simp only [valueUsage, ht, if_true]; exact hw
      · simp only [usageGiven, ht]
        cases w with
        | int i =>
          have : i ≠ 0 := by rintro rfl; exact h2 hw
          simp [PyVal.truthy, this]
        | named n i => rfl
        | usage c => rfl
      · intro _; simp [sameUsage, hwi]
    · refine ⟨none, ?_, ?_, ?_⟩
      · simp only [valueUsage, ht, if_false, Bool.false_eq_true]; exact eval_mono env _ _ rfl
      · simpa [usageGiven] using ht
      · intro hg; simp only [usageGiven] at hg; exact absurd hg ht

theorem constFlag_congr {a b : PyVal} (h : a.toInt = b.toInt) : constFlag a = constFlag b := by
  simp [constFlag, h]

/-- The attributes before the named array is looked at. -/
def plainOf (a : ValueArgs) : Value where
  way := a.way
  flags := a.flags
  usage := a.usage
  size := a.size
  alignment := a.alignment.getD (min 8 a.size)
  logicalMin := a.logicalMin
  logicalMax := a.logicalMax
  physicalMin := if intGiven a.physicalMin || intGiven a.physicalMax then some (a.physicalMin.getD 0) else a.logicalMin
  physicalMax := if intGiven a.physicalMin || intGiven a.physicalMax then some (a.physicalMax.getD 0) else a.logicalMax
  namedArray := a.namedArray
  unit := a.unit
  unitExponent := a.unitExponent
  designator := a.designator
  string := a.string
  count := a.count

theorem new_named {a : ValueArgs} {b : NamedArray} {n : Nat} {lo : Int} (h : a.namedArray = some b)
    (hl : b.len = .ok n) (hn : n ≠ 0) (hlo : a.logicalMin = some lo) :
    Value.new a = .ok { plainOf a with
      flags := if usageGiven a.usage then .named (tx "Variable") 2 else .int 0
      logicalMax := some (n + lo - 1) } := by
  unfold Value.new
  rw [h, truthOpt_of_len hl hn]
  simp only [not_true_eq_false, false_and, and_false, if_false]
  rw [hl, hlo]
  simp only [plainOf, h, hlo]

theorem new_plain {a : ValueArgs} (h : a.namedArray = none)
    (hc : (a.logicalMax = none ∨ a.logicalMin = none) → constFlag a.flags = true) :
    Value.new a = .ok (plainOf a) := by
  unfold Value.new
  rw [h]
  simp only [truthOpt]
  rw [if_neg]
  · simp only [plainOf, h]
  · rintro ⟨hb, -, hcf⟩
    exact hcf (hc hb)

/-- A written value is rebuilt. -/
theorem value_rebuilt (env : Env) (reg : Registry) (ind : Nat) (v : Value) (h : ValueOK env reg v) :
    ∃ t w, value reg ind v = .ok (indent ind ++ t ++ tx ",\n") ∧ SameValue v w ∧
      Body env t (.node (.value w)) := by
  obtain ⟨a, ha⟩ := h.made
  obtain ⟨u, hu, hug, hus⟩ := usage_eval env reg v h
  obtain ⟨arr, hsame, hsome, harr⟩ := array_eval env ind v.namedArray h.array
  obtain ⟨un, hun, huni⟩ : ∃ un : PyVal, (v.unit.toInt ≠ 0 →
      eval env (prefixWords (tx "Unit.") false v.unit.str) = some (.val un)) ∧
      (if v.unit.toInt ≠ 0 then un else .int 0).toInt = v.unit.toInt := by
    by_cases h0 : v.unit.toInt = 0
    · exact ⟨.int 0, fun hh => absurd h0 hh, by rw [h0]; rfl⟩
    · obtain ⟨w, hw, hwi⟩ := (denotes_iff _ _ _).mp (h.unit h0)
      exact ⟨w, fun _ => hw, by simp [h0, hwi]⟩
  have hal : (if v.alignment ≠ min 8 v.size then some v.alignment else none).getD (min 8 v.size) = v.alignment := by
    split
    · rfl
    · rename_i hh
      simp only [ne_eq, Decidable.not_not] at hh
      simp [hh]
  have hlm : (if v.logicalMin ≠ some 1 then v.logicalMin else some 1) = v.logicalMin := by
    split
    · rfl
    · rename_i hh; simp only [ne_eq, Decidable.not_not] at hh; rw [hh]
  have hz : ∀ x d : Int, (if x ≠ d then x else d) = x := by
    intro x d; split <;> simp_all
  -- the value made from the written arguments
  have key : ∃ shown fl w, flagsShown v = .ok shown ∧
      (shown = true → eval env (prefixWords (tx "Value.") false v.flags.str) = some (.val fl)) ∧
      Value.new ((kwOf v shown fl un arr).args v.way u v.size) = .ok w ∧ SameValue v w := by
    rcases made_cases ha with ⟨b, n, lo, hb, hlen, hn, hlo, hmax, hfl⟩ | ⟨hfalse, hc, hphys⟩
    · -- named arrays
      obtain ⟨b', rfl⟩ : ∃ b', arr = some b' := by
        rw [hb] at hsome
        exact Option.isSome_iff_exists.mp (by simpa using hsome)
      rw [hb] at hsame
      have hlen' : b'.len = .ok n := by rw [← sameArray_len hsame]; exact hlen
      obtain ⟨hp1, hp2⟩ := h.phys (by rw [hb]; simp)
      have hshown : flagsShown v = .ok false := by
        unfold flagsShown
        rw [hb, truthOpt_of_len hlen hn, hfl]
        cases hg : usageGiven v.usage <;> simp [PyVal.toInt]
      have hargs2 : ((kwOf v false (.int 0) un (some b')).args v.way u v.size).logicalMin = some lo := by
        simp only [plainOf, Kw.args, kwOf, decide_eq_true_eq]
        rw [hlm, hlo]
      refine ⟨false, .int 0, _, hshown, by simp, new_named rfl hlen' hn hargs2, ?_⟩
      · refine ⟨rfl, ?_, ?_, hus, rfl, ?_, ?_, ?_, ?_, ?_, ?_, ?_, ?_, ?_, ?_, ?_⟩
        · rw [hfl]
          show _ = (if usageGiven u then _ else _ : PyVal).toInt
          rw [hug]
        · exact hug.symm
        · simp only [plainOf, Kw.args, kwOf, decide_eq_true_eq]
          exact hal.symm
        · exact hlo.trans hargs2.symm
        · exact hmax
        · rw [hp1, hlo]
          refine hargs2.symm.trans ?_
          simp [plainOf, Kw.args, kwOf, intGiven]
        · rw [hp2]
          simp [plainOf, Kw.args, kwOf, intGiven]
        · simpa [plainOf, Kw.args, kwOf, hb] using hsame
        · simp only [plainOf, Kw.args, kwOf, decide_eq_true_eq]; exact huni.symm
        · simp only [plainOf, Kw.args, kwOf, decide_eq_true_eq, hz]
        · simp only [plainOf, Kw.args, kwOf, decide_eq_true_eq, hz]
        · simp only [plainOf, Kw.args, kwOf, decide_eq_true_eq, hz]
        · simp only [plainOf, Kw.args, kwOf, decide_eq_true_eq, hz]
    · -- ordinary values
      have hna : v.namedArray = none := by
        cases hb : v.namedArray with
        | none => rfl
        | some b =>
          have h1 := h.array
          rw [hb] at h1 hfalse
          obtain ⟨n, h2, h3⟩ := arrayOK_truth h1
          rw [truthOpt_of_len h2 h3] at hfalse
          simp at hfalse
      have harr0 : arr = none := by
        cases arr with
        | none => rfl
        | some b => rw [hna] at hsome; simp at hsome
      subst harr0
      obtain ⟨fl, hflE, hfli⟩ : ∃ fl : PyVal, (v.flags.toInt ≠ 2 →
          eval env (prefixWords (tx "Value.") false v.flags.str) = some (.val fl)) ∧
          (if v.flags.toInt ≠ 2 then fl else .int 2).toInt = v.flags.toInt := by
        by_cases h0 : v.flags.toInt = 2
        · exact ⟨.int 2, fun hh => absurd h0 hh, by rw [h0]; rfl⟩
        · obtain ⟨w, hw, hwi⟩ := (denotes_iff _ _ _).mp (h.flags hna h0)
          exact ⟨w, fun _ => hw, by simp [h0, hwi]⟩
      have hshown : flagsShown v = .ok (decide (v.flags.toInt ≠ 2)) := by
        unfold flagsShown
        by_cases h0 : v.flags.toInt = 2
        · simp [h0]
        · simp [h0, hna, truthOpt]
      have hmaxE : (if v.logicalMax ≠ none then v.logicalMax else none) = v.logicalMax := by
        split
        · rfl
        · rename_i hh; simp only [ne_eq, Decidable.not_not] at hh; rw [hh]
      have e2 : ((kwOf v (decide (v.flags.toInt ≠ 2)) fl un none).args v.way u v.size).logicalMin = v.logicalMin := by
        simp only [plainOf, Kw.args, kwOf, decide_eq_true_eq]; exact hlm
      have e3 : ((kwOf v (decide (v.flags.toInt ≠ 2)) fl un none).args v.way u v.size).logicalMax = v.logicalMax := by
        simp only [plainOf, Kw.args, kwOf, decide_eq_true_eq, true_and]; exact hmaxE
      have e4 : constFlag ((kwOf v (decide (v.flags.toInt ≠ 2)) fl un none).args v.way u v.size).flags = constFlag v.flags := by
        apply constFlag_congr
        simp only [plainOf, Kw.args, kwOf, decide_eq_true_eq]; exact hfli
      refine ⟨_, fl, _, hshown, fun hs => hflE (by simpa using hs),
        new_plain rfl (by rw [e2, e3, e4]; exact hc), ?_⟩
      · have hP : (v.physicalMin = v.logicalMin ∧ v.physicalMax = v.logicalMax) ∨
            ((v.physicalMin ≠ v.logicalMin ∨ v.physicalMax ≠ v.logicalMax) ∧
              ∃ p q, v.physicalMin = some p ∧ v.physicalMax = some q ∧ (p ≠ 0 ∨ q ≠ 0)) := by
          by_cases h1 : v.physicalMin = v.logicalMin <;> by_cases h2 : v.physicalMax = v.logicalMax
          · exact .inl ⟨h1, h2⟩
          all_goals
            rcases hphys with hphys | hphys
            · exact .inl hphys
            · exact .inr ⟨by simp [h1, h2], hphys⟩
        refine ⟨rfl, ?_, hug.symm, hus, rfl, ?_, ?_, ?_, ?_, ?_, ?_, ?_, ?_, ?_, ?_, ?_⟩
        · simp only [plainOf, Kw.args, kwOf, decide_eq_true_eq]; exact hfli.symm
        · simp only [plainOf, Kw.args, kwOf, decide_eq_true_eq]
          exact hal.symm
        · simp only [plainOf, Kw.args, kwOf, decide_eq_true_eq]; exact hlm.symm
        · simp only [plainOf, Kw.args, kwOf, decide_eq_true_eq, true_and]; exact hmaxE.symm
        · rcases hP with ⟨h1, h2⟩ | ⟨hd, p, q, h1, h2, hpq⟩
          · have hd : ¬ (v.physicalMin ≠ v.logicalMin ∨ v.physicalMax ≠ v.logicalMax) := by simp [h1, h2]
            simp only [plainOf, Kw.args, kwOf, decide_eq_true_eq, hd, false_and, and_false, if_false, intGiven,
              Bool.or_self, Bool.false_eq_true]
            rw [hlm, h1]
          · have hg : (intGiven v.physicalMin || intGiven v.physicalMax) = true := by
              rw [h1, h2]; simpa [intGiven] using hpq
            have n1 : v.physicalMin ≠ none := by rw [h1]; simp
            have n2 : v.physicalMax ≠ none := by rw [h2]; simp
            simp only [plainOf, Kw.args, kwOf, decide_eq_true_eq, true_and]
            rw [if_pos (⟨hd, n1⟩ : _ ∧ _), if_pos (⟨hd, n2⟩ : _ ∧ _), hg]
            simp [h1]
        · rcases hP with ⟨h1, h2⟩ | ⟨hd, p, q, h1, h2, hpq⟩
          · have hd : ¬ (v.physicalMin ≠ v.logicalMin ∨ v.physicalMax ≠ v.logicalMax) := by simp [h1, h2]
            simp only [plainOf, Kw.args, kwOf, decide_eq_true_eq, hd, false_and, and_false, if_false, intGiven,
              Bool.or_self, Bool.false_eq_true, true_and]
            rw [hmaxE, h2]
          · have hg : (intGiven v.physicalMin || intGiven v.physicalMax) = true := by
              rw [h1, h2]; simpa [intGiven] using hpq
            have n1 : v.physicalMin ≠ none := by rw [h1]; simp
            have n2 : v.physicalMax ≠ none := by rw [h2]; simp
            simp only [plainOf, Kw.args, kwOf, decide_eq_true_eq, true_and]
            rw [if_pos (⟨hd, n1⟩ : _ ∧ _), if_pos (⟨hd, n2⟩ : _ ∧ _), hg]
            simp [h2]
        · rw [hna]; exact trivial
        · simp only [plainOf, Kw.args, kwOf, decide_eq_true_eq]; exact huni.symm
        · simp only [plainOf, Kw.args, kwOf, decide_eq_true_eq, hz]
        · simp only [plainOf, Kw.args, kwOf, decide_eq_true_eq, hz]
        · simp only [plainOf, Kw.args, kwOf, decide_eq_true_eq, hz]
        · simp only [plainOf, Kw.args, kwOf, decide_eq_true_eq, hz]
  obtain ⟨shown, fl, w, hsh, hfl, hnew, hsm⟩ := key
  obtain ⟨kt, htail⟩ := tail_value env ind v shown fl un arr hfl hun hsome harr
  refine ⟨_, w, ?_, hsm, value_body env v.way _ u v.size _ _ kt w hu htail hnew⟩
  unfold value
  rw [hsh]
  simp only [Except.ok.injEq]
  rw [← tail_text]
  have : tx "),\n" = tx ")" ++ tx ",\n" := by decide +kernel
  rw [this]
  unfold headStr
  simp only [List.append_assoc]

/-! ## Trees -/

mutual
/-- A tree made of such values, with collection kinds and usages Python reads back. -/
def Writable (env : Env) (reg : Registry) : Node → Prop
  | .value v => ValueOK env reg v
  | .align _ _ => True
  | .padding _ _ => True
  | .report _ ms => WritableL env reg ms
  | .top ms => WritableL env reg ms
  | .coll k u ms => denotes env (tx "Collection." ++ k.str) k.toInt = true ∧
      (∀ x, u = some x → denotes env (usageStr reg x) x.toInt = true) ∧ WritableL env reg ms
/-- All members. -/
def WritableL (env : Env) (reg : Registry) : List Node → Prop
  | [] => True
  | n :: ns => Writable env reg n ∧ WritableL env reg ns
end

/-- A bracket at nesting `ind`, whose text is `t`. -/
theorem foot_pos (ind : Nat) (h : ind ≠ 0) : foot ind = indent ind ++ tx ")" ++ tx ",\n" := by
  have : tx ",\n" = tx "," ++ tx "\n" := by decide +kernel
  rw [this]
  simp [foot, h, List.append_assoc]

theorem head_pos (ind : Nat) (h : ind ≠ 0) : head ind = [] := by simp [head, h]

/-- Members of a container. -/
def Members (env : Env) (t : Text) (ms : List Node) : Prop :=
  ∃ k, Whole t k ∧ ∀ f fs, f.kws = [] → run env ⟨f :: fs, {}, false⟩ k =
    some ⟨{ f with pos := f.pos ++ ms.map Obj.node } :: fs, {}, false⟩

theorem Members.nil (env : Env) : Members env [] [] :=
  ⟨[], Whole.nil, fun f fs _ => by simp [run]⟩

theorem Members.cons {env : Env} {t s : Text} {n : Node} {ms : List Node} (ind : Nat)
    (h : Body env t (.node n)) (hs : Members env s ms) :
    Members env ((indent ind ++ t ++ tx ",\n") ++ s) (n :: ms) := by
  obtain ⟨k, hk, hr⟩ := h
  obtain ⟨l, hl, hm⟩ := hs
  refine ⟨(([] ++ k) ++ sepToks) ++ l, ?_, ?_⟩
  · exact Whole.append (Whole.append (Whole.append (Whole.blanks _) hk) Whole.comma_nl) hl
  · intro f fs hf
    have hreads : Reads env k (.node n) := ⟨_, hr [], rfl, rfl⟩
    rw [List.nil_append, run_append, reads_elem hreads f fs hf]
    simp only [Option.bind_some]
    rw [hm { f with pos := f.pos ++ [.node n] } fs hf]
    simp

/-- A container call: opening text, first arguments, members, closing bracket. -/
theorem container (env : Env) (g : Fn) (n : Text) (ind : Nat) (hd : Text) (hdk : List Tok) (pos : List Obj)
    (t : Text) (ms : List Node) (r : Obj)
    (hh : Whole hd hdk)
    (hrun : ∀ fs, run env ⟨fs, {}, false⟩ hdk = some ⟨{ callFrame g n with pos := pos } :: fs, {}, false⟩)
    (hm : Members env t ms) (hr : call g (pos ++ ms.map Obj.node) [] = some r) :
    Body env (hd ++ t ++ indent ind ++ tx ")") r := by
  obtain ⟨k, hk, hmr⟩ := hm
  refine ⟨hdk ++ k ++ [] ++ [.op ')'], ?_, ?_⟩
  · exact Whole.append (Whole.append (Whole.append hh hk) (Whole.blanks _)) (Whole.of_lexM (by decide +kernel))
  · intro fs
    rw [List.append_nil, run_append, run_append, hrun]
    simp only [Option.bind_some]
    rw [hmr { callFrame g n with pos := pos } fs rfl]
    simp only [Option.bind_some, run]
    rw [close_fresh _ fs (.fn g) rfl r (by simpa [Frame.result, callFrame] using hr)]
    rfl

/-- Opening texts. -/
theorem top_open (env : Env) : Whole (tx "TopLevel(\n") [.name (tx "TopLevel"), .op '(', .nl] ∧
    ∀ fs, run env ⟨fs, {}, false⟩ [.name (tx "TopLevel"), .op '(', .nl] =
      some ⟨{ callFrame .topLevel (tx "TopLevel") with pos := [] } :: fs, {}, false⟩ := by
  refine ⟨Whole.of_lexM (by decide +kernel), fun fs => ?_⟩
  have e : [Tok.name (tx "TopLevel"), .op '(', .nl] = [Tok.name (tx "TopLevel"), .op '('] ++ [.nl] := rfl
  rw [e, run_append, run_open env .topLevel (tx "TopLevel") fs rfl]
  simp [run, step, callFrame]

theorem report_open (env : Env) (i : Int) : ∃ k, Whole (tx "Report(" ++ pyStr i ++ tx ",\n") k ∧
    ∀ fs, run env ⟨fs, {}, false⟩ k =
      some ⟨{ callFrame .report (tx "Report") with pos := [.val (.int i)] } :: fs, {}, false⟩ := by
  refine ⟨[.name (tx "Report"), .op '('] ++ (intToks i ++ sepToks), ?_, fun fs => ?_⟩
  · rw [List.append_assoc]
    exact Whole.append (Whole.of_lexM (by decide +kernel))
      ((Wordy.of_lex (lex_pyStr i)).whole (by decide) Whole.comma_nl)
  · rw [run_append, run_open env .report (tx "Report") fs rfl]
    simp only [Option.bind_some]
    rw [reads_elem (reads_int env i) _ _ rfl]
    rfl

theorem coll_open (env : Env) (kt ut : Text) (k : PyVal) (u : Option PyVal)
    (hk : eval env (tx "Collection." ++ kt) = some (.val k)) (hu : eval env ut = some (usageObj u)) :
    ∃ l, Whole (tx "Collection(Collection." ++ kt ++ tx ", " ++ ut ++ tx ",\n") l ∧
    ∀ fs, run env ⟨fs, {}, false⟩ l =
      some ⟨{ callFrame .collection (tx "Collection") with pos := [.val k, usageObj u] } :: fs, {}, false⟩ := by
  obtain ⟨l1, hl1, r1⟩ := (eval_iff _ _ _).mp hk
  obtain ⟨l2, hl2, r2⟩ := (eval_iff _ _ _).mp hu
  refine ⟨[.name (tx "Collection"), .op '('] ++ ((l1 ++ [.op ',']) ++ (l2 ++ sepToks)), ?_, fun fs => ?_⟩
  · have e : tx "Collection(Collection." ++ kt ++ tx ", " ++ ut ++ tx ",\n" =
        tx "Collection(" ++ (((tx "Collection." ++ kt) ++ tx ", ") ++ (ut ++ tx ",\n")) := by
      have : tx "Collection(Collection." = tx "Collection(" ++ tx "Collection." := by decide +kernel
      rw [this]
      simp only [List.append_assoc]
    rw [e]
    refine Whole.append (Whole.of_lexM (by decide +kernel)) (Whole.append ?_ ?_)
    · exact (Wordy.of_lex hl1).whole (by decide) lex_comma_space
    · exact (Wordy.of_lex hl2).whole (by decide) Whole.comma_nl
  · rw [run_append, run_open env .collection (tx "Collection") fs rfl]
    simp only [Option.bind_some]
    rw [run_append, r1.arg _ _ rfl]
    simp only [Option.bind_some]
    rw [reads_elem r2 _ _ rfl]
    rfl

theorem align_new (w : Way) (b : Int) : Align.new w b = .ok (.align w b) := rfl

theorem padding_new (w : Way) (s : Int) : Padding.new w s = .ok (.padding w s) := rfl

/-- `Align` and `Padding`. -/
theorem small_body (env : Env) (w : Way) (b : Int) :
    Body env (tx "Align(Value." ++ wayName w ++ tx ", " ++ pyStr b ++ tx ")") (.node (.align w b)) ∧
    Body env (tx "Padding(Value." ++ wayName w ++ tx ", " ++ pyStr b ++ tx ")") (.node (.padding w b)) := by
  constructor
  · have := call2 env .align (tx "Align") _ _ _ _ (.node (.align w b)) rfl (by decide +kernel)
      (eval_way env w) (eval_pyStr env b) (by cases w <;> rfl)
    have e : tx "Align(Value." = tx "Align" ++ tx "(" ++ tx "Value." := by decide +kernel
    rw [e]
    simpa only [List.append_assoc] using this
  · have := call2 env .padding (tx "Padding") _ _ _ _ (.node (.padding w b)) rfl (by decide +kernel)
      (eval_way env w) (eval_pyStr env b) (by cases w <;> rfl)
    have e : tx "Padding(Value." = tx "Padding" ++ tx "(" ++ tx "Value." := by decide +kernel
    rw [e]
    simpa only [List.append_assoc] using this

/-- The usage of a collection read back. -/
theorem collUsage_eval (env : Env) (reg : Registry) (u : Option PyVal)
    (h : ∀ x, u = some x → denotes env (usageStr reg x) x.toInt = true) :
    ∃ t, eval env (collUsage reg u) = some (usageObj t) ∧ sameUsage u t := by
  cases u with
  | none => exact ⟨none, eval_mono env _ _ rfl, rfl⟩
  | some x =>
    obtain ⟨w, hw, hwi⟩ := (denotes_iff _ _ _).mp (h x rfl)
    exact ⟨some w, hw, by simp [sameUsage, hwi]⟩

mutual
/-- A written element is rebuilt. -/
theorem node_rebuilt (env : Env) (reg : Registry) (ind : Nat) (n : Node) (h : Writable env reg n) :
    ∃ t m, Same n m ∧ Body env t (.node m) ∧
      (ind ≠ 0 → node reg ind n = .ok (indent ind ++ t ++ tx ",\n")) ∧
      (ind = 0 → (∀ v, n ≠ .value v) → (∀ w b, n ≠ .align w b) → (∀ w s, n ≠ .padding w s) →
        node reg 0 n = .ok (header ++ (t ++ tx "\n") ++ footer)) := by
  have close0 : ∀ hd t : Text, head 0 ++ (indent 0 ++ hd) ++ t ++ foot 0 =
      header ++ ((hd ++ t ++ indent 0 ++ tx ")") ++ tx "\n") ++ footer := by
    intro hd t
    simp only [head, foot, if_true, ne_eq, not_true_eq_false, if_false, header, footer, indent, Nat.zero_mul,
      List.replicate_zero, List.append_nil, List.nil_append, List.append_assoc]
  have closeS : ∀ (hd t : Text), ind ≠ 0 → head ind ++ (indent ind ++ hd) ++ t ++ foot ind =
      indent ind ++ (hd ++ t ++ indent ind ++ tx ")") ++ tx ",\n" := by
    intro hd t h0
    rw [foot_pos ind h0, head_pos ind h0]
    simp only [List.nil_append, List.append_assoc]
  cases n with
  | value v =>
    obtain ⟨t, w, h1, h2, h3⟩ := value_rebuilt env reg ind v h
    exact ⟨t, .value w, h2, h3, fun _ => h1, fun _ hv => absurd rfl (hv v)⟩
  | align w b =>
    refine ⟨_, .align w b, ⟨rfl, rfl⟩, (small_body env w b).1, fun _ => ?_, fun _ _ ha => absurd rfl (ha w b)⟩
    have : tx "),\n" = tx ")" ++ tx ",\n" := by decide +kernel
    simp only [node, this, List.append_assoc]
  | padding w b =>
    refine ⟨_, .padding w b, ⟨rfl, rfl⟩, (small_body env w b).2, fun _ => ?_, fun _ _ _ hp => absurd rfl (hp w b)⟩
    have : tx "),\n" = tx ")" ++ tx ",\n" := by decide +kernel
    simp only [node, this, List.append_assoc]
  | report i ms =>
    obtain ⟨t, ns, hs, hm, ht⟩ := nodes_rebuilt env reg ind ms h
    obtain ⟨k, hk, hrun⟩ := report_open env i
    refine ⟨_, .report i ns, ⟨rfl, hs⟩, container env .report (tx "Report") ind _ k _ t ns _ hk hrun hm
      (by simp [call, members_map]), fun h0 => ?_, fun h0 _ _ _ => ?_⟩
    · rw [← closeS _ t h0]; simp only [node, ht, List.append_assoc]
    · subst h0; rw [← close0 _ t]; simp only [node, ht, List.append_assoc]
  | top ms =>
    obtain ⟨t, ns, hs, hm, ht⟩ := nodes_rebuilt env reg ind ms h
    obtain ⟨hk, hrun⟩ := top_open env
    refine ⟨_, .top ns, hs, container env .topLevel (tx "TopLevel") ind _ _ _ t ns _ hk hrun hm
      (by simp [call, members_map]), fun h0 => ?_, fun h0 _ _ _ => ?_⟩
    · rw [← closeS _ t h0]; simp only [node, ht, List.append_assoc]
    · subst h0; rw [← close0 _ t]; simp only [node, ht, List.append_assoc]
  | coll c u ms =>
    obtain ⟨hc, hu, hms⟩ := h
    obtain ⟨t, ns, hs, hm, ht⟩ := nodes_rebuilt env reg ind ms hms
    obtain ⟨c', hc', hci⟩ := (denotes_iff _ _ _).mp hc
    obtain ⟨u', hu', hus⟩ := collUsage_eval env reg u hu
    obtain ⟨k, hk, hrun⟩ := coll_open env c.str (collUsage reg u) c' u' hc' hu'
    refine ⟨_, .coll c' u' ns, ⟨hci.symm, hus, hs⟩, container env .collection (tx "Collection") ind _ k _ t ns _ hk hrun hm
      (by simp [call, members_map, usageArg_obj]), fun h0 => ?_, fun h0 _ _ _ => ?_⟩
    · rw [← closeS _ t h0]; simp only [node, ht, List.append_assoc]
    · subst h0; rw [← close0 _ t]; simp only [node, ht, List.append_assoc]
/-- Written members are rebuilt. -/
theorem nodes_rebuilt (env : Env) (reg : Registry) (ind : Nat) (l : List Node) (h : WritableL env reg l) :
    ∃ t ms, SameL l ms ∧ Members env t ms ∧ nodes reg (ind + 1) l = .ok t := by
  cases l with
  | nil => exact ⟨[], [], trivial, Members.nil env, rfl⟩
  | cons n ns =>
    obtain ⟨t, m, h1, h2, h3, -⟩ := node_rebuilt env reg (ind + 1) n h.1
    obtain ⟨s, ms, h4, h5, h6⟩ := nodes_rebuilt env reg ind ns h.2
    refine ⟨_, m :: ms, ⟨h1, h4⟩, h5.cons (ind + 1) h2, ?_⟩
    simp only [nodes, h3 (by omega), h6]
end

/-- The container elements. -/
def isContainer : Node → Bool
  | .report _ _ => true
  | .top _ => true
  | .coll _ _ _ => true
  | _ => false

/-- A written script is read back. -/
theorem dump_rebuilt (env : Env) (reg : Registry) (n : Node) (hc : isContainer n = true) (h : Writable env reg n) :
    ∃ t m, dump reg n = .ok t ∧ runScript env t = some m ∧ Same n m := by
  obtain ⟨t, m, h1, h2, -, h3⟩ := node_rebuilt env reg 0 n h
  refine ⟨_, m, h3 rfl (by rintro v rfl; simp [isContainer] at hc) (by rintro w b rfl; simp [isContainer] at hc)
    (by rintro w b rfl; simp [isContainer] at hc), ?_, h1⟩
  have hbody : eval env (t ++ tx "\n") = some (.node m) := by
    obtain ⟨k, hk, hr⟩ := h2
    refine (eval_iff _ _ _).mpr ⟨k ++ [.nl], ?_, ⟨[], { cur := .obj (.node m) }, true⟩, ?_, rfl, rfl⟩
    · exact (Whole.append hk (Whole.of_lexM (by decide +kernel))).lex
    · rw [run_append, hr []]
      simp [run, step]
  have e : ∀ b : Text, ((header ++ b ++ footer).drop header.length).take
      ((header ++ b ++ footer).length - header.length - footer.length) = b := by
    intro b
    rw [List.append_assoc, List.drop_left]
    have : (header ++ (b ++ footer)).length - header.length - footer.length = b.length := by
      simp only [List.length_append]; omega
    rw [this, List.take_left']
    rfl
  unfold runScript
  simp only [e, if_true, hbody]

end Hrdc.Spec.Script
