import Verif.Model.Dumper
import Verif.Proofs.Script
/-!
# Evaluating written scripts
-/
namespace Hrdc.Spec.Script
open Hrdc.Dumper

/-! ## Keyword arguments -/

/-- A keyword argument, if `c`. -/
def optT (c : Bool) (n t : Text) : Text := if c then kw n t else []

/-- Its binding. -/
def optK (c : Bool) (n : Text) (o : Obj) : List (Text × Obj) := if c then [(n, o)] else []

/-- Keyword arguments after another argument. -/
structure Tail (env : Env) (t : Text) (k : List Tok) (kws : List (Text × Obj)) : Prop where
  wordy : Wordy t k
  first : t = [] ∨ ∃ c r, t = c :: r ∧ wordChar c = false
  runs : ∀ f fs st, Pend f fs st → ((f.kws ++ kws).map Prod.fst).Nodup → f.callee.isSome = true →
    ∃ st', run env st k = some st' ∧ Pend { f with kws := f.kws ++ kws } fs st'

theorem Wordy.nil : Wordy [] [] := by intro c r b _ hb; simpa using hb

theorem Wordy.append_sep {t s : Text} {k l : List Tok} (h : Wordy t k) (h' : Wordy s l)
    (hs : s = [] ∨ ∃ c r, s = c :: r ∧ wordChar c = false) (hl : s = [] → l = []) :
    Wordy (t ++ s) (k ++ l) := by
  intro c r b hc hb
  rcases hs with rfl | ⟨d, u, rfl, hd⟩
  · rw [hl rfl]; simpa using h c r b hc hb
  · have := h' c r b hc hb
    rw [List.append_assoc, List.append_assoc]
    exact h d (u ++ c :: r) (l ++ b) hd this

theorem Tail.nil (env : Env) : Tail env [] [] [] where
  wordy := Wordy.nil
  first := .inl rfl
  runs := by
    intro f fs st h _ _
    exact ⟨st, rfl, by simpa using h⟩

theorem Tail.toks_nil {env : Env} {t : Text} {k : List Tok} {kws} (h : Tail env t k kws) (ht : t = []) :
    k = [] := by
  subst ht
  have hb : lex .idle (',' :: []) = some [.op ','] := by decide +kernel
  have := h.wordy ',' [] [.op ','] (by decide) hb
  rw [List.nil_append, hb] at this
  simp only [Option.some.injEq] at this
  have hl := congrArg List.length this
  simp at hl
  exact hl

theorem Tail.append {env : Env} {t s : Text} {k l : List Tok} {p q} (h : Tail env t k p)
    (h' : Tail env s l q) : Tail env (t ++ s) (k ++ l) (p ++ q) where
  wordy := h.wordy.append_sep h'.wordy h'.first (fun e => h'.toks_nil e)
  first := by
    rcases h.first with rfl | ⟨c, r, rfl, hc⟩
    · simpa using h'.first
    · exact .inr ⟨c, r ++ s, rfl, hc⟩
  runs := by
    intro f fs st hp hn hc
    rw [← List.append_assoc] at hn
    have hn1 : ((f.kws ++ p).map Prod.fst).Nodup :=
      List.Sublist.nodup ((List.sublist_append_left _ _).map _) hn
    obtain ⟨st1, hr1, hp1⟩ := h.runs f fs st hp hn1 hc
    obtain ⟨st2, hr2, hp2⟩ := h'.runs _ fs st1 hp1 hn hc
    refine ⟨st2, ?_, ?_⟩
    · rw [run_append, hr1]; exact hr2
    · simpa [List.append_assoc] using hp2

theorem Tail.single {env : Env} {n t : Text} {o : Obj}
    (hn : lexM .idle (tx ", " ++ n ++ tx " = ") = some (.idle, [.op ',', .name n, .op '=']))
    (ho : eval env t = some o) : ∃ k, Tail env (kw n t) k [(n, o)] := by
  obtain ⟨l, hl, hr⟩ := (eval_iff _ _ _).mp ho
  refine ⟨[.op ',', .name n, .op '='] ++ l, ?_, ?_, ?_⟩
  · exact (Whole.of_lexM hn).wordy_append (Wordy.of_lex hl)
  · exact .inr ⟨',', _, rfl, by decide⟩
  · intro f fs st hp hnd hc
    have hadd : f.add (some n) o = some { f with kws := f.kws ++ [(n, o)] } := by
      unfold Frame.add
      simp only
      rw [if_neg]
      simp only [List.map_append, List.map_cons, List.map_nil] at hnd
      rw [List.nodup_append] at hnd
      intro hany
      rw [List.any_eq_true] at hany
      obtain ⟨q, hq, he⟩ := hany
      exact hnd.2.2 q.1 (List.mem_map_of_mem hq) n (by simp) (by simpa using he)
    obtain ⟨st', hr', hp'⟩ := hr.pend f _ fs (some n) hadd
    refine ⟨st', ?_, hp'⟩
    rw [run_append]
    have h1 : run env st [.op ',', .name n, .op '='] = some ⟨f :: fs, { kw := some n }, false⟩ := by
      simp only [run, hp.comma]
      simp [step, name1, punct, hc]
    rw [h1]
    exact hr'

theorem Tail.opt {env : Env} {n t : Text} {o : Obj} (c : Bool)
    (hn : lexM .idle (tx ", " ++ n ++ tx " = ") = some (.idle, [.op ',', .name n, .op '=']))
    (ho : c = true → eval env t = some o) : ∃ k, Tail env (optT c n t) k (optK c n o) := by
  cases c with
  | false => exact ⟨[], Tail.nil env⟩
  | true => exact Tail.single hn (ho rfl)

/-! ## Arguments of values -/

theorem assoc_append {α : Type} (x : Text) (l m : List (Text × α)) :
    assoc x (l ++ m) = (assoc x l).or (assoc x m) := by
  unfold assoc
  rw [List.find?_append]
  cases List.find? (fun p => p.1 == x) l <;> simp

theorem assoc_optK (x : Text) (c : Bool) (o : Obj) : assoc x (optK c x o) = if c then some o else none := by
  cases c <;> simp [optK, assoc]

theorem assoc_optK_ne (x n : Text) (c : Bool) (o : Obj) (h : n ≠ x) : assoc x (optK c n o) = none := by
  cases c
  · simp [optK, assoc]
  · have : (n == x) = false := by simpa using h
    simp [optK, assoc, List.find?, this]

/-- Which keyword arguments are given, and their values. -/
structure Kw where
  flags : Bool × PyVal
  logicalMin : Bool × Option Int
  namedArray : Bool × NamedArray
  logicalMax : Bool × Option Int
  physicalMin : Bool × Option Int
  physicalMax : Bool × Option Int
  unit : Bool × PyVal
  unitExponent : Bool × Int
  designator : Bool × Int
  string : Bool × Int
  count : Bool × Int
  alignment : Bool × Int

/-- The object of a bound. -/
def optObj : Option Int → Obj
  | none => .none
  | some i => .val (.int i)

/-- The object of a named array. -/
def arrObj : NamedArray → Obj
  | .list l => .list l
  | .range r => .range r

/-- The bindings, in the order in which they are written. -/
def Kw.binds (k : Kw) : List (Text × Obj) :=
  optK k.flags.1 (tx "flags") (.val k.flags.2) ++
  (optK k.logicalMin.1 (tx "logicalMin") (optObj k.logicalMin.2) ++
  (optK k.namedArray.1 (tx "namedArray") (arrObj k.namedArray.2) ++
  (optK k.logicalMax.1 (tx "logicalMax") (optObj k.logicalMax.2) ++
  (optK k.physicalMin.1 (tx "physicalMin") (optObj k.physicalMin.2) ++
  (optK k.physicalMax.1 (tx "physicalMax") (optObj k.physicalMax.2) ++
  (optK k.unit.1 (tx "unit") (.val k.unit.2) ++
  (optK k.unitExponent.1 (tx "unitExponent") (.val (.int k.unitExponent.2)) ++
  (optK k.designator.1 (tx "designator") (.val (.int k.designator.2)) ++
  (optK k.string.1 (tx "string") (.val (.int k.string.2)) ++
  (optK k.count.1 (tx "count") (.val (.int k.count.2)) ++
  optK k.alignment.1 (tx "alignment") (.val (.int k.alignment.2))))))))))))

/-- The keywords in that order. -/
def kwNames : List Text := [tx "flags", tx "logicalMin", tx "namedArray", tx "logicalMax",
  tx "physicalMin", tx "physicalMax", tx "unit", tx "unitExponent", tx "designator", tx "string",
  tx "count", tx "alignment"]

theorem optK_sub (c : Bool) (n : Text) (o : Obj) (l : List (Text × Obj)) (r : List Text)
    (h : (l.map Prod.fst).Sublist r) : ((optK c n o ++ l).map Prod.fst).Sublist (n :: r) := by
  cases c with
  | false => simpa [optK] using h.cons n
  | true => simpa [optK] using h.cons₂ n

theorem Kw.names (k : Kw) : (k.binds.map Prod.fst).Sublist kwNames := by
  unfold Kw.binds kwNames
  repeat (refine optK_sub _ _ _ _ _ ?_)
  cases k.alignment.1 <;> simp [optK]

theorem kwNames_nodup : kwNames.Nodup := by decide +kernel

/-- The arguments a call binds. -/
def Kw.args (k : Kw) (way : Way) (usage : Option PyVal) (size : Int) : ValueArgs where
  way := way
  usage := usage
  size := size
  flags := if k.flags.1 then k.flags.2 else .int 2
  logicalMin := if k.logicalMin.1 then k.logicalMin.2 else some 1
  namedArray := if k.namedArray.1 then some k.namedArray.2 else none
  logicalMax := if k.logicalMax.1 then k.logicalMax.2 else none
  physicalMin := if k.physicalMin.1 then k.physicalMin.2 else none
  physicalMax := if k.physicalMax.1 then k.physicalMax.2 else none
  unit := if k.unit.1 then k.unit.2 else .int 0
  unitExponent := if k.unitExponent.1 then k.unitExponent.2 else 0
  designator := if k.designator.1 then k.designator.2 else 0
  string := if k.string.1 then k.string.2 else 0
  count := if k.count.1 then k.count.2 else 1
  alignment := if k.alignment.1 then some k.alignment.2 else none

/-- The object of a usage. -/
def usageObj : Option PyVal → Obj
  | none => .none
  | some v => .val v

/-- The object of a direction. -/
def wayObj (w : Way) : Obj :=
  .val (.named (wayName w) (match w with | .input => 8 | .output => 9 | .feature => 11))

theorem optArg_opt (c : Bool) (x d : Option Int) :
    optArg d (if c then some (optObj x) else none) = some (if c then x else d) := by
  cases c <;> cases x <;> simp [optArg, optObj]

theorem arrayArg_opt (c : Bool) (x : NamedArray) :
    arrayArg (if c then some (arrObj x) else none) = some (if c then some x else none) := by
  cases c <;> cases x <;> simp [arrayArg, arrObj]

theorem valArg_opt (c : Bool) (x d : PyVal) :
    valArg (some d) (if c then some (Obj.val x) else none) = some (if c then x else d) := by
  cases c <;> simp [valArg]

theorem intArg_opt (c : Bool) (x d : Int) :
    intArg (some d) (if c then some (Obj.val (.int x)) else none) = some (if c then x else d) := by
  cases c <;> simp [intArg]

theorem optArg_align (c : Bool) (x : Int) :
    optArg none (if c then some (Obj.val (.int x)) else none) = some (if c then some x else none) := by
  cases c <;> simp [optArg]

theorem assoc_head3 (x a b c : Text) (p q r : Obj) (l : List (Text × Obj)) (ha : a ≠ x) (hb : b ≠ x)
    (hc : c ≠ x) : assoc x ([(a, p), (b, q), (c, r)] ++ l) = assoc x l := by
  rw [assoc_append]
  have h1 : (a == x) = false := by simpa using ha
  have h2 : (b == x) = false := by simpa using hb
  have h3 : (c == x) = false := by simpa using hc
  simp [assoc, List.find?, h1, h2, h3]

/-- The positional bindings. -/
def headBinds (w : Way) (u : Option PyVal) (s : Int) : List (Text × Obj) :=
  [(tx "way", wayObj w), (tx "usage", usageObj u), (tx "size", .val (.int s))]

theorem Kw.lookup (k : Kw) (w : Way) (u : Option PyVal) (s : Int) :
    let b := headBinds w u s ++ k.binds
    assoc (tx "way") b = some (wayObj w) ∧ assoc (tx "usage") b = some (usageObj u) ∧
    assoc (tx "size") b = some (.val (.int s)) ∧
    assoc (tx "flags") b = (if k.flags.1 then some (.val k.flags.2) else none) ∧
    assoc (tx "logicalMin") b = (if k.logicalMin.1 then some (optObj k.logicalMin.2) else none) ∧
    assoc (tx "namedArray") b = (if k.namedArray.1 then some (arrObj k.namedArray.2) else none) ∧
    assoc (tx "logicalMax") b = (if k.logicalMax.1 then some (optObj k.logicalMax.2) else none) ∧
    assoc (tx "physicalMin") b = (if k.physicalMin.1 then some (optObj k.physicalMin.2) else none) ∧
    assoc (tx "physicalMax") b = (if k.physicalMax.1 then some (optObj k.physicalMax.2) else none) ∧
    assoc (tx "unit") b = (if k.unit.1 then some (.val k.unit.2) else none) ∧
    assoc (tx "unitExponent") b = (if k.unitExponent.1 then some (.val (.int k.unitExponent.2)) else none) ∧
    assoc (tx "designator") b = (if k.designator.1 then some (.val (.int k.designator.2)) else none) ∧
    assoc (tx "string") b = (if k.string.1 then some (.val (.int k.string.2)) else none) ∧
    assoc (tx "count") b = (if k.count.1 then some (.val (.int k.count.2)) else none) ∧
    assoc (tx "alignment") b = (if k.alignment.1 then some (.val (.int k.alignment.2)) else none) := by
  intro b
  refine ⟨rfl, rfl, rfl, ?_, ?_, ?_, ?_, ?_, ?_, ?_, ?_, ?_, ?_, ?_, ?_⟩ <;>
  · show assoc _ (headBinds w u s ++ k.binds) = _
    unfold headBinds
    rw [assoc_head3 _ _ _ _ _ _ _ _ (by decide) (by decide) (by decide)]
    unfold Kw.binds
    repeat rw [assoc_append]
    rw [assoc_optK]
    repeat rw [assoc_optK_ne _ _ _ _ (by decide)]
    simp only [Option.none_or, Option.or_none]

theorem wayArg_obj (w : Way) : wayArg (some (wayObj w)) = some w := by
  cases w <;> rfl

theorem usageArg_obj (u : Option PyVal) : usageArg (some (usageObj u)) = some u := by
  cases u <;> rfl

theorem Kw.valueArgs (k : Kw) (w : Way) (u : Option PyVal) (s : Int) :
    valueArgs (headBinds w u s ++ k.binds) = some (k.args w u s) := by
  obtain ⟨h1, h2, h3, h4, h5, h6, h7, h8, h9, h10, h11, h12, h13, h14, h15⟩ := k.lookup w u s
  simp only [Script.valueArgs, dflt]
  rw [h1, h2, h3, h4, h5, h6, h7, h8, h9, h10, h11, h12, h13, h14, h15]
  rw [wayArg_obj, usageArg_obj, valArg_opt, valArg_opt, optArg_opt, optArg_opt, optArg_opt, optArg_opt,
    arrayArg_opt, intArg_opt, intArg_opt, intArg_opt, intArg_opt, optArg_align]
  rfl

theorem Kw.bind (k : Kw) (w : Way) (u : Option PyVal) (s : Int) :
    bindArgs valueParams [wayObj w, usageObj u, .val (.int s)] k.binds =
      some (headBinds w u s ++ k.binds) := by
  unfold bindArgs
  rw [if_pos]
  · rfl
  · refine ⟨by simp [valueParams], ?_⟩
    rw [List.all_eq_true]
    intro p hp
    have h1 := k.names.subset (List.mem_map_of_mem hp)
    have h2 : ∀ x ∈ kwNames, (valueParams.drop 3).contains x = true := by decide +kernel
    exact h2 _ h1

theorem Kw.call (k : Kw) (w : Way) (u : Option PyVal) (s : Int) (v : Value)
    (h : Value.new (k.args w u s) = .ok v) :
    call .value [wayObj w, usageObj u, .val (.int s)] k.binds = some (.node (.value v)) := by
  simp only [Script.call, k.bind, k.valueArgs, h]

end Hrdc.Spec.Script
