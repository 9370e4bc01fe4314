import Verif.Spec.Merge
import Verif.Props.Passes
/-!
# C18 with Push and Pop
-/
namespace Hrdc
open Spec

/-- What the pass has recorded. -/
def Recorded (st : Cls → Option Item) (last : Cls → Option Int) : Prop :=
  ∀ c, (st c).map Item.key = (last c).map (fun v => (c, v))

theorem Recorded.set {st : Cls → Option Item} {last : Cls → Option Int} (h : Recorded st last) (x : Item)
    (hk : x.cls.kind = .global) :
    Recorded (fun c => if c = x.cls then some x else st c)
      (fun c => if c = x.key.1 ∧ x.key.1.kind = .global then some x.key.2 else last c) := by
  intro c
  by_cases hc : c = x.cls
  · subst hc; simp [hk, Item.key]
  · simp [hc, Item.key, h c]

theorem Recorded.same {st : Cls → Option Item} {last : Cls → Option Int} (h : Recorded st last) (x : Item)
    (hk : ¬ x.cls.kind = .global) :
    Recorded st (fun c => if c = x.key.1 ∧ x.key.1.kind = .global then some x.key.2 else last c) := by
  intro c
  simp [hk, h c]

theorem redundant_iff {st : Cls → Option Item} {last : Cls → Option Int} (h : Recorded st last) (x : Item) :
    Redundant st x ↔ last x.key.1 = some x.key.2 ∧ x.key.1 ≠ .push ∧ x.key.1 ≠ .pop := by
  have hc := h x.cls
  unfold Redundant
  simp only [key_fst, key_snd]
  refine and_congr_left fun _ => ?_
  cases hs : st x.cls with
  | none =>
    rw [hs] at hc
    cases hl : last x.cls with
    | none => simp
    | some v => rw [hl] at hc; simp at hc
  | some j =>
    rw [hs] at hc
    cases hl : last x.cls with
    | none => rw [hl] at hc; simp at hc
    | some v =>
      rw [hl] at hc
      simp only [Option.map_some, Option.some.injEq] at hc
      have h1 : j.cls = x.cls := congrArg Prod.fst hc
      have h2 : j.ival = v := congrArg Prod.snd hc
      simp [Item.pyEq, h1, h2]

theorem step_in_force (rule : PageRule) (h : Host) (x : Item) (hk : x.cls.kind = .global)
    (h1 : x.cls ≠ .push) (h2 : x.cls ≠ .pop) : h.step rule x.key = h ↔ h.g x.cls = x.ival := by
  rw [step_global rule h x hk h1 h2]
  cases h with
  | mk g stack u s d =>
    simp only [Host.mk.injEq, and_true]
    constructor
    · intro e
      have := congrFun e x.cls
      simpa using this.symm
    · intro e
      funext c
      by_cases hc : c = x.cls
      · subst hc; simp [e]
      · simp [hc]

theorem globalMerge_repeats (rule : PageRule) (st : Cls → Option Item) (last : Cls → Option Int) (h : Host)
    (xs : List Item) (hr : Recorded st last) (hx : repeatsInForce rule last h (keys xs)) :
    recs rule h (keys (Optimizer.globalMerge.runFrom st xs)) = recs rule h (keys xs) := by
  induction xs generalizing st last h with
  | nil => rfl
  | cons x xs ih =>
    rw [keys_cons, repeatsInForce] at hx
    obtain ⟨h1, h2⟩ := hx
    by_cases hk : x.cls.kind = .global
    · have hr' := hr.set x hk
      by_cases hs : Redundant st x
      · rw [gm_drop hk hs]
        obtain ⟨r1, r2, r3⟩ := (redundant_iff hr x).1 hs
        have hid := (step_in_force rule h x hk r2 r3).2 (h1 hk r2 r3 r1)
        have hnm : x.key.1.kind ≠ .main := by simp [hk]
        rw [keys_cons, recs_cons, if_neg hnm, List.nil_append, hid]
        rw [hid] at h2
        exact ih _ _ h hr' h2
      · rw [gm_keep hk hs, keys_cons, keys_cons, recs_cons, recs_cons, ih _ _ _ hr' h2]
    · rw [gm_other hk, keys_cons, keys_cons, recs_cons, recs_cons, ih _ _ _ (hr.same x hk) h2]

theorem globalMerge_states (rule : PageRule) (st : Cls → Option Item) (last : Cls → Option Int) (h : Host)
    (xs : List Item) (hr : Recorded st last) :
    (∀ n, Host.after rule h (keys (Optimizer.globalMerge.runFrom st (xs.take n)))
      = Host.after rule h (keys (xs.take n))) ↔ repeatsInForce rule last h (keys xs) := by
  induction xs generalizing st last h with
  | nil => simp [repeatsInForce, keys, Pass.runFrom_nil]
  | cons x xs ih =>
    rw [keys_cons, repeatsInForce]
    by_cases hk : x.cls.kind = .global
    · have hr' := hr.set x hk
      by_cases hs : Redundant st x
      · obtain ⟨r1, r2, r3⟩ := (redundant_iff hr x).1 hs
        have hg := step_in_force rule h x hk r2 r3
        by_cases hv : h.g x.cls = x.ival
        · have hid := hg.2 hv
          rw [hid, ← ih _ _ h hr']
          constructor
          · intro hn
            refine ⟨fun _ _ _ _ => hv, fun n => ?_⟩
            have := hn (n + 1)
            rw [List.take_succ_cons, gm_drop hk hs, keys_cons, after_cons, hid] at this
            exact this
          · rintro ⟨-, hn⟩ n
            cases n with
            | zero => rfl
            | succ n =>
              rw [List.take_succ_cons, gm_drop hk hs, keys_cons, after_cons, hid]
              exact hn n
        · constructor
          · intro hn
            have := hn 1
            rw [List.take_succ_cons, gm_drop hk hs, keys_cons, after_cons] at this
            simp only [List.take_zero, Pass.runFrom_nil, keys_nil, after_nil] at this
            exact absurd (hg.1 this.symm) hv
          · intro hn
            exact absurd (hn.1 hk r2 r3 r1) hv
      · rw [← ih _ _ _ hr']
        constructor
        · intro hn
          refine ⟨fun _ r2 r3 r1 => absurd ((redundant_iff hr x).2 ⟨r1, r2, r3⟩) hs, fun n => ?_⟩
          have := hn (n + 1)
          rw [List.take_succ_cons, gm_keep hk hs, keys_cons, keys_cons, after_cons, after_cons] at this
          exact this
        · rintro ⟨-, hn⟩ n
          cases n with
          | zero => rfl
          | succ n =>
            rw [List.take_succ_cons, gm_keep hk hs, keys_cons, keys_cons, after_cons, after_cons]
            exact hn n
    · rw [← ih _ _ _ (hr.same x hk)]
      constructor
      · intro hn
        refine ⟨fun hk' => absurd hk' hk, fun n => ?_⟩
        have := hn (n + 1)
        rw [List.take_succ_cons, gm_other hk, keys_cons, keys_cons, after_cons, after_cons] at this
        exact this
      · rintro ⟨-, hn⟩ n
        cases n with
        | zero => rfl
        | succ n =>
          rw [List.take_succ_cons, gm_other hk, keys_cons, keys_cons, after_cons, after_cons]
          exact hn n

theorem recorded_init : Recorded Optimizer.globalInit initialValue := by
  intro c
  cases c <;> rfl

/-- **C18 (partial).** Global merging keeps the meaning of every stream, with or without Push and Pop, in which items
that repeat the last value given to their tag also repeat the value in force.  Missing, false of the code: the others
(`C18_push_pop_breaks`). -/
theorem C18_repeats_partial (rule : PageRule) (xs : List Item)
    (hx : repeatsInForce rule initialValue {} (keys xs)) :
    meaning rule (keys (Optimizer.globalMerge.run xs)) = meaning rule (keys xs) := by
  unfold meaning eventsFrom
  rw [show Optimizer.globalMerge.run xs = Optimizer.globalMerge.runFrom Optimizer.globalInit xs from rfl,
    globalMerge_repeats rule _ _ _ xs recorded_init hx]

/-- **C18.** For every stream: a host that reads the items merged so far is always in the state of one that reads the
items given so far, exactly when items that repeat the last value given to their tag repeat the value in force. -/
theorem C18_states_iff (rule : PageRule) (xs : List Item) :
    (∀ n, Host.after rule {} (keys (Optimizer.globalMerge.run (xs.take n))) = Host.after rule {} (keys (xs.take n)))
      ↔ repeatsInForce rule initialValue {} (keys xs) :=
  globalMerge_states rule _ _ _ xs recorded_init

theorem repeats_noPushPop (rule : PageRule) (last : Cls → Option Int) (h : Host) (xs : List Item)
    (hl : ∀ c v, last c = some v → h.g c = v) (hp : NoPushPop xs) : repeatsInForce rule last h (keys xs) := by
  induction xs generalizing last h with
  | nil => trivial
  | cons x xs ih =>
    rw [NoPushPop.cons] at hp
    rw [keys_cons, repeatsInForce]
    refine ⟨fun _ _ _ e => hl _ _ e, ih _ _ ?_ hp.2⟩
    intro c v hv
    by_cases hk : x.cls.kind = .global
    · rw [step_global rule h x hk hp.1.1 hp.1.2]
      by_cases hc : c = x.cls
      · subst hc
        simpa [hk] using hv
      · simp only [key_fst, hc, false_and, if_false] at hv ⊢
        exact hl c v hv
    · rw [step_local_g rule h x hk]
      simp only [key_fst, hk, and_false, if_false] at hv
      exact hl c v hv

/-- **C18.** Streams without Push and Pop are among them. -/
theorem C18_repeats_noPushPop (rule : PageRule) (xs : List Item) (hp : NoPushPop xs) :
    repeatsInForce rule initialValue {} (keys xs) := by
  refine repeats_noPushPop rule _ _ xs ?_ hp
  intro c v h
  unfold initialValue at h
  split at h
  · simpa using h
  · simp at h

/-- A stream with Push and Pop in which something is merged. -/
def pushSample : List Item :=
  [⟨.reportSize, .int 8⟩, ⟨.reportCount, .int 1⟩, ⟨.push, .int 0⟩, ⟨.reportCount, .int 2⟩, ⟨.reportSize, .int 8⟩,
    ⟨.input, .int 2⟩, ⟨.pop, .int 0⟩, ⟨.reportSize, .int 8⟩, ⟨.reportCount, .int 3⟩, ⟨.output, .int 2⟩]

example : repeatsInForce .atUsage initialValue {} (keys pushSample) ∧ ¬ NoPushPop pushSample ∧
    (Optimizer.globalMerge.run pushSample).length + 2 = pushSample.length := by decide +kernel

example : ¬ repeatsInForce .atUsage initialValue {} (keys [⟨.reportCount, .int 1⟩, ⟨.reportSize, .int 8⟩, ⟨.push, .int 0⟩,
    ⟨.reportSize, .int 16⟩, ⟨.pop, .int 0⟩, ⟨.reportSize, .int 16⟩, ⟨.input, .int 2⟩]) := by decide +kernel

end Hrdc
