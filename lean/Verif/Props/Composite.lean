import Verif.Spec.Composite
import Verif.Props.Grouping
import Verif.Props.Compile3
/-!
# Property C76: descriptors can be merged
-/
namespace Hrdc
open Spec

namespace Streamer

/-- The same items, and the same exception or states in relation. -/
def TrRel (R : State → State → Prop) (x y : Tr State) : Prop :=
  x.1 = y.1 ∧ match x.2, y.2 with
    | .ok a, .ok b => R a b
    | .error e, .error f => e = f
    | _, _ => False

theorem TrRel.bind {R Q : State → State → Prop} {x y : Tr State} {f g : State → Tr State} (h : TrRel R x y)
    (hf : ∀ a b, R a b → TrRel Q (f a) (g b)) : TrRel Q (x.bind f) (y.bind g) := by
  obtain ⟨l, r⟩ := x
  obtain ⟨l', r'⟩ := y
  obtain ⟨h1, h2⟩ := h
  simp only at h1
  subst h1
  cases r with
  | error e =>
    cases r' with
    | error f => exact ⟨rfl, h2⟩
    | ok b => exact h2.elim
  | ok a =>
    cases r' with
    | error f => exact h2.elim
    | ok b =>
      have := hf a b h2
      exact ⟨by simp only [Tr.bind]; rw [this.1], this.2⟩

theorem TrRel.pure {R : State → State → Prop} {a b : State} (h : R a b) : TrRel R ([], .ok a) ([], .ok b) := ⟨rfl, h⟩

theorem TrRel.front {α : Type} {Q : State → State → Prop} (x : Tr α) {f g : α → Tr State}
    (hf : ∀ a, TrRel Q (f a) (g a)) : TrRel Q (x.bind f) (x.bind g) := by
  obtain ⟨l, r⟩ := x
  cases r with
  | error e => exact ⟨rfl, rfl⟩
  | ok a => exact ⟨by simp only [Tr.bind]; rw [(hf a).1], (hf a).2⟩

/-- States alike as far as the current report of one direction goes, and otherwise like `s` and `t`. -/
def Near (s t : State) (w : Way) (a b : State) : Prop :=
  a.id = s.id ∧ b.id = s.id ∧
  (∀ k, slot s = .ok k → a.size w k = b.size w k) ∧
  (∀ w' k, ¬ (w' = w ∧ slot s = .ok k) → a.size w' k = s.size w' k ∧ b.size w' k = t.size w' k)

theorem slot_id {a s : State} (h : a.id = s.id) : slot a = slot s := by unfold slot; rw [h]

theorem near_bump {s t : State} {w : Way} {a b : State} (h : Near s t w a b) (n : Int) :
    TrRel (Near s t w) ([], bump a w n) ([], bump b w n) := by
  obtain ⟨h1, h2, h3, h4⟩ := h
  unfold bump
  rw [slot_id h1, slot_id h2]
  cases hs : slot s with
  | error e => exact ⟨rfl, rfl⟩
  | ok k =>
    refine ⟨rfl, h1, h2, ?_, ?_⟩
    · intro k' hk'
      rw [hs] at hk'
      cases hk'
      simp [h3 k hs]
    · intro w' k' hn
      rw [hs] at hn
      have : ¬ (w' = w ∧ k' = k) := fun h => hn ⟨h.1, by rw [h.2]⟩
      simp only [this, if_false]
      refine h4 w' k' ?_
      rw [hs]
      exact hn

theorem near_pad {s t : State} {w : Way} {a b : State} (h : Near s t w a b) (x y : Int) :
    padFor a w x y = padFor b w x y := by
  obtain ⟨h1, h2, h3, -⟩ := h
  unfold padFor
  rw [slot_id h1, slot_id h2]
  split
  · cases hs : slot s with
    | error e => rfl
    | ok k => simp only [h3 k hs]
  · rfl

theorem near_addPad (reg : Registry) {s t : State} {w : Way} {a b : State} (h : Near s t w a b) (p : Int) :
    TrRel (Near s t w) (addPadT reg a w p) (addPadT reg b w p) := by
  unfold addPadT
  split
  · refine TrRel.front _ fun _ => ?_
    refine (near_bump h p).bind fun a' b' h' => ?_
    exact TrRel.front _ fun _ => TrRel.pure h'
  · exact TrRel.pure h

theorem near_field (reg : Registry) {s t : State} {v : Value} {a b : State} (h : Near s t v.way a b) :
    TrRel (Near s t v.way) (fieldT reg a v) (fieldT reg b v) := by
  unfold fieldT
  refine TrRel.front _ fun _ => ?_
  refine (near_bump h _).bind fun a' b' h' => ?_
  exact TrRel.front _ fun _ => TrRel.pure h'

theorem near_leaf (reg : Registry) (s t : State) (l : Leaf) (hid : s.id = t.id)
    (hs : ∀ k, slot s = .ok k → s.size l.way k = t.size l.way k) :
    TrRel (Near s t l.way) (tokT reg s (.leaf l)) (tokT reg t (.leaf l)) := by
  have h0 : Near s t l.way s t := ⟨rfl, hid.symm, hs, fun _ _ _ => ⟨rfl, rfl⟩⟩
  cases l with
  | value v =>
    change TrRel (Near s t v.way) (valueT reg s v) (valueT reg t v)
    unfold valueT
    rw [near_pad (w := v.way) h0]
    refine TrRel.front _ fun pad => ?_
    refine (near_addPad reg h0 pad).bind fun a b h => ?_
    split
    · refine (near_field reg h).bind fun a' b' h' => ?_
      exact TrRel.front _ fun _ => TrRel.pure h'
    · refine TrRel.front _ fun _ => TrRel.front _ fun named => TrRel.front _ fun _ => ?_
      refine (near_field reg h).bind fun a' b' h' => ?_
      exact TrRel.front _ fun _ => TrRel.pure h'
  | align w x =>
    change TrRel (Near s t w) (Tr.bind ([], padFor s w x 0) fun pad => addPadT reg s w pad)
      (Tr.bind ([], padFor t w x 0) fun pad => addPadT reg t w pad)
    rw [near_pad (w := w) h0]
    exact TrRel.front _ fun pad => near_addPad reg h0 pad
  | padding w x => exact near_addPad reg h0 x

theorem report_ok {reg : Registry} {s st : State} {i : Int} {l : List Item}
    (h : tokT reg s (.report i) = (l, .ok st)) : 0 ≤ i ∧ st = { s with id := i } := by
  unfold tokT at h
  by_cases hi : i = 0
  · subst hi
    simp only [ne_eq, not_true, if_false, emitT, Tr.bind, Prod.mk.injEq, Except.ok.injEq] at h
    exact ⟨Int.le_refl _, h.2.symm⟩
  · by_cases h0 : 0 ≤ i
    · have : Item.new reg .reportID (.int i) = .ok ⟨.reportID, .int i⟩ := by
        simp [Item.new, Item.baseInit, PyVal.toInt, h0]
      simp only [ne_eq, hi, not_false_eq_true, if_true, emitT, this, Tr.bind, Prod.mk.injEq, Except.ok.injEq] at h
      exact ⟨h0, h.2.symm⟩
    · have : Item.new reg .reportID (.int i) = .error .assertion := by
        simp [Item.new, Item.baseInit, PyVal.toInt, h0, Cls.signed]
      simp [hi, emitT, this, Tr.bind] at h

theorem slot_nat {s : State} {k : Nat} (h0 : 0 ≤ s.id) (h : slot s = .ok k) : s.id = k := by
  unfold slot at h
  split at h
  · simp only [Except.ok.injEq] at h; omega
  · split at h
    · omega
    · simp at h

/-- What the streamer does with tokens depends on the counts of the reports they have fields in only. -/
theorem toks_alike (reg : Registry) (S : Way → Int → Prop) (ts : List Tok) : ∀ (cur : Option Int) (s t : State),
    (∀ i, cur = some i → s.id = i ∧ t.id = i) → 0 ≤ s.id → 0 ≤ t.id →
    (∀ w (k : Nat), S w k → s.size w k = t.size w k) → (∀ p ∈ places cur ts, ∃ i, p.2 = some i ∧ S p.1 i) →
    TrRel (fun _ _ => True) (toksT reg s ts) (toksT reg t ts) := by
  induction ts with
  | nil => intro cur s t _ _ _ _ _; exact ⟨rfl, trivial⟩
  | cons x ts ih =>
    intro cur s t hc h1 h2 hS hp
    rw [toksT, toksT]
    have same : ∀ {α : Type} (y : Tr α), (∀ p ∈ places cur ts, ∃ i, p.2 = some i ∧ S p.1 i) →
        TrRel (fun _ _ => True) ((y.bind fun _ => (([], .ok s) : Tr State)).bind fun st1 => toksT reg st1 ts)
          ((y.bind fun _ => (([], .ok t) : Tr State)).bind fun st1 => toksT reg st1 ts) := by
      intro α y hp
      rw [Tr.bind_assoc, Tr.bind_assoc]
      refine TrRel.front _ fun _ => ?_
      rw [Tr.pure_bind, Tr.pure_bind]
      exact ih cur s t hc h1 h2 hS hp
    cases x with
    | report i =>
      have e : ∀ u : State, tokT reg u (.report i) =
          (emitT reg (if i ≠ 0 then [(.reportID, .int i)] else [])).bind fun _ => ([], .ok { u with id := i }) := fun _ => rfl
      rw [e, e]
      generalize hy : emitT reg (if i ≠ 0 then [(.reportID, .int i)] else []) = y
      obtain ⟨l, r⟩ := y
      cases r with
      | error e => exact ⟨rfl, rfl⟩
      | ok u =>
        have hi : 0 ≤ i := by
          have : tokT reg s (.report i) = (l ++ [], .ok { s with id := i }) := by rw [e, hy]; rfl
          exact (report_ok this).1
        rw [Tr.bind_assoc, Tr.bind_assoc]
        refine TrRel.front _ fun _ => ?_
        rw [Tr.pure_bind, Tr.pure_bind]
        refine ih (some i) _ _ ?_ hi hi hS hp
        intro j hj
        cases hj
        exact ⟨rfl, rfl⟩
    | endReport =>
      simp only [tokT, Tr.pure_bind]
      exact ih cur s t hc h1 h2 hS hp
    | enter k u =>
      cases u with
      | none => exact ⟨rfl, rfl⟩
      | some u => exact same _ hp
    | leave => exact same (emitT reg [(.endCollection, .int 0)]) hp
    | leaf l =>
      obtain ⟨i, hi, hSi⟩ := hp (l.way, cur) (by simp [places])
      obtain ⟨e1, e2⟩ := hc i hi
      refine (near_leaf reg s t l (by rw [e1, e2]) ?_).bind ?_
      · intro k hk
        have := slot_nat h1 hk
        refine hS _ _ ?_
        rw [← this, e1]
        exact hSi
      · rintro a b ⟨n1, n2, n3, n4⟩
        refine ih cur a b ?_ (by rw [n1]; exact h1) (by rw [n2]; exact h1) ?_ ?_
        · intro j hj
          rw [n1, n2]
          exact ⟨(hc j hj).1, (hc j hj).1⟩
        · intro w k hw
          by_cases hk : w = l.way ∧ slot s = .ok k
          · rw [hk.1]; exact n3 k hk.2
          · rw [(n4 w k hk).1, (n4 w k hk).2]; exact hS w k hw
        · intro p hp'
          exact hp p (by simp [places, hp'])

/-- Reports without fields among the tokens keep their counts. -/
theorem toks_untouched (reg : Registry) (ts : List Tok) : ∀ (s st : State) (l : List Item),
    toksT reg s ts = (l, .ok st) → 0 ≤ s.id →
    0 ≤ st.id ∧ (unnumbered ts = true → st.id = s.id) ∧
    ∀ w (k : Nat), (w, some (k : Int)) ∉ places (some s.id) ts → st.size w k = s.size w k := by
  induction ts with
  | nil =>
    intro s st l h h0
    simp only [toksT, Prod.mk.injEq, Except.ok.injEq] at h
    obtain ⟨-, rfl⟩ := h
    exact ⟨h0, fun _ => rfl, fun _ _ _ => rfl⟩
  | cons x ts ih =>
    intro s st l h h0
    rw [toksT] at h
    generalize hy : tokT reg s x = y at h
    obtain ⟨l1, r⟩ := y
    cases r with
    | error e => simp [Tr.bind] at h
    | ok s1 =>
      simp only [Tr.bind, Prod.mk.injEq] at h
      obtain ⟨-, h2⟩ := h
      have h3 : toksT reg s1 ts = ((toksT reg s1 ts).1, .ok st) := by rw [← h2]
      have keep : ∀ {α : Type} (z : Tr α), (z.bind fun _ => (([], .ok s) : Tr State)) = (l1, .ok s1) → s1 = s := by
        intro α z hz
        obtain ⟨lz, rz⟩ := z
        cases rz with
        | error e => simp [Tr.bind] at hz
        | ok u =>
          simp only [Tr.bind, Prod.mk.injEq, Except.ok.injEq] at hz
          exact hz.2.symm
      cases x with
      | report i =>
        obtain ⟨hi, rfl⟩ := report_ok hy
        obtain ⟨g1, -, g3⟩ := ih _ st _ h3 hi
        exact ⟨g1, fun h => by simp [unnumbered] at h, g3⟩
      | endReport =>
        simp only [tokT, Prod.mk.injEq, Except.ok.injEq] at hy
        obtain ⟨-, rfl⟩ := hy
        exact ih _ st _ h3 h0
      | enter k u =>
        cases u with
        | none => simp [tokT] at hy
        | some u =>
          obtain rfl := keep _ hy
          exact ih _ st _ h3 h0
      | leave =>
        obtain rfl := keep (emitT reg [(.endCollection, .int 0)]) hy
        exact ih _ st _ h3 h0
      | leaf lf =>
        have hn := near_leaf reg s s lf rfl (fun _ _ => rfl)
        rw [hy] at hn
        obtain ⟨n1, -, -, n4⟩ := hn.2
        obtain ⟨g1, g2, g3⟩ := ih s1 st _ h3 (by rw [n1]; exact h0)
        refine ⟨g1, fun hu => ?_, ?_⟩
        · rw [g2 hu, n1]
        · intro w k hk
          simp only [places, List.mem_cons, not_or] at hk
          rw [n1] at g3
          rw [g3 w k hk.2]
          refine (n4 w k ?_).1
          rintro ⟨rfl, hs⟩
          exact hk.1 (by rw [slot_nat h0 hs])

end Streamer

open Streamer

theorem places_some {p : Way × Option Int} (ts : List Tok) : ∀ cur i, p ∈ places cur ts → (cur = none → p.2 ≠ none) →
    p ∈ places (some (cur.getD i)) ts := by
  induction ts with
  | nil => intro cur i h; simp [places] at h
  | cons x ts ih =>
    intro cur i h hn
    cases x with
    | report j =>
      exact h
    | endReport => exact ih cur i h hn
    | enter k u => exact ih cur i h hn
    | leave => exact ih cur i h hn
    | leaf l =>
      simp only [places, List.mem_cons] at h ⊢
      rcases h with rfl | h
      · left
        cases cur with
        | none => exact absurd rfl (hn rfl)
        | some j => rfl
      · exact .inr (ih cur i h hn)

/-- Elements that all come after a Report of their own do not see what came before. -/
theorem places_own (ts : List Tok) (h : ∀ p ∈ places none ts, p.2 ≠ none) (cur : Option Int) :
    places cur ts = places none ts := by
  induction ts with
  | nil => rfl
  | cons x ts ih =>
    cases x with
    | report j => rfl
    | endReport => exact ih h
    | enter k u => exact ih h
    | leave => exact ih h
    | leaf l => exact absurd rfl (h (l.way, none) (by simp [places]))

/-- The Report opened last. -/
def opened (cur : Option Int) : List Tok → Option Int
  | [] => cur
  | .report i :: r => opened (some i) r
  | _ :: r => opened cur r

theorem places_append (xs ys : List Tok) : ∀ cur, places cur (xs ++ ys) = places cur xs ++ places (opened cur xs) ys := by
  induction xs with
  | nil => intro cur; rfl
  | cons x xs ih => intro cur; cases x <;> simp [places, opened, ih]

theorem opened_unnumbered {xs : List Tok} (h : unnumbered xs = true) (cur : Option Int) : opened cur xs = cur := by
  induction xs with
  | nil => rfl
  | cons x xs ih => cases x <;> simp_all [unnumbered, opened]

theorem unnumbered_append (xs ys : List Tok) : unnumbered (xs ++ ys) = (unnumbered xs && unnumbered ys) := by
  induction xs with
  | nil => rfl
  | cons x xs ih => cases x <;> simp_all [unnumbered]

theorem places_isSome (ts : List Tok) : ∀ (i : Int) (p : Way × Option Int), p ∈ places (some i) ts → p.2 ≠ none := by
  induction ts with
  | nil => intro i p h; simp [places] at h
  | cons x ts ih =>
    intro i p h
    cases x with
    | leaf l =>
      simp only [places, List.mem_cons] at h
      rcases h with rfl | h
      · simp
      · exact ih i p h
    | report j => exact ih j p h
    | endReport => exact ih i p h
    | enter k u => exact ih i p h
    | leave => exact ih i p h

theorem tokens_pair (a b : Node) : tokens (.top [a, b]) = tokens a ++ tokens b := by simp [tokens, tokensL]

/-- **C76.** Descriptors that can be merged are compiled as if each was alone: the items of the first followed by those
of the second, and the exception of the first that raises. -/
theorem C76_items (reg : Registry) (a b : Node) (h : Composable a b) :
    Streamer.trace reg (.top [a, b]) =
      match (Streamer.trace reg a).2 with
      | none => ((Streamer.trace reg a).1 ++ (Streamer.trace reg b).1, (Streamer.trace reg b).2)
      | some _ => Streamer.trace reg a := by
  rw [trace_toks, trace_toks reg a, trace_toks reg b, tokens_pair, toksT_append]
  obtain ⟨h1, h2⟩ := h
  cases ha : toksT reg {} (tokens a) with
  | mk l r =>
    cases r with
    | error e => rfl
    | ok st =>
      obtain ⟨g1, g2, g3⟩ := toks_untouched reg (tokens a) {} st l ha (by decide)
      have key : TrRel (fun _ _ => True) (toksT reg st (tokens b)) (toksT reg {} (tokens b)) := by
        have hS : ∀ w (k : Nat), (w, some (k : Int)) ∈ places (some 0) (tokens b) → st.size w k = ({} : State).size w k :=
          fun w k hw => g3 w k fun hn => h2 _ hn hw
        rcases h1 with h1 | h1
        · refine toks_alike reg (fun w i => (w, some i) ∈ places (some 0) (tokens b)) (tokens b) none st {} (by simp) g1
            (by decide) hS ?_
          rintro ⟨w, q⟩ hp
          have hne := (h1 _ hp).1
          cases q with
          | none => exact absurd rfl hne
          | some i => exact ⟨i, rfl, places_some _ none 0 hp fun _ => hne⟩
        · refine toks_alike reg (fun w i => (w, some i) ∈ places (some 0) (tokens b)) (tokens b) (some 0) st {} ?_ g1
            (by decide) hS ?_
          · intro i hi
            cases hi
            exact ⟨g2 h1, rfl⟩
          · rintro ⟨w, q⟩ hp
            have := places_isSome _ _ _ hp
            cases q with
            | none => exact absurd rfl this
            | some i => exact ⟨i, rfl, hp⟩
      cases hb : toksT reg {} (tokens b) with
      | mk lb rb =>
        cases hb' : toksT reg st (tokens b) with
        | mk lb' rb' =>
          rw [hb, hb'] at key
          obtain ⟨k1, k2⟩ := key
          simp only at k1 k2
          subst k1
          cases rb' with
          | error e =>
            cases rb with
            | error f => simp only at k2; subst k2; simp [Tr.bind, hb']
            | ok s => exact k2.elim
          | ok s' =>
            cases rb with
            | error f => exact k2.elim
            | ok s => simp [Tr.bind, hb']

/-- Merging with one descriptor after the other. -/
theorem composable_top {a : Node} {ns : List Node} (h : ∀ b ∈ ns, Composable a b) (hp : ns.Pairwise Composable) :
    Composable a (.top ns) := by
  have front : ∀ (ns : List Node), (∀ b ∈ ns, ∀ p ∈ places none (tokens b), p.2 ≠ none ∧ p.2 ≠ some 0) →
      ∀ p ∈ places none (tokensL ns), p.2 ≠ none ∧ p.2 ≠ some 0 := by
    intro ns
    induction ns with
    | nil => intro _ p hp; simp [tokensL, places] at hp
    | cons b ns ih =>
      intro hb p hp
      have hown := ih fun c hc => hb c (by simp [hc])
      rw [tokensL, places_append, places_own (tokensL ns) (fun p hp => (hown p hp).1), List.mem_append] at hp
      rcases hp with hp | hp
      · exact hb b (by simp) p hp
      · exact hown p hp
  have back : ∀ (ns : List Node), ns.Pairwise Composable → ∀ p ∈ places (some 0) (tokensL ns),
      ∃ b ∈ ns, p ∈ places (some 0) (tokens b) := by
    intro ns
    induction ns with
    | nil => intro _ p hp; simp [tokensL, places] at hp
    | cons b ns ih =>
      intro hc p hp
      rw [List.pairwise_cons] at hc
      rw [tokensL, places_append, List.mem_append] at hp
      rcases hp with hp | hp
      · exact ⟨b, by simp, hp⟩
      · have : p ∈ places (some 0) (tokensL ns) := by
          by_cases hu : unnumbered (tokens b) = true
          · rw [opened_unnumbered hu] at hp
            exact hp
          · have hown := front ns fun c hc' => (hc.1 c hc').1.resolve_right hu
            rw [places_own _ (fun p hp => (hown p hp).1)] at hp ⊢
            exact hp
        obtain ⟨c, hc1, hc2⟩ := ih hc.2 p this
        exact ⟨c, by simp [hc1], hc2⟩
  refine ⟨?_, ?_⟩
  · by_cases hu : unnumbered (tokens a) = true
    · exact .inr hu
    · left
      rw [tokens]
      exact front ns fun b hb => (h b hb).1.resolve_right hu
  · intro p hp' hq
    rw [tokens] at hq
    obtain ⟨b, hb, hpb⟩ := back ns hp p hq
    exact (h b hb).2 p hp' hpb

/-- **C76.** Any number of descriptors, any two of which can be merged and each of which compiles alone: together they
compile to the items of each, one after the other. -/
theorem C76_many (reg : Registry) : ∀ (ns : List Node) (ls : List (List Item)), ns.Pairwise Composable →
    ns.map (Streamer.compile reg) = ls.map .ok → Streamer.compile reg (.top ns) = .ok ls.flatten := by
  intro ns
  induction ns with
  | nil =>
    intro ls _ h
    cases ls with
    | nil => rfl
    | cons => simp at h
  | cons a ns ih =>
    intro ls hp h
    cases ls with
    | nil => simp at h
    | cons l ls =>
      simp only [List.map_cons, List.cons.injEq] at h
      rw [List.pairwise_cons] at hp
      have h1 := ih ls hp.2 h.2
      have h2 := C76_items reg a (.top ns) (composable_top hp.1 hp.2)
      rw [(trace_ok reg a l).2 h.1, (trace_ok reg _ _).2 h1] at h2
      have h3 : Streamer.trace reg (.top (a :: ns)) = Streamer.trace reg (.top [a, .top ns]) :=
        (C69_order reg _ _ (by simp [tokens, tokensL])).1
      rw [h2] at h3
      simpa using (trace_ok reg _ _).1 h3

namespace Streamer

/-- What tokens describe depends on the counts of the reports they have fields in only. -/
theorem exact_alike (S : Way → Int → Prop) (ts : List Tok) : ∀ (cur : Option Int) (c c' : Count) (x x' y y' : Int),
    (∀ i, cur = some i → x = i ∧ x' = i ∧ (i ≠ 0 → y = i ∧ y' = i)) → (∀ w i, S w i → c w i = c' w i) →
    (∀ p ∈ places cur ts, ∃ i, p.2 = some i ∧ S p.1 i) →
    (y = y' ∨ ∀ p ∈ places cur ts, p.2 ≠ some 0) →
    exact c x y ts = exact c' x' y' ts := by
  induction ts with
  | nil => intros; rfl
  | cons t ts ih =>
    intro cur c c' x x' y y' hc hS hp hy
    cases t with
    | report i =>
      simp only [exact]
      refine ih (some i) c c' i i _ _ ?_ hS ?_ ?_
      · intro j hj
        cases hj
        exact ⟨rfl, rfl, fun h => by simp [h]⟩
      · intro p hpp
        exact hp p hpp
      · rcases hy with rfl | hy
        · exact .inl rfl
        · by_cases hi : i = 0
          · exact .inr hy
          · exact .inl (by simp [hi])
    | endReport => exact ih cur c c' x x' y y' hc hS hp hy
    | enter k u => simp only [exact]; rw [ih cur c c' x x' y y' hc hS hp hy]
    | leave => simp only [exact]; rw [ih cur c c' x x' y y' hc hS hp hy]
    | leaf l =>
      obtain ⟨i, hi, hSi⟩ := hp (l.way, cur) (by simp [places])
      obtain ⟨rfl, rfl, hne⟩ := hc i hi
      have hyy : y = y' := by
        rcases hy with h | h
        · exact h
        · have : x' ≠ 0 := by
            rintro rfl
            exact h (l.way, cur) (by simp [places]) hi
          rw [(hne this).1, (hne this).2]
      subst hyy
      simp only [exact]
      rw [hS _ _ hSi]
      congr 1
      refine ih cur _ _ _ _ y y hc ?_ ?_ (.inl rfl)
      · intro w i hw
        simp only [Count.add, hS w i hw]
      · intro p hpp
        exact hp p (by simp [places, hpp])

/-- Reports without fields among the tokens keep their counts. -/
theorem count_untouched (ts : List Tok) : ∀ (c : Count) (x y : Int),
    (unnumbered ts = true → (countAfter c x y ts).2.2 = y ∧ (countAfter c x y ts).2.1 = x) ∧
    ∀ w i, (w, some i) ∉ places (some x) ts → (countAfter c x y ts).1 w i = c w i := by
  induction ts with
  | nil => intro c x y; exact ⟨fun _ => ⟨rfl, rfl⟩, fun _ _ _ => rfl⟩
  | cons t ts ih =>
    intro c x y
    cases t with
    | report i => exact ⟨fun h => by simp [unnumbered] at h, (ih c i _).2⟩
    | endReport => exact ih c x y
    | enter k u => exact ih c x y
    | leave => exact ih c x y
    | leaf l =>
      obtain ⟨h1, h2⟩ := ih (c.add x l) x y
      refine ⟨h1, fun w i hw => ?_⟩
      simp only [places, List.mem_cons, not_or, Prod.mk.injEq, Option.some.injEq] at hw
      simp only [countAfter]
      rw [h2 w i hw.2, Count.add, if_neg hw.1]

end Streamer

/-- **C76.** A host finds in the merged descriptor the collections and fields of the first, in their reports and at their
places, followed by those of the second. -/
theorem C76_meaning (reg : Registry) (rule : PageRule) (a b : Node) (la lb : List Item) (h : Composable a b)
    (ha : Streamer.compile reg a = .ok la) (hb : Streamer.compile reg b = .ok lb) :
    ∃ l, Streamer.compile reg (.top [a, b]) = .ok l ∧
      meaning rule (keys l) = meaning rule (keys la) ++ meaning rule (keys lb) := by
  have hi := C76_items reg a b h
  rw [(trace_ok reg a la).2 ha, (trace_ok reg b lb).2 hb] at hi
  have hl := (trace_ok reg _ _).1 hi
  refine ⟨_, hl, ?_⟩
  rw [C29_compile_exact_partial reg rule _ _ hl, C29_compile_exact_partial reg rule _ _ ha,
    C29_compile_exact_partial reg rule _ _ hb, tokens_pair, exact_append]
  congr 1
  obtain ⟨h1, h2⟩ := h
  obtain ⟨g1, g2⟩ := count_untouched (tokens a) (fun _ _ => 0) 0 0
  have hS : ∀ w i, (w, some i) ∈ places (some 0) (tokens b) →
      (countAfter (fun _ _ => 0) 0 0 (tokens a)).1 w i = 0 := fun w i hw => g2 w i fun hn => h2 _ hn hw
  rcases h1 with h1 | h1
  · refine exact_alike (fun w i => (w, some i) ∈ places (some 0) (tokens b)) (tokens b) none _ _ _ _ _ _ (by simp) hS ?_
      (.inr fun p hp => (h1 p hp).2)
    rintro ⟨w, q⟩ hp
    have hne := (h1 _ hp).1
    cases q with
    | none => exact absurd rfl hne
    | some i => exact ⟨i, rfl, places_some _ none 0 hp fun _ => hne⟩
  · obtain ⟨e1, e2⟩ := g1 h1
    rw [e1, e2]
    refine exact_alike (fun w i => (w, some i) ∈ places (some 0) (tokens b)) (tokens b) (some 0) _ _ _ _ _ _ ?_ hS ?_
      (.inl rfl)
    · intro i hi
      cases hi
      exact ⟨rfl, rfl, fun h => absurd rfl h⟩
    · rintro ⟨w, q⟩ hp
      have := places_isSome _ _ _ hp
      cases q with
      | none => exact absurd rfl this
      | some i => exact ⟨i, rfl, hp⟩

/-- A device with two reports. -/
def compositeKeys : Node :=
  .coll (.int 1) (some (.int 0x10006)) [.report 1 [.padding .input 3, .align .input 8], .report 2 [.padding .output 5]]

/-- A device with a further report, of both directions. -/
def compositeMouse : Node :=
  .coll (.int 1) (some (.int 0x10002)) [.report 3 [.padding .input 7, .padding .output 2, .align .input 8]]

/-- A device without reports. -/
def compositePlain : Node := .coll (.int 1) (some (.int 0x10002)) [.padding .feature 2]

/-- Devices of which any two can be merged, and which compile. -/
example : [compositePlain, compositeKeys, compositeMouse].Pairwise Composable ∧
    ([compositePlain, compositeKeys, compositeMouse].map fun n => (Streamer.trace [] n).2) = [none, none, none] ∧
    ([compositePlain, compositeKeys, compositeMouse].map fun n => (Streamer.trace [] n).1.length) = [6, 14, 13] := by
  decide +kernel

/-- **C76 needs the elements of the second descriptor in Reports**: otherwise they are put in the last report of the
first. -/
theorem C76_unreported_moves : ∃ l la lb, Streamer.compile [] (.top [compositeKeys, compositePlain]) = .ok l ∧
    Streamer.compile [] compositeKeys = .ok la ∧ Streamer.compile [] compositePlain = .ok lb ∧
    ∀ rule, (Event.padBit .feature 2 ∈ meaning rule (keys l)) ∧
      (Event.padBit .feature 2 ∉ meaning rule (keys la) ++ meaning rule (keys lb)) := by
  refine ⟨_, _, _, by rfl, by rfl, by rfl, fun rule => ?_⟩
  cases rule <;> decide +kernel

/-- **C76 needs separate reports**: fields of the same report and direction come after those of the first descriptor,
so that alignment differs. -/
theorem C76_shared_moves : ∃ l la, Streamer.compile [] (.top [compositeMouse, .report 3 [.padding .input 1, .align .input 3]])
      = .ok l ∧ Streamer.compile [] (.report 3 [.padding .input 1, .align .input 3]) = .ok la ∧
    ∀ rule, ¬ ∃ x, meaning rule (keys l) = x ++ meaning rule (keys la) ∧
      ∃ lb, Streamer.compile [] compositeMouse = .ok lb ∧ x = meaning rule (keys lb) := by
  refine ⟨_, _, by rfl, by rfl, ?_⟩
  rintro rule ⟨x, hx, lb, hlb, rfl⟩
  have : Streamer.compile [] compositeMouse = .ok (Streamer.trace [] compositeMouse).1 :=
    (trace_ok _ _ _).1 (by decide +kernel)
  rw [this] at hlb
  cases hlb
  revert hx
  cases rule <;> decide +kernel

end Hrdc
