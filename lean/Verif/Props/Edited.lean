import Verif.Spec.Edited
import Verif.Props.Grouping
import Verif.Proofs.Exact
import Verif.Proofs.Legal
import Verif.Proofs.Extract5
import Verif.Props.Joined
/-!
# Property C84: edits stay where they are
-/
namespace Hrdc
open Spec Streamer

/-- Related results: the same exception, or the same items and related states. -/
def relE (R : Streamer.State → Streamer.State → Prop) :
    Except PyErr (Streamer.State × List Item) → Except PyErr (Streamer.State × List Item) → Prop
  | .error e, .error e' => e = e'
  | .ok (s, x), .ok (s', x') => x = x' ∧ R s s'
  | _, _ => False

/-- Related states, or the same exception. -/
def relS (R : Streamer.State → Streamer.State → Prop) : Except PyErr Streamer.State → Except PyErr Streamer.State → Prop
  | .error e, .error e' => e = e'
  | .ok s, .ok s' => R s s'
  | _, _ => False

section
variable {R : Streamer.State → Streamer.State → Prop} (hb : ∀ st st' w n, R st st' → relS R (bump st w n) (bump st' w n))
include hb

theorem addPad_rel (reg : Registry) {st st' : Streamer.State} (h : R st st') (w : Way) (p : Int) :
    relE R (addPad reg st w p) (addPad reg st' w p) := by
  unfold addPad
  split
  · have := hb st st' w p h
    cases emit reg [(.reportCount, .int 1), (.reportSize, .int p)] with
    | error e => rfl
    | ok a =>
      simp only
      cases h1 : bump st w p with
      | error e =>
        cases h2 : bump st' w p with
        | error e' => rw [h1, h2] at this; exact this
        | ok s' => rw [h1, h2] at this; exact this.elim
      | ok s =>
        cases h2 : bump st' w p with
        | error e' => rw [h1, h2] at this; exact this.elim
        | ok s' =>
          rw [h1, h2] at this
          simp only
          cases emit reg [(w.cls, .int 3)] with
          | error e => rfl
          | ok b => exact ⟨rfl, this⟩
  · exact ⟨rfl, h⟩

theorem leaf_rel (reg : Registry) {st st' : Streamer.State} (h : R st st') (l : Leaf)
    (hp : padFor st l.way l.shape.1 0 = padFor st' l.way l.shape.1 0) :
    relE R (tok reg st (.leaf l)) (tok reg st' (.leaf l)) := by
  cases l with
  | padding w s => exact addPad_rel hb reg h w s
  | align w b =>
    simp only [Leaf.way, Leaf.shape] at hp
    simp only [tok, hp]
    cases padFor st' w b 0 with
    | error e => rfl
    | ok p => exact addPad_rel hb reg h w p
  | value v =>
    simp only [Leaf.way, Leaf.shape] at hp
    simp only [tok, value, hp]
    cases padFor st' v.way v.alignment 0 with
    | error e => rfl
    | ok p =>
      simp only
      have h1 := addPad_rel hb reg h v.way p
      cases e1 : addPad reg st v.way p with
      | error e =>
        cases e2 : addPad reg st' v.way p with
        | error e' => rw [e1, e2] at h1; exact h1
        | ok q => rw [e1, e2] at h1; exact h1.elim
      | ok q =>
        cases e2 : addPad reg st' v.way p with
        | error e' => rw [e1, e2] at h1; exact h1.elim
        | ok q' =>
          obtain ⟨s, a⟩ := q
          obtain ⟨s', a'⟩ := q'
          rw [e1, e2] at h1
          obtain ⟨rfl, h1⟩ := h1
          simp only
          cases truthOpt v.namedArray with
          | error e => rfl
          | ok named =>
            simp only
            cases emit reg ((if constFlag v.flags then [] else attrCalls reg v named) ++
              [(.reportCount, .int v.count), (.reportSize, .int v.size)]) with
            | error e => rfl
            | ok b =>
              simp only
              have h2 := hb s s' v.way v.size h1
              cases e3 : bump s v.way v.size with
              | error e =>
                cases e4 : bump s' v.way v.size with
                | error e' => rw [e3, e4] at h2; exact h2
                | ok q => rw [e3, e4] at h2; exact h2.elim
              | ok t =>
                cases e4 : bump s' v.way v.size with
                | error e' => rw [e3, e4] at h2; exact h2.elim
                | ok t' =>
                  rw [e3, e4] at h2
                  simp only
                  cases emit reg ([(v.way.cls, v.flags)] ++
                    (if named && !constFlag v.flags && usageGiven v.usage then [(.endCollection, .int 0)] else [])) with
                  | error e => rfl
                  | ok c => exact ⟨rfl, h2⟩

/-- Token by token. -/
theorem toks_rel (reg : Registry) (ts : List Tok) : ∀ (st st' : Streamer.State), R st st' →
    (∀ i s s', Tok.report i ∈ ts → R s s' → R { s with id := i } { s' with id := i }) →
    (∀ l s s', Tok.leaf l ∈ ts → R s s' → padFor s l.way l.shape.1 0 = padFor s' l.way l.shape.1 0) →
    relE R (Streamer.toks reg st ts) (Streamer.toks reg st' ts) := by
  induction ts with
  | nil => intro st st' h _ _; exact ⟨rfl, h⟩
  | cons t ts ih =>
    intro st st' h hr hl
    have ht : relE R (tok reg st t) (tok reg st' t) := by
      cases t with
      | report i =>
        simp only [tok]
        cases emit reg (if i ≠ 0 then [(.reportID, .int i)] else []) with
        | error e => rfl
        | ok a => exact ⟨rfl, hr i st st' (by simp) h⟩
      | endReport => exact ⟨rfl, h⟩
      | enter k u =>
        simp only [tok]
        cases u with
        | none => rfl
        | some u =>
          simp only
          cases emit reg [(.usage, u), (.collection, k)] with
          | error e => rfl
          | ok a => exact ⟨rfl, h⟩
      | leave =>
        simp only [tok]
        cases emit reg [(Cls.endCollection, PyVal.int 0)] with
        | error e => rfl
        | ok a => exact ⟨rfl, h⟩
      | leaf l => exact leaf_rel hb reg h l (hl l st st' (by simp) h)
    simp only [Streamer.toks]
    cases e1 : tok reg st t with
    | error e =>
      cases e2 : tok reg st' t with
      | error e' => rw [e1, e2] at ht; exact ht
      | ok q => rw [e1, e2] at ht; exact ht.elim
    | ok q =>
      cases e2 : tok reg st' t with
      | error e' => rw [e1, e2] at ht; exact ht.elim
      | ok q' =>
        obtain ⟨s, a⟩ := q
        obtain ⟨s', a'⟩ := q'
        rw [e1, e2] at ht
        obtain ⟨rfl, ht⟩ := ht
        simp only
        have := ih s s' ht (fun i x y hi => hr i x y (by simp [hi])) (fun l x y hi => hl l x y (by simp [hi]))
        cases e3 : Streamer.toks reg s ts with
        | error e =>
          cases e4 : Streamer.toks reg s' ts with
          | error e' => rw [e3, e4] at this; exact this
          | ok q => rw [e3, e4] at this; exact this.elim
        | ok q =>
          cases e4 : Streamer.toks reg s' ts with
          | error e' => rw [e3, e4] at this; exact this.elim
          | ok q' =>
            rw [e3, e4] at this
            exact ⟨by rw [this.1], this.2⟩

end

/-! ## Behind the gap: offsets that agree modulo `m` -/

/-- The same report, and offsets that agree modulo `m`. -/
def CloseTo (m : Int) (s s' : Streamer.State) : Prop := s.id = s'.id ∧ ∀ w k, s.size w k % m = s'.size w k % m

theorem closeTo_bump (m : Int) (st st' : Streamer.State) (w : Way) (n : Int) (h : CloseTo m st st') :
    relS (CloseTo m) (bump st w n) (bump st' w n) := by
  have hs : slot st = slot st' := by unfold slot; rw [h.1]
  unfold bump
  rw [hs]
  cases slot st' with
  | error e => rfl
  | ok k =>
    refine ⟨h.1, fun w' k' => ?_⟩
    simp only
    split
    · rw [Int.add_emod, h.2, ← Int.add_emod]
    · exact h.2 w' k'

theorem closeTo_pad {m : Int} {st st' : Streamer.State} (h : CloseTo m st st') (w : Way) (a : Int) (ha : a ≤ 1 ∨ a ∣ m) :
    padFor st w a 0 = padFor st' w a 0 := by
  have hs : slot st = slot st' := by unfold slot; rw [h.1]
  unfold padFor
  split
  · rename_i h1
    rw [hs]
    cases slot st' with
    | error e => rfl
    | ok k =>
      rcases ha with ha | ha
      · omega
      · simp only
        have : st.size w k % a = st'.size w k % a := by
          rw [← Int.emod_emod_of_dvd (st.size w k) ha, h.2, Int.emod_emod_of_dvd _ ha]
        rw [this]
  · rfl

theorem toks_closeTo (reg : Registry) (m : Int) (ts : List Tok) (ha : alignedBy m ts) (st st' : Streamer.State)
    (h : CloseTo m st st') : relE (CloseTo m) (Streamer.toks reg st ts) (Streamer.toks reg st' ts) :=
  toks_rel (closeTo_bump m) reg ts st st' h (fun _ _ _ _ hR => ⟨rfl, hR.2⟩)
    (fun l _ _ hl hR => closeTo_pad hR l.way l.shape.1 (ha l hl))

/-! ## In the gap: the same offsets in perhaps another report -/

/-- The offsets of report `k` here are those of report `k'` there, and nothing else has changed. -/
def Moved (k k' : Nat) (b b' s s' : Streamer.State) : Prop :=
  s.id = b.id ∧ s'.id = b'.id ∧ (∀ w, s.size w k = s'.size w k') ∧ (∀ w j, j ≠ k → s.size w j = b.size w j) ∧
    ∀ w j, j ≠ k' → s'.size w j = b'.size w j

theorem moved_bump {k k' : Nat} {b b' : Streamer.State} (h1 : slot b = .ok k) (h2 : slot b' = .ok k') (st st' : Streamer.State)
    (w : Way) (n : Int) (h : Moved k k' b b' st st') : relS (Moved k k' b b') (bump st w n) (bump st' w n) := by
  have e1 : slot st = .ok k := by rw [← h1]; unfold slot; rw [h.1]
  have e2 : slot st' = .ok k' := by rw [← h2]; unfold slot; rw [h.2.1]
  unfold bump
  rw [e1, e2]
  obtain ⟨a1, a2, a3, a4, a5⟩ := h
  refine ⟨a1, a2, fun w' => ?_, fun w' j hj => ?_, fun w' j hj => ?_⟩
  · simp only [and_true, a3]
  · simp only [hj, and_false, if_false, a4 w' j hj]
  · simp only [hj, and_false, if_false, a5 w' j hj]

theorem moved_pad {k k' : Nat} {b b' : Streamer.State} (h1 : slot b = .ok k) (h2 : slot b' = .ok k') {st st' : Streamer.State}
    (h : Moved k k' b b' st st') (w : Way) (a : Int) : padFor st w a 0 = padFor st' w a 0 := by
  have e1 : slot st = .ok k := by rw [← h1]; unfold slot; rw [h.1]
  have e2 : slot st' = .ok k' := by rw [← h2]; unfold slot; rw [h.2.1]
  unfold padFor
  rw [e1, e2]
  simp only [h.2.2.1 w]

theorem noReports_mem {ts : List Tok} (h : noReports ts = true) (i : Int) : Tok.report i ∉ ts := by
  intro hm
  have := List.all_eq_true.1 h _ hm
  simp at this

theorem toks_moved (reg : Registry) (ts : List Tok) (hn : noReports ts = true) (b b' : Streamer.State) (k k' : Nat)
    (h1 : slot b = .ok k) (h2 : slot b' = .ok k') (h : ∀ w, b.size w k = b'.size w k') :
    relE (Moved k k' b b') (Streamer.toks reg b ts) (Streamer.toks reg b' ts) :=
  toks_rel (moved_bump h1 h2) reg ts b b' ⟨rfl, rfl, h, fun _ _ _ => rfl, fun _ _ _ => rfl⟩
    (fun i _ _ hi _ => absurd hi (noReports_mem hn i)) (fun l _ _ _ hR => moved_pad h1 h2 hR l.way l.shape.1)

/-! ## Where elements end -/

theorem leaf_sizes {reg : Registry} {st st' : Streamer.State} {l : Leaf} {is : List Item}
    (hk : tok reg st (.leaf l) = .ok (st', is)) (h0 : 0 ≤ st.id) :
    ∃ n, st'.id = st.id ∧ 0 ≤ n ∧ (∀ w k, st'.size w k = st.plus l.way n w k) ∧
      st.size l.way st.id.toNat + n = endBit (st.size l.way st.id.toNat) [l.shape] := by
  have hsame : Same st (fun w k => st.size w k.toNat) := fun _ _ _ _ => rfl
  cases l with
  | padding w s =>
    simp only [tok] at hk
    have hp := Streamer.addPad_ok hk h0
    exact ⟨s, hp.2.1, hp.1, hp.2.2.1, by simp [endBit, Leaf.shape]⟩
  | align w b =>
    simp only [tok] at hk
    split at hk
    · simp at hk
    · rename_i pad hpad
      have hp := Streamer.addPad_ok hk h0
      have hpd := padFor_exact hpad h0 hsame
      refine ⟨pad, hp.2.1, hp.1, hp.2.2.1, ?_⟩
      simp only [endBit, Leaf.shape, Leaf.way]
      rw [hpd]
      split <;> omega
  | value v =>
    simp only [tok] at hk
    obtain ⟨pad, st1, a, b, named, hpad, ha, rfl, hn, -, kb, hs0, hc0, hid', hlt, hsz⟩ := Streamer.value_ok hk h0
    have hp := Streamer.addPad_ok ha h0
    have hpd := padFor_exact hpad h0 hsame
    refine ⟨pad + v.size, hid', by have := hp.1; omega, hsz, ?_⟩
    simp only [endBit, Leaf.shape, Leaf.way]
    rw [hpd]
    split <;> omega

theorem report_nonneg {reg : Registry} {i : Int} {x : List Item}
    (hx : emit reg (if i ≠ 0 then [(.reportID, .int i)] else []) = .ok x) : 0 ≤ i := by
  by_cases h : i = 0
  · omega
  · rw [if_pos h] at hx
    have := (emit_legal reg _).1 ⟨x, hx⟩ (.reportID, .int i) (by simp)
    simp only [callLegal] at this
    rw [kept_of_ne (by simp)] at this
    simpa [Spec.isSigned, PyVal.toInt] using this.1

theorem toks_id {reg : Registry} (ts : List Tok) : ∀ {st st' : Streamer.State} {is : List Item},
    Streamer.toks reg st ts = .ok (st', is) → 0 ≤ st.id → (∀ w k, 0 ≤ st.size w k) →
    0 ≤ st'.id ∧ st'.id = reportAt st.id ts ∧ (∀ w k, 0 ≤ st'.size w k) ∧
      (noReports ts = true → ∀ w, st'.size w st.id.toNat = endBit (st.size w st.id.toNat) (shapes w ts)) := by
  induction ts with
  | nil =>
    intro st st' is h h0 hs
    simp only [Streamer.toks, Except.ok.injEq, Prod.mk.injEq] at h
    obtain ⟨rfl, -⟩ := h
    exact ⟨h0, rfl, hs, fun _ _ => rfl⟩
  | cons t ts ih =>
    intro st st' is h h0 hs
    simp only [Streamer.toks] at h
    split at h
    · simp at h
    · rename_i st1 a ha
      split at h
      · simp at h
      · rename_i st2 b hb
        simp only [Except.ok.injEq, Prod.mk.injEq] at h
        obtain ⟨rfl, rfl⟩ := h
        have key : st1 = st → reportAt st.id (t :: ts) = reportAt st.id ts →
            (∀ w, shapes w (t :: ts) = shapes w ts) → (noReports (t :: ts) = true → noReports ts = true) →
            0 ≤ st2.id ∧ st2.id = reportAt st.id (t :: ts) ∧ (∀ w k, 0 ≤ st2.size w k) ∧
              (noReports (t :: ts) = true →
                ∀ w, st2.size w st.id.toNat = endBit (st.size w st.id.toNat) (shapes w (t :: ts))) :=
          fun e1 e2 e3 e4 => by
            subst e1
            obtain ⟨i1, i2, i3, i4⟩ := ih hb h0 hs
            exact ⟨i1, i2.trans e2.symm, i3, fun hn w => by rw [e3 w]; exact i4 (e4 hn) w⟩
        cases t with
        | report i =>
          simp only [tok] at ha
          split at ha
          · simp at ha
          · rename_i x hx
            simp only [Except.ok.injEq, Prod.mk.injEq] at ha
            obtain ⟨rfl, rfl⟩ := ha
            have hi : 0 ≤ i := report_nonneg hx
            obtain ⟨i1, i2, i3, -⟩ := ih hb hi hs
            exact ⟨i1, i2, i3, fun hn => by simp [noReports] at hn⟩
        | endReport =>
          simp only [tok, Except.ok.injEq, Prod.mk.injEq] at ha
          exact key ha.1.symm rfl (fun _ => rfl) (by simp [noReports])
        | enter k u =>
          simp only [tok] at ha
          cases u with
          | none => simp at ha
          | some u =>
            simp only at ha
            split at ha
            · simp at ha
            · simp only [Except.ok.injEq, Prod.mk.injEq] at ha
              exact key ha.1.symm rfl (fun _ => rfl) (by simp [noReports])
        | leave =>
          simp only [tok] at ha
          split at ha
          · simp at ha
          · simp only [Except.ok.injEq, Prod.mk.injEq] at ha
            exact key ha.1.symm rfl (fun _ => rfl) (by simp [noReports])
        | leaf l =>
          obtain ⟨n, e1, e2, e3, e4⟩ := leaf_sizes ha h0
          obtain ⟨i1, i2, i3, i4⟩ := ih hb (e1 ▸ h0) (fun w k => by
            rw [e3]; simp only [State.plus]; have := hs w k; split <;> omega)
          rw [e1] at i2 i4
          refine ⟨i1, i2, i3, fun hn w => ?_⟩
          rw [i4 (by simpa [noReports] using hn) w, e3]
          simp only [State.plus, and_true, shapes]
          by_cases hw : l.way = w
          · subst hw
            rw [if_pos rfl, if_pos rfl, e4]
            rfl
          · rw [if_neg (fun h => hw h.symm), if_neg hw, Int.add_zero]

theorem toks_bitAt {reg : Registry} (ts : List Tok) : ∀ {st st' : Streamer.State} {is : List Item} (w : Way) (c : Int → Int),
    Streamer.toks reg st ts = .ok (st', is) → 0 ≤ st.id → (∀ j : Int, 0 ≤ j → st.size w j.toNat = c j) →
    st'.size w st'.id.toNat = bitAt w c st.id ts := by
  induction ts with
  | nil =>
    intro st st' is w c h h0 hc
    simp only [Streamer.toks, Except.ok.injEq, Prod.mk.injEq] at h
    obtain ⟨rfl, -⟩ := h
    exact hc _ h0
  | cons t ts ih =>
    intro st st' is w c h h0 hc
    simp only [Streamer.toks] at h
    split at h
    · simp at h
    · rename_i st1 a ha
      split at h
      · simp at h
      · rename_i st2 b hb
        simp only [Except.ok.injEq, Prod.mk.injEq] at h
        obtain ⟨rfl, rfl⟩ := h
        cases t with
        | report i =>
          simp only [tok] at ha
          split at ha
          · simp at ha
          · rename_i x hx
            simp only [Except.ok.injEq, Prod.mk.injEq] at ha
            obtain ⟨rfl, rfl⟩ := ha
            exact ih w c hb (report_nonneg hx) hc
        | endReport =>
          simp only [tok, Except.ok.injEq, Prod.mk.injEq] at ha
          obtain ⟨rfl, -⟩ := ha
          exact ih w c hb h0 hc
        | enter k u =>
          simp only [tok] at ha
          cases u with
          | none => simp at ha
          | some u =>
            simp only at ha
            split at ha
            · simp at ha
            · simp only [Except.ok.injEq, Prod.mk.injEq] at ha
              obtain ⟨rfl, -⟩ := ha
              exact ih w c hb h0 hc
        | leave =>
          simp only [tok] at ha
          split at ha
          · simp at ha
          · simp only [Except.ok.injEq, Prod.mk.injEq] at ha
            obtain ⟨rfl, -⟩ := ha
            exact ih w c hb h0 hc
        | leaf l =>
          obtain ⟨n, e1, e2, e3, e4⟩ := leaf_sizes ha h0
          simp only [bitAt]
          by_cases hw : l.way = w
          · subst hw
            rw [if_pos rfl, ← e1]
            refine ih _ _ hb (e1 ▸ h0) (fun j hj => ?_)
            rw [e3]
            simp only [State.plus, true_and]
            rw [e1]
            by_cases hjk : j = st.id
            · rw [if_pos (by rw [hjk]), if_pos hjk, hjk, e4, hc _ h0]
            · rw [if_neg (by omega), if_neg hjk, hc _ hj, Int.add_zero]
          · rw [if_neg hw, ← e1]
            refine ih _ _ hb (e1 ▸ h0) (fun j hj => ?_)
            rw [e3]
            simp only [State.plus]
            rw [if_neg (fun h => hw h.1.symm), hc _ hj, Int.add_zero]

/-! ## The gap -/

theorem tokens_around (b : Box) (ms : List Node) : tokens (b.around ms) = b.front ++ tokensL ms ++ b.back := by
  cases b <;> simp [Box.around, Box.front, Box.back, tokens]

theorem tokens_fill (ms : List Node) : ∀ g : Gap, tokensL (g.fill ms) = g.front ++ tokensL ms ++ g.back
  | .here b a => by simp [Gap.fill, Gap.front, Gap.back, Extractor.tokensL_append]
  | .inside b x g a => by
    simp [Gap.fill, Gap.front, Gap.back, Extractor.tokensL_append, tokensL, tokens_around, tokens_fill ms g]

/-- The items of members compiled in a state. -/
def itemsOf (r : Except PyErr (Streamer.State × List Item)) : Except PyErr (List Item) := r.map (·.2)

theorem compile_top (reg : Registry) (ms : List Node) :
    compile reg (.top ms) = itemsOf (Streamer.toks reg {} (tokensL ms)) := by
  unfold compile
  rw [node_toks, tokens]
  cases Streamer.toks reg {} (tokensL ms) with
  | error e => rfl
  | ok p => rfl

theorem pad_once {reg : Registry} {st : Streamer.State} (h0 : 0 ≤ st.id) (h1 : st.id < 256) (w : Way) {n : Int} (hn : 0 ≤ n) :
    ∃ st' x, tok reg st (.leaf (.padding w n)) = .ok (st', x) ∧ st'.id = st.id ∧
      ∀ w' k, st'.size w' k = st.plus w n w' k := by
  have hs : slot st = .ok st.id.toNat := by unfold slot; rw [if_pos ⟨h0, h1⟩]
  obtain ⟨a, ha⟩ := (emit_legal reg [(.reportCount, .int 1), (.reportSize, .int n)]).2 (by
    intro p hp
    simp only [List.mem_cons, List.not_mem_nil, or_false] at hp
    rcases hp with rfl | rfl
    · exact (call_unsigned _ (by decide)).2 (by decide)
    · exact (call_unsigned _ (by decide)).2 hn)
  obtain ⟨b, hb⟩ := (emit_legal reg [(w.cls, .int 3)]).2 (by
    intro p hp
    simp only [List.mem_cons, List.not_mem_nil, or_false] at hp
    subst hp
    exact (call_unsigned _ (by cases w <;> decide)).2 (by decide))
  have : ∃ st' x, addPad reg st w n = .ok (st', x) := by
    unfold addPad
    split
    · rw [ha]
      simp only [bump, hs, hb]
      exact ⟨_, _, rfl⟩
    · exact ⟨_, _, rfl⟩
  obtain ⟨st', x, he⟩ := this
  have := Streamer.addPad_ok he h0
  exact ⟨st', x, he, this.2.1, this.2.2.1⟩

theorem upTo_at (reg : Registry) (o : Way → Int) (ho : ∀ w, 0 ≤ o w) (st : Streamer.State) (h0 : 0 ≤ st.id) (h1 : st.id < 256)
    (hz : ∀ w, st.size w st.id.toNat = 0) :
    ∃ st' p, Streamer.toks reg st (tokensL (upToBit o)) = .ok (st', p) ∧ st'.id = st.id ∧ ∀ w, st'.size w st.id.toNat = o w := by
  obtain ⟨s1, x1, e1, i1, z1⟩ := pad_once (reg := reg) h0 h1 .input (ho .input)
  obtain ⟨s2, x2, e2, i2, z2⟩ := pad_once (reg := reg) (i1 ▸ h0) (i1 ▸ h1) .output (ho .output)
  rw [i1] at i2
  obtain ⟨s3, x3, e3, i3, z3⟩ := pad_once (reg := reg) (i2 ▸ h0) (i2 ▸ h1) .feature (ho .feature)
  refine ⟨s3, x1 ++ (x2 ++ (x3 ++ [])), ?_, by rw [i3, i2], fun w => ?_⟩
  · simp only [upToBit, tokensL, tokens, List.cons_append, List.nil_append, Streamer.toks, e1, e2, e3]
  · rw [z3]
    simp only [State.plus, z2, z1, i1, i2, hz]
    cases w <;> simp

theorem upTo_ok (reg : Registry) (o : Way → Int) (ho : ∀ w, 0 ≤ o w) :
    ∃ st p, Streamer.toks reg {} (tokensL (upToBit o)) = .ok (st, p) ∧ st.id = 0 ∧ ∀ w, st.size w 0 = o w :=
  upTo_at reg o ho {} (Int.le_refl 0) (by decide) (fun _ => rfl)

/-- An exception, or items with something in front and something behind. -/
def among (a b : List Item) (r : Except PyErr (List Item)) : Except PyErr (List Item) := r.map fun x => a ++ x ++ b

/-- **C84**.  Members put into a place of a descriptor leave what the compiler makes of everything else as it is,
and become what they become alone behind as many bits, if they end, modulo the alignments behind them, at
the bit where what was there before did. -/
theorem C84_edit (reg : Registry) (g : Gap) (m : Int) (before : List Node) (l : List Item)
    (hl : compile reg (.top (g.fill before)) = .ok l) (hn : noReports (tokensL before) = true)
    (hid : reportAt 0 g.front < 256) (ha : alignedBy m g.back) :
    ∃ a b p, compile reg (.top (upToBit g.bit)) = .ok p ∧
      ∀ ms, noReports (tokensL ms) = true →
        (∀ w, endBit (g.bit w) (shapes w (tokensL ms)) % m = endBit (g.bit w) (shapes w (tokensL before)) % m) →
        ∃ r, compile reg (.top (upToBit g.bit ++ ms)) = among p [] r ∧ compile reg (.top (g.fill ms)) = among a b r := by
  rw [compile_top, tokens_fill, List.append_assoc, toks_append] at hl
  cases hf : Streamer.toks reg {} g.front with
  | error e => rw [hf] at hl; simp [itemsOf, Except.map] at hl
  | ok q =>
    obtain ⟨st, a⟩ := q
    rw [hf] at hl
    simp only at hl
    obtain ⟨f1, f2, f3, -⟩ := toks_id g.front hf (Int.le_refl 0) (fun _ _ => Int.le_refl 0)
    have f4 : ∀ w, st.size w st.id.toNat = g.bit w := fun w =>
      toks_bitAt g.front w (fun _ => 0) hf (Int.le_refl 0) (fun _ _ => rfl)
    have hlt : st.id < 256 := f2 ▸ hid
    have hs : slot st = .ok st.id.toNat := by unfold slot; rw [if_pos ⟨f1, hlt⟩]
    rw [toks_append] at hl
    cases hb : Streamer.toks reg st (tokensL before) with
    | error e => rw [hb] at hl; simp [itemsOf, Except.map] at hl
    | ok q =>
      obtain ⟨st0, x0⟩ := q
      rw [hb] at hl
      simp only at hl
      cases hbk : Streamer.toks reg st0 g.back with
      | error e => rw [hbk] at hl; simp [itemsOf, Except.map] at hl
      | ok q =>
        obtain ⟨st1, b⟩ := q
        obtain ⟨su, p, hu, u0, uz⟩ := upTo_ok reg g.bit (fun w => f4 w ▸ f3 w _)
        have hsu : slot su = .ok 0 := by unfold slot; rw [u0]; rfl
        obtain ⟨-, -, -, e4⟩ := toks_id _ hb f1 f3
        have hm0 := toks_moved reg _ hn st st _ _ hs hs (fun _ => rfl)
        rw [hb] at hm0
        refine ⟨a, b, p, by rw [compile_top, hu]; rfl, fun ms hms hend => ?_⟩
        have hmv := toks_moved reg _ hms st su _ _ hs hsu (fun w => by rw [f4, uz])
        cases hx : Streamer.toks reg st (tokensL ms) with
        | error e =>
          refine ⟨.error e, ?_, ?_⟩
          · rw [compile_top, Extractor.tokensL_append, toks_append, hu]
            simp only
            rw [hx] at hmv
            cases hy : Streamer.toks reg su (tokensL ms) with
            | error e' => rw [hy] at hmv; rw [show e = e' from hmv]; rfl
            | ok q => rw [hy] at hmv; exact hmv.elim
          · rw [compile_top, tokens_fill, List.append_assoc, toks_append, hf]
            simp only
            rw [toks_append, hx]
            rfl
        | ok q =>
          obtain ⟨st2, x⟩ := q
          refine ⟨.ok x, ?_, ?_⟩
          · rw [compile_top, Extractor.tokensL_append, toks_append, hu]
            simp only
            rw [hx] at hmv
            cases hy : Streamer.toks reg su (tokensL ms) with
            | error e' => rw [hy] at hmv; exact hmv.elim
            | ok q =>
              obtain ⟨sv, y⟩ := q
              rw [hy] at hmv
              rw [← hmv.1]
              simp [itemsOf, among, Except.map]
          · rw [compile_top, tokens_fill, List.append_assoc, toks_append, hf]
            simp only
            rw [toks_append, hx]
            simp only
            obtain ⟨-, -, -, e5⟩ := toks_id _ hx f1 f3
            have hm1 := toks_moved reg _ hms st st _ _ hs hs (fun _ => rfl)
            rw [hx] at hm1
            have hclose : CloseTo m st0 st2 := by
              refine ⟨by rw [hm0.2.1, hm1.2.1], fun w k => ?_⟩
              by_cases hk : k = st.id.toNat
              · rw [hk, e4 hn w, e5 hms w, f4, hend w]
              · rw [hm0.2.2.2.2.1 w k hk, hm1.2.2.2.2.1 w k hk]
            have hr := toks_closeTo reg m g.back ha st0 st2 hclose
            rw [hbk] at hr
            cases hz : Streamer.toks reg st2 g.back with
            | error e' => rw [hz] at hr; exact hr.elim
            | ok q =>
              obtain ⟨sz, z⟩ := q
              rw [hz] at hr
              rw [← hr.1]
              simp [itemsOf, among, Except.map]

theorem binary_split {l l' : List Item} : Formatter.binary (l ++ l') =
    match Formatter.binary l with
    | .error e => .error e
    | .ok b => (Formatter.binary l').map (b ++ ·) := by
  induction l with
  | nil =>
    simp only [List.nil_append, Formatter.binary]
    cases Formatter.binary l' <;> rfl
  | cons i l ih =>
    simp only [List.cons_append, Formatter.binary, ih]
    cases i.bytes with
    | error e => rfl
    | ok x => cases Formatter.binary l with
      | error e => rfl
      | ok y => cases Formatter.binary l' with
        | error e => rfl
        | ok z => simp [Except.map]

/-- **C84**, bytes written without optimization: those before and those behind stay. -/
theorem C84_bytes (reg : Registry) (g : Gap) (m : Int) (before : List Node) (d : List UInt8)
    (hd : Compiler.main reg .binary false (.top (g.fill before)) = .ok (.bytes d)) (hn : noReports (tokensL before) = true)
    (hid : reportAt 0 g.front < 256) (ha : alignedBy m g.back) :
    ∃ A B p, compile reg (.top (upToBit g.bit)) = .ok p ∧
      ∀ ms, noReports (tokensL ms) = true →
        (∀ w, endBit (g.bit w) (shapes w (tokensL ms)) % m = endBit (g.bit w) (shapes w (tokensL before)) % m) →
        ∃ r, compile reg (.top (upToBit g.bit ++ ms)) = among p [] r ∧
          Compiler.main reg .binary false (.top (g.fill ms)) =
            (match r with
              | .error e => .error e
              | .ok x => (Formatter.binary x).map fun X => Formatter.Doc.bytes (A ++ X ++ B)) := by
  unfold Compiler.main at hd
  split at hd
  · simp at hd
  · rename_i l hl
    obtain ⟨a, b, p, hp, hall⟩ := C84_edit reg g m before l hl hn hid ha
    obtain ⟨r0, -, h0⟩ := hall before hn (fun _ => rfl)
    cases r0 with
    | error e => rw [hl] at h0; simp [among, Except.map] at h0
    | ok x0 =>
      rw [hl] at h0
      simp only [among, Except.map, Except.ok.injEq] at h0
      simp only [Bool.false_eq_true, if_false, Formatter.render, h0, binary_split] at hd
      cases hA : Formatter.binary a with
      | error e => rw [hA] at hd; simp [Except.map] at hd
      | ok A =>
        rw [hA] at hd
        simp only at hd
        cases hX : Formatter.binary x0 with
        | error e => rw [hX] at hd; simp [Except.map] at hd
        | ok X0 =>
          rw [hX] at hd
          simp only [Except.map] at hd
          cases hB : Formatter.binary b with
          | error e => rw [hB] at hd; simp at hd
          | ok B =>
            refine ⟨A, B, p, hp, fun ms hms hend => ?_⟩
            obtain ⟨r, h1, h2⟩ := hall ms hms hend
            refine ⟨r, h1, ?_⟩
            unfold Compiler.main
            rw [h2]
            cases r with
            | error e => rfl
            | ok x =>
              simp only [among, Except.map, Bool.false_eq_true, if_false, Formatter.render, binary_split, hA, hB]
              cases Formatter.binary x <;> rfl

theorem alignedBy_zero (ts : List Tok) : alignedBy 0 ts := fun _ _ => .inr (Int.dvd_zero _)

/-- Members of the same directions, alignments and sizes can take each other's place, whatever is behind. -/
theorem C84_same_shape (reg : Registry) (g : Gap) (before ms : List Node) (l : List Item)
    (hl : compile reg (.top (g.fill before)) = .ok l) (hn : noReports (tokensL before) = true)
    (hm : noReports (tokensL ms) = true) (hid : reportAt 0 g.front < 256)
    (hs : ∀ w, shapes w (tokensL ms) = shapes w (tokensL before)) :
    ∃ a b p x r, compile reg (.top (upToBit g.bit)) = .ok p ∧ l = a ++ x ++ b ∧
      compile reg (.top (upToBit g.bit ++ before)) = .ok (p ++ x) ∧
      compile reg (.top (upToBit g.bit ++ ms)) = among p [] r ∧ compile reg (.top (g.fill ms)) = among a b r := by
  obtain ⟨a, b, p, hp, hall⟩ := C84_edit reg g 0 before l hl hn hid (alignedBy_zero _)
  obtain ⟨r0, h1, h2⟩ := hall before hn (fun _ => rfl)
  obtain ⟨r, h3, h4⟩ := hall ms hm (fun w => by rw [hs w])
  cases r0 with
  | error e => rw [hl] at h2; simp [among, Except.map] at h2
  | ok x =>
    rw [hl] at h2
    simp only [among, Except.map, Except.ok.injEq, List.append_nil] at h1 h2
    exact ⟨a, b, p, x, r, hp, h2, h1, h3, h4⟩

/-- Where nothing aligned follows, as at the end of a descriptor, any members can be put. -/
theorem C84_append (reg : Registry) (g : Gap) (before : List Node) (l : List Item)
    (hl : compile reg (.top (g.fill before)) = .ok l) (hn : noReports (tokensL before) = true)
    (hid : reportAt 0 g.front < 256) (ha : ∀ e, Tok.leaf e ∈ g.back → e.shape.1 ≤ 1) :
    ∃ a b p, compile reg (.top (upToBit g.bit)) = .ok p ∧
      ∀ ms, noReports (tokensL ms) = true →
        ∃ r, compile reg (.top (upToBit g.bit ++ ms)) = among p [] r ∧ compile reg (.top (g.fill ms)) = among a b r := by
  obtain ⟨a, b, p, hp, hall⟩ := C84_edit reg g 1 before l hl hn hid (fun e he => .inl (ha e he))
  exact ⟨a, b, p, hp, fun ms hm => hall ms hm (fun w => by rw [Int.emod_one, Int.emod_one])⟩

/-- A place inside a Collection in a Report, with three bits before it and an alignment behind. -/
def someGap : Gap := .inside [] (.report 1) (.inside [.padding .input 3] (.coll (.int 1) (some (.int 65538))) (.here [] []) [.align .input 8]) []

example : (∀ w, someGap.bit w = if w = .input then 3 else 0) ∧ reportAt 0 someGap.front < 256 ∧ alignedBy 8 someGap.back := by
  refine ⟨fun w => by cases w <;> decide, by decide, fun e he => ?_⟩
  simp [someGap, Gap.back, tokensL, tokens, Box.back] at he
  subst he
  exact .inr ⟨1, rfl⟩

/-- A two-bit element, and one followed by a byte. -/
def twoBits : List Node := [.padding .input 2]

def tenBits : List Node := [.padding .input 2, .padding .input 8]

example : (compile [] (.top (someGap.fill twoBits))).toOption.isSome ∧ noReports (tokensL twoBits) = true ∧ noReports (tokensL tenBits) = true ∧
    (∀ w, endBit (someGap.bit w) (shapes w (tokensL tenBits)) % 8 = endBit (someGap.bit w) (shapes w (tokensL twoBits)) % 8) := by
  refine ⟨by decide +kernel, by decide, by decide, fun w => by cases w <;> decide⟩

example : ((compile [] (.top (someGap.fill twoBits))).toOption.map keys, (compile [] (.top (someGap.fill tenBits))).toOption.map keys) =
    (some [(.reportID, 1), (.reportCount, 1), (.reportSize, 3), (.input, 3), (.usage, 65538), (.collection, 1),
      (.reportCount, 1), (.reportSize, 2), (.input, 3), (.endCollection, 0), (.reportCount, 1), (.reportSize, 3), (.input, 3)],
     some [(.reportID, 1), (.reportCount, 1), (.reportSize, 3), (.input, 3), (.usage, 65538), (.collection, 1),
      (.reportCount, 1), (.reportSize, 2), (.input, 3), (.reportCount, 1), (.reportSize, 8), (.input, 3),
      (.endCollection, 0), (.reportCount, 1), (.reportSize, 3), (.input, 3)]) := by decide +kernel

/-- Ending at another bit, the members change what is behind them. -/
theorem C84_end_counts : ((compile [] (.top (someGap.fill [.padding .input 5]))).toOption.map keys) =
    some [(.reportID, 1), (.reportCount, 1), (.reportSize, 3), (.input, 3), (.usage, 65538), (.collection, 1),
      (.reportCount, 1), (.reportSize, 5), (.input, 3), (.endCollection, 0)] := by decide +kernel

/-- So does a Report among them: elements behind it are in that Report. -/
theorem C84_report_counts : ((compile [] (.top (someGap.fill [.report 2 [.padding .input 2]]))).toOption.map keys) =
    some [(.reportID, 1), (.reportCount, 1), (.reportSize, 3), (.input, 3), (.usage, 65538), (.collection, 1),
      (.reportID, 2), (.reportCount, 1), (.reportSize, 2), (.input, 3), (.endCollection, 0),
      (.reportCount, 1), (.reportSize, 6), (.input, 3)] := by decide +kernel

end Hrdc
