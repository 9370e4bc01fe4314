import Verif.Props.Passes2
/-!
# C24, C21: designators and physical bounds
-/
namespace Hrdc
open Spec

/-! ## C24 -/

/-- Designator index, minimum or maximum. -/
def desigLike : Cls → Bool
  | .desigIndex | .desigMin | .desigMax => true
  | _ => false

/-- `DesignatorIndex(0)`. -/
def isDesig0 (i : Item) : Bool := i.cls == .desigIndex && i.ival == 0

/-- A main item that has a `DesignatorIndex(0)` has no other designator item; `seen` tells whether
one was met since the last main item, and `zero` whether it was a `DesignatorIndex(0)`. -/
def desigAlone (seen zero : Bool) : List Item → Bool
  | [] => true
  | i :: r =>
    if i.cls.kind = .main then desigAlone false false r
    else if desigLike i.cls then
      !zero && !(seen && isDesig0 i) && desigAlone true (isDesig0 i) r
    else desigAlone seen zero r

/-- `ys` is `xs` without some `DesignatorIndex(0)` items. -/
inductive DropDesig : List Item → List Item → Prop
  | nil : DropDesig [] []
  | keep (x : Item) {xs ys : List Item} : DropDesig xs ys → DropDesig (x :: xs) (x :: ys)
  | drop (x : Item) {xs ys : List Item} : isDesig0 x = true → DropDesig xs ys →
      DropDesig (x :: xs) ys

theorem DropDesig.refl (xs : List Item) : DropDesig xs xs := by
  induction xs with
  | nil => exact .nil
  | cons x xs ih => exact .keep x ih

theorem DropDesig.append {a b c d : List Item} (h1 : DropDesig a b) (h2 : DropDesig c d) :
    DropDesig (a ++ c) (b ++ d) := by
  induction h1 with
  | nil => exact h2
  | keep x _ ih => exact .keep x ih
  | drop x hx _ ih => exact .drop x hx ih

theorem dropDesig_eraseIdx (l : List Item) (k : Nat) (x : Item) (hx : l[k]? = some x)
    (h0 : isDesig0 x = true) : DropDesig l (l.eraseIdx k) := by
  induction l generalizing k with
  | nil => simp at hx
  | cons y l ih =>
    cases k with
    | zero => simp at hx; subst hx; exact .drop _ h0 (DropDesig.refl _)
    | succ k => exact .keep _ (ih k (by simpa using hx))

/-- The pass sends on everything but some `DesignatorIndex(0)` items and the local items after the
last global or main item. -/
theorem designatorUniq_drops (st : Optimizer.DUState) (xs : List Item)
    (hloc : ∀ i ∈ st.pending, i.cls.kind = .loc)
    (hf : ∀ k, st.toFilter = some (some k) → ∃ x, st.pending[k]? = some x ∧ isDesig0 x = true) :
    ∃ tail, (∀ i ∈ tail, i.cls.kind = .loc) ∧
      DropDesig (st.pending ++ xs) (Optimizer.designatorUniq.runFrom st xs ++ tail) := by
  induction xs generalizing st with
  | nil =>
    refine ⟨st.pending, hloc, ?_⟩
    rw [Pass.runFrom_nil]
    simpa using DropDesig.refl _
  | cons x xs ih =>
    rw [Pass.runFrom_cons]
    by_cases hk : x.cls.kind = .loc
    · have go : ∀ st' : Optimizer.DUState,
          Optimizer.designatorUniq.step st x = (st', []) → st'.pending = st.pending ++ [x] →
          (∀ k, st'.toFilter = some (some k) →
            ∃ y, (st.pending ++ [x])[k]? = some y ∧ isDesig0 y = true) →
          ∃ tail, (∀ i ∈ tail, i.cls.kind = .loc) ∧
            DropDesig (st.pending ++ x :: xs) ((Optimizer.designatorUniq.step st x).2 ++
              Optimizer.designatorUniq.runFrom (Optimizer.designatorUniq.step st x).1 xs ++ tail) := by
        intro st' hs hp hf'
        rw [hs]
        obtain ⟨tail, h1, h2⟩ := ih st' (by
          rw [hp]; intro i hi
          rcases List.mem_append.1 hi with hi | hi
          · exact hloc i hi
          · simp at hi; subst hi; exact hk) (by rw [hp]; exact hf')
        refine ⟨tail, h1, ?_⟩
        rw [hp] at h2
        simpa [List.append_assoc] using h2
      have keepf : ∀ k, st.toFilter = some (some k) →
          ∃ y, (st.pending ++ [x])[k]? = some y ∧ isDesig0 y = true := by
        intro k hk
        obtain ⟨y, hy, hy0⟩ := hf k hk
        exact ⟨y, by rw [List.getElem?_append_left (by
          rw [List.getElem?_eq_some_iff] at hy; exact hy.1)]; exact hy, hy0⟩
      by_cases hd : x.cls = .desigIndex
      · by_cases h0 : st.toFilter = none ∧ x.ival = 0
        · refine go { pending := st.pending ++ [x], toFilter := some (some st.pending.length) }
            (by simp [hd, h0, Cls.kind]) rfl ?_
          intro k hk
          simp only [Option.some.injEq] at hk
          subst hk
          exact ⟨x, by simp, by simp [isDesig0, hd, h0.2]⟩
        · refine go { pending := st.pending ++ [x], toFilter := some none }
            (by simp [hd, h0, Cls.kind]) rfl (by simp)
      · exact go { pending := st.pending ++ [x], toFilter := st.toFilter }
          (by simp [hk, hd]) rfl keepf
    · obtain ⟨tail, h1, h2⟩ := ih {} (by simp) (by simp)
      have hout : DropDesig (st.pending ++ [x]) (Optimizer.designatorUniq.step st x).2 ∧
          (Optimizer.designatorUniq.step st x).1 = {} := by
        simp only [hk, if_false]
        refine ⟨?_, trivial⟩
        split
        · next k hk' =>
          obtain ⟨y, hy, hy0⟩ := hf k hk'
          exact dropDesig_eraseIdx _ _ y (by
            rw [List.getElem?_append_left (by
              rw [List.getElem?_eq_some_iff] at hy; exact hy.1)]; exact hy) hy0
        · exact DropDesig.refl _
      refine ⟨tail, h1, ?_⟩
      rw [hout.2]
      have := hout.1.append h2
      simpa [List.append_assoc] using this

/-- Host states with and without a lone designator index 0. -/
def DesigRel (seen zero : Bool) (a b : Host) : Prop :=
  a.g = b.g ∧ a.stack = b.stack ∧ a.usages = b.usages ∧ a.strings = b.strings ∧
  (seen = false → a.desigs = {}) ∧
  (a.desigs = b.desigs ∨ (zero = true ∧ a.desigs = ⟨[(0, 0)], none, none⟩ ∧ b.desigs = {}))

theorem pick_zero (n : Nat) : (pick [0] n).getD 0 = 0 := by
  unfold pick
  cases n <;> simp

theorem events_desig {a b : MainRec} (hc : a.cls = b.cls) (hv : a.val = b.val)
    (hg : a.g = b.g) (hu : a.usages = b.usages) (hs : a.strings = b.strings)
    (hd : ∀ n, (pick a.desigs n).getD 0 = (pick b.desigs n).getD 0) : a.events = b.events := by
  have hat : a.attrs = b.attrs := by simp [MainRec.attrs, hg]
  have hsel : a.selector = b.selector := by funext n; simp [MainRec.selector, hu, hs, hd]
  simp only [MainRec.events, hc, hv, hg, hat, MainRec.isConst, MainRec.what, MainRec.isVar, hsel, hu]
  cases b.cls <;> rfl

theorem desigRel_main (rule : PageRule) {seen zero : Bool} {a b : Host}
    (h : DesigRel seen zero a b) (i : SItem) :
    (a.main rule i).events = (b.main rule i).events := by
  obtain ⟨h1, h2, h3, h4, -, h5⟩ := h
  apply events_desig (a := a.main rule i) (b := b.main rule i) rfl rfl h1
  · simp only [Host.main, h1, h3]
  · simp only [Host.main, h4]
  · intro n
    rcases h5 with h5 | ⟨-, h5, h6⟩
    · simp only [Host.main, h5]
    · simp only [Host.main, h5, h6]
      exact pick_zero n

theorem desigRel_step_main (rule : PageRule) {seen zero : Bool} {a b : Host}
    (h : DesigRel seen zero a b) (i : SItem) (hm : i.1.kind = .main) :
    DesigRel false false (a.step rule i) (b.step rule i) := by
  obtain ⟨h1, h2, h3, h4, -, h5⟩ := h
  obtain ⟨c, v⟩ := i
  cases c <;> simp_all [DesigRel, Host.step, Cls.kind]

theorem desigRel_step_other (rule : PageRule) {seen zero : Bool} {a b : Host}
    (h : DesigRel seen zero a b) (i : SItem) (hm : i.1.kind ≠ .main)
    (hd : desigLike i.1 = false) : DesigRel seen zero (a.step rule i) (b.step rule i) := by
  obtain ⟨ga, sa, ua, ta, da⟩ := a
  obtain ⟨gb, sb, ub, tb, db⟩ := b
  obtain ⟨h1, h2, h3, h4, h6, h5⟩ := h
  simp only at h1 h2 h3 h4 h5 h6
  subst h1 h2 h3 h4
  obtain ⟨c, v⟩ := i
  cases c <;> simp_all [DesigRel, Host.step, Cls.kind, desigLike] <;>
    (cases sa <;> simp_all)

theorem designator_events (rule : PageRule) (xs ys : List Item) (hd : DropDesig xs ys)
    (seen zero : Bool) (a b : Host) (hs : desigAlone seen zero xs = true)
    (hr : DesigRel seen zero a b) :
    eventsFrom rule b (keys ys) = eventsFrom rule a (keys xs) := by
  induction hd generalizing seen zero a b with
  | nil => rfl
  | keep x _ ih =>
    rw [keys_cons, keys_cons, eventsFrom_cons, eventsFrom_cons]
    by_cases hm : x.cls.kind = .main
    · simp only [desigAlone, hm, if_true] at hs
      rw [ih false false _ _ hs (desigRel_step_main rule hr x.key (by simpa using hm)),
        desigRel_main rule hr x.key]
    · simp only [key_fst, hm, if_false, List.nil_append]
      by_cases hdl : desigLike x.cls = true
      · simp only [desigAlone, hm, if_false, hdl, if_true, Bool.and_eq_true, Bool.not_eq_true'] at hs
        obtain ⟨⟨hz, hsz⟩, hrest⟩ := hs
        apply ih true (isDesig0 x) _ _ hrest
        obtain ⟨ga, sa, ua, ta, da⟩ := a
        obtain ⟨gb, sb, ub, tb, db⟩ := b
        obtain ⟨h1, h2, h3, h4, h6, h5⟩ := hr
        simp only [hz, Bool.false_eq_true, false_and, or_false] at h1 h2 h3 h4 h5
        subst h1 h2 h3 h4 h5
        refine ⟨rfl, rfl, rfl, rfl, by simp, Or.inl rfl⟩
      · have hdl' : desigLike x.cls = false := by simpa using hdl
        simp only [desigAlone, hm, if_false, hdl', Bool.false_eq_true] at hs
        exact ih seen zero _ _ hs (desigRel_step_other rule hr x.key (by simpa using hm)
          (by simpa using hdl'))
  | drop x hx0 _ ih =>
    have hxc : x.cls = .desigIndex ∧ x.ival = 0 := by simpa [isDesig0] using hx0
    have hm : x.cls.kind ≠ .main := by rw [hxc.1]; decide
    have hdl : desigLike x.cls = true := by rw [hxc.1]; rfl
    simp only [desigAlone, hm, if_false, hdl, if_true, hx0, Bool.and_true, Bool.and_eq_true,
      Bool.not_eq_true'] at hs
    obtain ⟨⟨hz, hsn⟩, hrest⟩ := hs
    rw [keys_cons, eventsFrom_cons_of_not_main _ _ _ _ (by simpa using hm)]
    apply ih true true _ _ hrest
    obtain ⟨ga, sa, ua, ta, da⟩ := a
    obtain ⟨gb, sb, ub, tb, db⟩ := b
    obtain ⟨h1, h2, h3, h4, h6, h5⟩ := hr
    simp only [hz, Bool.false_eq_true, false_and, or_false] at h1 h2 h3 h4 h5
    simp only at h6
    have := h6 hsn
    subst h1 h2 h3 h4 h5
    subst this
    have hkey : x.key = (.desigIndex, 0) := by simp [Item.key, hxc]
    rw [hkey]
    refine ⟨rfl, rfl, rfl, rfl, by simp, Or.inr ⟨rfl, rfl, rfl⟩⟩

theorem eventsFrom_tail (rule : PageRule) (h : Host) (xs tail : List Item)
    (ht : ∀ i ∈ tail, i.cls.kind = .loc) :
    eventsFrom rule h (keys (xs ++ tail)) = eventsFrom rule h (keys xs) := by
  rw [keys_append, eventsFrom_append, eventsFrom_no_main _ _ (keys tail), List.append_nil]
  intro i hi
  obtain ⟨j, hj, rfl⟩ := mem_keys.1 hi
  simp [ht j hj]

/-- C24.  Removing `DesignatorIndex(0)` items leaves the meaning unchanged in every stream where a
main item with a `DesignatorIndex(0)` has no other designator item. -/
theorem C24_designator_uniq_meaning_partial (rule : PageRule) (xs : List Item)
    (hs : desigAlone false false xs = true) :
    meaning rule (keys (Optimizer.designatorUniq.run xs)) = meaning rule (keys xs) := by
  obtain ⟨tail, ht, hd⟩ := designatorUniq_drops {} xs (by simp) (by simp)
  have := designator_events rule _ _ hd false false {} {} (by simpa using hs)
    ⟨rfl, rfl, rfl, rfl, fun _ => rfl, Or.inl rfl⟩
  rw [eventsFrom_tail rule _ _ tail ht] at this
  exact this

example : desigAlone false false [⟨.desigIndex, .int 0⟩, ⟨.usage, .int 0x10030⟩, ⟨.input, .int 2⟩,
      ⟨.desigIndex, .int 4⟩, ⟨.input, .int 2⟩] = true ∧
    keys (Optimizer.designatorUniq.run [⟨.desigIndex, .int 0⟩, ⟨.usage, .int 0x10030⟩,
      ⟨.input, .int 2⟩, ⟨.desigIndex, .int 4⟩, ⟨.input, .int 2⟩])
      = [(.usage, 0x10030), (.input, 2), (.desigIndex, 4), (.input, 2)] := by decide +kernel

/-- Left out by `C24_designator_uniq_meaning_partial`, and false: a global item between two
designators hides the second from the pass, which then drops the first and renumbers. -/
theorem C24_split_designators_break :
    meaning .atMain (keys (Optimizer.designatorUniq.run [⟨.desigIndex, .int 0⟩,
        ⟨.reportCount, .int 2⟩, ⟨.desigIndex, .int 5⟩, ⟨.input, .int 2⟩]))
      ≠ meaning .atMain (keys [⟨.desigIndex, .int 0⟩,
        ⟨.reportCount, .int 2⟩, ⟨.desigIndex, .int 5⟩, ⟨.input, .int 2⟩]) := by
  decide +kernel

/-- Without `DesignatorIndex(0)` items nothing is removed but trailing local items. -/
theorem desigAlone_of_none (xs : List Item) (h : ∀ i ∈ xs, isDesig0 i = false) (seen : Bool) :
    desigAlone seen false xs = true := by
  induction xs generalizing seen with
  | nil => rfl
  | cons x xs ih =>
    have ih' := ih (fun i hi => h i (by simp [hi]))
    simp only [desigAlone, h x (by simp), Bool.and_false, Bool.not_false, Bool.true_and]
    split
    · exact ih' _
    · split
      · exact ih' _
      · exact ih' _

end Hrdc
