import Verif.Proofs.Seam
import Verif.Props.Joined
import Verif.Props.Reading
import Verif.Props.Composite2
/-!
# Property C85: documents decompiled together
-/
namespace Hrdc
open Spec Extractor

/-! ## Items -/

theorem run_prefix_error {reg : Registry} {e : PyErr} (ys : List Item) : ∀ (xs : List Item) (st : State),
    runFrom reg st xs = .error e → runFrom reg st (xs ++ ys) = .error e := by
  intro xs
  induction xs with
  | nil => intro st h; simp [runFrom] at h
  | cons x xs ih =>
    intro st h
    rw [List.cons_append, runFrom]
    rw [runFrom] at h
    cases hs : step reg st x with
    | error e' => rw [hs] at h; simpa using h
    | ok s => rw [hs] at h; exact ih s h

/-- The state after both documents. -/
theorem run_together (reg : Registry) (xs ys : List Item) (st : State) (h : runFrom reg {} xs = .ok st)
    (hw : Whole (keys xs)) (hi : Independent (keys xs) (keys ys)) :
    ∃ g, runFrom reg {} (xs ++ ys) = (runFrom reg {} ys).map (State.behind st.level.members g) := by
  rw [run_append reg {} xs ys h, whole_left h hw]
  have hmem : (State.behind st.level.members st.g {}).level.members = st.level.members := by
    rw [← whole_left h hw]
  rw [hmem]
  apply behind_run
  intro c
  by_cases hc : ∀ i ∈ xs, i.cls.kind = .global → i.cls ≠ c
  · left
    exact (run_shape reg xs h).1 c hc
  · right
    have : ∃ i ∈ xs, i.cls.kind = .global ∧ i.cls = c := by
      apply Classical.byContradiction
      intro hn
      exact hc (fun i hi hk e => hn ⟨i, hi, hk, e⟩)
    obtain ⟨i, hm, hk, rfl⟩ := this
    exact ⟨hk, hi i.key (List.mem_map.2 ⟨i, hm, rfl⟩) hk⟩

theorem whole_tree {reg : Registry} {xs : List Item} {st : State} (h : runFrom reg {} xs = .ok st)
    (hw : Whole (keys xs)) : st.root = some (.top (insertL [] none st.level.members)) := by
  rw [whole_left h hw]
  simp [State.behind, rootBehind, stackBehind, Level.behind]

/-- **C85.** A document behind a whole one that shares no global with it is decompiled as it is alone: the
members of the tree are those of the first, then those of the second, and if the first ends in the report with which
the second begins, these are one Report. -/
theorem C85_trees (reg : Registry) (xs ys : List Item) (hw : Whole (keys xs)) (hi : Independent (keys xs) (keys ys))
    (a b : List Node) (ha : extract reg xs = .ok (.top a)) (hb : extract reg ys = .ok (.top b)) :
    extract reg (xs ++ ys) = .ok (.top (seam a b)) := by
  unfold extract at ha hb ⊢
  cases hx : runFrom reg {} xs with
  | error e => rw [hx] at ha; simp at ha
  | ok st =>
    rw [hx] at ha
    have hr := whole_tree hx hw
    simp only [hr, Except.ok.injEq, Node.top.injEq] at ha
    obtain ⟨g, hg⟩ := run_together reg xs ys st hx hw hi
    rw [hg]
    cases hy : runFrom reg {} ys with
    | error e => rw [hy] at hb; simp at hb
    | ok s =>
      rw [hy] at hb
      simp only at hb
      cases hroot : s.root with
      | none => rw [hroot] at hb; simp at hb
      | some n =>
        rw [hroot] at hb
        simp only [Except.ok.injEq] at hb
        subst hb
        simp only [Except.map, State.behind, hroot, rootBehind]
        rw [ha]

/-- **C85.** If the second document is refused where an item is read, so are both together, with the same
exception; if the first is refused, both are. -/
theorem C85_errors (reg : Registry) (xs ys : List Item) (hw : Whole (keys xs)) (e : PyErr) :
    (extract reg xs = .error e → extract reg (xs ++ ys) = .error e) ∧
    (∀ t, extract reg xs = .ok t → Independent (keys xs) (keys ys) → Whole (keys ys) → extract reg ys = .error e →
      extract reg (xs ++ ys) = .error e) := by
  constructor
  · intro h
    unfold extract at h ⊢
    cases hx : runFrom reg {} xs with
    | error e' =>
      rw [hx] at h
      rw [run_prefix_error ys xs {} hx]
      exact h
    | ok st => rw [hx] at h; simp [whole_tree hx hw] at h
  · intro t h hi hwy he
    unfold extract at h he ⊢
    cases hx : runFrom reg {} xs with
    | error e' => rw [hx] at h; simp at h
    | ok st =>
      obtain ⟨g, hg⟩ := run_together reg xs ys st hx hw hi
      rw [hg]
      cases hy : runFrom reg {} ys with
      | error e' => rw [hy] at he; exact he
      | ok s => rw [hy] at he; simp [whole_tree hy hwy] at he

/-! ## What the trees describe -/

theorem pieces_seam (a b : List Node) : piecesL 0 (seam a b) = piecesL 0 a ++ piecesL 0 b := by
  by_cases h : ∃ i ms ms' r, a.getLast? = some (.report i ms) ∧ b = .report i ms' :: r
  · obtain ⟨i, ms, ms', r, ha, rfl⟩ := h
    obtain ⟨a', rfl⟩ := List.getLast?_eq_some_iff.1 ha
    rw [seam_front, seam_one, if_pos rfl]
    simp [piecesL_append, piecesL, pieces]
  · have : seam a b = a ++ b := by
      unfold seam
      split
      · rename_i i ms j ms' r ha
        rw [if_neg]
        rintro rfl
        exact h ⟨i, ms, ms', r, ha, rfl⟩
      · rfl
    rw [this, piecesL_append]

/-- **C85.** What the tree of both describes is what the first describes, then what the second describes. -/
theorem C85_described (a b : List Node) :
    bareMeaning (.top (seam a b)) = bareMeaning (.top a) ++ bareMeaning (.top b) := by
  simp only [bareMeaning, pieces, pieces_seam, List.flatMap_append]

/-! ## Documents -/

/-- The trees of whole documents have the form needed. -/
theorem whole_top {reg : Registry} {xs : List Item} (hw : Whole (keys xs)) {t : Node} (h : extract reg xs = .ok t) :
    ∃ a, t = .top a := by
  unfold extract at h
  cases hx : runFrom reg {} xs with
  | error e => rw [hx] at h; simp at h
  | ok st =>
    rw [hx] at h
    simp only [whole_tree hx hw, Except.ok.injEq] at h
    exact ⟨_, h.symm⟩

/-- **C85, documents.** Two documents put together (bytes, hex or C text) are decompiled to a tree that describes
what each describes, or refused with the exception of the one that is refused. -/
theorem C85_documents (reg : Registry) (uni : Parser.Uni) (f : Formatter.Fmt) (a b c : Formatter.Doc) (hj : Joined uni f a b c)
    (ha : (Formatter.deliver f reg uni a).2 = none) (hb : (Formatter.deliver f reg uni b).2 = none)
    (hwa : Whole (keys (Formatter.deliver f reg uni a).1)) (hwb : Whole (keys (Formatter.deliver f reg uni b).1))
    (hi : Independent (keys (Formatter.deliver f reg uni a).1) (keys (Formatter.deliver f reg uni b).1)) :
    match extract reg (Formatter.deliver f reg uni a).1, extract reg (Formatter.deliver f reg uni b).1 with
    | .error e, _ => extract reg (Formatter.deliver f reg uni c).1 = .error e
    | .ok _, .error e => extract reg (Formatter.deliver f reg uni c).1 = .error e
    | .ok s, .ok t => ∃ r, extract reg (Formatter.deliver f reg uni c).1 = .ok r ∧
        bareMeaning r = bareMeaning s ++ bareMeaning t := by
  obtain ⟨hk, -⟩ := C83_read reg uni f a b c hj ha (Or.inr hb)
  generalize hA : (Formatter.deliver f reg uni a).1 = A at *
  generalize hB : (Formatter.deliver f reg uni b).1 = B at *
  have hkc : keys (Formatter.deliver f reg uni c).1 = keys (A ++ B) := by
    simp only [keys, List.map_append]; exact hk
  have rA := deliver_read f reg uni a
  have rB := deliver_read f reg uni b
  rw [hA] at rA
  rw [hB] at rB
  have rAB : ∀ i ∈ A ++ B, ReadItem reg i ∧ i.Made := by
    intro i hi
    rcases List.mem_append.1 hi with h | h
    · exact rA i h
    · exact rB i h
  have hex := extract_rebuilt (A ++ B) (fun i hi => (rAB i hi).2) (read_kinds (fun i hi => (rAB i hi).1))
  have hdoc := C39_document_exact reg f uni c
  simp only [hkc] at hdoc
  have herr : ∀ e, extract reg (A ++ B) = .error e → extract reg (Formatter.deliver f reg uni c).1 = .error e := by
    intro e he
    cases hr : rebuilt (arrayUsage reg) (keys (A ++ B)) with
    | error e' =>
      rw [hr] at hex hdoc
      have hex : extract reg (A ++ B) = .error e'.raised := hex
      have hdoc : extract reg (Formatter.deliver f reg uni c).1 = .error e'.raised := hdoc
      rw [hdoc, ← he, hex]
    | ok es =>
      rw [hr] at hex
      obtain ⟨t, h1, -⟩ := hex
      rw [he] at h1
      simp at h1
  cases e1 : extract reg A with
  | error e => exact herr e ((C85_errors reg A B hwa e).1 e1)
  | ok s =>
    cases e2 : extract reg B with
    | error e => exact herr e ((C85_errors reg A B hwa e).2 s e1 hi hwb e2)
    | ok t =>
      obtain ⟨p, rfl⟩ := whole_top hwa e1
      obtain ⟨q, rfl⟩ := whole_top hwb e2
      have h3 := C85_trees reg A B hwa hi p q e1 e2
      cases hr : rebuilt (arrayUsage reg) (keys (A ++ B)) with
      | error e' =>
        rw [hr] at hex
        simp only at hex
        rw [h3] at hex
        simp at hex
      | ok es =>
        rw [hr] at hex hdoc
        obtain ⟨t1, h4, h5⟩ := hex
        obtain ⟨t2, h6, h7⟩ := hdoc
        rw [h3] at h4
        simp only [Except.ok.injEq] at h4
        subst h4
        exact ⟨t2, h6, by rw [h7, ← h5, C85_described]⟩

/-- **C85, script.** If the second document begins with a Usage Page the script written for both is that of the two
trees put together. -/
theorem C85_script (reg : Registry) (uni : Parser.Uni) (f : Formatter.Fmt) (a b c : Formatter.Doc) (hj : Joined uni f a b c)
    (ha : (Formatter.deliver f reg uni a).2 = none) (hb : (Formatter.deliver f reg uni b).2 = none)
    (v : Int) (hv : ((Formatter.deliver f reg uni b).1.map Item.key).head? = some (Cls.usagePage, v))
    (hw : Whole (keys (Formatter.deliver f reg uni a).1))
    (hi : Independent (keys (Formatter.deliver f reg uni a).1) (keys (Formatter.deliver f reg uni b).1))
    (p q : List Node) (hp : extract reg (Formatter.deliver f reg uni a).1 = .ok (.top p))
    (hq : extract reg (Formatter.deliver f reg uni b).1 = .ok (.top q)) :
    Decompiler.main reg f uni c = Dumper.dump reg (.top (seam p q)) := by
  have hc := C83_names reg uni f a b c hj ha (Or.inr hb) v hv
  have h := C85_trees reg _ _ hw hi p q hp hq
  unfold Decompiler.main
  rw [hc, hb]
  simp only
  unfold extract at h
  cases hr : runFrom reg {} ((Formatter.deliver f reg uni a).1 ++ (Formatter.deliver f reg uni b).1) with
  | error e => rw [hr] at h; simp at h
  | ok st =>
    rw [hr] at h
    simp only at h ⊢
    cases hroot : st.root with
    | none => rw [hroot] at h; simp at h
    | some n => rw [hroot] at h; simp only [Except.ok.injEq] at h; rw [h]

/-! ## Compiled descriptors -/

theorem given_append {c : Cls} {a b : List SItem} (ha : GivenFirst c a) (hb : GivenFirst c b) : GivenFirst c (a ++ b) := by
  induction a with
  | nil => exact hb
  | cons k a ih =>
    rcases ha with h | ⟨h, h'⟩
    · exact Or.inl h
    · exact Or.inr ⟨h, ih h'⟩

theorem given_of_mem {c : Cls} {a b : List SItem} (hm : ∃ k ∈ a, k.1 = c) (hr : ∀ k ∈ a, refersTo k c = false) :
    GivenFirst c (a ++ b) := by
  induction a with
  | nil => simp at hm
  | cons k a ih =>
    by_cases h : k.1 = c
    · exact Or.inl h
    · refine Or.inr ⟨hr k (by simp), ih ?_ (fun k hk => hr k (by simp [hk]))⟩
      obtain ⟨k', h1, h2⟩ := hm
      rcases List.mem_cons.1 h1 with rfl | h1
      · exact absurd h2 h
      · exact ⟨k', h1, h2⟩

theorem given_of_none {c : Cls} {a : List SItem} (h : ∀ k ∈ a, refersTo k c = false) : GivenFirst c a := by
  induction a with
  | nil => trivial
  | cons k a ih => exact Or.inr ⟨h k (by simp), ih (fun k hk => h k (by simp [hk]))⟩

/-- Globals that every field of a compiled descriptor brings along. -/
def brought : List Cls := [.reportSize, .reportCount, .logMin, .logMax, .physMin, .physMax, .unit, .unitExp]

theorem padKeys_given {c : Cls} (hc : c ∈ brought) (w : Way) (p : Int) : GivenFirst c (Streamer.padKeys w p) := by
  unfold Streamer.padKeys
  split
  · trivial
  · simp only [brought, List.mem_cons, List.not_mem_nil, or_false] at hc
    rcases hc with rfl | rfl | rfl | rfl | rfl | rfl | rfl | rfl <;> cases w <;>
      simp [GivenFirst, refersTo, Way.cls, bitSet]

theorem valKeys_given {c : Cls} (hc : c ∈ brought) (v : Value) : GivenFirst c (Streamer.valKeys v) := by
  unfold Streamer.valKeys
  by_cases hf : constFlag v.flags = true
  · rw [if_pos hf]
    have hb : bitSet v.flags.toInt 0 = true := hf
    simp only [brought, List.mem_cons, List.not_mem_nil, or_false] at hc
    rcases hc with rfl | rfl | rfl | rfl | rfl | rfl | rfl | rfl <;> cases v.way <;>
      simp [GivenFirst, refersTo, Way.cls, hb]
  · rw [if_neg hf]
    unfold Streamer.fieldKeys
    have e : ∀ (A B C D E F G H I : List SItem) (x y z : SItem),
        A ++ B ++ C ++ (D ++ E ++ F ++ G ++ [x, y, z]) ++ H = (A ++ B ++ C ++ D ++ E ++ F ++ G ++ [x, y]) ++ (z :: H) := by
      intros; simp
    rw [e _ _ _ _ _ _ _ _ []]
    apply given_of_mem
    · simp only [brought, List.mem_cons, List.not_mem_nil, or_false] at hc
      rcases hc with rfl | rfl | rfl | rfl | rfl | rfl | rfl | rfl
      · exact ⟨(.reportSize, v.size), by simp, rfl⟩
      · exact ⟨(.reportCount, v.count), by simp, rfl⟩
      · exact ⟨(.logMin, v.logicalMin.getD 0), by simp, rfl⟩
      · exact ⟨(.logMax, v.logicalMax.getD 0), by simp, rfl⟩
      · exact ⟨(.physMin, (Streamer.physOf v).1), by simp, rfl⟩
      · exact ⟨(.physMax, (Streamer.physOf v).2), by simp, rfl⟩
      · exact ⟨(.unit, v.unit.toInt), by simp, rfl⟩
      · exact ⟨(.unitExp, v.unitExponent), by simp, rfl⟩
    · have hp : c ≠ .usagePage := by intro e; rw [e] at hc; simp [brought] at hc
      have hcl : ∀ x : Int, refersTo (.collection, x) c = false := by
        intro x; simp [refersTo, hp]
      intro k hk
      simp only [List.mem_append, List.mem_map, List.mem_cons, List.not_mem_nil, or_false] at hk
      rcases hk with (((((((⟨u, -, rfl⟩ | hk) | hk) | ⟨u, -, rfl⟩) | hk) | hk) | hk) | hk)
      · rfl
      · rcases hk with rfl | rfl <;> rfl
      · split at hk
        · simp only [List.mem_singleton] at hk; subst hk; exact hcl 2
        · simp at hk
      · rfl
      · rcases hk with rfl | rfl | rfl | rfl <;> rfl
      · split at hk
        · simp at hk
        · simp only [List.mem_singleton] at hk; subst hk; rfl
      · split at hk
        · simp at hk
        · simp only [List.mem_singleton] at hk; subst hk; rfl
      · rcases hk with rfl | rfl <;> rfl

theorem treeKeys_given {c : Cls} (hc : c ∈ brought) (ts : List Tok) : ∀ (n : Streamer.Count) (last : Int),
    GivenFirst c (Streamer.treeKeys n last ts) := by
  have hp : c ≠ .usagePage := by intro e; rw [e] at hc; simp [brought] at hc
  induction ts with
  | nil => intro n last; trivial
  | cons t ts ih =>
    intro n last
    cases t with
    | report i =>
      rw [Streamer.treeKeys]
      apply given_append _ (ih _ _)
      split
      · trivial
      · exact Or.inr ⟨rfl, trivial⟩
    | endReport => exact ih _ _
    | enter k u =>
      rw [Streamer.treeKeys]
      exact Or.inr ⟨rfl, Or.inr ⟨by simp [refersTo, hp], ih _ _⟩⟩
    | leave => exact Or.inr ⟨rfl, ih _ _⟩
    | leaf l =>
      rw [Streamer.treeKeys, Streamer.leafKeys]
      refine given_append (given_append (padKeys_given hc _ _) ?_) (ih _ _)
      cases l with
      | value v => exact valKeys_given hc v
      | align w b => trivial
      | padding w s => trivial

theorem treeKeys_id (ts : List Tok) : ∀ (cur : Option Int) (n : Streamer.Count) (last : Int), (cur = none ∨ cur = some 0) →
    (∀ p ∈ places cur ts, p.2 ≠ none ∧ p.2 ≠ some 0) → GivenFirst .reportID (Streamer.treeKeys n last ts) := by
  induction ts with
  | nil => intro cur n last _ _; trivial
  | cons t ts ih =>
    intro cur n last hc hp
    cases t with
    | report i =>
      rw [Streamer.treeKeys]
      by_cases hi : i = 0
      · rw [if_pos hi, List.nil_append]
        subst hi
        exact ih (some 0) _ _ (Or.inr rfl) hp
      · rw [if_neg hi]
        exact Or.inl rfl
    | endReport => exact ih cur _ _ hc hp
    | enter k u =>
      rw [Streamer.treeKeys]
      exact Or.inr ⟨rfl, Or.inr ⟨rfl, ih cur _ _ hc hp⟩⟩
    | leave => exact Or.inr ⟨rfl, ih cur _ _ hc hp⟩
    | leaf l =>
      exfalso
      have := hp (l.way, cur) (by simp [places])
      rcases hc with h | h
      · exact this.1 h
      · exact this.2 h

theorem treeKeys_noId (ts : List Tok) : ∀ (n : Streamer.Count) (last : Int), unnumbered ts = true →
    ∀ k ∈ Streamer.treeKeys n last ts, k.1 ≠ .reportID := by
  have way : ∀ w : Way, w.cls ≠ .reportID := by intro w; cases w <;> simp [Way.cls]
  have hpad : ∀ (w : Way) (p : Int), ∀ k ∈ Streamer.padKeys w p, k.1 ≠ .reportID := by
    intro w p k hk
    unfold Streamer.padKeys at hk
    split at hk
    · simp at hk
    · simp only [List.mem_cons, List.not_mem_nil, or_false] at hk
      rcases hk with rfl | rfl | rfl
      · simp
      · simp
      · exact way w
  have hval : ∀ v : Value, ∀ k ∈ Streamer.valKeys v, k.1 ≠ .reportID := by
    intro v k hk
    unfold Streamer.valKeys at hk
    split at hk
    · simp only [List.mem_cons, List.not_mem_nil, or_false] at hk
      rcases hk with rfl | rfl | rfl
      · simp
      · simp
      · exact way v.way
    · unfold Streamer.fieldKeys at hk
      simp only [List.mem_append, List.mem_map, List.mem_cons, List.not_mem_nil, or_false] at hk
      rcases hk with (((⟨u, -, rfl⟩ | hk) | hk) | ((((⟨u, -, rfl⟩ | hk) | hk) | hk) | hk)) | hk
      · simp
      · rcases hk with rfl | rfl <;> simp
      · split at hk
        · simp only [List.mem_singleton] at hk; subst hk; simp
        · simp at hk
      · simp
      · rcases hk with rfl | rfl | rfl | rfl <;> simp
      · split at hk
        · simp at hk
        · simp only [List.mem_singleton] at hk; subst hk; simp
      · split at hk
        · simp at hk
        · simp only [List.mem_singleton] at hk; subst hk; simp
      · rcases hk with rfl | rfl | rfl
        · simp
        · simp
        · exact way v.way
      · split at hk
        · simp only [List.mem_singleton] at hk; subst hk; simp
        · simp at hk
  induction ts with
  | nil => intro n last _ k hk; simp [Streamer.treeKeys] at hk
  | cons t ts ih =>
    intro n last hu k hk
    cases t with
    | report i => simp [unnumbered] at hu
    | endReport => exact ih _ _ hu k hk
    | enter kd u =>
      rw [Streamer.treeKeys, List.mem_cons, List.mem_cons] at hk
      rcases hk with rfl | rfl | hk
      · simp
      · simp
      · exact ih _ _ hu k hk
    | leave =>
      rw [Streamer.treeKeys, List.mem_cons] at hk
      rcases hk with rfl | hk
      · simp
      · exact ih _ _ hu k hk
    | leaf l =>
      rw [Streamer.treeKeys, Streamer.leafKeys, List.mem_append, List.mem_append] at hk
      rcases hk with (hk | hk) | hk
      · exact hpad _ _ k hk
      · cases l with
        | value v => exact hval v k hk
        | align w b => simp [Streamer.ownKeys] at hk
        | padding w s => simp [Streamer.ownKeys] at hk
      · exact ih _ _ hu k hk

/-- The items of a compiled descriptor do not depend on those of another, unless on its Report IDs. -/
theorem compiled_independent {reg : Registry} {a b : Node} {xs ys : List Item} (ha : Streamer.compile reg a = .ok xs)
    (hb : Streamer.compile reg b = .ok ys)
    (h : (∀ p ∈ places none (tokens b), p.2 ≠ none ∧ p.2 ≠ some 0) ∨ unnumbered (tokens a) = true) :
    Independent (keys xs) (keys ys) := by
  have ka := Streamer.compile_keys ha
  have kb := Streamer.compile_keys hb
  intro k hk hg
  have hplain := Streamer.treeKeys_plain (tokens a) (fun _ _ => 0) 0 ((tokens a).flatMap Streamer.tokUsages)
    (fun t ht u hu => List.mem_flatMap.2 ⟨t, ht, hu⟩) k (by rw [← ka]; exact hk)
  have hpg : k.1 ≠ .usagePage := by intro e; simp [Streamer.Plain, e] at hplain
  by_cases hbr : k.1 ∈ brought
  · rw [kb]; exact treeKeys_given hbr _ _ _
  · by_cases hid : k.1 = .reportID
    · rw [hid, kb]
      rcases h with h | h
      · exact treeKeys_id _ none _ _ (Or.inl rfl) h
      · rw [ka] at hk
        exact absurd hid (treeKeys_noId _ _ _ h k hk)
    · apply given_of_none
      intro k' _
      cases hc : k.1 <;> rw [hc] at hg hbr hid hpg <;> simp [Cls.kind, brought] at hg hbr hid hpg <;>
        (unfold refersTo; split <;> simp)

/-- The last item of a descriptor closes a collection. -/
def closesLast (n : Node) : Bool :=
  match ((tokens n).filter (fun t => match t with | .endReport => false | _ => true)).getLast? with
  | some .leave => true
  | _ => false

theorem treeKeys_filter (ts : List Tok) : ∀ (n : Streamer.Count) (last : Int),
    Streamer.treeKeys n last (ts.filter (fun t => match t with | .endReport => false | _ => true)) =
      Streamer.treeKeys n last ts := by
  induction ts with
  | nil => intro n last; rfl
  | cons t ts ih =>
    intro n last
    cases t <;> simp [Streamer.treeKeys, ih]

theorem treeKeys_last (ts : List Tok) : ∀ (n : Streamer.Count) (last : Int),
    ∃ pre, Streamer.treeKeys n last (ts ++ [.leave]) = pre ++ [(.endCollection, 0)] := by
  induction ts with
  | nil => intro n last; exact ⟨[], rfl⟩
  | cons t ts ih =>
    intro n last
    cases t with
    | report i => obtain ⟨p, hp⟩ := ih n i; exact ⟨_ ++ p, by rw [List.cons_append, Streamer.treeKeys, hp, ← List.append_assoc]⟩
    | endReport => exact ih n last
    | enter k u =>
      obtain ⟨p, hp⟩ := ih n last
      exact ⟨_ :: _ :: p, by rw [List.cons_append, Streamer.treeKeys, hp]; rfl⟩
    | leave => obtain ⟨p, hp⟩ := ih n last; exact ⟨_ :: p, by rw [List.cons_append, Streamer.treeKeys, hp]; rfl⟩
    | leaf l =>
      obtain ⟨p, hp⟩ := ih (Streamer.Count.add n last l) last
      exact ⟨_ ++ p, by rw [List.cons_append, Streamer.treeKeys, hp, ← List.append_assoc]⟩

/-- Collections opened and closed by tokens. -/
def netTok : List Tok → Int
  | [] => 0
  | .enter _ _ :: r => 1 + netTok r
  | .leave :: r => -1 + netTok r
  | .report _ :: r => netTok r
  | .endReport :: r => netTok r
  | .leaf _ :: r => netTok r

theorem netTok_append (a b : List Tok) : netTok (a ++ b) = netTok a + netTok b := by
  induction a with
  | nil => simp [netTok]
  | cons t a ih => cases t <;> simp only [List.cons_append, netTok, ih] <;> omega

mutual
theorem netTok_tokens : ∀ n : Node, netTok (tokens n) = 0
  | .value v => by simp [tokens, netTok]
  | .align w b => by simp [tokens, netTok]
  | .padding w s => by simp [tokens, netTok]
  | .report i ms => by rw [tokens, List.cons_append, netTok, netTok_append, netTok_tokensL ms]; simp [netTok]
  | .top ms => by rw [tokens, netTok_tokensL ms]
  | .coll k u ms => by rw [tokens, List.cons_append, netTok, netTok_append, netTok_tokensL ms]; simp [netTok]
theorem netTok_tokensL : ∀ ns : List Node, netTok (tokensL ns) = 0
  | [] => rfl
  | n :: ns => by rw [tokensL, netTok_append, netTok_tokens n, netTok_tokensL ns]; rfl
end

theorem netOpen_zero {ks : List SItem} (h : ∀ k ∈ ks, k.1 ≠ .collection ∧ k.1 ≠ .endCollection) : netOpen ks = 0 := by
  induction ks with
  | nil => rfl
  | cons k ks ih =>
    rw [netOpen, ih (fun k hk => h k (by simp [hk])), if_neg (h k (by simp)).1, if_neg (h k (by simp)).2]
    rfl

theorem netOpen_padKeys (w : Way) (p : Int) : netOpen (Streamer.padKeys w p) = 0 := by
  apply netOpen_zero
  intro k hk
  unfold Streamer.padKeys at hk
  split at hk
  · simp at hk
  · simp only [List.mem_cons, List.not_mem_nil, or_false] at hk
    rcases hk with rfl | rfl | rfl
    · simp
    · simp
    · cases w <;> simp [Way.cls]

theorem netOpen_fieldKeys (v : Value) : netOpen (Streamer.fieldKeys v) = 0 := by
  apply netOpen_zero
  intro k hk
  unfold Streamer.fieldKeys at hk
  simp only [List.mem_append, List.mem_map, List.mem_cons, List.not_mem_nil, or_false] at hk
  rcases hk with (((⟨u, -, rfl⟩ | hk) | hk) | hk) | hk
  · simp
  · rcases hk with rfl | rfl | rfl | rfl <;> simp
  · split at hk
    · simp at hk
    · simp only [List.mem_singleton] at hk; subst hk; simp
  · split at hk
    · simp at hk
    · simp only [List.mem_singleton] at hk; subst hk; simp
  · rcases hk with rfl | rfl | rfl
    · simp
    · simp
    · cases v.way <;> simp [Way.cls]

theorem netOpen_valKeys (v : Value) : netOpen (Streamer.valKeys v) = 0 := by
  unfold Streamer.valKeys
  by_cases hf : constFlag v.flags = true
  · rw [if_pos hf]
    apply netOpen_zero
    intro k hk
    simp only [List.mem_cons, List.not_mem_nil, or_false] at hk
    rcases hk with rfl | rfl | rfl
    · simp
    · simp
    · cases v.way <;> simp [Way.cls]
  · rw [if_neg hf]
    have hu : netOpen ((usageOf v.usage).toList.map (fun u => ((.usage, u) : SItem))) = 0 := by
      apply netOpen_zero
      intro k hk
      obtain ⟨u, -, rfl⟩ := List.mem_map.1 hk
      simp
    rw [netOpen_append, netOpen_append, netOpen_append, netOpen_append, hu, netOpen_fieldKeys]
    by_cases hw : Streamer.wrapped v = true
    · rw [if_pos hw, if_pos hw]; simp [netOpen]
    · rw [if_neg hw, if_neg hw]; simp [netOpen]

theorem netOpen_treeKeys (ts : List Tok) : ∀ (n : Streamer.Count) (last : Int),
    netOpen (Streamer.treeKeys n last ts) = netTok ts := by
  induction ts with
  | nil => intro n last; rfl
  | cons t ts ih =>
    intro n last
    cases t with
    | report i =>
      rw [Streamer.treeKeys, netOpen_append, ih, netTok]
      split <;> simp [netOpen]
    | endReport => exact ih n last
    | enter k u => rw [Streamer.treeKeys, netOpen, netOpen, ih, netTok]; simp
    | leave => rw [Streamer.treeKeys, netOpen, ih, netTok]; simp
    | leaf l =>
      rw [Streamer.treeKeys, Streamer.leafKeys, netOpen_append, netOpen_append, ih, netOpen_padKeys, netTok]
      cases l with
      | value v => simp [Streamer.ownKeys, netOpen_valKeys]
      | align w b => simp [Streamer.ownKeys, netOpen]
      | padding w s => simp [Streamer.ownKeys, netOpen]

theorem compiled_whole {reg : Registry} {n : Node} {xs : List Item} (h : Streamer.compile reg n = .ok xs)
    (hc : closesLast n = true) : Whole (keys xs) := by
  have hk := Streamer.compile_keys h
  constructor
  · rw [hk, netOpen_treeKeys, netTok_tokens]
  · unfold closesLast at hc
    split at hc
    · rename_i hl
      obtain ⟨ys, hy⟩ := List.getLast?_eq_some_iff.1 hl
      rw [hk, ← treeKeys_filter, hy]
      obtain ⟨p, hp⟩ := treeKeys_last ys (fun _ _ => 0) 0
      rw [hp]
      simp
    · simp at hc

/-- **C85, merged descriptors.** Put together in one TopLevel (as in C76), compiled and decompiled, two descriptors
give the trees that each gives alone, one behind the other. -/
theorem C85_merged (reg : Registry) (a b : Node) (h : Composable a b) (hc : closesLast a = true)
    (xs ys : List Item) (ha : Streamer.compile reg a = .ok xs) (hb : Streamer.compile reg b = .ok ys)
    (p q : List Node) (hp : extract reg xs = .ok (.top p)) (hq : extract reg ys = .ok (.top q)) :
    ∃ zs, Streamer.compile reg (.top [a, b]) = .ok zs ∧ extract reg zs = .ok (.top (seam p q)) := by
  refine ⟨xs ++ ys, ?_, ?_⟩
  · have hi := C76_items reg a b h
    rw [(Streamer.trace_ok reg a xs).2 ha, (Streamer.trace_ok reg b ys).2 hb] at hi
    exact (Streamer.trace_ok reg _ _).1 hi
  · exact C85_trees reg xs ys (compiled_whole ha hc) (compiled_independent ha hb h.1) p q hp hq

/-! ## Cases -/

/-- A collection with one field. -/
def leaflet (app usage id unit : Int) : List Item :=
  [⟨.usagePage, .int 1⟩, ⟨.usage, .int app⟩, ⟨.collection, .int 1⟩, ⟨.reportID, .int id⟩, ⟨.logMin, .int 0⟩,
   ⟨.logMax, .int 127⟩, ⟨.physMin, .int 0⟩, ⟨.physMax, .int 0⟩, ⟨.unit, .int unit⟩, ⟨.unitExp, .int 0⟩,
   ⟨.reportSize, .int 8⟩, ⟨.reportCount, .int 1⟩, ⟨.usage, .int usage⟩, ⟨.input, .int 2⟩, ⟨.endCollection, .int 0⟩]

/-- How many members the tree of a stream has at the top. -/
def topMembers (xs : List Item) : Option Nat :=
  match extract [] xs with
  | .ok (.top l) => some l.length
  | _ => none

/-- What the tree of a stream describes. -/
def described (xs : List Item) : Option (List Event) := (extract [] xs).toOption.map bareMeaning

/-- The hypotheses are met, with two reports and with one on both sides. -/
example : Whole (keys (leaflet 2 0x30 1 17)) ∧
    Independent (keys (leaflet 2 0x30 1 17)) (keys (leaflet 6 0x31 2 0)) ∧
    Independent (keys (leaflet 2 0x30 1 17)) (keys (leaflet 6 0x31 1 0)) ∧
    topMembers (leaflet 2 0x30 1 17) = some 1 ∧ topMembers (leaflet 6 0x31 2 0) = some 1 ∧
    topMembers (leaflet 2 0x30 1 17 ++ leaflet 6 0x31 2 0) = some 2 ∧
    topMembers (leaflet 2 0x30 1 17 ++ leaflet 6 0x31 1 0) = some 1 := by decide +kernel

/-- Descriptors as in C76, in collections. -/
def boxAxis : Node := .top [.coll (.int 1) (some (.int 0x10004)) [besideAxis]]
/-- See `boxAxis`. -/
def boxButton : Node := .top [.coll (.int 1) (some (.int 0x10006)) [besideButton]]

example : Composable boxAxis boxButton ∧ closesLast boxAxis = true ∧
    ((Streamer.compile [] boxAxis).toOption.bind topMembers) = some 1 ∧
    ((Streamer.compile [] boxButton).toOption.bind topMembers) = some 1 := by decide +kernel

/-- The second document must set what the first has set: without its Unit 0 (which the optimizer leaves out) its field
gets the unit of the first. -/
theorem C85_global_breaks :
    let xs := leaflet 2 0x30 1 17
    let ys := (leaflet 6 0x31 2 0).filter (fun i => i.cls ≠ .unit)
    Whole (keys xs) ∧ ¬ Independent (keys xs) (keys ys) ∧
    ∃ a b c, described xs = some a ∧ described ys = some b ∧ described (xs ++ ys) = some c ∧ c ≠ a ++ b := by
  refine ⟨by decide +kernel, by decide +kernel, _, _, _, rfl, rfl, rfl, by decide +kernel⟩

/-- The first must close its collections: after one left open, whose End Collection comes at the end of both, the
second is inside it. -/
theorem C85_open_breaks :
    let xs := (leaflet 2 0x30 1 17).dropLast
    let ys := leaflet 6 0x31 2 0 ++ [⟨.endCollection, .int 0⟩]
    ¬ Whole (keys xs) ∧ Independent (keys xs) (keys ys) ∧
    topMembers (xs ++ ys) = some 1 ∧ extract [] ys = .error .index := by
  refine ⟨by decide +kernel, by decide +kernel, by decide +kernel, rfl⟩

end Hrdc
