import Verif.Proofs.Extract4
import Verif.Proofs.Bits
/-!
# Trees the decompiler makes
-/
namespace Hrdc
open Spec

/-! ## Order of reports -/

/-- Leaves among tokens. -/
def leafCount (ts : List Tok) : Nat := ts.countP (fun t => match t with | .leaf _ => true | _ => false)

/-- Neither start nor end of a report. -/
def Tok.inner : Tok → Prop
  | .report _ => False
  | .endReport => False
  | _ => True

theorem leafIds_inner (i : Int) (ids : List Int) (last nz : Int) (P rest : List Tok)
    (hP : ∀ t ∈ P, Tok.inner t) : leafIds (i :: ids) last nz (P ++ rest) =
      List.replicate (leafCount P) (i, last, nz) ++ leafIds (i :: ids) last nz rest := by
  induction P with
  | nil => simp [leafCount]
  | cons t P ih =>
    have h1 := hP t (by simp)
    have h2 := ih (fun t ht => hP t (by simp [ht]))
    cases t with
    | report j => exact absurd h1 id
    | endReport => exact absurd h1 id
    | enter k u => simpa [leafIds, leafCount] using h2
    | leave => simpa [leafIds, leafCount] using h2
    | leaf l =>
      rw [List.cons_append, leafIds, h2]
      simp only [leafCount, List.countP_cons, if_true, List.replicate_succ, List.headD_cons, List.cons_append]

theorem ids_enter (k : PyVal) (u : Option PyVal) (r : List Piece) :
    (Piece.enter k u :: r).filterMap Extractor.pieceId = r.filterMap Extractor.pieceId := rfl
theorem ids_leave (r : List Piece) :
    (Piece.leave :: r).filterMap Extractor.pieceId = r.filterMap Extractor.pieceId := rfl

theorem scope_inner (i : Int) (P : List Tok) (hP : ∀ t ∈ P, Tok.inner t) :
    (inScope [i] P).filterMap Extractor.pieceId = List.replicate (leafCount P) i := by
  induction P with
  | nil => rfl
  | cons t P ih =>
    have h1 := hP t (by simp)
    have h2 := ih (fun t ht => hP t (by simp [ht]))
    cases t with
    | report j => exact absurd h1 id
    | endReport => exact absurd h1 id
    | enter k u => simpa [inScope, leafCount, ids_enter] using h2
    | leave => simpa [inScope, leafCount, ids_leave] using h2
    | leaf l =>
      rw [inScope, List.filterMap_cons, h2]
      simp only [Extractor.pieceId, leafCount, List.countP_cons, if_true, List.replicate_succ, List.headD_cons]

mutual
/-- Without the start of a report there is no end either. -/
theorem tokens_inner : ∀ n : Node, (∀ i, Tok.report i ∉ tokens n) → ∀ t ∈ tokens n, Tok.inner t
  | .value v, _, t, ht => by simp [tokens] at ht; subst ht; trivial
  | .align w b, _, t, ht => by simp [tokens] at ht; subst ht; trivial
  | .padding w s, _, t, ht => by simp [tokens] at ht; subst ht; trivial
  | .report i ms, h, t, ht => absurd (by simp [tokens]) (h i)
  | .top ms, h, t, ht => tokensL_inner ms (by simpa [tokens] using h) t (by simpa [tokens] using ht)
  | .coll k u ms, h, t, ht => by
    simp only [tokens, List.cons_append, List.mem_cons, List.mem_append, List.not_mem_nil, or_false] at ht
    rcases ht with rfl | ht | rfl
    · trivial
    · exact tokensL_inner ms (fun i hi => h i (by simp [tokens, hi])) t ht
    · trivial
theorem tokensL_inner : ∀ ns : List Node, (∀ i, Tok.report i ∉ tokensL ns) → ∀ t ∈ tokensL ns, Tok.inner t
  | [], _, t, ht => by simp [tokensL] at ht
  | n :: ns, h, t, ht => by
    rw [tokensL, List.mem_append] at ht
    rcases ht with ht | ht
    · exact tokens_inner n (fun i hi => h i (by simp [tokensL, hi])) t ht
    · exact tokensL_inner ns (fun i hi => h i (by simp [tokensL, hi])) t ht
end

/-- Last ID other than 0. -/
def nzAfter (nz : Int) (ids : List Int) : Int := ids.foldl (fun a i => if i = 0 then a else i) nz

/-- No 0 after another ID. -/
def zf (nz : Int) : List Int → Prop
  | [] => True
  | i :: r => (i = 0 → nz = 0) ∧ zf (if i = 0 then nz else i) r

theorem zf_append (nz : Int) (a b : List Int) : zf nz (a ++ b) ↔ zf nz a ∧ zf (nzAfter nz a) b := by
  induction a generalizing nz with
  | nil => simp [zf, nzAfter]
  | cons i a ih => rw [List.cons_append, zf, ih, zf, and_assoc]; rfl

theorem zf_pairwise (nz : Int) (ids : List Int) (h : ids.Pairwise (fun a b => b = 0 → a = 0))
    (hn : nz = 0 ∨ ∀ i ∈ ids, i ≠ 0) : zf nz ids := by
  induction ids generalizing nz with
  | nil => trivial
  | cons i ids ih =>
    rw [List.pairwise_cons] at h
    refine ⟨?_, ?_⟩
    · intro hi
      rcases hn with hn | hn
      · exact hn
      · exact absurd hi (hn i (by simp))
    · refine ih _ h.2 ?_
      by_cases hi : i = 0
      · rw [if_pos hi]
        rcases hn with hn | hn
        · exact Or.inl hn
        · exact Or.inr (fun j hj => hn j (by simp [hj]))
      · rw [if_neg hi]
        exact Or.inr (fun j hj h0 => hi (h.1 j hj h0))

theorem nzAfter_replicate (nz : Int) (n : Nat) (i : Int) (hn : 0 < n) :
    nzAfter nz (List.replicate n i) = if i = 0 then nz else i := by
  induction n generalizing nz with
  | zero => omega
  | succ n ih =>
    rw [List.replicate_succ]
    show nzAfter (if i = 0 then nz else i) (List.replicate n i) = _
    cases n with
    | zero => rfl
    | succ n =>
      rw [ih _ (by omega)]
      split <;> rfl

theorem zf_replicate (nz : Int) (n : Nat) (i : Int) (hn : 0 < n) (h : zf nz (List.replicate n i)) :
    i = 0 → nz = 0 := by
  cases n with
  | zero => omega
  | succ n => rw [List.replicate_succ] at h; exact h.1

mutual
theorem grouped_ids (last nz : Int) (rest : List Tok) : ∀ n : Node, Grouped n →
    zf nz ((pieces 0 n).filterMap Extractor.pieceId) → ∃ A last',
      leafIds [] last nz (tokens n ++ rest) =
        A ++ leafIds [] last' (nzAfter nz ((pieces 0 n).filterMap Extractor.pieceId)) rest ∧
      ∀ t ∈ A, t.1 = t.2.1 ∧ t.1 = t.2.2
  | .value v, h, _ => absurd h id
  | .align w b, h, _ => absurd h id
  | .padding w s, h, _ => absurd h id
  | .report i ms, h, hz => by
    obtain ⟨⟨l, hl⟩, hr⟩ := h
    have hin := tokensL_inner ms hr
    have hc : 0 < leafCount (tokensL ms) := by
      unfold leafCount
      rw [List.countP_pos_iff]
      exact ⟨_, hl, rfl⟩
    have hp : (pieces 0 (.report i ms)).filterMap Extractor.pieceId =
        List.replicate (leafCount (tokensL ms)) i := by
      rw [← scope_inner i _ hin]
      have := inScope_tokensL [i] [] ms
      simp only [List.append_nil, List.headD_cons, inScope] at this
      rw [this, pieces]
    rw [hp] at hz ⊢
    have h0 := zf_replicate nz _ i hc hz
    refine ⟨List.replicate (leafCount (tokensL ms)) (i, i, if i = 0 then nz else i), i, ?_, ?_⟩
    · rw [tokens, List.cons_append, List.cons_append, leafIds, List.append_assoc,
        leafIds_inner _ _ _ _ _ _ hin, nzAfter_replicate _ _ _ hc]
      rfl
    · intro t ht
      rw [List.mem_replicate] at ht
      rw [ht.2]
      refine ⟨rfl, ?_⟩
      simp only
      split
      · rename_i hi; rw [h0 hi]; exact hi
      · rfl
  | .top ms, h, hz => by
    rw [tokens]
    exact groupedL_ids last nz rest ms h (by simpa [pieces] using hz)
  | .coll k u ms, h, hz => by
    have hz' : (pieces 0 (.coll k u ms)).filterMap Extractor.pieceId =
        (piecesL 0 ms).filterMap Extractor.pieceId := by
      rw [pieces, List.cons_append, ids_enter, List.filterMap_append, ids_leave]; simp
    rw [hz'] at hz ⊢
    obtain ⟨A, last', he, hA⟩ := groupedL_ids last nz (.leave :: rest) ms h hz
    refine ⟨A, last', ?_, hA⟩
    rw [tokens, List.cons_append, List.cons_append, List.append_assoc]
    exact he
theorem groupedL_ids (last nz : Int) (rest : List Tok) : ∀ ns : List Node, GroupedL ns →
    zf nz ((piecesL 0 ns).filterMap Extractor.pieceId) → ∃ A last',
      leafIds [] last nz (tokensL ns ++ rest) =
        A ++ leafIds [] last' (nzAfter nz ((piecesL 0 ns).filterMap Extractor.pieceId)) rest ∧
      ∀ t ∈ A, t.1 = t.2.1 ∧ t.1 = t.2.2
  | [], _, _ => ⟨[], last, rfl, by simp⟩
  | n :: ns, h, hz => by
    rw [piecesL, List.filterMap_append, zf_append] at hz
    obtain ⟨A, last1, hA, hA'⟩ := grouped_ids last nz (tokensL ns ++ rest) n h.1 hz.1
    obtain ⟨B, last2, hB, hB'⟩ := groupedL_ids last1 _ rest ns h.2 hz.2
    refine ⟨A ++ B, last2, ?_, ?_⟩
    · rw [tokensL, List.append_assoc, hA, hB, piecesL, List.filterMap_append, List.append_assoc]
      unfold nzAfter
      rw [List.foldl_append]
    · intro t ht
      rcases List.mem_append.1 ht with ht | ht
      · exact hA' t ht
      · exact hB' t ht
end

theorem grouped_reportsLast {n : Node} (h : Grouped n)
    (hz : ((pieces 0 n).filterMap Extractor.pieceId).Pairwise (fun a b => b = 0 → a = 0)) :
    ReportsLast n := by
  obtain ⟨A, last', he, hA⟩ := grouped_ids 0 0 [] n h (zf_pairwise 0 _ hz (Or.inl rfl))
  unfold ReportsLast
  rw [List.append_nil] at he
  rw [he]
  simpa [leafIds] using hA

namespace Extractor

/-! ## Grouping -/

mutual
/-- Leaves are values and padding. -/
def XNode.WF : XNode → Prop
  | .leaf _ n => (∃ v, n = .value v) ∨ ∃ w s, n = .padding w s
  | .coll _ _ ms => WFL ms
/-- The same for a list. -/
def WFL : List XNode → Prop
  | [] => True
  | x :: xs => x.WF ∧ WFL xs
end

theorem WFL_append (a b : List XNode) : WFL (a ++ b) ↔ WFL a ∧ WFL b := by
  induction a with
  | nil => simp [WFL]
  | cons x a ih => simp [WFL, ih, and_assoc]

theorem tokensL_append (a b : List Node) : tokensL (a ++ b) = tokensL a ++ tokensL b := by
  induction a with
  | nil => rfl
  | cons x a ih => simp [tokensL, ih]

mutual
theorem wf_noReport : ∀ x : XNode, x.WF → ∀ i, Tok.report i ∉ tokens x.node
  | .leaf j n, h, i => by
    rcases h with ⟨v, rfl⟩ | ⟨w, s, rfl⟩ <;> simp [XNode.node, tokens]
  | .coll k u ms, h, i => by
    simp only [XNode.node, tokens]
    have := wfL_noReport ms h i
    simp [this]
theorem wfL_noReport : ∀ xs : List XNode, WFL xs → ∀ i, Tok.report i ∉ tokensL (nodeL xs)
  | [], _, i => by simp [nodeL, tokensL]
  | x :: xs, h, i => by
    simp only [nodeL, tokensL, List.mem_append]
    intro hc
    rcases hc with hc | hc
    · exact wf_noReport x h.1 i hc
    · exact wfL_noReport xs h.2 i hc
end

mutual
theorem wf_leaf : ∀ x : XNode, x.WF → ∀ j, j ∈ x.ids → ∃ l, Tok.leaf l ∈ tokens x.node
  | .leaf i n, h, _, _ => by
    rcases h with ⟨v, rfl⟩ | ⟨w, s, rfl⟩
    · exact ⟨.value v, by simp [XNode.node, tokens]⟩
    · exact ⟨.padding w s, by simp [XNode.node, tokens]⟩
  | .coll k u ms, h, j, hj => by
    obtain ⟨l, hl⟩ := wfL_leaf ms h j hj
    exact ⟨l, by simp [XNode.node, tokens, hl]⟩
theorem wfL_leaf : ∀ xs : List XNode, WFL xs → ∀ j, j ∈ idsL xs → ∃ l, Tok.leaf l ∈ tokensL (nodeL xs)
  | [], _, j, hj => by simp [idsL] at hj
  | x :: xs, h, j, hj => by
    rw [idsL, List.mem_append] at hj
    rcases hj with hj | hj
    · obtain ⟨l, hl⟩ := wf_leaf x h.1 j hj
      exact ⟨l, by simp [nodeL, tokensL, hl]⟩
    · obtain ⟨l, hl⟩ := wfL_leaf xs h.2 j hj
      exact ⟨l, by simp [nodeL, tokensL, hl]⟩
end

theorem groupedL_append (a b : List Node) : GroupedL (a ++ b) ↔ GroupedL a ∧ GroupedL b := by
  induction a with
  | nil => simp [GroupedL]
  | cons x a ih => simp [GroupedL, ih, and_assoc]

theorem single_mem {x : XNode} {i : Int} (h : x.single = some i) : i ∈ x.ids := by
  unfold XNode.single at h
  split at h
  · rename_i a r he
    split at h
    · simp only [Option.some.injEq] at h; subst h; rw [he]; simp
    · simp at h
  · simp at h

mutual
theorem reportInsert_grouped : ∀ x : XNode, x.WF → x.single = none → Grouped (reportInsert x)
  | .leaf j n, _, h => by rw [leaf_single] at h; simp at h
  | .coll k u ms, hw, _ => by
    rw [reportInsert, Grouped]
    exact insertL_grouped ms [] none hw trivial (by intro i hi; simp at hi)
theorem insertL_grouped : ∀ (xs : List XNode) (r : List Node) (cur : Option Int), WFL xs → GroupedL r →
    EndsWith cur r → GroupedL (insertL r cur xs)
  | [], r, cur, _, h, _ => by simpa [insertL] using h
  | x :: xs, r, cur, hw, h, he => by
    rw [insertL]
    cases hs : x.single with
    | some i =>
      simp only
      obtain ⟨l, hl⟩ := wf_leaf x hw.1 i (single_mem hs)
      have hno := wf_noReport x hw.1
      split
      · rename_i hc
        obtain ⟨a, ms, rfl⟩ := he i hc
        rw [addToLast_append]
        refine insertL_grouped xs _ cur hw.2 ?_ ?_
        · rw [groupedL_append] at h ⊢
          refine ⟨h.1, ?_, trivial⟩
          obtain ⟨⟨l', hl'⟩, hr⟩ := h.2.1
          refine ⟨⟨l', by simp [tokensL_append, hl']⟩, ?_⟩
          intro j hj
          simp only [tokensL_append, List.mem_append, tokensL, List.append_nil] at hj
          rcases hj with hj | hj
          · exact hr j hj
          · exact hno j hj
        · intro j hj
          rw [hc] at hj
          simp only [Option.some.injEq] at hj
          subst hj
          exact ⟨a, _, rfl⟩
      · refine insertL_grouped xs _ (some i) hw.2 ?_ ?_
        · rw [groupedL_append]
          refine ⟨h, ⟨⟨l, by simp [tokensL, hl]⟩, ?_⟩, trivial⟩
          intro j hj
          simp only [tokensL, List.append_nil] at hj
          exact hno j hj
        · intro j hj
          simp only [Option.some.injEq] at hj
          subst hj
          exact ⟨r, _, rfl⟩
    | none =>
      simp only
      refine insertL_grouped xs _ none hw.2 ?_ (by intro j hj; simp at hj)
      rw [groupedL_append]
      exact ⟨h, reportInsert_grouped x hw.1 hs, trivial⟩
end

theorem ended_grouped {l : Level} (h : WFL l.members) : Grouped (ended l) := by
  rw [ended, Grouped]
  exact insertL_grouped _ _ _ h trivial (by intro i hi; simp at hi)

/-! ## All states -/

/-- Levels hold values and padding only, and the root was made of such a level. -/
def State.WF (st : State) : Prop :=
  WFL st.level.members ∧ (∀ l ∈ st.stack, WFL l.members) ∧ (∀ t, st.root = some t → ∃ l : Level, WFL l.members ∧ t = ended l)

theorem wf_addNew {st st' : State} {a : ValueArgs} (hw : st.WF) (h : st.addNew a = .ok st') : st'.WF := by
  rw [State.addNew] at h
  cases hv : Value.new a with
  | error e => rw [hv] at h; simp at h
  | ok v =>
    rw [hv] at h
    simp only [Except.ok.injEq] at h
    subst h
    refine ⟨?_, hw.2.1, hw.2.2⟩
    simp only [State.addValue, WFL_append]
    exact ⟨hw.1, Or.inl ⟨v, rfl⟩, trivial⟩

theorem wf_addMany {st st' : State} {as : List ValueArgs} (hw : st.WF) (h : st.addMany as = .ok st') :
    st'.WF := by
  induction as generalizing st with
  | nil => simp [State.addMany] at h; subst h; exact hw
  | cons a as ih =>
    rw [State.addMany] at h
    cases hv : st.addNew a with
    | error e => rw [hv] at h; simp at h
    | ok s => rw [hv] at h; exact ih (wf_addNew hw hv) h

theorem wf_leave {st st' : State} {b : Bool} (hw : st.WF) (h : st.leave b = .ok st') : st'.WF := by
  unfold State.leave at h
  split at h
  · simp at h
  · rename_i p r hs
    have hp : WFL p.members := hw.2.1 p (by rw [hs]; simp)
    have hr : ∀ l ∈ r, WFL l.members := fun l hl => hw.2.1 l (by rw [hs]; simp [hl])
    split at h
    · simp at h
    · split at h <;> (simp only [Except.ok.injEq] at h; subst h)
      · refine ⟨?_, hr, hw.2.2⟩
        simp only [WFL_append]
        exact ⟨hp, hw.1, trivial⟩
      · exact ⟨hp, hr, hw.2.2⟩

theorem wf_data {reg : Registry} {st st' : State} {i : Item} (hw : st.WF) (h : st.data reg i = .ok st') :
    st'.WF := by
  unfold State.data at h
  split at h
  · rw [padding_ok] at h
    simp only [Except.ok.injEq] at h
    subst h
    refine ⟨?_, hw.2.1, hw.2.2⟩
    simp only [State.addValue, WFL_append]
    exact ⟨hw.1, Or.inr ⟨_, _, rfl⟩, trivial⟩
  · split at h
    · simp at h
    · split at h
      · simp at h
      · rename_i s hl
        split at h
        · exact wf_addNew (wf_leave (st := { st with inNamed := true }) hw hl) h
        · simp at h
    · split at h
      · exact wf_addMany hw h
      · split at h
        · exact wf_addNew hw h
        · exact wf_addMany hw h

theorem wf_step {reg : Registry} {st st' : State} {i : Item} (hw : st.WF) (h : step reg st i = .ok st') :
    st'.WF := by
  unfold step at h
  cases hk : i.cls.kind with
  | global => rw [hk] at h; simp at h; subst h; exact hw
  | loc =>
    rw [hk] at h; simp only [Except.ok.injEq] at h
    subst h
    split <;> exact hw
  | main =>
    rw [hk] at h
    have hd : (∀ s, st.expandAll.data reg i = .ok s → st' = s.clear → st'.WF) :=
      fun s hs he => by
        have hs' : s.WF := wf_data (st := st.expandAll) hw hs
        rw [he]; exact hs'
    cases hc : i.cls <;> rw [hc] at hk h <;> simp [Cls.kind] at hk <;> simp only at h
    case collection =>
      simp only [Except.ok.injEq] at h
      subst h
      refine ⟨trivial, ?_, hw.2.2⟩
      intro l hl
      rcases List.mem_cons.1 hl with rfl | hl
      · exact hw.1
      · exact hw.2.1 l hl
    case endCollection =>
      split at h
      · simp at h
      · rename_i s hcl
        simp only [Except.ok.injEq] at h
        subst h
        show s.WF
        unfold State.close at hcl
        split at hcl
        · simp at hcl
        · rename_i s1 hs1
          have h1 : s1.WF := by
            split at hs1
            · simp only [Except.ok.injEq] at hs1; subst hs1; exact hw
            · exact wf_leave (st := st.expandAll) hw hs1
          split at hcl <;> (simp only [Except.ok.injEq] at hcl; subst hcl)
          · refine ⟨h1.1, h1.2.1, ?_⟩
            intro t ht
            simp only [Option.some.injEq] at ht
            subst ht
            exact ⟨_, h1.1, rfl⟩
          · exact h1
    all_goals
      split at h
      · simp at h
      · rename_i s hs
        simp only [Except.ok.injEq] at h
        exact hd s hs h.symm

theorem wf_run {reg : Registry} {xs : List Item} {st st' : State} (hw : st.WF)
    (h : runFrom reg st xs = .ok st') : st'.WF := by
  induction xs generalizing st with
  | nil => simp [runFrom] at h; subst h; exact hw
  | cons i xs ih =>
    rw [runFrom] at h
    cases hs : step reg st i with
    | error e => rw [hs] at h; simp at h
    | ok s => rw [hs] at h; exact ih (wf_step hw hs) h

theorem extract_ended {reg : Registry} {xs : List Item} {t : Node} (h : extract reg xs = .ok t) :
    ∃ l : Level, WFL l.members ∧ t = ended l := by
  unfold extract at h
  split at h
  · simp at h
  · rename_i st hr
    split at h
    · simp at h
    · rename_i n hn
      simp only [Except.ok.injEq] at h
      subst h
      exact (wf_run (st := {}) ⟨trivial, by simp, by simp⟩ hr).2.2 _ hn

theorem extract_grouped {reg : Registry} {xs : List Item} {t : Node} (h : extract reg xs = .ok t) :
    Grouped t := by
  obtain ⟨l, hl, rfl⟩ := extract_ended h
  exact ended_grouped hl

/-! ## Alignment -/

theorem alignedFrom_append (off : Cls → Int → Nat) (a b : List Event) :
    alignedFrom off (a ++ b) = (alignedFrom off a && alignedFrom (fun w i => off w i + reportBits w i a) b) := by
  induction a generalizing off with
  | nil => simp [alignedFrom, reportBits]
  | cons e a ih =>
    rw [List.cons_append, alignedFrom, ih, alignedFrom, Bool.and_assoc]
    congr 3
    funext w i
    simp [reportBits]; omega

theorem way_cls_inj {a b : Way} (h : a.cls = b.cls) : a = b := by
  cases a <;> cases b <;> simp [Way.cls] at h <;> rfl

/-- Controls of a value. -/
theorem value_controls {C : Int → Prop} {v : Value} (h : ValueOK C v) (id : Int) : ∃ f a w, a.size = v.size ∧
    valueEvents id v = List.replicate v.count.toNat (.control v.way.cls f id a w) := by
  obtain ⟨-, -, -, hf, hn, -⟩ := h
  rw [valueEvents_eq]
  split
  · rw [hf]
    exact ⟨_, _, _, rfl, rfl⟩
  · rename_i hne
    have hu : v.usage = none := hn hne
    rw [hu]
    refine ⟨0, _, _, ?_, rfl⟩
    rfl

theorem place_bare {C : Int → Prop} (hC : ∀ c, C c → 0 < c) (ps : List Piece) (off : Layout)
    (off' : Cls → Int → Nat) (ho : ∀ (w : Way) i, off' w.cls i = off w i) (hp : ∀ p ∈ ps, PieceOK C p)
    (ha : alignedFrom off' (ps.flatMap bare) = true) : place off ps = ps.flatMap bare := by
  induction ps generalizing off off' with
  | nil => rfl
  | cons p ps ih =>
    have hp' : ∀ q ∈ ps, PieceOK C q := fun q hq => hp q (by simp [hq])
    rw [List.flatMap_cons, alignedFrom_append, Bool.and_eq_true] at ha
    obtain ⟨ha1, ha2⟩ := ha
    cases p with
    | enter k u =>
      rw [place, List.flatMap_cons, ih off _ (by intro w i; simp [bare, reportBits, Event.bits, ho]) hp' ha2]
      rfl
    | leave =>
      rw [place, List.flatMap_cons, ih off _ (by intro w i; simp [bare, reportBits, Event.bits, ho]) hp' ha2]
      rfl
    | leaf id l =>
      rw [place, List.flatMap_cons]
      have h0 := hp (.leaf id l) (by simp)
      cases l with
      | align w b => exact absurd h0 (fun h => h)
      | padding w s =>
        have hb : bare (.leaf id (.padding w s)) = List.replicate s.toNat (.padBit w.cls id) := rfl
        rw [ih (off.add id (.padding w s)) _ ?_ hp' ha2]
        · simp [leafEvents_eq, room, bare, bareLeaf_value, bareLeaf_align, bareLeaf_padding, Leaf.way]
        · intro w' i
          rw [hb, ho]
          simp only [reportBits, List.map_replicate, sum_replicate, Event.bits, Layout.add, Leaf.way, room]
          by_cases hh : w' = w ∧ i = id
          · obtain ⟨rfl, rfl⟩ := hh
            simp
          · rw [if_neg (show ¬ (w.cls = w'.cls ∧ id = i) from fun ⟨x, y⟩ => hh ⟨(way_cls_inj x).symm, y.symm⟩)]
            simp [hh]
      | value v =>
        have hv : ValueOK C v := h0
        obtain ⟨f, a, w, hs, he⟩ := value_controls hv id
        have hb : bare (.leaf id (.value v)) =
            List.replicate v.count.toNat (.control v.way.cls f id a w) := he
        have hc : 0 < v.count := hC _ hv.2.2.2.2.2
        have hsz : 0 ≤ v.size := hv.2.2.1
        have hmiss : missing v.alignment (off v.way id) = 0 := by
          rw [hb] at ha1
          have hn : v.count.toNat = v.count.toNat - 1 + 1 := by omega
          rw [hn, List.replicate_succ, alignedFrom, Bool.and_eq_true] at ha1
          have h1 := ha1.1
          simp only [Event.aligned, decide_eq_true_eq, hs, ho] at h1
          unfold missing
          rw [hv.2.1]
          split
          · rename_i hg
            have h2 := h1 (by omega)
            have h3 := Int.dvd_of_emod_eq_zero h2
            have h4 : min 8 v.size ∣ -(off v.way id : Int) := (Int.dvd_neg).2 h3
            rw [Int.emod_eq_zero_of_dvd h4]
            rfl
          · rfl
        rw [ih (off.add id (.value v)) _ ?_ hp' ha2]
        · simp only [leafEvents_eq, room, hmiss, Leaf.way]
          rfl
        · intro w' i
          rw [hb, ho]
          simp only [reportBits, List.map_replicate, sum_replicate, Event.bits, Layout.add, Leaf.way, room, hs]
          by_cases hh : w' = v.way ∧ i = id
          · obtain ⟨rfl, rfl⟩ := hh
            simp [hmiss, Nat.mul_comm]
          · rw [if_neg (show ¬ (v.way.cls = w'.cls ∧ id = i) from fun ⟨x, y⟩ => hh ⟨(way_cls_inj x).symm, y.symm⟩)]
            simp [hh]

theorem tree_bare {C : Int → Prop} (hC : ∀ c, C c → 0 < c) {t : Node} (hp : ∀ p ∈ pieces 0 t, PieceOK C p)
    (ha : aligned (bareMeaning t) = true) : treeMeaning t = bareMeaning t :=
  place_bare hC _ _ _ (fun _ _ => rfl) hp ha

end Extractor
end Hrdc
