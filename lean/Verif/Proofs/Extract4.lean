import Verif.Proofs.Extract3
/-!
# The decompiler on whole streams
-/
namespace Hrdc
open Spec

namespace Extractor

/-- Pieces the extractor makes. -/
def PieceOK (C : Int → Prop) : Piece → Prop
  | .enter k _ => 0 ≤ k.toInt
  | .leave => True
  | .leaf _ (.value v) => ValueOK C v
  | .leaf _ (.padding _ _) => True
  | .leaf _ (.align _ _) => False

/-- Report of a piece. -/
def pieceId : Piece → Option Int
  | .leaf i _ => some i
  | _ => none

theorem leafOK_pieces {C : Int → Prop} {id : Int} {ns : List Node} (h : ∀ n ∈ ns, LeafOK C n) :
    ∀ p ∈ ns.flatMap (Spec.pieces id), PieceOK C p ∧ pieceId p = some id := by
  intro p hp
  obtain ⟨n, hn, hp⟩ := List.mem_flatMap.1 hp
  rcases h n hn with ⟨w, s, rfl⟩ | ⟨v, rfl, hv⟩
  · simp [Spec.pieces] at hp
    subst hp
    exact ⟨trivial, rfl⟩
  · simp [Spec.pieces] at hp
    subst hp
    exact ⟨hv, rfl⟩

theorem openPieces_addLeaves (st : State) (ns : List Node) :
    openPieces ((st.addLeaves ns).level :: (st.addLeaves ns).stack) =
      openPieces (st.level :: st.stack) ++ ns.flatMap (Spec.pieces (st.num .reportID)) := by
  simp [openPieces, Level.pieces, State.addLeaves, xpiecesL_append, xpieces_leaves]

theorem corr_nil {l : Level} {r : List Level} (h : Corr [] (l :: r)) : r = [] ∧ l.head = none := by
  cases r with
  | nil => exact ⟨rfl, h⟩
  | cons p r => exact absurd h (by simp [Corr])

theorem corr_ne {o : List (Int × Bool)} {r : List Level} (h : Corr o r) : r ≠ [] := by
  cases o <;> cases r <;> simp [Corr] at h ⊢

theorem corr_cons {k : Int} {b : Bool} {o : List (Int × Bool)} {l : Level} {r : List Level}
    (h : Corr ((k, b) :: o) (l :: r)) :
    (∃ k' u, l.head = some (k', u) ∧ k'.toInt = k) ∧ b = !l.members.isEmpty ∧ Corr o r := h

/-- The host after a main item and the extractor after it, when only the levels and the root differ
from before. -/
theorem sim_clear {h : Host} {st : State} {ops ops1 : List (Int × Bool)} {mu ms md : Met} {i : SItem}
    (S : Sim h st ops mu ms md) (hk : i.1.kind = .main) {st1 : State} (hg : st1.g = st.g)
    (hn : st1.inNamed = false) (hl : Corr ops1 (st1.level :: st1.stack)) :
    Sim (h.step .atMain i) st1.clear ops1 {} {} {} := by
  have hstep : h.step .atMain i = { h with usages := {}, strings := {}, desigs := {} } := by
    obtain ⟨c, v⟩ := i
    cases c <;> simp [Cls.kind] at hk <;> rfl
  rw [hstep]
  refine ⟨?_, rel_init, rel_init, rel_init, hn, hl, S.page, S.size, S.count, ?_, ?_⟩
  · intro c; simp only [State.clear, hg]; exact S.g c
  · intro u hu; simp [State.clear] at hu
  · intro u hu; simp [State.clear] at hu

theorem ranges_main {mu ms md : Met} {i : SItem} {xs : List SItem} (R : Ranges mu ms md (i :: xs))
    (hk : i.1.kind = .main) : Ranges {} {} {} xs := by
  obtain ⟨a, b, c⟩ := R
  simp only [oneRange, hk, if_true] at a b c
  exact ⟨a, b, c⟩

theorem step_data (reg : Registry) {h : Host} {st : State} {ops : List (Int × Bool)} {mu ms md : Met}
    {i : Item} (S : Sim h st ops mu ms md) (hd : i.cls.isData = true)
    (hok : dataOK (some 0) (h.main .atMain i.key) = true)
    (htest : (h.main .atMain i.key).isConst = false → st.expandAll.namedTest reg i = .ok false)
    (C : Int → Prop) (hC1 : C 1)
    (hC : (h.main .atMain i.key).isConst = false → i.ival / 256 % 2 = 1 → C (h.g .reportCount)) :
    ∃ st1 new, step reg st i = .ok st1 ∧
      Sim (h.step .atMain i.key) st1 (markFull (hasFields (h.main .atMain i.key)) ops) {} {} {} ∧
      openPieces (st1.level :: st1.stack) = openPieces (st.level :: st.stack) ++ new ∧
      new.flatMap bare = (h.main .atMain i.key).events ∧
      (∀ p ∈ new, PieceOK C p ∧ ∀ id, pieceId p = some id → id = h.g .reportID) ∧
      st1.root = st.root ∧ st1.level.head = st.level.head ∧ st1.stack = st.stack := by
  have A := sim_main S i.key
  have hk : i.cls.kind = .main := by
    cases hc : i.cls <;> rw [hc] at hd <;> simp [Cls.isData] at hd <;> rfl
  obtain ⟨ns, hdata, hev, hempty, hleaf⟩ := data_core reg A hd rfl rfl hok htest C hC1 hC
  refine ⟨(st.expandAll.addLeaves ns).clear, ns.flatMap (Spec.pieces (st.expandAll.num .reportID)), ?_, ?_,
    openPieces_addLeaves st.expandAll ns, hev, ?_, rfl, rfl, rfl⟩
  · unfold step
    simp only [hk]
    cases hc : i.cls <;> rw [hc] at hd <;> simp [Cls.isData] at hd <;> simp only [hdata]
  · refine sim_clear S hk rfl S.named ?_
    have hlev := S.levels
    cases ops with
    | nil =>
      obtain ⟨h1, h2⟩ := corr_nil hlev
      show Corr [] (_ :: st.stack)
      rw [h1]
      exact h2
    | cons o ops =>
      obtain ⟨k, b⟩ := o
      obtain ⟨h1, h2, h3⟩ := corr_cons hlev
      refine ⟨h1, ?_, h3⟩
      simp only [State.addLeaves, State.expandAll]
      rw [h2]
      have : hasFields (h.main .atMain i.key) = !ns.isEmpty := by rw [hempty]; simp
      rw [this]
      cases st.level.members <;> cases ns <;> simp
  · intro p hp
    obtain ⟨h1, h2⟩ := leafOK_pieces hleaf p hp
    refine ⟨h1, ?_⟩
    intro id hid
    rw [h2] at hid
    simp only [Option.some.injEq] at hid
    rw [← hid]
    exact A.g .reportID

theorem step_main (reg : Registry) {h : Host} {st : State} {ops ops1 : List (Int × Bool)} {mu ms md : Met}
    {i : Item} (S : Sim h st ops mu ms md)
    (hk : i.cls.kind = .main) (hm : i.Made)
    (hw : walkStep ops (h.main .atMain i.key) = some ops1) (C : Int → Prop) (hC1 : C 1)
    (hC : i.cls.isData = true → (h.main .atMain i.key).isConst = false → i.ival / 256 % 2 = 1 → C (h.g .reportCount)) :
    ∃ st1 new, step reg st i = .ok st1 ∧ Sim (h.step .atMain i.key) st1 ops1 {} {} {} ∧
      openPieces (st1.level :: st1.stack) = openPieces (st.level :: st.stack) ++ new ∧
      new.flatMap bare = (h.main .atMain i.key).events ∧
      (∀ p ∈ new, PieceOK C p ∧ ∀ id, pieceId p = some id → id = h.g .reportID) ∧
      ((st1.root = some (ended st1.level) ∧ i.cls = .endCollection ∧ ops1 = []) ∨ (st1.root = st.root ∧ ¬ (i.cls = .endCollection ∧ ops1 = []))) := by
  have A := sim_main S i.key
  have hr : (h.main .atMain i.key).cls = i.cls := rfl
  have hv : (h.main .atMain i.key).val = i.ival := rfl
  by_cases hcoll : i.cls = .collection
  · simp only [walkStep, hr, hcoll, hv] at hw
    split at hw
    · rename_i hsd
      simp only [Option.some.injEq] at hw
      subst hw
      simp at hsd
      refine ⟨(st.expandAll.enter i.val (st.expandAll.usage reg 0)).clear,
        [.enter i.val (st.expandAll.usage reg 0)], ?_, ?_, ?_, ?_, ?_, ?_⟩
      · unfold step; simp only [hk]; rw [hcoll]
      · refine sim_clear S hk rfl S.named ?_
        refine ⟨⟨_, _, rfl, rfl⟩, rfl, S.levels⟩
      · simp [State.clear, State.enter, openPieces, Level.pieces, xpiecesL, State.expandAll]
      · have hu := (usage_pick reg A 0).1
        simp only [List.flatMap_cons, List.flatMap_nil, List.append_nil, bare, hu, MainRec.events, hr, hcoll]
        simp only [hv, MainRec.selector, hsd.1, hsd.2]
        rfl
      · intro p hp
        simp at hp; subst hp
        refine ⟨?_, by intro id hid; simp [pieceId] at hid⟩
        exact made_unsigned hm (by rw [hcoll]; rfl)
      · exact Or.inr ⟨rfl, by rw [hcoll]; simp⟩
    · simp at hw
  · by_cases hend : i.cls = .endCollection
    · simp only [walkStep, hr, hend] at hw
      have hlev := S.levels
      cases ops with
      | nil => simp at hw
      | cons o ops =>
        obtain ⟨k, b⟩ := o
        obtain ⟨⟨k', u, hh, hk'⟩, hb, hrest⟩ := corr_cons hlev
        have hstk : ∃ p r, st.stack = p :: r := by
          cases hs : st.stack with
          | nil => rw [hs] at hrest; exact absurd rfl (corr_ne hrest)
          | cons p r => exact ⟨p, r, rfl⟩
        obtain ⟨p, r, hs⟩ := hstk
        rw [hs] at hrest
        have hbt : b = true := by
          cases b with
          | true => rfl
          | false => simp at hw
        subst hbt
        have hne : st.level.members.isEmpty = false := by simpa using hb.symm
        let p' : Level := { p with members := p.members ++ [.coll k' u st.level.members] }
        have hleave : st.expandAll.leave true = .ok { st.expandAll with stack := r, level := p' } := by
          unfold State.leave
          simp only [State.expandAll, hs, hh, hne]
          rfl
        have hnamed : st.expandAll.inNamed = false := S.named
        have hpieces : openPieces (p' :: r) = openPieces (st.level :: st.stack) ++ [.leave] := by
          rw [hs]; exact openPieces_leave p st.level r k' u hh
        have hpc : ∀ q ∈ [Piece.leave], PieceOK C q ∧ ∀ id, pieceId q = some id → id = h.g .reportID := by
          intro q hq; simp at hq; subst hq
          exact ⟨trivial, by intro id hid; simp [pieceId] at hid⟩
        have hev : ([Piece.leave]).flatMap bare = (h.main .atMain i.key).events := by
          simp [bare, MainRec.events, hr, hend]
        simp only [Option.some.injEq] at hw
        subst hw
        have hcorr : Corr (markFull true ops) (p' :: r) := by
          cases ops with
          | nil =>
            obtain ⟨rfl, hp⟩ := corr_nil hrest
            exact hp
          | cons o2 ops2 =>
            obtain ⟨k2, b2⟩ := o2
            obtain ⟨h1, -, h3⟩ := corr_cons hrest
            exact ⟨h1, by simp [p'], h3⟩
        have hstep : step reg st i = .ok (State.clear (if r.isEmpty then
            { st.expandAll with stack := r, level := p', root := some (ended p') }
            else { st.expandAll with stack := r, level := p' })) := by
          unfold step
          simp only [hk]
          rw [hend]
          simp only [State.close, hnamed, Bool.false_eq_true, if_false, hleave]
        refine ⟨_, [.leave], hstep, ?_, ?_, hev, hpc, ?_⟩
        · refine sim_clear S hk ?_ ?_ ?_
          · split <;> rfl
          · split <;> exact S.named
          · split <;> exact hcorr
        · rw [← hpieces]
          split <;> rfl
        · cases hr0 : r.isEmpty with
          | true =>
            left
            refine ⟨rfl, hend, ?_⟩
            cases hops : markFull true ops with
            | nil => rfl
            | cons o2 ops2 =>
              rw [hops] at hcorr
              obtain ⟨k2, b2⟩ := o2
              have := corr_ne (corr_cons hcorr).2.2
              simp at hr0
              exact absurd hr0 this
          | false =>
            right
            refine ⟨rfl, ?_⟩
            rintro ⟨-, ho⟩
            rw [ho] at hcorr
            have := (corr_nil hcorr).1
            rw [this] at hr0
            simp at hr0
    · have hd : i.cls.isData = true := by
        cases hc : i.cls <;> rw [hc] at hk hcoll hend <;> simp [Cls.kind] at hk hcoll hend <;> rfl
      have hwalk : dataOK (ops.head?.map (·.1)) (h.main .atMain i.key) = true ∧
          markFull (hasFields (h.main .atMain i.key)) ops = ops1 := by
        unfold walkStep at hw
        rw [hr] at hw
        cases hc : i.cls <;> rw [hc] at hd <;> simp [Cls.isData] at hd
        all_goals
          simp only [hc] at hw
          split at hw
          · rename_i hdo
            exact ⟨hdo, by simpa using hw⟩
          · simp at hw
      obtain ⟨hdo, rfl⟩ := hwalk
      obtain ⟨ns, hdata, hev, hempty, hleaf⟩ := data_ok reg A hd hr hv hdo C hC1 (hC hd)
      refine ⟨(st.expandAll.addLeaves ns).clear, ns.flatMap (Spec.pieces (st.expandAll.num .reportID)), ?_, ?_,
        openPieces_addLeaves st.expandAll ns, hev, ?_, ?_⟩
      · unfold step
        simp only [hk]
        cases hc : i.cls <;> rw [hc] at hd <;> simp [Cls.isData] at hd <;> simp only [hdata]
      · refine sim_clear S hk rfl S.named ?_
        have hlev := S.levels
        cases ops with
        | nil =>
          obtain ⟨h1, h2⟩ := corr_nil hlev
          show Corr [] (_ :: st.stack)
          rw [h1]
          exact h2
        | cons o ops =>
          obtain ⟨k, b⟩ := o
          obtain ⟨h1, h2, h3⟩ := corr_cons hlev
          refine ⟨h1, ?_, h3⟩
          simp only [State.addLeaves, State.expandAll]
          rw [h2]
          have : hasFields (h.main .atMain i.key) = !ns.isEmpty := by rw [hempty]; simp
          rw [this]
          cases st.level.members <;> cases ns <;> simp
      · intro p hp
        obtain ⟨h1, h2⟩ := leafOK_pieces hleaf p hp
        refine ⟨h1, ?_⟩
        intro id hid
        rw [h2] at hid
        simp only [Option.some.injEq] at hid
        rw [← hid]
        exact A.g .reportID
      · exact Or.inr ⟨rfl, by simp [hend]⟩

/-- Report IDs of pieces: once it is not 0 it stays so; `g` is the ID in force. -/
def ZeroFirst (g : Int) (ps : List Piece) : Prop :=
  (ps.filterMap pieceId).Pairwise (fun a b => b = 0 → a = 0) ∧
    (g = 0 → ∀ id ∈ ps.filterMap pieceId, id = 0)

theorem zeroFirst_append {g : Int} {ps qs : List Piece} (h : ZeroFirst g ps)
    (hq : ∀ p ∈ qs, ∀ id, pieceId p = some id → id = g) : ZeroFirst g (ps ++ qs) := by
  have hq' : ∀ id ∈ qs.filterMap pieceId, id = g := by
    intro id hid
    obtain ⟨p, hp, he⟩ := List.mem_filterMap.1 hid
    exact hq p hp id he
  refine ⟨?_, ?_⟩
  · rw [List.filterMap_append, List.pairwise_append]
    refine ⟨h.1, ?_, ?_⟩
    · apply List.Pairwise.imp_of_mem (R := fun _ _ => True)
      · intro a b ha hb _ h0
        rw [hq' a ha, ← hq' b hb]; exact h0
      · exact List.pairwise_of_forall (fun _ _ => trivial)
    · intro a ha b hb h0
      rw [hq' b hb] at h0
      exact h.2 h0 a ha
  · intro h0 id hid
    rw [List.filterMap_append, List.mem_append] at hid
    rcases hid with hid | hid
    · exact h.2 h0 id hid
    · rw [hq' id hid]; exact h0

theorem main_g {h : Host} {i : SItem} (hk : i.1.kind = .main) (rule : PageRule) : (h.step rule i).g = h.g := by
  obtain ⟨c, v⟩ := i
  cases c <;> simp [Cls.kind] at hk <;> rfl

theorem run_sim (reg : Registry) (xs : List Item) (hm : ∀ i ∈ xs, i.Made)
    (hp : ∀ i ∈ xs, i.cls ≠ .push ∧ i.cls ≠ .pop) (C : Int → Prop) (hC1 : C 1) :
    ∀ (h : Host) (st : State) (ops ops' : List (Int × Bool)) (mu ms md : Met), Sim h st ops mu ms md →
      Ranges mu ms md (keys xs) → walk ops (recs .atMain h (keys xs)) = some ops' →
      (∀ r ∈ recs .atMain h (keys xs), r.cls.isData = true → r.isConst = false →
        r.val / 256 % 2 = 1 → C (r.g .reportCount)) →
      ∃ st' new mu' ms' md', runFrom reg st xs = .ok st' ∧
        Sim (h.after .atMain (keys xs)) st' ops' mu' ms' md' ∧
        openPieces (st'.level :: st'.stack) = openPieces (st.level :: st.stack) ++ new ∧
        new.flatMap bare = eventsFrom .atMain h (keys xs) ∧ (∀ p ∈ new, PieceOK C p) ∧
        ((∀ i ∈ xs, i.cls = .reportID → i.ival ≠ 0) → ZeroFirst (h.g .reportID) (openPieces (st.level :: st.stack)) →
          ZeroFirst ((h.after .atMain (keys xs)).g .reportID) (openPieces (st'.level :: st'.stack))) ∧
        (recs .atMain h (keys xs) = [] → st'.root = st.root ∧ st'.level = st.level ∧ ops' = ops) ∧
        (endsClosedRec (recs .atMain h (keys xs)) = true → ops' = [] → st'.root = some (ended st'.level)) ∧
        (st'.root.isSome = (st.root.isSome || everClosed ops (recs .atMain h (keys xs)))) := by
  induction xs with
  | nil =>
    intro h st ops ops' mu ms md S R hw hC
    simp only [keys_nil, recs, walk, Option.some.injEq] at hw
    subst hw
    refine ⟨st, [], mu, ms, md, rfl, S, by simp, rfl, by simp, fun _ hz => hz, fun _ => ⟨rfl, rfl, rfl⟩, ?_,
      by simp [recs, everClosed]⟩
    intro he; simp [recs, endsClosedRec] at he
  | cons i xs ih =>
    intro h st ops ops' mu ms md S R hw hC
    have ih' := ih (fun j hj => hm j (by simp [hj])) (fun j hj => hp j (by simp [hj]))
    rw [keys_cons] at R hw hC ⊢
    rw [recs_cons] at hw hC ⊢
    by_cases hk : i.cls.kind = .main
    · have hk' : i.key.1.kind = .main := hk
      rw [if_pos hk'] at hw hC ⊢
      simp only [List.cons_append, List.nil_append] at hw hC ⊢
      rw [walk] at hw
      split at hw
      · simp at hw
      rename_i ops1 hw1
      have h3 := hw
      obtain ⟨st1, new1, h1, h2, h4, h5, h6, h7⟩ := step_main reg S hk (hm i (by simp)) hw1 C hC1
        (hC (h.main .atMain i.key) (by simp))
      obtain ⟨st', new2, mu', ms', md', e1, e2, e3, e4, e5, e6, e7, e8, e9⟩ :=
        ih' _ st1 ops1 ops' {} {} {} h2 (ranges_main R hk') h3 (fun r hr => hC r (by simp [hr]))
      refine ⟨st', new1 ++ new2, mu', ms', md', ?_, e2, ?_, ?_, ?_, ?_, ?_, ?_, ?_⟩
      · rw [runFrom, h1]; exact e1
      · rw [e3, h4, List.append_assoc]
      · rw [List.flatMap_append, h5, e4, eventsFrom_cons_main _ _ _ _ hk']
      · intro p hp'
        rcases List.mem_append.1 hp' with hp' | hp'
        · exact (h6 p hp').1
        · exact e5 p hp'
      · intro hz0 hz
        refine e6 (fun j hj => hz0 j (by simp [hj])) ?_
        rw [main_g hk', h4]
        exact zeroFirst_append hz (fun p hp' => (h6 p hp').2)
      · intro he; simp at he
      · intro he ho
        by_cases hrs : recs .atMain (h.step .atMain i.key) (keys xs) = []
        · rw [hrs] at he
          obtain ⟨f1, f2, f3⟩ := e7 hrs
          subst ho
          rw [f1, f2]
          rcases h7 with ⟨h7, -⟩ | ⟨-, h7⟩
          · exact h7
          · refine absurd ⟨?_, f3.symm⟩ h7
            simpa [endsClosedRec, Host.main] using he
        · refine e8 ?_ ho
          unfold endsClosedRec at he ⊢
          rw [List.getLast?_cons_of_ne_nil hrs] at he
          exact he
      · rw [e9, everClosed, hw1]
        have hcls : (h.main .atMain i.key).cls = i.cls := rfl
        simp only [hcls]
        rcases h7 with ⟨h7, h8⟩ | ⟨h7, h8⟩
        · rw [h7, h8.1, h8.2]; simp
        · rw [h7]
          have : (i.cls == Cls.endCollection && ops1.isEmpty) = false := by
            cases hb : (i.cls == Cls.endCollection && ops1.isEmpty) with
            | false => rfl
            | true => simp at hb; exact absurd hb h8
          rw [this]; simp
    · have hk' : ¬ i.key.1.kind = .main := hk
      rw [if_neg hk'] at hw hC ⊢
      simp only [List.nil_append] at hw hC ⊢
      obtain ⟨st1, mu1, ms1, md1, h1, h2, h3, h4, h5, h6⟩ :=
        sim_other reg S R hk (hm i (by simp)) (hp i (by simp))
      obtain ⟨st', new2, mu', ms', md', e1, e2, e3, e4, e5, e6, e7, e8, e9⟩ :=
        ih' _ st1 ops ops' mu1 ms1 md1 h2 h3 hw hC
      refine ⟨st', new2, mu', ms', md', ?_, e2, ?_, ?_, e5, ?_, ?_, e8, by rw [e9, h6]⟩
      · rw [runFrom, h1]; exact e1
      · rw [e3, h4, h5]
      · rw [e4, eventsFrom_cons_of_not_main _ _ _ _ hk']
      · intro hz0 hz
        refine e6 (fun j hj => hz0 j (by simp [hj])) ?_
        rw [h4, h5]
        have hg : (h.step .atMain i.key).g .reportID = h.g .reportID ∨ (h.step .atMain i.key).g .reportID ≠ 0 := by
          have h0 := hz0 i (by simp)
          have hpp := hp i (by simp)
          obtain ⟨c, v⟩ := i
          cases c <;> simp at hpp <;> first
            | (left; rfl)
            | (right; exact h0 rfl)
        rcases hg with hg | hg
        · rw [hg]; exact hz
        · exact ⟨hz.1, fun h0 => absurd h0 hg⟩
      · intro he
        rw [← h6, ← h4]; exact e7 he

theorem sim_init : Sim {} {} [] {} {} {} := by
  refine ⟨fun _ => rfl, rel_init, rel_init, rel_init, rfl, rfl, by decide, by decide, by decide, ?_, ?_⟩
  · intro u hu; simp at hu
  · intro u hu; simp at hu

/-- Reading back an extractable stream. -/
theorem extract_ok (reg : Registry) (xs : List Item) (hm : ∀ i ∈ xs, i.Made) (he : Extractable (keys xs))
    (C : Int → Prop) (hC1 : C 1)
    (hC : ∀ r ∈ recs .atMain {} (keys xs), r.cls.isData = true → r.isConst = false →
        r.val / 256 % 2 = 1 → C (r.g .reportCount)) :
    ∃ t, extract reg xs = .ok t ∧ (∃ ms, t = ended { members := ms }) ∧
      bareMeaning t = meaning .atMain (keys xs) ∧
      (∀ p ∈ Spec.pieces 0 t, PieceOK C p) ∧
      ((∀ i ∈ xs, i.cls = .reportID → i.ival ≠ 0) →
        ((Spec.pieces 0 t).filterMap pieceId).Pairwise (fun a b => b = 0 → a = 0)) := by
  obtain ⟨st', new, mu', ms', md', e1, e2, e3, e4, e5, e6, -, e8, -⟩ := run_sim reg xs hm
    (fun i hi => he.noPush i.key (mem_keys.2 ⟨i, hi, rfl⟩)) C hC1 {} {} [] [] {} {} {} sim_init
    ⟨he.usages, he.strings, he.desigs⟩ he.closed hC
  obtain ⟨hs, hh⟩ := corr_nil e2.levels
  have hroot := e8 he.ends rfl
  have hp : Spec.pieces 0 (ended st'.level) = new := by
    rw [ended_pieces]
    rw [hs] at e3
    simpa [openPieces, Level.pieces, hh, xpiecesL] using e3
  refine ⟨ended st'.level, ?_, ⟨st'.level.members, rfl⟩, ?_, ?_, ?_⟩
  · unfold extract
    rw [e1]
    simp only [hroot]
  · unfold bareMeaning; rw [hp, e4]; rfl
  · rw [hp]; exact e5
  · intro hz
    have := (e6 hz ⟨by simp [openPieces, Level.pieces, xpiecesL], by simp [openPieces, Level.pieces, xpiecesL]⟩).1
    rw [e3] at this
    rw [hp]
    simpa [openPieces, Level.pieces, xpiecesL] using this

end Extractor
end Hrdc
