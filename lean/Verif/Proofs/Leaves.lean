import Verif.Proofs.Nesting
/-!
# Values of a decompiled tree with their reports
-/
namespace Hrdc
open Spec Extractor
namespace Extractor

/-- Direction and report ID of a leaf. -/
def leafKey : Piece → Option (Cls × Int)
  | .leaf id l => some (l.way.cls, id)
  | _ => none

/-- Direction and report ID of the leaves of elements under construction. -/
def leavesL (xs : List XNode) : List (Cls × Int) := (Spec.ownPiecesL xs).filterMap leafKey

theorem leavesL_append (xs ys : List XNode) : leavesL (xs ++ ys) = leavesL xs ++ leavesL ys := by
  simp [leavesL, ownPiecesL_append]

theorem leavesL_coll (k : PyVal) (u : Option PyVal) (ms : List XNode) : leavesL [.coll k u ms] = leavesL ms := by
  simp only [leavesL, Spec.ownPiecesL, Spec.ownPieces, List.append_nil, List.cons_append]
  rw [List.filterMap_cons, List.filterMap_append]
  simp [leafKey]

/-- All leaves read so far. -/
def State.leaves (st : State) : List (Cls × Int) :=
  st.stack.reverse.flatMap (fun l => leavesL l.members) ++ leavesL st.level.members

theorem ended_leaves (l : Level) : (pieces 0 (ended l)).filterMap leafKey = leavesL l.members := by
  rw [show ended l = ended { members := l.members } from rfl, C40_grouping 0 l.members]
  rfl

theorem leave_leaves {st st' : State} {keep : Bool} (h : st.leave keep = .ok st')
    (hk : keep = true ∨ st.level.members = []) : st'.leaves = st.leaves := by
  unfold State.leave at h
  split at h
  · simp at h
  · rename_i p r hs
    split at h
    · simp at h
    · rename_i k u hh
      unfold State.leaves
      rw [hs]
      split at h
      · simp only [Except.ok.injEq] at h
        subst h
        simp [leavesL_append, leavesL_coll]
      · rename_i hc
        simp only [Except.ok.injEq] at h
        subst h
        have hm : st.level.members = [] := by
          rcases hk with rfl | hk
          · simpa using hc
          · exact hk
        simp [hm, leavesL, Spec.ownPiecesL]

theorem addValue_leaves (st : State) (v : Value) :
    (st.addValue (.value v)).leaves = st.leaves ++ [(v.way.cls, st.num .reportID)] ∧
    ∀ c, (st.addValue (.value v)).num c = st.num c := by
  refine ⟨?_, fun _ => rfl⟩
  unfold State.leaves State.addValue
  simp only
  rw [leavesL_append, ← List.append_assoc]
  rfl

theorem addNew_leaves {st st' : State} {a : ValueArgs} (h : st.addNew a = .ok st') :
    st'.leaves = st.leaves ++ [(a.way.cls, st.num .reportID)] ∧ ∀ c, st'.num c = st.num c := by
  unfold State.addNew at h
  split at h
  · simp at h
  · rename_i v hv
    simp only [Except.ok.injEq] at h
    subst h
    rw [← (C36_fields_partial _ _ hv).1.1]
    exact addValue_leaves st v

theorem addMany_leaves {w : Way} {as : List ValueArgs} : ∀ {st st' : State}, (∀ a ∈ as, a.way = w) →
    st.addMany as = .ok st' →
    st'.leaves = st.leaves ++ List.replicate as.length (w.cls, st.num .reportID) ∧ ∀ c, st'.num c = st.num c := by
  induction as with
  | nil =>
    intro st st' _ h
    simp only [State.addMany, Except.ok.injEq] at h
    subst h
    simp
  | cons a as ih =>
    intro st st' hw h
    rw [State.addMany] at h
    split at h
    · simp at h
    · rename_i s1 h1
      obtain ⟨e1, e2⟩ := addNew_leaves h1
      obtain ⟨e3, e4⟩ := ih (fun b hb => hw b (by simp [hb])) h
      rw [e3, e1, e2, hw a (by simp)]
      refine ⟨?_, fun c => by rw [e4, e2]⟩
      simp [List.replicate_succ]

theorem addNew_root {st st' : State} {a : ValueArgs} (h : st.addNew a = .ok st') : st'.root = st.root := by
  unfold State.addNew at h
  split at h
  · simp at h
  · simp only [Except.ok.injEq] at h
    subst h
    rfl

theorem addMany_root {as : List ValueArgs} : ∀ {st st' : State}, st.addMany as = .ok st' → st'.root = st.root := by
  induction as with
  | nil => intro st st' h; simp only [State.addMany, Except.ok.injEq] at h; rw [h]
  | cons a as ih =>
    intro st st' h
    rw [State.addMany] at h
    split at h
    · simp at h
    · rename_i s1 h1
      rw [ih h, addNew_root h1]

theorem leave_root {st st' : State} {keep : Bool} (h : st.leave keep = .ok st') : st'.root = st.root := by
  unfold State.leave at h
  split at h
  · simp at h
  · split at h
    · simp at h
    · split at h <;> (simp only [Except.ok.injEq] at h; subst h; rfl)

theorem data_root (reg : Registry) {st st' : State} {i : Item} (h : st.data reg i = .ok st') : st'.root = st.root := by
  unfold State.data at h
  split at h
  · split at h
    · simp at h
    · simp only [Except.ok.injEq] at h
      subst h
      rfl
  · split at h
    · simp at h
    · split at h
      · simp at h
      · rename_i sl hl
        split at h
        · rw [addNew_root h, leave_root hl]
        · simp at h
    · split at h
      · exact addMany_root h
      · split at h
        · exact addNew_root h
        · exact addMany_root h

theorem data_leaves (reg : Registry) {st st' : State} {i : Item} {s : Look} (hd : i.cls.isData = true)
    (hg : ∀ c, st.num c = s.g c) (h : st.data reg i = .ok st') :
    st'.leaves = st.leaves ++ List.replicate (s.fields i.ival) (i.cls, s.g .reportID) ∧
    (∀ c, st'.num c = st.num c) ∧ st'.root = st.root := by
  have hroot : st'.root = st.root := data_root reg h
  suffices hmain : st'.leaves = st.leaves ++ List.replicate (s.fields i.ival) (i.cls, s.g .reportID) ∧
      (∀ c, st'.num c = st.num c) from ⟨hmain.1, hmain.2, hroot⟩
  have hw : (wayOf i.cls).cls = i.cls := wayOf_cls hd
  unfold State.data at h
  by_cases h0 : bitSet i.ival 0 = true
  · rw [if_pos h0, padding_ok] at h
    simp only [Except.ok.injEq] at h
    subst h
    have h1 : (i.ival % 2 == 1) = true := by simpa [bitSet] using h0
    refine ⟨?_, fun _ => rfl⟩
    unfold Look.fields
    rw [h1, Bool.true_or, if_pos rfl, ← hg]
    unfold State.leaves State.addValue
    simp only
    rw [leavesL_append, ← List.append_assoc]
    have : leavesL [.leaf (st.num .reportID) (.padding (wayOf i.cls) (st.num .reportSize * st.num .reportCount))] =
        [((wayOf i.cls).cls, st.num .reportID)] := rfl
    rw [this, hw]
    rfl
  · rw [if_neg h0] at h
    have h0' : (i.ival % 2 == 1) = false := by simpa [bitSet] using h0
    have hone : ∀ {sa sb : State} {a : ValueArgs}, sa.addNew a = .ok sb → a.way = wayOf i.cls →
        sa.leaves = st.leaves → (∀ c, sa.num c = st.num c) → s.fields i.ival = 1 →
        sb.leaves = st.leaves ++ List.replicate (s.fields i.ival) (i.cls, s.g .reportID) ∧ ∀ c, sb.num c = st.num c := by
      intro sa sb a ha haw hl hn h1
      obtain ⟨e1, e2⟩ := addNew_leaves ha
      rw [e1, h1, haw, hw, hl, hn, hg]
      exact ⟨rfl, fun c => by rw [e2, hn]⟩
    unfold State.namedTest at h
    split at h
    · simp at h
    · -- a named array
      rename_i hn
      have hcnt : st.num .reportCount = 1 := by
        by_cases hc : st.num .reportCount = 1 ∧ (st.usages.length : Int) = st.num .logMax - st.num .logMin + 1
        · exact hc.1
        · rw [if_neg hc] at hn; simp at hn
      split at h
      · simp at h
      · rename_i sl hl
        split at h
        · rename_i hem
          have hem' : st.level.members = [] := by simpa using hem
          have e1 := leave_leaves hl (.inr hem')
          refine hone h rfl e1 ?_ ?_
          · intro c
            unfold State.leave at hl
            split at hl
            · simp at hl
            · split at hl
              · simp at hl
              · simp only [Bool.false_and, Bool.false_eq_true, if_false, Except.ok.injEq] at hl
                subst hl
                rfl
          · unfold Look.fields
            rw [← hg, hcnt]
            split <;> rfl
        · simp at h
    · split at h
      · rename_i hz
        obtain ⟨e1, e2⟩ := addMany_leaves (w := wayOf i.cls) (by intro a ha; rw [(List.mem_replicate.1 ha).2]; rfl) h
        refine ⟨?_, e2⟩
        rw [e1, hw, hg, hg, List.length_replicate]
        unfold Look.fields
        rw [hz.1]
        rfl
      · split at h
        · rename_i h8
          rw [bitSet_eight] at h8
          exact hone h rfl rfl (fun _ => rfl) (by unfold Look.fields; rw [h8]; simp)
        · rename_i h8
          rw [bitSet_eight] at h8
          obtain ⟨e1, e2⟩ := addMany_leaves (w := wayOf i.cls)
            (by intro a ha; obtain ⟨k, -, rfl⟩ := List.mem_map.1 ha; rfl) h
          refine ⟨?_, e2⟩
          rw [e1, hw, hg, hg, List.length_map, List.length_range]
          unfold Look.fields
          rw [h0', Bool.eq_false_iff.2 h8]
          rfl

theorem leafKeys_other {s : Look} {acc last : List (Cls × Int)} {i : SItem} {xs : List SItem} (hk : i.1.kind ≠ .main) :
    leafKeys s acc last (i :: xs) = leafKeys (s.next i) acc last xs := by
  obtain ⟨c, v⟩ := i
  cases c <;> first | rfl | exact absurd rfl hk

theorem next_main {s : Look} {i : SItem} (hk : i.1.kind = .main) (c : Cls) : (s.next i).g c = s.g c := by
  unfold Look.next
  rw [hk]

theorem run_leaves (reg : Registry) (xs : List Item) : ∀ (st st' : State) (d : Nat) (s : Look) (last : List (Cls × Int)),
    (∀ c, st.num c = s.g c) → st.open' ≤ d → Spec.depth d (xs.map Item.cls) = some 0 →
    (d = 0 → ∀ t, st.root = some t → (pieces 0 t).filterMap leafKey = last) →
    runFrom reg st xs = .ok st' →
    ∀ t, st'.root = some t → (pieces 0 t).filterMap leafKey = leafKeys s st.leaves last (keys xs) := by
  induction xs with
  | nil =>
    intro st st' d s last hg ho hd hr h t ht
    simp only [runFrom, Except.ok.injEq] at h
    subst h
    simp only [List.map_nil, Spec.depth, Option.some.injEq] at hd
    exact hr hd t ht
  | cons i xs ih =>
    intro st st' d s last hg ho hd hr h t ht
    rw [runFrom] at h
    rw [show keys (i :: xs) = i.key :: keys xs from rfl]
    rw [List.map_cons] at hd
    cases hs : step reg st i with
    | error e => rw [hs] at h; simp at h
    | ok st1 =>
      rw [hs] at h
      simp only at h
      have hopen : ∃ d1, Spec.depth d [i.cls] = some d1 ∧ st1.open' ≤ d1 :=
        run_open reg [i] st st1 d ho (by simp [runFrom, hs])
      by_cases hk : i.cls.kind = .main
      · by_cases hc : i.cls = .collection
        · obtain ⟨c, v⟩ := i
          simp only at hc
          subst hc
          simp only [step, Cls.kind, Except.ok.injEq] at hs
          show _ = leafKeys (s.next (.collection, v.toInt)) st.leaves last (keys xs)
          have hl : st1.leaves = st.leaves := by
            subst hs
            simp [State.leaves, State.clear, State.enter, State.expandAll, leavesL, Spec.ownPiecesL]
          rw [← hl]
          refine ih st1 st' (d + 1) _ last ?_ ?_ hd (by simp) h t ht
          · intro c
            rw [next_main rfl, ← hg c]
            subst hs; rfl
          · obtain ⟨d1, e1, e2⟩ := hopen
            simp only [Spec.depth, Option.some.injEq] at e1
            omega
        · by_cases he : i.cls = .endCollection
          · obtain ⟨c, v⟩ := i
            simp only at he
            subst he
            cases d with
            | zero => simp [Spec.depth] at hd
            | succ d =>
              simp only [step, Cls.kind] at hs
              split at hs
              · simp at hs
              · rename_i sc hcl
                simp only [Except.ok.injEq] at hs
                show _ = leafKeys (s.next (.endCollection, v.toInt)) st.leaves st.leaves (keys xs)
                obtain ⟨d1, e1, e2⟩ := hopen
                simp only [Spec.depth, Option.some.injEq] at e1
                have hfacts : st1.leaves = st.leaves ∧ (∀ c, st1.num c = st.num c) ∧
                    (st1.stack = [] → st1.root = some (ended st1.level)) := by
                  unfold State.close at hcl
                  split at hcl
                  · simp at hcl
                  · rename_i sb hsb
                    have hsb' : sb.leaves = st.leaves ∧ ∀ c, sb.num c = st.num c := by
                      split at hsb
                      · simp only [Except.ok.injEq] at hsb
                        subst hsb
                        exact ⟨rfl, fun _ => rfl⟩
                      · refine ⟨(leave_leaves (st := st.expandAll) hsb (.inl rfl)).trans rfl, ?_⟩
                        intro c
                        unfold State.leave at hsb
                        split at hsb
                        · simp at hsb
                        · split at hsb
                          · simp at hsb
                          · split at hsb <;> (simp only [Except.ok.injEq] at hsb; subst hsb; rfl)
                    split at hcl
                    · simp only [Except.ok.injEq] at hcl
                      subst hcl hs
                      exact ⟨hsb'.1, hsb'.2, fun _ => rfl⟩
                    · rename_i hne
                      simp only [Except.ok.injEq] at hcl
                      subst hcl hs
                      refine ⟨hsb'.1, hsb'.2, fun h0 => ?_⟩
                      exact absurd (by rw [show sb.stack = [] from h0]; rfl) hne
                rw [← hfacts.1]
                refine ih st1 st' d _ st1.leaves ?_ (by omega) hd ?_ h t ht
                · intro c
                  rw [next_main rfl, ← hg c]
                  exact hfacts.2.1 c
                · intro h0 t' ht'
                  have hst : st1.stack = [] := by
                    apply List.eq_nil_of_length_eq_zero
                    unfold State.open' at e2
                    omega
                  rw [hfacts.2.2 hst] at ht'
                  simp only [Option.some.injEq] at ht'
                  rw [← ht', ended_leaves]
                  simp [State.leaves, hst]
          · have hdat : i.cls.isData = true := by
              obtain ⟨c, v⟩ := i
              cases c <;> simp [Cls.kind] at hk hc he <;> rfl
            have hd' : ∃ sd, st.expandAll.data reg i = .ok sd ∧ st1 = sd.clear := by
              unfold step at hs
              rw [hk] at hs
              cases hcl : i.cls <;> rw [hcl] at hk hc he hs <;> simp [Cls.kind] at hk hc he <;> simp only at hs
              all_goals
                split at hs
                · simp at hs
                · rename_i s hdat
                  simp only [Except.ok.injEq] at hs
                  exact ⟨s, hdat, hs.symm⟩
            obtain ⟨sd, hsd, rfl⟩ := hd'
            obtain ⟨e1, e2, e3⟩ := data_leaves reg (st := st.expandAll) hdat hg hsd
            have hkey : leafKeys s st.leaves last (i.key :: keys xs) =
                leafKeys (s.next i.key) (st.leaves ++ List.replicate (s.fields i.ival) (i.cls, s.g .reportID)) last (keys xs) := by
              obtain ⟨c, v⟩ := i
              cases c <;> first | rfl | exact absurd rfl hc | exact absurd rfl he | simp [Cls.kind] at hk
            rw [hkey]
            have hl : sd.clear.leaves = st.leaves ++ List.replicate (s.fields i.ival) (i.cls, s.g .reportID) := e1
            rw [← hl]
            rw [depth_cons_other _ _ _ hc he] at hd
            refine ih sd.clear st' d _ last ?_ ?_ hd ?_ h t ht
            · intro c
              rw [next_main hk, ← hg c]
              exact e2 c
            · exact Nat.le_trans (data_open reg st.expandAll sd i hsd) ho
            · intro h0 t' ht'
              exact hr h0 t' (by rw [← ht']; exact e3.symm)
      · rw [leafKeys_other hk]
        have h1 : i.cls ≠ .collection := by intro h; rw [h] at hk; simp [Cls.kind] at hk
        have h2 : i.cls ≠ .endCollection := by intro h; rw [h] at hk; simp [Cls.kind] at hk
        rw [depth_cons_other _ _ _ h1 h2] at hd hopen
        obtain ⟨d1, e1, e2⟩ := hopen
        simp only [Spec.depth, Option.some.injEq] at e1
        have hfacts : st1.leaves = st.leaves ∧ st1.root = st.root ∧ ∀ c, st1.num c = (s.next i.key).g c := by
          obtain ⟨c, v⟩ := i
          unfold step at hs
          cases c <;> simp [Cls.kind] at hk hs <;> subst hs <;> refine ⟨rfl, rfl, fun c' => ?_⟩ <;> first
            | exact hg c'
            | (have := hg c'
               simp only [State.num, Look.next, Item.key, Cls.kind] at this ⊢
               split <;> simp_all [Item.ival])
        rw [← hfacts.1]
        exact ih st1 st' d _ last hfacts.2.2 (by omega) hd (by rw [hfacts.2.1]; exact hr) h t ht

end Extractor
end Hrdc
