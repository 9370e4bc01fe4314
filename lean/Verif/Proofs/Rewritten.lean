import Verif.Spec.Rewritten
import Verif.Proofs.Recompile
import Verif.Proofs.TreeKeys
import Verif.Proofs.Seam
/-!
# The items decompiled trees are compiled to
-/
namespace Hrdc
open Spec Streamer

namespace Extractor

/-! ## Values -/

theorem value_items {id : Int} {v : Value} (h : PieceFits (.leaf id (.value v))) : valKeys v = (fieldsOf id v).items := by
  obtain ⟨hm, -, -, hn, hb, h1, hs⟩ := h
  have hc : constFlag v.flags = false := hb
  unfold valKeys
  rw [if_neg (by simp [hc])]
  cases hus : arrayUsages v.namedArray with
  | nil =>
    obtain ⟨s1, s2, s3, s4⟩ := hs hus
    have hw : wrapped v = false := by simp [wrapped, hus]
    have hi : (fieldsOf id v).inside = none := by simp [fieldsOf, blockOf, hus]
    have hnm : (fieldsOf id v).named = false := by simp [fieldsOf, blockOf, hus]
    have hwu : (fieldsOf id v).what.filterMap Selector.usage = (usageOf v.usage).toList := by
      simp only [fieldsOf, blockOf, hus, if_true]
      split
      · cases usageOf v.usage <;> rfl
      · cases usageOf v.usage <;> rfl
    have hbd : (fieldsOf id v).bounds = [(.physMin, (physOf v).1), (.physMax, (physOf v).2)] := by
      have hat : (fieldsOf id v).attrs = attrsOf v := by simp [fieldsOf, blockOf, hus]
      unfold Fields.bounds physOf
      rw [hnm, hat]
      obtain ⟨a1, e1⟩ := Option.isSome_iff_exists.1 s1
      obtain ⟨a2, e2⟩ := Option.isSome_iff_exists.1 s2
      obtain ⟨a3, e3⟩ := Option.isSome_iff_exists.1 s3
      obtain ⟨a4, e4⟩ := Option.isSome_iff_exists.1 s4
      simp only [attrsOf, e1, e2, e3, e4, hus, Option.getD_some, Option.some.injEq, Bool.false_eq_true, false_or, ne_eq,
        not_true_eq_false]
      split <;> rfl
    unfold Fields.items
    rw [hi, hw]
    simp only [hnm, Bool.false_eq_true, if_false, List.append_nil]
    rw [hbd, Fields.usageItems, hwu]
    congr 1
    unfold fieldKeys Fields.dataItems
    rw [hus, hi]
    simp [fieldsOf, blockOf, hus, attrsOf, markItem, Int.toNat_of_nonneg hn]
  | cons a l =>
    have hne : arrayUsages v.namedArray ≠ [] := by rw [hus]; simp
    obtain ⟨hfl, lo, hlo, hhi⟩ := made_array hm hne
    have hcnt : v.count = 1 := h1 hne
    have hw : wrapped v = (usageOf v.usage).isSome := by simp [wrapped, hus, hc]
    have hnm : (fieldsOf id v).named = true := by simp [fieldsOf, blockOf, hus]
    have hwu : (fieldsOf id v).what.filterMap Selector.usage = arrayUsages v.namedArray := by
      have : ∀ l : List Int, (l.map (fun u => selectorOf v (some u))).filterMap Selector.usage = l := by
        intro l
        induction l with
        | nil => rfl
        | cons x l ih => simp only [List.map_cons, List.filterMap_cons, selectorOf] at ih ⊢; rw [ih]
      simp only [fieldsOf, blockOf, hus, reduceCtorEq, if_false]
      exact this _
    have hat : (fieldsOf id v).attrs = arrayAttrs v (arrayUsages v.namedArray).length := by simp [fieldsOf, blockOf, hus]
    have hbd : (fieldsOf id v).bounds = [(.physMin, 0), (.physMax, 0)] := by
      unfold Fields.bounds
      rw [if_pos (Or.inl hnm)]
    have hph : physOf v = (0, 0) := by
      unfold physOf; rw [if_pos (Or.inl hne)]
    have hin : (fieldsOf id v).inside = usageOf v.usage := by simp [fieldsOf, blockOf, hus]
    have hlg : (arrayAttrs v (arrayUsages v.namedArray).length).logMax = v.logicalMax.getD 0 := by
      simp only [arrayAttrs, attrsOf, hlo, hhi, Option.getD_some]; omega
    have hdata : fieldKeys v = (fieldsOf id v).usageItems ++ (fieldsOf id v).dataItems := by
      unfold fieldKeys Fields.dataItems Fields.usageItems
      rw [hwu, hin, hat, hlg]
      cases hu : usageOf v.usage <;> rw [hu] at hfl <;>
        simp [fieldsOf, blockOf, hus, arrayAttrs, attrsOf, markItem, hcnt, hfl]
    unfold Fields.items
    rw [hin, hw, hph, hdata, hbd]
    cases hu : usageOf v.usage <;> simp [hnm]

/-! ## Leaves -/

theorem leaf_written {id : Int} {l : Leaf} (h0 : PieceFits (.leaf id l)) {c : Count} {C : Offsets}
    (hc : ∀ (w : Way) i, C w.cls i = c w i) {cur : Option Int} {d : Nat} {rest : List Tok} {bs : List Block}
    (hK : ∀ (c : Count) (C : Offsets), (∀ (w : Way) i, C w.cls i = c w i) → treeKeys c id rest = written C (some id) d bs) :
    begins cur id ++ treeKeys c id (.leaf l :: rest) = written C cur d (blockOf (.leaf id l) :: bs) := by
  cases l with
  | align w n => exact h0.elim
  | padding w s =>
    have h0 : 0 ≤ s := h0
    rw [treeKeys, blockOf, written, ← hK _ (C.add w.cls id s.toNat) (count_same (l := .padding w s) hc ?_)]
    · simp only [Streamer.leafKeys, padKeys, padBefore, ownKeys, Leaf.way, padItems, List.append_nil, List.append_assoc]
      rw [Int.toNat_of_nonneg h0]
      rfl
    · simp only [padBefore, ownBits]; omega
  | value v =>
    have hi := value_items h0
    obtain ⟨-, ha, hs, hn, hb, -⟩ := h0
    have hsz := fieldsOf_size id v
    have hgap := gap_eq ha (fieldsOf id v) hsz
    rw [treeKeys, blockOf_value, written]
    have hway : (fieldsOf id v).way = v.way.cls := rfl
    have hid : (fieldsOf id v).id = id := rfl
    have hpad : padBefore (c v.way id) (.value v) = (fieldsOf id v).gap (c v.way id) := by
      rw [hgap]; rfl
    rw [hway, hid, hc, hsz, ← hK _ (C.add v.way.cls id ((fieldsOf id v).gap (c v.way id) + v.size))
      (count_same (l := .value v) hc (by rw [← hpad]; rfl))]
    simp only [Streamer.leafKeys, padKeys, ownKeys, Leaf.way, hpad, hi, padItems, List.append_assoc]

/-! ## Reports -/

/-- Not the end of a report. -/
def noEnd : Tok → Bool
  | .endReport => false
  | .report _ | .enter _ _ | .leave | .leaf _ => true

/-- The tokens but for the ends of reports. -/
def dropEnds (ts : List Tok) : List Tok := ts.filter noEnd

theorem dropEnds_append (a b : List Tok) : dropEnds (a ++ b) = dropEnds a ++ dropEnds b := by simp [dropEnds]

theorem treeKeys_dropEnds (ts : List Tok) : ∀ (c : Count) (last : Int), treeKeys c last ts = treeKeys c last (dropEnds ts) := by
  induction ts with
  | nil => intro c last; rfl
  | cons t ts ih =>
    intro c last
    cases t with
    | endReport => rw [treeKeys, ih]; rfl
    | report i => rw [treeKeys, ih]; rfl
    | enter k u => rw [treeKeys, ih]; rfl
    | leave => rw [treeKeys, ih]; rfl
    | leaf l => rw [treeKeys, ih]; rfl

mutual
/-- The tokens of an element of several reports. -/
def groupT : XNode → List Tok
  | .leaf _ n => tokens n
  | .coll k u ms => .enter k u :: groupL none ms ++ [.leave]
/-- The tokens of elements, with the beginnings of reports; report `cur` has begun. -/
def groupL (cur : Option Int) : List XNode → List Tok
  | [] => []
  | x :: xs =>
    match x.single with
    | some i => (if cur = some i then [] else [.report i]) ++ tokens x.node ++ groupL (some i) xs
    | none => groupT x ++ groupL none xs
end

mutual
theorem insert_toks : ∀ x : XNode, dropEnds (tokens (reportInsert x)) = dropEnds (groupT x)
  | .leaf _ n => by rw [reportInsert, groupT]
  | .coll k u ms => by
    rw [reportInsert, groupT, tokens]
    have h := insertL_toks ms [] none (by intro i hi; simp at hi)
    have : dropEnds (.enter k u :: tokensL (insertL [] none ms) ++ [.leave]) =
        .enter k u :: dropEnds (tokensL (insertL [] none ms)) ++ [.leave] := by simp [dropEnds, noEnd, List.filter_cons]
    rw [this, h]
    simp [dropEnds, noEnd, List.filter_cons, tokensL]
theorem insertL_toks : ∀ (xs : List XNode) (r : List Node) (cur : Option Int),
    (∀ i, cur = some i → ∃ a ms, r = a ++ [.report i ms]) →
    dropEnds (tokensL (insertL r cur xs)) = dropEnds (tokensL r) ++ dropEnds (groupL cur xs)
  | [], r, cur, _ => by simp [insertL, groupL, dropEnds]
  | x :: xs, r, cur, h => by
    rw [insertL, groupL]
    cases hs : x.single with
    | none =>
      simp only
      rw [insertL_toks xs _ none (by intro i hi; simp at hi), tokensL_append, dropEnds_append, dropEnds_append,
        ← insert_toks x, List.append_assoc]
      simp [tokensL]
    | some i =>
      simp only
      by_cases hc : cur = some i
      · rw [if_pos hc, if_pos hc]
        obtain ⟨a, ms, rfl⟩ := h i hc
        have : addToLast x.node (a ++ [.report i ms]) = a ++ [.report i (ms ++ [x.node])] := by
          rw [addToLast_behind _ _ _ (by simp)]; rfl
        rw [this, insertL_toks xs _ cur (by intro j hj; rw [hc] at hj; simp at hj; subst hj; exact ⟨a, _, rfl⟩), hc]
        simp [tokensL_append, tokensL, tokens, dropEnds, noEnd, List.filter_cons]
      · rw [if_neg hc, if_neg hc, insertL_toks xs _ (some i) (by intro j hj; simp at hj; subst hj; exact ⟨r, _, rfl⟩)]
        simp [tokensL_append, tokensL, tokens, dropEnds, noEnd, List.filter_cons]
end

/-! ## Collections -/

theorem reportsIn_append (a b : List Block) : reportsIn (a ++ b) = reportsIn a ++ reportsIn b := by
  induction a with
  | nil => rfl
  | cons x a ih => cases x <;> simp [reportsIn, ih]

/-- Elements of a tree under construction. -/
def listed (xs : List XNode) : List Block := (xpiecesL xs).map blockOf

mutual
theorem until_node : ∀ (x : XNode), x.WF → ∀ (d : Nat) (rest : List Block),
    untilLeave d (x.pieces.map blockOf ++ rest) = x.pieces.map blockOf ++ untilLeave d rest ∧
      reportsIn (x.pieces.map blockOf) = x.ids
  | .leaf id n, h, d, rest => by
    rcases h with ⟨v, rfl⟩ | ⟨w, m, rfl⟩
    · cases d <;> exact ⟨rfl, rfl⟩
    · cases d <;> exact ⟨rfl, rfl⟩
  | .coll k u ms, h, d, rest => by
    have h1 := until_list ms h (d + 1) (.leave :: rest)
    simp only [XNode.pieces, List.cons_append, List.map_cons, List.map_append, List.map_nil, List.append_assoc, blockOf,
      untilLeave, XNode.ids, reportsIn, reportsIn_append, List.append_nil, List.nil_append]
    exact ⟨by rw [show (xpiecesL ms).map blockOf = listed ms from rfl, h1.1, untilLeave], h1.2⟩
theorem until_list : ∀ (xs : List XNode), WFL xs → ∀ (d : Nat) (rest : List Block),
    untilLeave d (listed xs ++ rest) = listed xs ++ untilLeave d rest ∧ reportsIn (listed xs) = idsL xs
  | [], _, d, rest => by simp [listed, xpiecesL, idsL, reportsIn]
  | x :: xs, h, d, rest => by
    have h1 := fun rest => until_node x h.1 d rest
    have h2 := until_list xs h.2 d rest
    have e : listed (x :: xs) = x.pieces.map blockOf ++ listed xs := by simp [listed, xpiecesL]
    rw [e, List.append_assoc, (h1 _).1, h2.1, List.append_assoc, reportsIn_append, (h1 rest).2, h2.2, idsL]
    exact ⟨rfl, rfl⟩
end

theorem only_single {k : PyVal} {u : Option PyVal} {ms : List XNode} (h : WFL ms) (rest : List Block) :
    onlyReport (untilLeave 0 (listed ms ++ .leave :: rest)) = (XNode.coll k u ms).single := by
  rw [(until_list ms h 0 _).1, untilLeave, List.append_nil, onlyReport, (until_list ms h 0 []).2, XNode.single, XNode.ids]
  cases idsL ms <;> rfl

/-! ## Trees -/

mutual
/-- Elements in a report, in a collection that is all in it. -/
theorem inside_written : ∀ (x : XNode), x.WF → (∀ p ∈ x.pieces, PieceFits p) → ∀ (i : Int), (∀ j ∈ x.ids, j = i) →
    ∀ (d : Nat) (c : Count) (C : Offsets), (∀ (w : Way) i, C w.cls i = c w i) → ∀ (rest : List Tok) (bs : List Block),
    (∀ (c : Count) (C : Offsets), (∀ (w : Way) i, C w.cls i = c w i) → treeKeys c i rest = written C (some i) (d + 1) bs) →
    treeKeys c i (tokens x.node ++ rest) = written C (some i) (d + 1) (x.pieces.map blockOf ++ bs)
  | .leaf id n, h, hp, i, hi, d, c, C, hc, rest, bs, hK => by
    have hid : id = i := hi id (by simp [XNode.ids])
    subst hid
    rcases h with ⟨v, rfl⟩ | ⟨w, m, rfl⟩
    · have := leaf_written (cur := some id) (hp (.leaf id (.value v)) (by simp [XNode.pieces, pieces])) hc hK
      simpa [begins, tokens, XNode.node, XNode.pieces, pieces] using this
    · have := leaf_written (cur := some id) (hp (.leaf id (.padding w m)) (by simp [XNode.pieces, pieces])) hc hK
      simpa [begins, tokens, XNode.node, XNode.pieces, pieces] using this
  | .coll k u ms, h, hp, i, hi, d, c, C, hc, rest, bs, hK => by
    have hk : 0 ≤ k.toInt := hp (.enter k u) (by simp [XNode.pieces])
    have := insideL_written ms h (fun p hp' => hp p (by simp [XNode.pieces, hp'])) i (by simpa [XNode.ids] using hi) (d + 1) c C hc
      (.leave :: rest) (.leave :: bs) (by intro c C hc; rw [treeKeys, written, hK c C hc])
    simp only [XNode.node, tokens, XNode.pieces, List.cons_append, List.append_assoc, List.nil_append, List.map_cons,
      List.map_append, List.map_nil, blockOf, treeKeys, written, this, wrap_id hk]
theorem insideL_written : ∀ (xs : List XNode), WFL xs → (∀ p ∈ xpiecesL xs, PieceFits p) → ∀ (i : Int), (∀ j ∈ idsL xs, j = i) →
    ∀ (d : Nat) (c : Count) (C : Offsets), (∀ (w : Way) i, C w.cls i = c w i) → ∀ (rest : List Tok) (bs : List Block),
    (∀ (c : Count) (C : Offsets), (∀ (w : Way) i, C w.cls i = c w i) → treeKeys c i rest = written C (some i) (d + 1) bs) →
    treeKeys c i (tokensL (nodeL xs) ++ rest) = written C (some i) (d + 1) ((xpiecesL xs).map blockOf ++ bs)
  | [], _, _, i, _, d, c, C, hc, rest, bs, hK => by simpa [nodeL, tokensL, xpiecesL] using hK c C hc
  | x :: xs, h, hp, i, hi, d, c, C, hc, rest, bs, hK => by
    rw [nodeL, tokensL, xpiecesL, List.map_append, List.append_assoc, List.append_assoc]
    exact inside_written x h.1 (fun p hp' => hp p (by simp [xpiecesL, hp'])) i (fun j hj => hi j (by simp [idsL, hj])) d c C hc _ _
      (fun c C hc => insideL_written xs h.2 (fun p hp' => hp p (by simp [xpiecesL, hp'])) i
        (fun j hj => hi j (by simp [idsL, hj])) d c C hc rest bs hK)
end

mutual
/-- A collection of several reports. -/
theorem apart_written : ∀ (x : XNode), x.WF → x.single = none → (∀ p ∈ x.pieces, PieceFits p) →
    ∀ (c : Count) (C : Offsets), (∀ (w : Way) i, C w.cls i = c w i) → ∀ (last : Int) (cur : Option Int)
    (rest : List Tok) (bs : List Block), (∀ (c : Count) (C : Offsets) (last : Int), (∀ (w : Way) i, C w.cls i = c w i) →
      treeKeys c last rest = written C none 0 bs) →
    treeKeys c last (groupT x ++ rest) = written C cur 0 (x.pieces.map blockOf ++ bs)
  | .leaf id n, _, hs, _, _, _, _, _, _, _, _, _ => by simp [XNode.single, XNode.ids] at hs
  | .coll k u ms, h, hs, hp, c, C, hc, last, cur, rest, bs, hK => by
    have hk : 0 ≤ k.toInt := hp (.enter k u) (by simp [XNode.pieces])
    have := groups_written ms h (fun p hp' => hp p (by simp [XNode.pieces, hp'])) c C hc last none (by intro i hi; simp at hi)
      (.leave :: rest) (.leave :: bs) (by intro c C last cur hc; rw [treeKeys, written]; rw [hK c C last hc])
    have ho := only_single (k := k) (u := u) h bs
    rw [hs] at ho
    simp only [listed] at ho
    simp only [groupT, XNode.pieces, List.cons_append, List.append_assoc, List.nil_append, List.map_cons,
      List.map_append, List.map_nil, blockOf, treeKeys, written, this, wrap_id hk, ho]
/-- Elements outside of reports. -/
theorem groups_written : ∀ (xs : List XNode), WFL xs → (∀ p ∈ xpiecesL xs, PieceFits p) →
    ∀ (c : Count) (C : Offsets), (∀ (w : Way) i, C w.cls i = c w i) → ∀ (last : Int) (cur : Option Int),
    (∀ i, cur = some i → last = i) → ∀ (rest : List Tok) (bs : List Block),
    (∀ (c : Count) (C : Offsets) (last : Int) (cur : Option Int), (∀ (w : Way) i, C w.cls i = c w i) →
      treeKeys c last rest = written C cur 0 bs) →
    treeKeys c last (groupL cur xs ++ rest) = written C cur 0 ((xpiecesL xs).map blockOf ++ bs)
  | [], _, _, c, C, hc, last, cur, _, rest, bs, hK => by simpa [groupL, xpiecesL] using hK c C last cur hc
  | x :: xs, h, hp, c, C, hc, last, cur, hl, rest, bs, hK => by
    have hp1 : ∀ p ∈ x.pieces, PieceFits p := fun p hp' => hp p (by simp [xpiecesL, hp'])
    have hp2 : ∀ p ∈ xpiecesL xs, PieceFits p := fun p hp' => hp p (by simp [xpiecesL, hp'])
    rw [groupL, xpiecesL, List.map_append, List.append_assoc]
    cases hs : x.single with
    | none =>
      simp only
      rw [List.append_assoc]
      exact apart_written x h.1 hs hp1 c C hc last cur _ _
        (fun c C last hc => groups_written xs h.2 hp2 c C hc last none (by intro i hi; simp at hi) rest bs hK)
    | some i =>
      simp only
      have hb : ∀ ts, treeKeys c last ((if cur = some i then [] else [Tok.report i]) ++ ts) = begins cur i ++ treeKeys c i ts := by
        intro ts
        unfold begins
        by_cases hcu : cur = some i
        · rw [if_pos hcu, if_pos (Or.inl hcu), hl i hcu]; rfl
        · rw [if_neg hcu]
          by_cases h0 : i = 0
          · rw [if_pos (Or.inr h0)]; simp [treeKeys, h0]
          · rw [if_neg (by simp [hcu, h0])]; simp [treeKeys, h0]
      rw [List.append_assoc, List.append_assoc, hb]
      have hrest : ∀ (c : Count) (C : Offsets), (∀ (w : Way) i, C w.cls i = c w i) →
          treeKeys c i (groupL (some i) xs ++ rest) = written C (some i) 0 ((xpiecesL xs).map blockOf ++ bs) :=
        fun c C hc => groups_written xs h.2 hp2 c C hc i (some i) (by intro j hj; simpa using hj) rest bs hK
      cases x with
      | leaf id n =>
        have hid : id = i := single_ids hs id (by simp [XNode.ids])
        subst hid
        rcases h.1 with ⟨v, rfl⟩ | ⟨w, m, rfl⟩
        · have := leaf_written (cur := cur) (hp1 (.leaf id (.value v)) (by simp [XNode.pieces, pieces])) hc hrest
          simpa [tokens, XNode.node, XNode.pieces, pieces] using this
        · have := leaf_written (cur := cur) (hp1 (.leaf id (.padding w m)) (by simp [XNode.pieces, pieces])) hc hrest
          simpa [tokens, XNode.node, XNode.pieces, pieces] using this
      | coll k u ms =>
        have hk : 0 ≤ k.toInt := hp1 (.enter k u) (by simp [XNode.pieces])
        have := insideL_written ms h.1 (fun p hp' => hp1 p (by simp [XNode.pieces, hp'])) i (by simpa [XNode.ids] using single_ids hs)
          0 c C hc (.leave :: (groupL (some i) xs ++ rest)) (.leave :: ((xpiecesL xs).map blockOf ++ bs))
          (by intro c C hc; rw [treeKeys, written]; rw [hrest c C hc])
        have ho := only_single (k := k) (u := u) h.1 ((xpiecesL xs).map blockOf ++ bs)
        rw [hs] at ho
        simp only [listed] at ho
        simp only [XNode.node, tokens, XNode.pieces, List.cons_append, List.append_assoc, List.nil_append, List.map_cons,
          List.map_append, List.map_nil, blockOf, treeKeys, written, this, wrap_id hk, ho]
end

/-- The items a decompiled tree is compiled to. -/
theorem ended_written {l : Level} (h : WFL l.members) (hp : ∀ p ∈ pieces 0 (ended l), PieceFits p) :
    treeKeys (fun _ _ => 0) 0 (tokens (ended l)) = written (fun _ _ => 0) none 0 ((pieces 0 (ended l)).map blockOf) := by
  rw [ended_pieces] at hp ⊢
  rw [treeKeys_dropEnds, ended, tokens, insertL_toks _ _ _ (by intro i hi; simp at hi)]
  rw [show dropEnds (tokensL []) = [] from rfl, List.nil_append, ← treeKeys_dropEnds]
  have := groups_written l.members h hp (fun _ _ => 0) (fun _ _ => 0) (fun _ _ => rfl) 0 none (by intro i hi; simp at hi) [] []
    (by intros; rfl)
  simpa using this

/-- What the decompiler makes of a stream, and the items this is compiled to. -/
theorem extract_written {reg : Registry} (xs : List Item) (hm : ∀ i ∈ xs, i.Made) (hu : KindsOf reg xs) :
    match blocks (arrayUsage reg) (keys xs) with
    | .error e => extract reg xs = .error e.raised
    | .ok bs => ∃ t, extract reg xs = .ok t ∧ treeMeaning t = laid (fun _ _ => 0) bs ∧
        legal 0 (tokens t) = bs.all Block.compiles ∧
        ∀ reg' items, compile reg' t = .ok items → keys items = written (fun _ _ => 0) none 0 bs := by
  have h := extract_blocks xs hm hu
  have h' := extract_recompiled xs hm hu
  cases hb : blocks (arrayUsage reg) (keys xs) with
  | error e => rw [hb] at h; exact h
  | ok bs =>
    rw [hb] at h h'
    obtain ⟨t, h1, h2, h3⟩ := h
    obtain ⟨t', h4, -, h5, h6, -⟩ := h'
    rw [h1] at h4
    simp only [Except.ok.injEq] at h4
    subst h4
    refine ⟨t, h1, h5, h6, ?_⟩
    intro reg' items hc
    obtain ⟨l, hw, rfl⟩ := extract_ended h1
    rw [compile_keys hc, ← h2]
    exact ended_written hw h3

end Extractor
end Hrdc
