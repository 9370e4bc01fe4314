import Verif.Proofs.Rebuild
import Verif.Proofs.Legal2
import Verif.Proofs.Exact
import Verif.Props.Compile2
/-!
# Compiling decompiled trees
-/
namespace Hrdc
open Spec Streamer

namespace Extractor

/-! ## Layout -/

theorem gap_eq {v : Value} (h : v.alignment = min 8 v.size) (f : Fields) (hf : f.attrs.size = v.size) (c : Int) :
    f.gap c = if v.alignment > 1 then (-c) % v.alignment else 0 := by
  unfold Fields.gap
  rw [hf, h]
  by_cases h1 : 1 < v.size
  · rw [if_pos h1, if_pos (by omega)]
  · rw [if_neg h1, if_neg (by omega)]

theorem gap_nonneg {v : Value} (h : v.alignment = min 8 v.size) (f : Fields) (hf : f.attrs.size = v.size) (c : Int) :
    0 ≤ f.gap c := by
  rw [gap_eq h f hf]
  split
  · exact Int.emod_nonneg _ (by omega)
  · omega

/-- The fields of a value. -/
def fieldsOf (id : Int) (v : Value) : Fields :=
  match blockOf (.leaf id (.value v)) with
  | .value f => f
  | _ => { way := .input, id := 0, flags := 0, attrs := attrsOf v, what := [] }

theorem blockOf_value (id : Int) (v : Value) : blockOf (.leaf id (.value v)) = .value (fieldsOf id v) := rfl

theorem fieldsOf_size (id : Int) (v : Value) : (fieldsOf id v).attrs.size = v.size := by
  simp only [fieldsOf, blockOf]
  split <;> rfl

theorem add_same {off : Layout} {c : Offsets} {id : Int} {l : Leaf} {n : Int} (hc : ∀ (w : Way) i, c w.cls i = off w i)
    (hn : ((room (off l.way id) l).1 : Int) + (room (off l.way id) l).2 = n) :
    ∀ (w : Way) i, (c.add l.way.cls id n) w.cls i = (off.add id l) w i := by
  intro w i
  simp only [Offsets.add, Layout.add]
  by_cases hw : w = l.way ∧ i = id
  · obtain ⟨rfl, rfl⟩ := hw
    rw [if_pos ⟨rfl, rfl⟩, if_pos ⟨rfl, rfl⟩, hc]
    omega
  · rw [if_neg (show ¬ (w.cls = l.way.cls ∧ i = id) from fun ⟨x, y⟩ => hw ⟨way_cls_inj x, y⟩), if_neg hw, hc]

theorem place_laid (ps : List Piece) (off : Layout) (c : Offsets) (hc : ∀ (w : Way) i, c w.cls i = off w i)
    (hp : ∀ p ∈ ps, PieceFits p) : place off ps = laid c (ps.map blockOf) := by
  induction ps generalizing off c with
  | nil => rfl
  | cons p ps ih =>
    have hp' : ∀ q ∈ ps, PieceFits q := fun q hq => hp q (by simp [hq])
    have h0 := hp p (by simp)
    cases p with
    | enter k u => rw [place, List.map_cons, blockOf, laid, ih off c hc hp']
    | leave => rw [place, List.map_cons, blockOf, laid, ih off c hc hp']
    | leaf id l =>
      cases l with
      | align w n => exact h0.elim
      | padding w s =>
        have h0 : 0 ≤ s := h0
        rw [place, List.map_cons, blockOf, laid, ih _ (c.add w.cls id s.toNat) (add_same (l := .padding w s) hc ?_) hp']
        · simp [leafEvents_eq, room, Leaf.way]
        · simp [room]
      | value v =>
        have h0' := h0
        obtain ⟨-, ha, hs, hn, hb, -⟩ := h0'
        have hsz := fieldsOf_size id v
        have hgap := gap_eq ha (fieldsOf id v) hsz
        have hg0 := gap_nonneg ha (fieldsOf id v) hsz
        have hmiss : (missing v.alignment (off v.way id) : Int) = (fieldsOf id v).gap (off v.way id) := by
          have := hg0 (off v.way id)
          rw [hgap] at this ⊢
          unfold missing
          split <;> rename_i hh
          · rw [if_pos hh] at this
            omega
          · rfl
        rw [place, List.map_cons, blockOf_value, laid]
        have hway : (fieldsOf id v).way = v.way.cls := rfl
        have hid : (fieldsOf id v).id = id := rfl
        have hcnt : (fieldsOf id v).count = v.count.toNat := rfl
        rw [hway, hid, hc, hcnt, hsz, ih _ (c.add v.way.cls id ((fieldsOf id v).gap (off v.way id) + v.size * (v.count.toNat : Int)))
          (add_same (l := .value v) hc ?_) hp']
        · have he : valueEvents id v = (fieldsOf id v).events := by
            have := block_events h0
            simpa [bare, bareLeaf_value, blockOf_value, Block.events] using this
          simp only [leafEvents_eq, room, Leaf.way]
          rw [← hmiss, ← he]
          simp
        · simp only [room, Leaf.way, hmiss]
          rw [Int.natCast_mul, Int.toNat_of_nonneg hs]

/-! ## Compiled values -/

theorem pick_option (o : Option Int) (k : Nat) : pick o.toList k = o := by
  cases o <;> cases k <;> simp [pick]

theorem exact_compiled {id nz : Int} {v : Value} (h : PieceFits (.leaf id (.value v))) :
    exactEvents nz v = (fieldsOf id v).compiled nz := by
  obtain ⟨hm, -, -, -, hb, h1, -⟩ := h
  have hc : constFlag v.flags = false := hb
  unfold exactEvents
  rw [if_neg (by simp [hc])]
  cases hus : arrayUsages v.namedArray with
  | nil =>
    rw [if_pos rfl]
    have hi : (fieldsOf id v).inside = none := by simp [fieldsOf, blockOf, hus]
    have hat : exactAttrs v = attrsOf v := by
      unfold exactAttrs
      split
      · rename_i hh
        rcases hh with hh | hh | hh
        · exact absurd hus hh
        · simp [attrsOf, hh.1, hh.2]
        · obtain ⟨named, hn, -, f⟩ := hm.facts
          have ht := NamedArray.truth_eq hn
          rw [hus] at ht
          rcases f (by simpa using ht) with f | f
          · simp [attrsOf, f.1, f.2]
          · exact absurd hh f
      · rfl
    unfold Fields.compiled exactFields
    rw [hi]
    simp only [Fields.events, hi, within]
    have hfu : fieldUsages v = (usageOf v.usage).toList := by simp [fieldUsages, hus]
    simp only [hfu, pick_option, hat, List.map_const', List.length_range]
    simp [fieldsOf, blockOf, hus]
  | cons a l =>
    have hne : arrayUsages v.namedArray ≠ [] := by rw [hus]; simp
    rw [if_neg (by simp)]
    obtain ⟨hfl, lo, hlo, hhi⟩ := made_array hm hne
    have hat : exactAttrs v = arrayAttrs v (arrayUsages v.namedArray).length := by
      unfold exactAttrs
      rw [if_pos (Or.inl hne)]
      simp only [arrayAttrs, attrsOf, hlo, hhi, Option.getD_some]
      congr 1 <;> omega
    have hcnt : v.count = 1 := h1 hne
    have hfu : fieldUsages v = arrayUsages v.namedArray := by simp [fieldUsages, hus]
    unfold exactFields Fields.compiled
    rw [hfu, hat, hcnt]
    cases hu : usageOf v.usage with
    | none =>
      have hi : (fieldsOf id v).inside = none := by simp [fieldsOf, blockOf, hus, hu]
      rw [hu] at hfl
      simp only [hi, Fields.events, within, hfl]
      simp [fieldsOf, blockOf, hus, hcnt, bitSet]
    | some x =>
      have hi : (fieldsOf id v).inside = some x := by simp [fieldsOf, blockOf, hus, hu]
      rw [hu] at hfl
      simp only [hi, Fields.events, within, hfl]
      simp [fieldsOf, blockOf, hus, hcnt, bitSet, pick]

/-! ## Compiled trees -/

/-- The report other than 0 in force. -/
def inForce (nz id : Int) : Int := if id = 0 then nz else id

/-- What pieces compile to, each in its own report; `K` is what follows. -/
def exactP (K : Count → Int → List Event) (c : Count) (nz : Int) : List Piece → List Event
  | [] => K c nz
  | .enter k u :: r => .enter (wrapKind k).toInt ⟨u.map PyVal.toInt, 0, 0⟩ :: exactP K c nz r
  | .leave :: r => .leave :: exactP K c nz r
  | .leaf id l :: r => exactLeaf (inForce nz id) (c l.way id) l ++ exactP K (c.add id l) (inForce nz id) r

theorem exactP_append (K : Count → Int → List Event) (a b : List Piece) : ∀ (c : Count) (nz : Int),
    exactP K c nz (a ++ b) = exactP (fun c nz => exactP K c nz b) c nz a := by
  induction a with
  | nil => intro c nz; rfl
  | cons p a ih =>
    intro c nz
    cases p <;> simp [exactP, ih]

theorem inForce_twice (nz id : Int) : inForce (inForce nz id) id = inForce nz id := by
  unfold inForce; split <;> rfl

mutual
theorem flat_exact : ∀ (n : Node), (∀ i, Tok.report i ∉ tokens n) → ∀ (i nz : Int), inForce nz i = nz →
    ∀ (K : Count → Int → List Event) (rest : List Tok), (∀ c, exact c i nz rest = K c nz) → ∀ c,
    exact c i nz (tokens n ++ rest) = exactP K c nz (pieces i n)
  | .value v, _, i, nz, hi, K, rest, hK, c => by simp [tokens, pieces, exact, exactP, hi, hK]
  | .align w b, _, i, nz, hi, K, rest, hK, c => by simp [tokens, pieces, exact, exactP, hi, hK]
  | .padding w s, _, i, nz, hi, K, rest, hK, c => by simp [tokens, pieces, exact, exactP, hi, hK]
  | .report j ms, h, _, _, _, _, _, _, _ => absurd (by simp [tokens]) (h j)
  | .top ms, h, i, nz, hi, K, rest, hK, c => by
    rw [tokens, pieces]
    exact flat_exactL ms (by simpa [tokens] using h) i nz hi K rest hK c
  | .coll k u ms, h, i, nz, hi, K, rest, hK, c => by
    simp only [tokens, pieces, List.cons_append, List.append_assoc, List.nil_append, exact, exactP, exactP_append]
    rw [flat_exactL ms (by intro i hi; exact h i (by simp [tokens, hi])) i nz hi _ (.leave :: rest)]
    intro c
    simp [exact, hK]
theorem flat_exactL : ∀ (ns : List Node), (∀ i, Tok.report i ∉ tokensL ns) → ∀ (i nz : Int), inForce nz i = nz →
    ∀ (K : Count → Int → List Event) (rest : List Tok), (∀ c, exact c i nz rest = K c nz) → ∀ c,
    exact c i nz (tokensL ns ++ rest) = exactP K c nz (piecesL i ns)
  | [], _, i, nz, hi, K, rest, hK, c => by simp [tokensL, piecesL, exactP, hK]
  | n :: ns, h, i, nz, hi, K, rest, hK, c => by
    rw [tokensL, piecesL, List.append_assoc, exactP_append]
    exact flat_exact n (fun i hi => h i (by simp [tokensL, hi])) i nz hi _ _
      (fun c => flat_exactL ns (fun i hi => h i (by simp [tokensL, hi])) i nz hi K rest hK c) c
end

/-- Leaves outside of reports are in report `i`. -/
theorem flat_start (K : Count → Int → List Event) (i : Int) (ps : List Piece) (hp : ∀ j l, Piece.leaf j l ∈ ps → j = i)
    (hl : ∃ j l, Piece.leaf j l ∈ ps) : ∀ (c : Count) (nz : Int), exactP K c (inForce nz i) ps = exactP K c nz ps := by
  induction ps with
  | nil => obtain ⟨j, l, h⟩ := hl; simp at h
  | cons p ps ih =>
    intro c nz
    cases p with
    | leaf j l =>
      have : j = i := hp j l (by simp)
      subst this
      simp [exactP, inForce_twice]
    | enter k u =>
      obtain ⟨j, l, h⟩ := hl
      simp only [exactP]
      rw [ih (fun j l h => hp j l (by simp [h])) ⟨j, l, by simpa using h⟩]
    | leave =>
      obtain ⟨j, l, h⟩ := hl
      simp only [exactP]
      rw [ih (fun j l h => hp j l (by simp [h])) ⟨j, l, by simpa using h⟩]

mutual
theorem flat_ids : ∀ (n : Node), (∀ i, Tok.report i ∉ tokens n) → ∀ (i j : Int) (l : Leaf), Piece.leaf j l ∈ pieces i n → j = i
  | .value v, _, i, j, l, h => by simp [pieces] at h; exact h.1
  | .align w b, _, i, j, l, h => by simp [pieces] at h; exact h.1
  | .padding w s, _, i, j, l, h => by simp [pieces] at h; exact h.1
  | .report k ms, h, _, _, _, _ => absurd (by simp [tokens]) (h k)
  | .top ms, h, i, j, l, hj => flat_idsL ms (by simpa [tokens] using h) i j l (by simpa [pieces] using hj)
  | .coll k u ms, h, i, j, l, hj =>
    flat_idsL ms (by intro i hi; exact h i (by simp [tokens, hi])) i j l (by simpa [pieces] using hj)
theorem flat_idsL : ∀ (ns : List Node), (∀ i, Tok.report i ∉ tokensL ns) → ∀ (i j : Int) (l : Leaf),
    Piece.leaf j l ∈ piecesL i ns → j = i
  | [], _, i, j, l, h => by simp [piecesL] at h
  | n :: ns, h, i, j, l, hj => by
    rw [piecesL] at hj
    rcases List.mem_append.1 hj with hj | hj
    · exact flat_ids n (fun i hi => h i (by simp [tokensL, hi])) i j l hj
    · exact flat_idsL ns (fun i hi => h i (by simp [tokensL, hi])) i j l hj
end

mutual
theorem leaf_piece : ∀ (n : Node) (i : Int) (l : Leaf), Tok.leaf l ∈ tokens n → ∃ j, Piece.leaf j l ∈ pieces i n
  | .value v, i, l, h => by simp [tokens] at h; exact ⟨i, by simp [pieces, h]⟩
  | .align w b, i, l, h => by simp [tokens] at h; exact ⟨i, by simp [pieces, h]⟩
  | .padding w s, i, l, h => by simp [tokens] at h; exact ⟨i, by simp [pieces, h]⟩
  | .report k ms, i, l, h => by
    obtain ⟨j, hj⟩ := leaf_pieceL ms k l (by simpa [tokens] using h)
    exact ⟨j, by simpa [pieces] using hj⟩
  | .top ms, i, l, h => by
    obtain ⟨j, hj⟩ := leaf_pieceL ms i l (by simpa [tokens] using h)
    exact ⟨j, by simpa [pieces] using hj⟩
  | .coll k u ms, i, l, h => by
    obtain ⟨j, hj⟩ := leaf_pieceL ms i l (by simpa [tokens] using h)
    exact ⟨j, by simp [pieces, hj]⟩
theorem leaf_pieceL : ∀ (ns : List Node) (i : Int) (l : Leaf), Tok.leaf l ∈ tokensL ns → ∃ j, Piece.leaf j l ∈ piecesL i ns
  | [], i, l, h => by simp [tokensL] at h
  | n :: ns, i, l, h => by
    rw [tokensL] at h
    rcases List.mem_append.1 h with h | h
    · obtain ⟨j, hj⟩ := leaf_piece n i l h
      exact ⟨j, by simp [piecesL, hj]⟩
    · obtain ⟨j, hj⟩ := leaf_pieceL ns i l h
      exact ⟨j, by simp [piecesL, hj]⟩
end

mutual
theorem grouped_exact : ∀ (n : Node), Grouped n → ∀ (j : Int) (K : Count → Int → List Event) (rest : List Tok),
    (∀ c last nz, exact c last nz rest = K c nz) → ∀ c last nz,
    exact c last nz (tokens n ++ rest) = exactP K c nz (pieces j n)
  | .value v, h, _, _, _, _, _, _, _ => h.elim
  | .align w b, h, _, _, _, _, _, _, _ => h.elim
  | .padding w s, h, _, _, _, _, _, _, _ => h.elim
  | .report i ms, h, j, K, rest, hK, c, last, nz => by
    obtain ⟨⟨l, hl⟩, hr⟩ := h
    rw [tokens, pieces, List.cons_append, List.cons_append, exact, List.append_assoc]
    have := flat_exactL ms hr i (inForce nz i) (inForce_twice nz i) K ([.endReport] ++ rest)
      (fun c => by simp [exact, hK]) c
    rw [show (if i = 0 then nz else i) = inForce nz i from rfl, this]
    obtain ⟨k, hk⟩ := leaf_pieceL ms i l hl
    exact flat_start K i _ (flat_idsL ms hr i) ⟨k, l, hk⟩ c nz
  | .top ms, h, j, K, rest, hK, c, last, nz => by
    rw [tokens, pieces]
    exact grouped_exactL ms h j K rest hK c last nz
  | .coll k u ms, h, j, K, rest, hK, c, last, nz => by
    simp only [tokens, pieces, List.cons_append, List.append_assoc, List.nil_append, exact, exactP, exactP_append]
    rw [grouped_exactL ms h j _ (.leave :: rest)]
    intro c last nz
    simp [exact, hK]
theorem grouped_exactL : ∀ (ns : List Node), GroupedL ns → ∀ (j : Int) (K : Count → Int → List Event) (rest : List Tok),
    (∀ c last nz, exact c last nz rest = K c nz) → ∀ c last nz,
    exact c last nz (tokensL ns ++ rest) = exactP K c nz (piecesL j ns)
  | [], _, j, K, rest, hK, c, last, nz => by simp [tokensL, piecesL, exactP, hK]
  | n :: ns, h, j, K, rest, hK, c, last, nz => by
    rw [tokensL, piecesL, List.append_assoc, exactP_append]
    exact grouped_exact n h.1 j _ _ (fun c last nz => grouped_exactL ns h.2 j K rest hK c last nz) c last nz
end

theorem wrap_id {k : PyVal} (h : 0 ≤ k.toInt) : (wrapKind k).toInt = k.toInt := by
  cases k with
  | int i =>
    have h : 0 ≤ i := h
    simp only [wrapKind]
    rw [if_neg (by omega)]
  | named => rfl
  | usage => rfl

theorem count_same {c : Count} {d : Offsets} {id : Int} {l : Leaf} {n : Int} (hc : ∀ (w : Way) i, d w.cls i = c w i)
    (hn : padBefore (c l.way id) l + ownBits l = n) :
    ∀ (w : Way) i, (d.add l.way.cls id n) w.cls i = (c.add id l) w i := by
  intro w i
  simp only [Offsets.add, Count.add]
  by_cases hw : w = l.way ∧ i = id
  · obtain ⟨rfl, rfl⟩ := hw
    rw [if_pos ⟨rfl, rfl⟩, if_pos ⟨rfl, rfl⟩, hc]
    omega
  · rw [if_neg (show ¬ (w.cls = l.way.cls ∧ i = id) from fun ⟨x, y⟩ => hw ⟨way_cls_inj x, y⟩), if_neg hw, hc]

theorem exactP_recompiled (ps : List Piece) (hp : ∀ p ∈ ps, PieceFits p) : ∀ (c : Count) (d : Offsets) (nz : Int),
    (∀ (w : Way) i, d w.cls i = c w i) → exactP (fun _ _ => []) c nz ps = recompiled d nz (ps.map blockOf) := by
  induction ps with
  | nil => intro c d nz _; rfl
  | cons p ps ih =>
    intro c d nz hc
    have ih := ih (fun q hq => hp q (by simp [hq]))
    have h0 := hp p (by simp)
    cases p with
    | enter k u => rw [exactP, List.map_cons, blockOf, recompiled, ih c d nz hc, wrap_id h0]
    | leave => rw [exactP, List.map_cons, blockOf, recompiled, ih c d nz hc]
    | leaf id l =>
      cases l with
      | align w n => exact h0.elim
      | padding w s =>
        have h0 : 0 ≤ s := h0
        rw [exactP, List.map_cons, blockOf, recompiled, ih _ (d.add w.cls id s.toNat) _ (count_same (l := .padding w s) hc ?_)]
        · simp [exactLeaf, padBefore, ownEvents, Leaf.way, inForce]
        · simp only [padBefore, ownBits]; omega
      | value v =>
        have he := fun nz => exact_compiled (nz := nz) h0
        obtain ⟨-, ha, hs, hn, hb, -⟩ := h0
        have hsz := fieldsOf_size id v
        have hgap := gap_eq ha (fieldsOf id v) hsz
        rw [exactP, List.map_cons, blockOf_value, recompiled]
        have hway : (fieldsOf id v).way = v.way.cls := rfl
        have hid : (fieldsOf id v).id = id := rfl
        have hpad : padBefore (c v.way id) (.value v) = (fieldsOf id v).gap (c v.way id) := by
          rw [hgap]; rfl
        rw [hway, hid, hc, hsz, ih _ (d.add v.way.cls id ((fieldsOf id v).gap (c v.way id) + v.size)) _
          (count_same (l := .value v) hc (by rw [← hpad]; rfl))]
        simp only [exactLeaf, ownEvents, Leaf.way, hpad, he]
        rfl

/-! ## Compilable trees -/

mutual
theorem flat_legal {M : Int} : ∀ (n : Node), (∀ i, Tok.report i ∉ tokens n) → (∀ t ∈ tokens n, TokUnder M t) → ∀ (i : Int) (rest : List Tok),
    legal i (tokens n ++ rest) = (((pieces i n).map blockOf).all Block.compiles && legal i rest)
  | .value v, _, ht, i, rest => by
    have : valueLegal v = true := ht (.leaf (.value v)) (by simp [tokens])
    simp [tokens, pieces, legal, blockOf, Block.compiles, this]
  | .align w b, _, ht, i, rest => (ht (.leaf (.align w b)) (by simp [tokens])).elim
  | .padding w s, _, ht, i, rest => by
    have h0 : 0 ≤ s := ht (.leaf (.padding w s)) (by simp [tokens])
    simp only [tokens, pieces, legal, blockOf, Block.compiles, List.singleton_append, List.map_cons, List.map_nil, List.all_cons,
      List.all_nil, Bool.and_true]
    congr 1
    by_cases h1 : s = 0
    · simp [h1]
    · have h2 : 0 < s := by omega
      have h3 : ¬ s ≤ 0 := by omega
      simp [h1, h2, h3]
  | .report j ms, h, _, _, _ => absurd (by simp [tokens]) (h j)
  | .top ms, h, ht, i, rest => by
    rw [tokens, pieces]
    exact flat_legalL ms (by simpa [tokens] using h) (by simpa [tokens] using ht) i rest
  | .coll k u ms, h, ht, i, rest => by
    obtain ⟨hk, hu⟩ : TokUnder M (.enter k u) := ht _ (by simp [tokens])
    simp only [tokens, pieces, List.cons_append, List.append_assoc, List.nil_append, legal]
    rw [flat_legalL ms (by intro i hi; exact h i (by simp [tokens, hi])) (by intro t hh; exact ht t (by simp [tokens, hh])) i
        (.leave :: rest)]
    cases u with
    | none => simp [blockOf, Block.compiles]
    | some u => simp [blockOf, Block.compiles, legal, hk, hu u rfl]
theorem flat_legalL {M : Int} : ∀ (ns : List Node), (∀ i, Tok.report i ∉ tokensL ns) → (∀ t ∈ tokensL ns, TokUnder M t) →
    ∀ (i : Int) (rest : List Tok),
    legal i (tokensL ns ++ rest) = (((piecesL i ns).map blockOf).all Block.compiles && legal i rest)
  | [], _, _, i, rest => by simp [tokensL, piecesL]
  | n :: ns, h, ht, i, rest => by
    rw [tokensL, piecesL, List.append_assoc,
      flat_legal n (fun i hi => h i (by simp [tokensL, hi])) (fun t hh => ht t (by simp [tokensL, hh])) i _,
      flat_legalL ns (fun i hi => h i (by simp [tokensL, hi])) (fun t hh => ht t (by simp [tokensL, hh])) i rest]
    simp [Bool.and_assoc]
end

mutual
theorem grouped_legal {M : Int} : ∀ (n : Node), Grouped n → (∀ t ∈ tokens n, TokUnder M t) → ∀ (i j : Int) (rest : List Tok) (R : Bool),
    (∀ i, legal i rest = R) → legal i (tokens n ++ rest) = (((pieces j n).map blockOf).all Block.compiles && R)
  | .value v, h, _, _, _, _, _, _ => h.elim
  | .align w b, h, _, _, _, _, _, _ => h.elim
  | .padding w s, h, _, _, _, _, _, _ => h.elim
  | .report k ms, h, ht, i, j, rest, R, hR => by
    have hk : 0 ≤ k := (show TokUnder M (.report k) from ht _ (by simp [tokens])).1
    simp only [tokens, pieces, List.cons_append, List.append_assoc, List.nil_append, legal]
    rw [flat_legalL ms h.2 (fun t hh => ht t (by simp [tokens, hh])) k (.endReport :: rest)]
    simp [hk, legal, hR]
  | .top ms, h, ht, i, j, rest, R, hR => by
    rw [tokens, pieces]
    exact grouped_legalL ms h (by simpa [tokens] using ht) i j rest R hR
  | .coll k u ms, h, ht, i, j, rest, R, hR => by
    obtain ⟨hk, hu⟩ : TokUnder M (.enter k u) := ht _ (by simp [tokens])
    simp only [tokens, pieces, List.cons_append, List.append_assoc, List.nil_append, legal]
    rw [grouped_legalL ms h (by intro t hh; exact ht t (by simp [tokens, hh])) i j (.leave :: rest) R (by simp [legal, hR])]
    cases u with
    | none => simp [blockOf, Block.compiles]
    | some u => simp [blockOf, Block.compiles, hk, hu u rfl]
theorem grouped_legalL {M : Int} : ∀ (ns : List Node), GroupedL ns → (∀ t ∈ tokensL ns, TokUnder M t) → ∀ (i j : Int) (rest : List Tok)
    (R : Bool), (∀ i, legal i rest = R) →
    legal i (tokensL ns ++ rest) = (((piecesL j ns).map blockOf).all Block.compiles && R)
  | [], _, _, i, j, rest, R, hR => by simp [tokensL, piecesL, hR]
  | n :: ns, h, ht, i, j, rest, R, hR => by
    rw [tokensL, piecesL, List.append_assoc,
      grouped_legal n h.1 (fun t hh => ht t (by simp [tokensL, hh])) i j _ (((piecesL j ns).map blockOf).all Block.compiles && R)
        (fun i => grouped_legalL ns h.2 (fun t hh => ht t (by simp [tokensL, hh])) i j rest R hR)]
    simp [Bool.and_assoc]
end

/-- Some number is above all values of a stream. -/
theorem exists_bound (xs : List Item) : ∃ M : Int, 0 < M ∧ ∀ i ∈ xs, i.ival < M := by
  induction xs with
  | nil => exact ⟨1, by decide, by simp⟩
  | cons i xs ih =>
    obtain ⟨M, h0, h⟩ := ih
    refine ⟨max M (i.ival + 1), by omega, ?_⟩
    intro j hj
    rcases List.mem_cons.1 hj with rfl | hj
    · omega
    · have := h j hj
      omega

/-- What decompiled trees are laid out as and compile to. -/
theorem extract_recompiled {reg : Registry} (xs : List Item) (hm : ∀ i ∈ xs, i.Made) (hu : KindsOf reg xs) :
    match blocks (arrayUsage reg) (keys xs) with
    | .error e => extract reg xs = .error e.raised
    | .ok bs => ∃ t, extract reg xs = .ok t ∧ bareMeaning t = bs.flatMap Block.events ∧
        treeMeaning t = laid (fun _ _ => 0) bs ∧ legal 0 (tokens t) = bs.all Block.compiles ∧
        ∀ reg' rule items, compile reg' t = .ok items → meaning rule (keys items) = recompiled (fun _ _ => 0) 0 bs := by
  have h := extract_blocks xs hm hu
  cases hb : blocks (arrayUsage reg) (keys xs) with
  | error e => rw [hb] at h; exact h
  | ok bs =>
    rw [hb] at h
    obtain ⟨t, h1, h2, h3⟩ := h
    have hg := extract_grouped h1
    obtain ⟨M, h0, hM⟩ := exists_bound xs
    have ht := extract_under reg xs h0 hm (fun i hi _ => hM i hi) h1
    refine ⟨t, h1, by rw [bare_blocks h3, h2], ?_, ?_, ?_⟩
    · rw [← h2]
      exact place_laid _ _ _ (fun _ _ => rfl) h3
    · have := grouped_legal t hg ht 0 0 [] true (by simp [legal])
      rw [← h2]
      simpa using this
    · intro reg' rule items hi
      rw [(compile_exact rule hi).1, ← h2]
      have := grouped_exact t hg 0 (fun _ _ => []) [] (by simp [exact]) (fun _ _ => 0) 0 0
      rw [List.append_nil] at this
      rw [this]
      exact exactP_recompiled _ h3 _ _ _ (fun _ _ => rfl)

end Extractor
end Hrdc
