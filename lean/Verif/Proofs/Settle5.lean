import Verif.Proofs.Settle4
/-!
# What is read back compiles to the same items
-/
namespace Hrdc
open Spec Extractor
open Streamer (wrapped endsClosed)
namespace Extractor

/-! ## Members with padding -/

mutual
/-- The elements an element is read back as. -/
def padX (reg : Registry) (off : Offs) : XNode → List XNode × Offs
  | .leaf id (.value v) =>
    let n := padTo v.alignment (off v.way id.toNat)
    ((if n ≠ 0 then [.leaf id (.padding v.way n)] else []) ++ [.leaf id (.value (normV reg v))],
      (off.add v.way id n).add v.way id v.size)
  | .leaf id (.padding w n) => (if n ≠ 0 then [.leaf id (.padding w n)] else [], off.add w id n)
  | .leaf id n => ([.leaf id n], off)
  | .coll k u ms =>
    let r := padXL reg off ms
    ([.coll k (u.map (norm reg)) r.1], r.2)
/-- The elements a list of elements is read back as. -/
def padXL (reg : Registry) (off : Offs) : List XNode → List XNode × Offs
  | [] => ([], off)
  | x :: xs =>
    let a := padX reg off x
    let b := padXL reg a.2 xs
    (a.1 ++ b.1, b.2)
end

/-- Elements put in the innermost level. -/
def siteAdd (s : Site) (xs : List XNode) : Site := (s.1, { s.2 with members := s.2.members ++ xs })

theorem siteAdd_nil (s : Site) : siteAdd s [] = s := by simp [siteAdd]

theorem siteAdd_append (s : Site) (a b : List XNode) : siteAdd (siteAdd s a) b = siteAdd s (a ++ b) := by simp [siteAdd]

theorem padPiece_norm (reg : Registry) (id : Int) (w : Way) (n : Int) : (padPiece id w n).map (normP reg) = padPiece id w n := by
  unfold padPiece
  split <;> rfl

mutual
theorem build_pad (reg : Registry) : ∀ (x : XNode) (off : Offs) (s : Site) (rest : List Piece), x.WF →
    (padded off ((x.pieces ++ rest).map (normP reg))).foldl bstep s =
      (padded (padX reg off x).2 (rest.map (normP reg))).foldl bstep (siteAdd s (padX reg off x).1)
  | .leaf id n, off, s, rest, h => by
    rcases h with ⟨v, rfl⟩ | ⟨w, m, rfl⟩
    · simp only [XNode.pieces, pieces, List.cons_append, List.nil_append, List.map_cons, normP, normLeaf, padded, padX]
      have e1 : (normV reg v).way = v.way := rfl
      have e2 : (normV reg v).alignment = v.alignment := rfl
      have e3 : (normV reg v).size = v.size := rfl
      rw [e1, e2, e3, List.foldl_append]
      unfold padPiece
      split
      · simp [bstep, siteAdd, leafNode]
      · simp [bstep, siteAdd, leafNode]
    · simp only [XNode.pieces, pieces, List.cons_append, List.nil_append, List.map_cons, normP, normLeaf, padded, padX]
      rw [List.foldl_append]
      unfold padPiece
      split
      · simp [bstep, siteAdd, leafNode]
      · simp [siteAdd]
  | .coll k u ms, off, s, rest, h => by
    simp only [XNode.pieces, List.cons_append, List.map_cons, normP, padded, List.foldl_cons, padX]
    rw [List.append_assoc, List.cons_append, List.nil_append, buildL_pad reg ms off _ _ h]
    simp only [List.map_cons, normP, padded, List.foldl_cons]
    simp [bstep, siteAdd]
theorem buildL_pad (reg : Registry) : ∀ (xs : List XNode) (off : Offs) (s : Site) (rest : List Piece), WFL xs →
    (padded off ((xpiecesL xs ++ rest).map (normP reg))).foldl bstep s =
      (padded (padXL reg off xs).2 (rest.map (normP reg))).foldl bstep (siteAdd s (padXL reg off xs).1)
  | [], off, s, rest, _ => by simp [xpiecesL, padXL, siteAdd_nil]
  | x :: xs, off, s, rest, h => by
    simp only [xpiecesL, padXL]
    rw [List.append_assoc, build_pad reg x off s _ h.1, buildL_pad reg xs _ _ _ h.2, siteAdd_append]
end

mutual
theorem build_same : ∀ (x : XNode) (s : Site), x.WF → x.pieces.foldl bstep s = siteAdd s [x]
  | .leaf id n, s, h => by
    rcases h with ⟨v, rfl⟩ | ⟨w, m, rfl⟩ <;> simp [XNode.pieces, pieces, bstep, siteAdd, leafNode]
  | .coll k u ms, s, h => by
    simp only [XNode.pieces, List.cons_append, List.foldl_cons, List.foldl_append]
    rw [buildL_same ms _ h]
    simp [bstep, siteAdd]
theorem buildL_same : ∀ (xs : List XNode) (s : Site), WFL xs → (xpiecesL xs).foldl bstep s = siteAdd s xs
  | [], s, _ => by simp [xpiecesL, siteAdd_nil]
  | x :: xs, s, h => by
    rw [xpiecesL, List.foldl_append, build_same x s h.1, buildL_same xs _ h.2, siteAdd_append]
    rfl
end

/-! ## Report IDs -/

mutual
/-- Padding is not empty. -/
def XNode.Solid : XNode → Prop
  | .leaf _ n => (∃ v, n = .value v) ∨ ∃ w s, s ≠ 0 ∧ n = .padding w s
  | .coll _ _ ms => SolidL ms
/-- The same for a list. -/
def SolidL : List XNode → Prop
  | [] => True
  | x :: xs => x.Solid ∧ SolidL xs
end

mutual
theorem solid_of : ∀ x : XNode, x.WF → (∀ id w, Piece.leaf id (.padding w 0) ∉ x.pieces) → x.Solid
  | .leaf id n, h, hp => by
    rcases h with ⟨v, rfl⟩ | ⟨w, m, rfl⟩
    · exact .inl ⟨v, rfl⟩
    · refine .inr ⟨w, m, ?_, rfl⟩
      intro e
      exact hp id w (by simp [XNode.pieces, pieces, e])
  | .coll k u ms, h, hp => solidL_of ms h (fun id w hm => hp id w (by simp [XNode.pieces, hm]))
theorem solidL_of : ∀ xs : List XNode, WFL xs → (∀ id w, Piece.leaf id (.padding w 0) ∉ xpiecesL xs) → SolidL xs
  | [], _, _ => trivial
  | x :: xs, h, hp => ⟨solid_of x h.1 (fun id w hm => hp id w (by simp [xpiecesL, hm])),
      solidL_of xs h.2 (fun id w hm => hp id w (by simp [xpiecesL, hm]))⟩
end

theorem idsL_append (a b : List XNode) : idsL (a ++ b) = idsL a ++ idsL b := by
  induction a with
  | nil => rfl
  | cons x a ih => simp [idsL, ih]

mutual
theorem padX_ids (reg : Registry) : ∀ (x : XNode) (off : Offs), x.Solid → ∀ j, j ∈ idsL (padX reg off x).1 ↔ j ∈ x.ids
  | .leaf id n, off, h, j => by
    rcases h with ⟨v, rfl⟩ | ⟨w, m, hm, rfl⟩
    · simp only [padX]
      split <;> simp [idsL, XNode.ids]
    · simp only [padX]
      rw [if_pos hm]
      simp [idsL, XNode.ids]
  | .coll k u ms, off, h, j => by
    simp only [padX, idsL, XNode.ids, List.append_nil]
    exact padXL_ids reg ms off h j
theorem padXL_ids (reg : Registry) : ∀ (xs : List XNode) (off : Offs), SolidL xs → ∀ j, j ∈ idsL (padXL reg off xs).1 ↔ j ∈ idsL xs
  | [], off, _, j => by simp [padXL]
  | x :: xs, off, h, j => by
    simp only [padXL, idsL_append, idsL, List.mem_append]
    rw [padX_ids reg x off h.1 j, padXL_ids reg xs _ h.2 j]
end

theorem single_iff (x : XNode) (i : Int) : x.single = some i ↔ i ∈ x.ids ∧ ∀ j ∈ x.ids, j = i := by
  constructor
  · exact fun h => ⟨single_mem h, single_ids h⟩
  · rintro ⟨h1, h2⟩
    unfold XNode.single
    cases he : x.ids with
    | nil => rw [he] at h1; simp at h1
    | cons a r =>
      simp only
      have ha : a = i := h2 a (by rw [he]; simp)
      subst ha
      rw [if_pos (by
        rw [List.all_eq_true]
        intro j hj
        simpa using h2 j (by rw [he]; simp [hj]))]

theorem single_congr {x y : XNode} (h : ∀ j, j ∈ x.ids ↔ j ∈ y.ids) : x.single = y.single := by
  cases hx : x.single with
  | some i =>
    rw [single_iff] at hx
    exact ((single_iff y i).2 ⟨(h i).1 hx.1, fun j hj => hx.2 j ((h j).2 hj)⟩).symm
  | none =>
    cases hy : y.single with
    | none => rfl
    | some i =>
      rw [single_iff] at hy
      have := (single_iff x i).2 ⟨(h i).2 hy.1, fun j hj => hy.2 j ((h j).1 hj)⟩
      rw [hx] at this
      simp at this

/-! ## Tokens -/

/-- The end of the current report. -/
def closeRep : Option Int → List Tok
  | some _ => [.endReport]
  | none => []

/-- Tokens of grouped elements, following those of `cur`. -/
def grp (cur : Option Int) : List XNode → List Tok
  | [] => closeRep cur
  | x :: xs =>
    match x.single with
    | some i =>
      if cur = some i then tokens x.node ++ grp cur xs
      else closeRep cur ++ .report i :: tokens x.node ++ grp (some i) xs
    | none => closeRep cur ++ tokens (reportInsert x) ++ grp none xs

theorem insert_grp : ∀ (xs : List XNode) (r : List Node) (cur : Option Int) (P : List Tok), EndsWith cur r →
    tokensL r = P ++ closeRep cur → tokensL (insertL r cur xs) = P ++ grp cur xs
  | [], r, cur, P, _, h => by rw [insertL, grp, h]
  | x :: xs, r, cur, P, he, h => by
    rw [insertL, grp]
    cases hs : x.single with
    | some i =>
      simp only
      split
      · rename_i hc
        obtain ⟨a, ms, rfl⟩ := he i hc
        rw [addToLast_append, insert_grp xs _ cur (P ++ tokens x.node)]
        · simp
        · intro j hj
          rw [hc] at hj
          simp only [Option.some.injEq] at hj
          subst hj
          exact ⟨a, _, rfl⟩
        · rw [hc] at h ⊢
          have e : tokensL (a ++ [Node.report i ms]) = (tokensL a ++ .report i :: tokensL ms) ++ [.endReport] := by
            simp [tokensL_append, tokensL, tokens]
          rw [e] at h
          have h := List.append_cancel_right h
          rw [← h]
          simp [tokensL_append, tokensL, tokens, closeRep]
      · rw [insert_grp xs _ (some i) (P ++ closeRep cur ++ .report i :: tokens x.node)]
        · simp
        · intro j hj
          simp only [Option.some.injEq] at hj
          subst hj
          exact ⟨r, _, rfl⟩
        · simp [tokensL_append, tokensL, tokens, closeRep, h]
    | none =>
      simp only
      rw [insert_grp xs _ none (P ++ closeRep cur ++ tokens (reportInsert x)) (by intro j hj; simp at hj)]
      · simp
      · simp [tokensL_append, tokensL, closeRep, h]

theorem ended_grp (l : Level) : tokens (ended l) = grp none l.members := by
  rw [ended, tokens, insert_grp _ _ _ [] (by intro i hi; simp at hi) (by simp [tokensL, closeRep])]
  rfl

theorem coll_grp (k : PyVal) (u : Option PyVal) (ms : List XNode) :
    tokens (reportInsert (.coll k u ms)) = .enter k u :: grp none ms ++ [.leave] := by
  rw [reportInsert, tokens, insert_grp _ _ _ [] (by intro i hi; simp at hi) (by simp [tokensL, closeRep])]
  rfl

/-- Padding as tokens. -/
def padTok (w : Way) (n : Int) : List Tok := if n ≠ 0 then [.leaf (.padding w n)] else []

/-- The tokens with the padding the compiler puts in; `ids` are the open reports. -/
def padT (reg : Registry) (off : Offs) (ids : List Int) : List Tok → List Tok
  | [] => []
  | .report i :: r => .report i :: padT reg off (i :: ids) r
  | .endReport :: r => .endReport :: padT reg off ids.tail r
  | .enter k u :: r => .enter k (u.map (norm reg)) :: padT reg off ids r
  | .leave :: r => .leave :: padT reg off ids r
  | .leaf (.value v) :: r =>
    padTok v.way (padTo v.alignment (off v.way (ids.headD 0).toNat)) ++ .leaf (.value (normV reg v)) ::
      padT reg ((off.add v.way (ids.headD 0) (padTo v.alignment (off v.way (ids.headD 0).toNat))).add v.way (ids.headD 0) v.size) ids r
  | .leaf (.padding w n) :: r => padTok w n ++ padT reg (off.add w (ids.headD 0) n) ids r
  | .leaf (.align w a) :: r =>
    padTok w (padTo a (off w (ids.headD 0).toNat)) ++ padT reg (off.add w (ids.headD 0) (padTo a (off w (ids.headD 0).toNat))) ids r

theorem nodeL_append (a b : List XNode) : nodeL (a ++ b) = nodeL a ++ nodeL b := by
  induction a with
  | nil => rfl
  | cons x a ih => simp [nodeL, ih]

mutual
theorem padT_node (reg : Registry) (i : Int) (ids : List Int) : ∀ (x : XNode) (off : Offs) (rest : List Tok), x.Solid →
    (∀ j ∈ x.ids, j = i) → padT reg off (i :: ids) (tokens x.node ++ rest) =
      tokensL (nodeL (padX reg off x).1) ++ padT reg (padX reg off x).2 (i :: ids) rest
  | .leaf id n, off, rest, h, hi => by
    have := hi id (by simp [XNode.ids])
    subst this
    rcases h with ⟨v, rfl⟩ | ⟨w, m, hm, rfl⟩
    · simp only [XNode.node, tokens, List.cons_append, List.nil_append, padT, List.headD_cons, padX, padTok]
      by_cases hp : padTo v.alignment (off v.way id.toNat) = 0 <;> simp [nodeL, tokensL, XNode.node, tokens, hp]
    · simp only [XNode.node, tokens, List.cons_append, List.nil_append, padT, List.headD_cons, padX, padTok]
      rw [if_pos hm, if_pos hm]
      simp [nodeL, tokensL, XNode.node, tokens]
  | .coll k u ms, off, rest, h, hi => by
    simp only [XNode.node, tokens, List.cons_append, List.append_assoc, List.nil_append, padT, padX]
    rw [padT_nodeL reg i ids ms off _ h hi]
    simp [nodeL, tokensL, XNode.node, tokens, padT]
theorem padT_nodeL (reg : Registry) (i : Int) (ids : List Int) : ∀ (xs : List XNode) (off : Offs) (rest : List Tok), SolidL xs →
    (∀ j ∈ idsL xs, j = i) → padT reg off (i :: ids) (tokensL (nodeL xs) ++ rest) =
      tokensL (nodeL (padXL reg off xs).1) ++ padT reg (padXL reg off xs).2 (i :: ids) rest
  | [], off, rest, _, _ => by simp [nodeL, tokensL, padXL]
  | x :: xs, off, rest, h, hi => by
    simp only [nodeL, tokensL, padXL, nodeL_append, tokensL_append]
    rw [List.append_assoc, padT_node reg i ids x off _ h.1 (fun j hj => hi j (by simp [idsL, hj])),
      padT_nodeL reg i ids xs _ _ h.2 (fun j hj => hi j (by simp [idsL, hj]))]
    simp
end

theorem padT_close (reg : Registry) (off : Offs) (cur : Option Int) (rest : List Tok) :
    padT reg off cur.toList (closeRep cur ++ rest) = closeRep cur ++ padT reg off [] rest := by
  cases cur <;> simp [closeRep, padT]

/-- Elements of one report, grouped. -/
theorem grp_run (i : Int) : ∀ (ys : List XNode) (rest : List XNode), (∀ y ∈ ys, y.single = some i) →
    grp (some i) (ys ++ rest) = tokensL (nodeL ys) ++ grp (some i) rest
  | [], rest, _ => rfl
  | y :: ys, rest, h => by
    rw [List.cons_append, grp, h y (by simp)]
    simp only [if_true]
    rw [grp_run i ys rest (fun z hz => h z (by simp [hz]))]
    simp [nodeL, tokensL]

theorem grp_start (cur : Option Int) (i : Int) (ys rest : List XNode) (hy : ys ≠ []) (h : ∀ y ∈ ys, y.single = some i) :
    grp cur (ys ++ rest) = (if cur = some i then [] else closeRep cur ++ [.report i]) ++ tokensL (nodeL ys) ++ grp (some i) rest := by
  match ys, hy with
  | y :: ys, _ =>
    rw [List.cons_append, grp, h y (by simp)]
    simp only
    split
    · rename_i hc
      subst hc
      rw [grp_run i ys rest (fun z hz => h z (by simp [hz]))]
      simp [nodeL, tokensL]
    · rw [grp_run i ys rest (fun z hz => h z (by simp [hz]))]
      simp [nodeL, tokensL]

theorem padX_single {reg : Registry} {off : Offs} {x : XNode} {i : Int} (hx : x.Solid) (h : x.single = some i) :
    (padX reg off x).1 ≠ [] ∧ ∀ y ∈ (padX reg off x).1, y.single = some i := by
  match x, hx with
  | .leaf id n, hx =>
    rw [leaf_single] at h
    simp only [Option.some.injEq] at h
    subst h
    rcases hx with ⟨v, rfl⟩ | ⟨w, m, hm, rfl⟩
    · simp only [padX]
      split <;> simp [leaf_single]
    · simp only [padX]
      rw [if_pos hm]
      simp [leaf_single]
  | .coll k u ms, hx =>
    simp only [padX, ne_eq, List.cons_ne_self, not_false_eq_true, List.mem_singleton, forall_eq, true_and, reduceCtorEq]
    rw [← h]
    exact single_congr (padXL_ids reg ms off hx)

mutual
theorem padT_insert (reg : Registry) : ∀ (x : XNode) (off : Offs) (rest : List Tok), x.Solid → x.single = none →
    padT reg off [] (tokens (reportInsert x) ++ rest) =
      (match (padX reg off x).1 with
        | [y] => tokens (reportInsert y)
        | _ => []) ++ padT reg (padX reg off x).2 [] rest
  | .leaf j n, _, _, _, h => by rw [leaf_single] at h; simp at h
  | .coll k u ms, off, rest, h, _ => by
    rw [coll_grp]
    simp only [padX, List.cons_append, List.append_assoc, List.nil_append, padT]
    have := padT_grp reg ms none off (.leave :: rest) h
    simp only [Option.toList_none] at this
    rw [this, coll_grp]
    simp [padT]
theorem padT_grp (reg : Registry) : ∀ (xs : List XNode) (cur : Option Int) (off : Offs) (rest : List Tok), SolidL xs →
    padT reg off cur.toList (grp cur xs ++ rest) = grp cur (padXL reg off xs).1 ++ padT reg (padXL reg off xs).2 [] rest
  | [], cur, off, rest, _ => by
    simp only [grp, padXL]
    exact padT_close reg off cur rest
  | x :: xs, cur, off, rest, h => by
    rw [grp]
    simp only [padXL]
    cases hs : x.single with
    | some i =>
      simp only
      obtain ⟨h1, h2⟩ := padX_single (reg := reg) (off := off) h.1 hs
      rw [grp_start cur i _ _ h1 h2]
      have hp := fun r => padT_node reg i [] x off r h.1 (single_ids hs)
      split
      · rename_i hc
        subst hc
        have := padT_grp reg xs (some i) (padX reg off x).2 rest h.2
        simp only [Option.toList_some] at this ⊢
        rw [List.append_assoc, hp, this]
        simp
      · have := padT_grp reg xs (some i) (padX reg off x).2 rest h.2
        simp only [Option.toList_some] at this
        rw [List.append_assoc, List.append_assoc, padT_close]
        rw [List.cons_append, padT, hp, this]
        simp
    | none =>
      simp only
      match x, h, hs with
      | .leaf j n, h, hs => rw [leaf_single] at hs; simp at hs
      | .coll k u ms, h, hs =>
        have hs' : (XNode.coll k (u.map (norm reg)) (padXL reg off ms).1).single = none := by
          rw [← hs]
          exact single_congr (padXL_ids reg ms off h.1)
        have h1 := padT_insert reg (.coll k u ms) off (grp none xs ++ rest) h.1 hs
        have h2 := padT_grp reg xs none (padX reg off (.coll k u ms)).2 rest h.2
        simp only [Option.toList_none] at h2
        rw [List.append_assoc, List.append_assoc, padT_close, h1, h2]
        simp only [padX, List.cons_append, List.nil_append]
        rw [grp, hs']
        simp
end

/-! ## Items -/

theorem keep_norm {reg : Registry} {u : PyVal} (h : KnownVal reg u) :
    Item.new reg .usage (norm reg u) = Item.new reg .usage u := by
  have e : Usage.lookup reg (norm reg u) = Usage.lookup reg u := by
    have h1 := norm_known h
    have h2 := norm_known (known_norm reg u)
    rw [norm_norm] at h2
    have := h2.trans h1.symm
    simpa using this
  simp only [Item.new, e]

/-- The call with what the usage table has for its usage. -/
def normC (reg : Registry) (c : Cls × PyVal) : Cls × PyVal := if c.1 = .usage then (.usage, norm reg c.2) else c

theorem emit_norm (reg : Registry) : ∀ cs : List (Cls × PyVal), (∀ c ∈ cs, c.1 = .usage → KnownVal reg c.2) →
    Streamer.emit reg (cs.map (normC reg)) = Streamer.emit reg cs
  | [], _ => rfl
  | (c, v) :: cs, h => by
    have ih := emit_norm reg cs (fun c hc => h c (by simp [hc]))
    have e : Item.new reg (normC reg (c, v)).1 (normC reg (c, v)).2 = Item.new reg c v := by
      unfold normC
      by_cases hc : c = .usage
      · subst hc
        exact keep_norm (h (.usage, v) (by simp) rfl)
      · rw [if_neg hc]
    rw [List.map_cons]
    show Streamer.emit reg ((((normC reg (c, v)).1, (normC reg (c, v)).2)) :: cs.map (normC reg)) = _
    rw [Streamer.emit, Streamer.emit, ih, e]

theorem elems_norm {reg : Registry} {a : NamedArray} (h : KnownArray reg (some a)) :
    (normA reg a).elems reg = (a.elems reg).map (norm reg) := by
  cases a with
  | list l => rfl
  | range r =>
    simp only [normA, NamedArray.elems, UsageRange.iter, norm_toInt, List.map_map]
    apply List.map_congr_left
    intro i _
    simp [norm, PyVal.toInt, lookup_value]

theorem attrs_norm {reg : Registry} {v : Value} (h : FromItems reg v) (named : Bool) :
    Streamer.attrCalls reg (normV reg v) named = (Streamer.attrCalls reg v named).map (normC reg) := by
  have e2 : usageGiven (normV reg v).usage = usageGiven v.usage := by
    simp only [normV]
    cases hu : v.usage with
    | none => rfl
    | some u => simp only [Option.map_some, usageGiven, truthy_known (h.usage u hu), truthy_known (known_norm reg u)]
  unfold Streamer.attrCalls
  rw [e2]
  simp only [List.map_append]
  congr 1
  · congr 1
    · congr 1
      · congr 1
        · simp only [normV]
          cases hu : v.usage with
          | none => rfl
          | some u =>
            simp only [Option.map_some, truthy_known (h.usage u hu), truthy_known (known_norm reg u), if_true]
            rfl
        simp only [normV]
        cases named with
        | false =>
          by_cases hp : v.physicalMin = v.logicalMin ∧ v.physicalMax = v.logicalMax <;> simp [hp, normC]
        | true =>
          cases ha : v.namedArray with
          | none =>
            by_cases hp : v.physicalMin = v.logicalMin ∧ v.physicalMax = v.logicalMax <;> simp [hp, normC]
          | some a =>
            have hk : KnownArray reg (some a) := by rw [← ha]; exact h.array
            simp only [Option.map_some, elems_norm hk, List.map_append, List.map_map]
            congr 1
            split <;> simp [normC]
    · by_cases hp : v.designator = 0 <;> simp [normV, hp, normC]
  · by_cases hp : v.string = 0 <;> simp [normV, hp, normC]

theorem attrs_known {reg : Registry} {v : Value} (h : FromItems reg v) (named : Bool) :
    ∀ c ∈ Streamer.attrCalls reg v named, c.1 = .usage → KnownVal reg c.2 := by
  intro c hc e
  unfold Streamer.attrCalls at hc
  simp only [List.mem_append] at hc
  rcases hc with (((hc | hc) | hc) | hc) | hc
  · cases hu : v.usage with
    | none => rw [hu] at hc; simp at hc
    | some u =>
      rw [hu] at hc
      simp only at hc
      split at hc
      · simp only [List.mem_singleton] at hc
        subst hc
        exact h.usage u hu
      · simp at hc
  · cases named with
    | false =>
      simp only at hc
      split at hc <;>
      · simp only [List.mem_cons, List.not_mem_nil, or_false] at hc
        rcases hc with rfl | rfl <;> simp at e
    | true =>
      cases ha : v.namedArray with
      | none =>
        rw [ha] at hc
        simp only at hc
        split at hc <;>
        · simp only [List.mem_cons, List.not_mem_nil, or_false] at hc
          rcases hc with rfl | rfl <;> simp at e
      | some a =>
        rw [ha] at hc
        have hk : KnownArray reg (some a) := by rw [← ha]; exact h.array
        simp only [List.mem_append, List.mem_cons, List.not_mem_nil, or_false, List.mem_map] at hc
        rcases hc with ((rfl | rfl) | hc) | ⟨u, hu, rfl⟩
        · simp at e
        · simp at e
        · split at hc
          · simp only [List.mem_singleton] at hc
            subst hc
            simp at e
          · simp at hc
        · exact elems_known hk u hu
  · simp only [List.mem_cons, List.not_mem_nil, or_false] at hc
    rcases hc with rfl | rfl | rfl | rfl <;> simp at e
  · split at hc
    · simp only [List.mem_singleton] at hc
      subst hc
      simp at e
    · simp at hc
  · split at hc
    · simp only [List.mem_singleton] at hc
      subst hc
      simp at e
    · simp at hc

theorem padTo_again (a off : Int) : padTo a (off + padTo a off) = 0 := by
  unfold padTo
  by_cases h : a > 1
  · rw [if_pos h]
    rw [if_pos h]
    by_cases h2 : off % a ≠ 0
    · rw [if_pos h2]
      have e : off + (a - off % a) = a * (off / a + 1) := by
        have := Int.mul_ediv_add_emod off a
        rw [Int.mul_add]
        omega
      rw [e, Int.mul_emod_right]
      simp
    · rw [if_neg h2, Int.add_zero, if_neg h2]
  · rw [if_neg h]

theorem padFor_zero {s : Streamer.State} {w : Way} {a : Int} (hid : 0 ≤ s.id ∧ s.id < 256) (h : padTo a (s.size w s.id.toNat) = 0) :
    Streamer.padFor s w a 0 = .ok 0 := by
  unfold padTo at h
  unfold Streamer.padFor Streamer.slot
  split at h
  · rename_i h1
    rw [if_pos h1, if_pos hid]
    simp only [Except.ok.injEq]
    exact h
  · rename_i h1
    rw [if_neg h1]

theorem bump_id {s s' : Streamer.State} {w : Way} {n : Int} (h : Streamer.bump s w n = .ok s') (hid : 0 ≤ s.id) : s.id < 256 := by
  unfold Streamer.bump Streamer.slot at h
  by_cases h1 : 0 ≤ s.id ∧ s.id < 256
  · exact h1.2
  · rw [if_neg h1, if_neg (by omega)] at h
    simp at h

/-- The value read back compiles to the same items, after its padding. -/
theorem value_again {reg : Registry} {sst sst' : Streamer.State} {v : Value} {is : List Item}
    (h : Streamer.value reg sst v = .ok (sst', is)) (hf : FromItems reg v) (hid : 0 ≤ sst.id) :
    ∃ s1 a b, Streamer.addPad reg sst v.way (padTo v.alignment (sst.size v.way sst.id.toNat)) = .ok (s1, a) ∧
      Streamer.value reg s1 (normV reg v) = .ok (sst', b) ∧ is = a ++ b ∧ sst'.id = sst.id ∧
      sst'.size = Offs.add (Offs.add sst.size v.way sst.id (padTo v.alignment (sst.size v.way sst.id.toNat))) v.way sst.id v.size := by
  have hcf := const_false hf
  unfold Streamer.value at h
  split at h
  · simp at h
  rename_i pad hpad
  have hpad := padFor_ok hpad hid
  split at h
  · simp at h
  rename_i s1 a ha
  split at h
  · simp at h
  rename_i named hnamed
  simp only [hcf, Bool.false_eq_true, if_false] at h
  split at h
  · simp at h
  rename_i b hb
  split at h
  · simp at h
  rename_i s2 hbump
  split at h
  · simp at h
  rename_i c hc
  simp only [Except.ok.injEq, Prod.mk.injEq] at h
  obtain ⟨rfl, rfl⟩ := h
  obtain ⟨e1, e2, e3⟩ := addPad_ok ha hid
  have hs1 : s1.size = Offs.add sst.size v.way sst.id pad := by
    by_cases hp : pad = 0
    · rw [hp, Offs.add_zero, (e2 hp).1]
    · exact (e3 hp).1
  have hid1 : 0 ≤ s1.id ∧ s1.id < 256 := ⟨by omega, bump_id hbump (by omega)⟩
  refine ⟨s1, a, b ++ c, by rw [← hpad]; exact ha, ?_, by simp, ?_, ?_⟩
  · have hz : Streamer.padFor s1 v.way v.alignment 0 = .ok 0 := by
      apply padFor_zero hid1
      rw [hs1, e1, hpad]
      simp only [Offs.add, and_self, if_true]
      exact padTo_again _ _
    have ht : truthOpt (normV reg v).namedArray = .ok named := by
      rw [← hnamed]
      simp only [normV]
      cases v.namedArray with
      | none => rfl
      | some x => simp only [Option.map_some, truthOpt, NamedArray.truth, normA_len]
    have hg : usageGiven (normV reg v).usage = usageGiven v.usage := by
      simp only [normV]
      cases hu : v.usage with
      | none => rfl
      | some u => simp only [Option.map_some, usageGiven, truthy_known (hf.usage u hu), truthy_known (known_norm reg u)]
    have hb' : Streamer.emit reg (Streamer.attrCalls reg (normV reg v) named ++
        [(.reportCount, .int v.count), (.reportSize, .int v.size)]) = .ok b := by
      rw [← hb, attrs_norm hf]
      have := emit_norm reg (Streamer.attrCalls reg v named ++ [(.reportCount, .int v.count), (.reportSize, .int v.size)]) (by
        intro c hc e
        rcases List.mem_append.1 hc with hc | hc
        · exact attrs_known hf named c hc e
        · simp only [List.mem_cons, List.not_mem_nil, or_false] at hc
          rcases hc with rfl | rfl <;> simp at e)
      rw [← this]
      simp [normC]
    unfold Streamer.value
    have w1 : (normV reg v).way = v.way := rfl
    have w2 : (normV reg v).alignment = v.alignment := rfl
    have w3 : (normV reg v).size = v.size := rfl
    have w4 : (normV reg v).flags = v.flags := rfl
    have w5 : (normV reg v).count = v.count := rfl
    have hz2 : Streamer.addPad reg s1 v.way 0 = .ok (s1, []) := by simp [Streamer.addPad]
    rw [w1, w2, w3, w4, w5, hz]
    simp only
    rw [hz2, ht]
    simp only [hcf, Bool.false_eq_true, if_false]
    rw [hb']
    simp only
    rw [hbump, hg, hc]
    simp
  · unfold Streamer.bump Streamer.slot at hbump
    rw [if_pos hid1] at hbump
    simp only [Except.ok.injEq] at hbump
    subst hbump
    exact e1
  · unfold Streamer.bump Streamer.slot at hbump
    rw [if_pos hid1] at hbump
    simp only [Except.ok.injEq] at hbump
    subst hbump
    rw [← hpad, ← hs1, ← e1]
    rfl

theorem toks_padTok {reg : Registry} {s s1 s2 : Streamer.State} {w : Way} {n : Int} {a b : List Item} {ts : List Tok}
    (h : Streamer.addPad reg s w n = .ok (s1, a)) (h2 : Streamer.toks reg s1 ts = .ok (s2, b)) :
    Streamer.toks reg s (padTok w n ++ ts) = .ok (s2, a ++ b) := by
  unfold padTok
  by_cases hn : n = 0
  · rw [if_neg (by simpa using hn)]
    subst hn
    simp only [Streamer.addPad, ne_eq, not_true_eq_false, if_false, Except.ok.injEq, Prod.mk.injEq] at h
    obtain ⟨rfl, rfl⟩ := h
    exact h2
  · rw [if_pos hn]
    simp only [List.cons_append, List.nil_append, Streamer.toks, Streamer.tok, h, h2]

/-- With the padding put in, the same items are written. -/
theorem toks_again (reg : Registry) : ∀ (ts : List Tok) (sst sst' : Streamer.State) (is : List Item) (ids : List Int) (nz : Int),
    Streamer.toks reg sst ts = .ok (sst', is) → 0 ≤ sst.id → (∀ t ∈ ts, TokFrom reg t) →
    (∀ t ∈ leafIds ids sst.id nz ts, t.1 = t.2.1) → Streamer.toks reg sst (padT reg sst.size ids ts) = .ok (sst', is) := by
  intro ts
  induction ts with
  | nil => intro sst sst' is ids nz h _ _ _; exact h
  | cons t ts ih =>
    intro sst sst' is ids nz h hid hts hl
    simp only [Streamer.toks] at h
    split at h
    · simp at h
    rename_i sst1 a ha
    split at h
    · simp at h
    rename_i sst2 c hc
    simp only [Except.ok.injEq, Prod.mk.injEq] at h
    obtain ⟨rfl, rfl⟩ := h
    have hts' : ∀ t ∈ ts, TokFrom reg t := fun t ht => hts t (by simp [ht])
    have ht := hts t (by simp)
    cases t with
    | report i =>
      have ha' := ha
      simp only [Streamer.tok] at ha
      split at ha
      · simp at ha
      rename_i x hx
      simp only [Except.ok.injEq, Prod.mk.injEq] at ha
      obtain ⟨rfl, rfl⟩ := ha
      simp only [leafIds] at hl
      have h0 : 0 ≤ i := by
        by_cases hi : i = 0
        · omega
        · rw [if_pos hi] at hx
          exact emit_nonneg hx (c := (.reportID, .int i)) (by simp) (by simp) rfl
      have := ih _ _ _ (i :: ids) _ hc h0 hts' hl
      simp only [padT, Streamer.toks, ha']
      simp only at this
      rw [this]
    | endReport =>
      have ha' := ha
      simp only [Streamer.tok, Except.ok.injEq, Prod.mk.injEq] at ha
      obtain ⟨rfl, rfl⟩ := ha
      simp only [leafIds] at hl
      have := ih _ _ _ ids.tail _ hc hid hts' hl
      simp only [padT, Streamer.toks, ha', this]
    | enter k u =>
      have ha' := ha
      simp only [Streamer.tok] at ha
      split at ha
      · simp at ha
      rename_i u
      split at ha
      · simp at ha
      rename_i x hx
      simp only [Except.ok.injEq, Prod.mk.injEq] at ha
      obtain ⟨rfl, rfl⟩ := ha
      simp only [leafIds] at hl
      have hku : KnownVal reg u := ht.2 u rfl
      have := ih _ _ _ ids _ hc hid hts' hl
      have e := emit_norm reg [(.usage, u), (.collection, k)] (by
        intro c hc e
        simp only [List.mem_cons, List.not_mem_nil, or_false] at hc
        rcases hc with rfl | rfl
        · exact hku
        · simp at e)
      simp only [List.map_cons, List.map_nil, normC, if_true, reduceCtorEq, if_false] at e
      simp only [padT, Streamer.toks, Streamer.tok, Option.map_some, e, hx, this]
    | leave =>
      have ha' := ha
      simp only [Streamer.tok] at ha
      split at ha
      · simp at ha
      rename_i x hx
      simp only [Except.ok.injEq, Prod.mk.injEq] at ha
      obtain ⟨rfl, rfl⟩ := ha
      simp only [leafIds] at hl
      have := ih _ _ _ ids _ hc hid hts' hl
      simp only [padT, Streamer.toks, ha', this]
    | leaf l =>
      simp only [leafIds, List.mem_cons, forall_eq_or_imp] at hl
      have hi : ids.headD 0 = sst.id := hl.1
      cases l with
      | value v =>
        simp only [Streamer.tok] at ha
        obtain ⟨s1, x, y, r1, r2, rfl, r4, r5⟩ := value_again ha ht hid
        have := ih _ _ _ ids _ hc (by rw [r4]; exact hid) hts' (by rw [r4]; exact hl.2)
        simp only [padT, hi]
        rw [r5] at this
        rw [List.append_assoc]
        apply toks_padTok r1
        simp only [Streamer.toks, Streamer.tok, r2, this]
      | align w n =>
        simp only [Streamer.tok] at ha
        split at ha
        · simp at ha
        rename_i pad hpad
        have hpad := padFor_ok hpad hid
        obtain ⟨e1, e2, e3⟩ := addPad_ok ha hid
        have hs : sst1.size = Offs.add sst.size w sst.id pad := by
          by_cases hp : pad = 0
          · rw [hp, Offs.add_zero, (e2 hp).1]
          · exact (e3 hp).1
        have := ih _ _ _ ids _ hc (by rw [e1]; exact hid) hts' (by rw [e1]; exact hl.2)
        simp only [padT, hi, ← hpad]
        rw [hs] at this
        exact toks_padTok ha this
      | padding w n =>
        simp only [Streamer.tok] at ha
        obtain ⟨e1, e2, e3⟩ := addPad_ok ha hid
        have hs : sst1.size = Offs.add sst.size w sst.id n := by
          by_cases hp : n = 0
          · rw [hp, Offs.add_zero, (e2 hp).1]
          · exact (e3 hp).1
        have := ih _ _ _ ids _ hc (by rw [e1]; exact hid) hts' (by rw [e1]; exact hl.2)
        simp only [padT, hi]
        rw [hs] at this
        exact toks_padTok ha this

end Extractor
end Hrdc
