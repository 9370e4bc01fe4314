import Verif.Model.Extractor
import Verif.Spec.Extract
import Verif.Proofs.Compile
import Verif.Proofs.Made
import Verif.Props.Usages
/-!
# The decompiler follows the host
-/
namespace Hrdc
open Spec

namespace Extractor

/-! ## Reports -/

mutual
/-- Pieces of an element under construction. -/
def XNode.pieces : XNode → List Piece
  | .leaf i n => Spec.pieces i n
  | .coll k u ms => .enter k u :: xpiecesL ms ++ [.leave]
/-- Pieces of a list of elements under construction. -/
def xpiecesL : List XNode → List Piece
  | [] => []
  | x :: xs => x.pieces ++ xpiecesL xs
end

theorem xpiecesL_append (a b : List XNode) : xpiecesL (a ++ b) = xpiecesL a ++ xpiecesL b := by
  induction a with
  | nil => rfl
  | cons x a ih => simp [xpiecesL, ih]

theorem piecesL_append (id : Int) (a b : List Node) : piecesL id (a ++ b) = piecesL id a ++ piecesL id b := by
  induction a with
  | nil => rfl
  | cons x a ih => simp [piecesL, ih]

theorem single_ids {x : XNode} {i : Int} (h : x.single = some i) : ∀ j ∈ x.ids, j = i := by
  unfold XNode.single at h
  split at h
  · rename_i a r he
    split at h
    · rename_i hr
      simp only [Option.some.injEq] at h
      subst h
      rw [he]
      intro j hj
      rcases List.mem_cons.1 hj with rfl | hj
      · rfl
      · simpa using List.all_eq_true.1 hr j hj
    · simp at h
  · simp at h

mutual
theorem node_pieces (i : Int) : ∀ x : XNode, (∀ j ∈ x.ids, j = i) → Spec.pieces i x.node = x.pieces
  | .leaf j n, h => by
    have := h j (by simp [XNode.ids])
    subst this
    rfl
  | .coll k u ms, h => by
    simp only [XNode.node, Spec.pieces, XNode.pieces]
    rw [nodeL_pieces i ms h]
theorem nodeL_pieces (i : Int) : ∀ xs : List XNode, (∀ j ∈ idsL xs, j = i) →
    piecesL i (nodeL xs) = xpiecesL xs
  | [], _ => rfl
  | x :: xs, h => by
    simp only [nodeL, piecesL, xpiecesL]
    rw [node_pieces i x (fun j hj => h j (by simp [idsL, hj])),
      nodeL_pieces i xs (fun j hj => h j (by simp [idsL, hj]))]
end

/-- The list ends with the report `cur`. -/
def EndsWith (cur : Option Int) (r : List Node) : Prop :=
  ∀ i, cur = some i → ∃ a ms, r = a ++ [.report i ms]

theorem addToLast_append (n : Node) (a : List Node) (i : Int) (ms : List Node) :
    addToLast n (a ++ [.report i ms]) = a ++ [.report i (ms ++ [n])] := by
  induction a with
  | nil => rfl
  | cons x a ih =>
    cases a with
    | nil => cases x <;> simp [addToLast]
    | cons y a => simp only [List.cons_append] at ih ⊢; rw [addToLast, ih]; simp

theorem leaf_single (i : Int) (n : Node) : (XNode.leaf i n).single = some i := by
  simp [XNode.single, XNode.ids]

mutual
theorem reportInsert_pieces (id : Int) : ∀ x : XNode, x.single = none →
    Spec.pieces id (reportInsert x) = x.pieces
  | .leaf j n, h => by rw [leaf_single] at h; simp at h
  | .coll k u ms, _ => by
    simp only [reportInsert, Spec.pieces, XNode.pieces]
    rw [insertL_pieces id ms [] none (by intro i hi; simp at hi)]
    simp [piecesL]
theorem insertL_pieces (id : Int) : ∀ (xs : List XNode) (r : List Node) (cur : Option Int),
    EndsWith cur r → piecesL id (insertL r cur xs) = piecesL id r ++ xpiecesL xs
  | [], r, cur, _ => by simp [insertL, xpiecesL]
  | x :: xs, r, cur, h => by
    rw [insertL, xpiecesL]
    cases hs : x.single with
    | some i =>
      simp only
      have hx := node_pieces i x (single_ids hs)
      split
      · rename_i hc
        obtain ⟨a, ms, rfl⟩ := h i hc
        rw [insertL_pieces id xs _ cur, addToLast_append]
        · simp [piecesL_append, piecesL, Spec.pieces, hx]
        · rw [addToLast_append]
          intro j hj
          rw [hc] at hj
          simp only [Option.some.injEq] at hj
          subst hj
          exact ⟨a, _, rfl⟩
      · rw [insertL_pieces id xs _ (some i)]
        · simp [piecesL_append, piecesL, Spec.pieces, hx]
        · intro j hj
          simp only [Option.some.injEq] at hj
          subst hj
          exact ⟨r, _, rfl⟩
    | none =>
      simp only
      rw [insertL_pieces id xs _ none (by intro j hj; simp at hj)]
      simp [piecesL_append, piecesL, reportInsert_pieces id x hs]
end

theorem ended_pieces (id : Int) (l : Level) : Spec.pieces id (ended l) = xpiecesL l.members := by
  rw [ended, Spec.pieces, insertL_pieces id _ _ _ (by intro i hi; simp at hi)]
  simp [piecesL]

/-! ## Levels -/

/-- Pieces of an open level. -/
def Level.pieces (l : Level) : List Piece :=
  (match l.head with
    | none => []
    | some (k, u) => [.enter k u]) ++ xpiecesL l.members

/-- Pieces of the open levels, innermost first. -/
def openPieces : List Level → List Piece
  | [] => []
  | l :: r => openPieces r ++ l.pieces

theorem openPieces_leave (p l : Level) (r : List Level) (k : PyVal) (u : Option PyVal)
    (hl : l.head = some (k, u)) :
    openPieces ({ p with members := p.members ++ [.coll k u l.members] } :: r) =
      openPieces (l :: p :: r) ++ [.leave] := by
  simp [openPieces, Level.pieces, xpiecesL_append, xpiecesL, XNode.pieces, hl]

/-- The open collections seen by the reader are the levels. -/
def Corr : List (Int × Bool) → List Level → Prop
  | [], [l] => l.head = none
  | (k, b) :: o, l :: r =>
    (∃ k' u, l.head = some (k', u) ∧ k'.toInt = k) ∧ b = !l.members.isEmpty ∧ Corr o r
  | _, _ => False

/-! ## Locals -/

/-- Index declarations: what the host has declared, what the extractor has collected, and what the
reader of `oneRange` has met. -/
def DeclRel (d : Decl) (t : List PyVal) (lo hi : Option PyVal) (single : Bool) (lo' hi' : Option Int) :
    Prop :=
  lo' = lo.map PyVal.toInt ∧ hi' = hi.map PyVal.toInt ∧ single = !t.isEmpty ∧
    match lo, hi with
    | some l, some h => t = [] ∧ d = ⟨[(l.toInt, h.toInt)], none, none⟩ ∧ sameSide l.toInt h.toInt = true
    | _, _ => d = ⟨t.map (fun v => (v.toInt, v.toInt)), lo', hi'⟩

theorem upTo_self (v : Int) : upTo v v = [v] := by
  have : (v - v + 1).toNat = 1 := by omega
  rw [upTo, this]
  simp

theorem upTo_full (page l h : Int) (hs : sameSide l h = true) :
    upTo (full page l) (full page h) = (upTo l h).map (full page) := by
  unfold sameSide at hs
  apply List.ext_getElem
  · simp only [upTo, List.length_map, List.length_range, full]
    by_cases h1 : l < 65536 <;> by_cases h2 : h < 65536 <;> simp [h1, h2] at hs ⊢
    · omega
  · intro k h1 h2
    have hk : (k : Int) < h - l + 1 := by simp [upTo] at h2; omega
    simp only [upTo, List.getElem_map, List.getElem_range]
    unfold full
    by_cases h3 : l < 65536 <;> by_cases h4 : h < 65536 <;> simp [h3, h4] at hs
    · rw [if_pos h3, if_pos (by omega)]; omega
    · rw [if_neg h3, if_neg (by omega)]

theorem rel_values {d : Decl} {t : List PyVal} {lo hi : Option PyVal} {s : Bool} {lo' hi' : Option Int}
    (h : DeclRel d t lo hi s lo' hi') (f : Int → Int)
    (hf : ∀ l h, sameSide l h = true → upTo (f l) (f h) = (upTo l h).map f) :
    d.values f = (expand lo hi t).map (fun u => f u.toInt) := by
  obtain ⟨-, -, -, h⟩ := h
  have hsingle : ∀ t : List PyVal, ∀ a b, (Decl.mk (t.map (fun v => (v.toInt, v.toInt))) a b).values f =
      t.map (fun u => f u.toInt) := by
    intro t a b
    simp only [Decl.values]
    induction t with
    | nil => rfl
    | cons v t ih => simp [upTo_self] at ih ⊢; exact ih
  cases lo with
  | none => simp only at h; rw [h, hsingle]; cases hi <;> rfl
  | some l =>
    cases hi with
    | none => simp only at h; rw [h, hsingle]; rfl
    | some h' =>
      obtain ⟨rfl, rfl, hs⟩ := h
      simp only [Decl.values, expand, List.flatMap_cons, List.flatMap_nil, List.append_nil, hf _ _ hs]
      simp only [List.map_map]
      rfl

theorem rel_one {d : Decl} {t : List PyVal} {lo hi : Option PyVal} {s : Bool} {lo' hi' : Option Int}
    (h : DeclRel d t lo hi s lo' hi') (v : PyVal) (hb : lo' = none ∨ hi' = none) :
    DeclRel (d.one v.toInt) (t ++ [v]) lo hi true lo' hi' := by
  obtain ⟨rfl, rfl, rfl, h⟩ := h
  refine ⟨rfl, rfl, by simp, ?_⟩
  cases lo with
  | none => simp only at h; subst h; cases hi <;> simp [Decl.one]
  | some l =>
    cases hi with
    | none => simp only at h; subst h; simp [Decl.one]
    | some h' => simp at hb

theorem rel_lo {d : Decl} {t : List PyVal} {lo hi : Option PyVal} {s : Bool} {lo' hi' : Option Int}
    (h : DeclRel d t lo hi s lo' hi') (v : PyVal) (hb : lo' = none ∨ hi' = none)
    (hs : s = false ∨ hi' = none) (hside : hi'.all (sameSide v.toInt) = true) :
    DeclRel (d.setLo v.toInt) t (some v) hi s (some v.toInt) hi' := by
  obtain ⟨rfl, rfl, rfl, h⟩ := h
  refine ⟨rfl, rfl, rfl, ?_⟩
  cases hi with
  | none => cases lo <;> (simp only at h; subst h; simp [Decl.setLo])
  | some h' =>
    cases lo with
    | some l => simp at hb
    | none =>
      simp only at h; subst h
      have ht : t = [] := by simpa using hs
      subst ht
      exact ⟨rfl, by simp [Decl.setLo], by simpa using hside⟩

theorem rel_hi {d : Decl} {t : List PyVal} {lo hi : Option PyVal} {s : Bool} {lo' hi' : Option Int}
    (h : DeclRel d t lo hi s lo' hi') (v : PyVal) (hb : lo' = none ∨ hi' = none)
    (hs : s = false ∨ lo' = none) (hside : lo'.all (sameSide · v.toInt) = true) :
    DeclRel (d.setHi v.toInt) t lo (some v) s lo' (some v.toInt) := by
  obtain ⟨rfl, rfl, rfl, h⟩ := h
  refine ⟨rfl, rfl, rfl, ?_⟩
  cases lo with
  | none => cases hi <;> (simp only at h; subst h; simp [Decl.setHi])
  | some l =>
    cases hi with
    | some h' => simp at hb
    | none =>
      simp only at h; subst h
      have ht : t = [] := by simpa using hs
      subst ht
      exact ⟨rfl, by simp [Decl.setHi], by simpa using hside⟩

theorem rel_init : DeclRel {} [] none none false none none := ⟨rfl, rfl, rfl, rfl⟩

/-- What was met since the last main item. -/
structure Met where
  single : Bool := false
  lo : Option Int := none
  hi : Option Int := none

/-- The extractor's state and the host's. -/
structure Sim (h : Host) (st : State) (ops : List (Int × Bool)) (mu ms md : Met) : Prop where
  g : ∀ c, (st.g c).toInt = h.g c
  usages : DeclRel h.usages st.usages (st.loc .usageMin) (st.loc .usageMax) mu.single mu.lo mu.hi
  strings : DeclRel h.strings st.strings (st.loc .strMin) (st.loc .strMax) ms.single ms.lo ms.hi
  desigs : DeclRel h.desigs st.desigs (st.loc .desigMin) (st.loc .desigMax) md.single md.lo md.hi
  named : st.inNamed = false
  levels : Corr ops (st.level :: st.stack)
  page : 0 ≤ h.g .usagePage
  size : 0 ≤ h.g .reportSize
  count : 0 ≤ h.g .reportCount
  pos : ∀ u ∈ st.usages, 0 ≤ u.toInt
  posLo : ∀ u, st.loc .usageMin = some u → 0 ≤ u.toInt

/-- The classes of usages, strings and designators. -/
abbrev uCls : Cls × Cls × Cls := (.usage, .usageMin, .usageMax)
abbrev sCls : Cls × Cls × Cls := (.strIndex, .strMin, .strMax)
abbrev dCls : Cls × Cls × Cls := (.desigIndex, .desigMin, .desigMax)

/-- The rest of the stream has at most one range of each sort for each main item. -/
structure Ranges (mu ms md : Met) (xs : List SItem) : Prop where
  usages : oneRange uCls mu.single mu.lo mu.hi xs = true
  strings : oneRange sCls ms.single ms.lo ms.hi xs = true
  desigs : oneRange dCls md.single md.lo md.hi xs = true

theorem made_unsigned {i : Item} (h : i.Made) (hc : i.cls.signed = false) : 0 ≤ i.ival := by
  rcases h.nonneg with h | h
  · rw [hc] at h; simp at h
  · exact h

theorem sim_other (reg : Registry) {h : Host} {st : State} {ops : List (Int × Bool)} {mu ms md : Met}
    {i : Item} {xs : List SItem} (S : Sim h st ops mu ms md) (R : Ranges mu ms md (i.key :: xs))
    (hk : i.cls.kind ≠ .main) (hm : i.Made) (hp : i.cls ≠ .push ∧ i.cls ≠ .pop) :
    ∃ st1 mu' ms' md', step reg st i = .ok st1 ∧ Sim (h.step .atMain i.key) st1 ops mu' ms' md' ∧
      Ranges mu' ms' md' xs ∧ st1.level = st.level ∧ st1.stack = st.stack ∧ st1.root = st.root := by
  obtain ⟨c, v⟩ := i
  obtain ⟨ru, rs, rd⟩ := R
  have hglob : c.kind = .global → c ≠ .push → c ≠ .pop →
      (h.step .atMain (Item.key ⟨c, v⟩)) = { h with g := fun c' => if c' = c then v.toInt else h.g c' } := by
    intro h1 h2 h3
    cases c <;> simp [Cls.kind] at h1 h2 h3 <;> rfl
  have hu := fun hs => made_unsigned hm hs
  have hval : Item.ival ⟨c, v⟩ = v.toInt := rfl
  simp only [hval] at hu
  by_cases hg : c.kind = .global
  · refine ⟨{ st with g := fun c' => if c' = c then v else st.g c' }, mu, ms, md, ?_, ?_, ?_, rfl, rfl, rfl⟩
    · unfold step; simp only [hg]
    · rw [hglob hg hp.1 hp.2]
      refine ⟨?_, S.usages, S.strings, S.desigs, S.named, S.levels, ?_, ?_, ?_, S.pos, S.posLo⟩
      · intro c'
        simp only
        split
        · rfl
        · exact S.g c'
      · simp only; split
        · rename_i he; exact hu (by rw [← he]; rfl)
        · exact S.page
      · simp only; split
        · rename_i he; exact hu (by rw [← he]; rfl)
        · exact S.size
      · simp only; split
        · rename_i he; exact hu (by rw [← he]; rfl)
        · exact S.count
    · cases c <;> simp [Cls.kind] at hg <;>
        exact ⟨by simpa [oneRange, Cls.kind] using ru, by simpa [oneRange, Cls.kind] using rs,
          by simpa [oneRange, Cls.kind] using rd⟩
  · have h0 : 0 ≤ v.toInt := hu (by cases c <;> simp [Cls.kind] at hk hg <;> rfl)
    cases c <;> simp [Cls.kind] at hk hg
    · -- usage
      simp [oneRange, Cls.kind] at ru rs rd
      refine ⟨_, { mu with single := true }, ms, md, rfl, ?_, ⟨ru.2, rs, rd⟩, rfl, rfl, rfl⟩
      refine ⟨S.g, rel_one S.usages v ru.1, S.strings, S.desigs, S.named, S.levels,
        S.page, S.size, S.count, ?_, S.posLo⟩
      intro u hu'
      simp at hu'
      rcases hu' with hu' | rfl
      · exact S.pos u hu'
      · exact h0
    · simp [oneRange, Cls.kind] at ru rs rd
      refine ⟨_, { mu with lo := some v.toInt }, ms, md, rfl, ?_, ⟨ru.2, rs, rd⟩, rfl, rfl, rfl⟩
      refine ⟨S.g, rel_lo S.usages v ru.1.1.1 ru.1.1.2 ru.1.2,
        S.strings, S.desigs, S.named, S.levels, S.page, S.size, S.count, S.pos, ?_⟩
      intro u hu'
      simp at hu'
      subst hu'
      exact h0
    · simp [oneRange, Cls.kind] at ru rs rd
      refine ⟨_, { mu with hi := some v.toInt }, ms, md, rfl, ?_, ⟨ru.2, rs, rd⟩, rfl, rfl, rfl⟩
      exact ⟨S.g, rel_hi S.usages v ru.1.1.1 ru.1.1.2 ru.1.2,
        S.strings, S.desigs, S.named, S.levels, S.page, S.size, S.count, S.pos, S.posLo⟩
    · simp [oneRange, Cls.kind] at ru rs rd
      refine ⟨_, mu, ms, { md with single := true }, rfl, ?_, ⟨ru, rs, rd.2⟩, rfl, rfl, rfl⟩
      exact ⟨S.g, S.usages, S.strings, rel_one S.desigs v rd.1, S.named, S.levels,
        S.page, S.size, S.count, S.pos, S.posLo⟩
    · simp [oneRange, Cls.kind] at ru rs rd
      refine ⟨_, mu, ms, { md with lo := some v.toInt }, rfl, ?_, ⟨ru, rs, rd.2⟩, rfl, rfl, rfl⟩
      exact ⟨S.g, S.usages, S.strings,
        rel_lo S.desigs v rd.1.1.1 rd.1.1.2 rd.1.2,
        S.named, S.levels, S.page, S.size, S.count, S.pos, S.posLo⟩
    · simp [oneRange, Cls.kind] at ru rs rd
      refine ⟨_, mu, ms, { md with hi := some v.toInt }, rfl, ?_, ⟨ru, rs, rd.2⟩, rfl, rfl, rfl⟩
      exact ⟨S.g, S.usages, S.strings,
        rel_hi S.desigs v rd.1.1.1 rd.1.1.2 rd.1.2,
        S.named, S.levels, S.page, S.size, S.count, S.pos, S.posLo⟩
    · simp [oneRange, Cls.kind] at ru rs rd
      refine ⟨_, mu, { ms with single := true }, md, rfl, ?_, ⟨ru, rs.2, rd⟩, rfl, rfl, rfl⟩
      exact ⟨S.g, S.usages, rel_one S.strings v rs.1, S.desigs, S.named, S.levels,
        S.page, S.size, S.count, S.pos, S.posLo⟩
    · simp [oneRange, Cls.kind] at ru rs rd
      refine ⟨_, mu, { ms with lo := some v.toInt }, md, rfl, ?_, ⟨ru, rs.2, rd⟩, rfl, rfl, rfl⟩
      exact ⟨S.g, S.usages,
        rel_lo S.strings v rs.1.1.1 rs.1.1.2 rs.1.2,
        S.desigs, S.named, S.levels, S.page, S.size, S.count, S.pos, S.posLo⟩
    · simp [oneRange, Cls.kind] at ru rs rd
      refine ⟨_, mu, { ms with hi := some v.toInt }, md, rfl, ?_, ⟨ru, rs.2, rd⟩, rfl, rfl, rfl⟩
      exact ⟨S.g, S.usages,
        rel_hi S.strings v rs.1.1.1 rs.1.1.2 rs.1.2,
        S.desigs, S.named, S.levels, S.page, S.size, S.count, S.pos, S.posLo⟩
    · simp [oneRange, Cls.kind] at ru rs rd
      refine ⟨_, mu, ms, md, rfl, ?_, ⟨ru, rs, rd⟩, rfl, rfl, rfl⟩
      exact ⟨S.g, S.usages, S.strings, S.desigs, S.named, S.levels, S.page, S.size, S.count, S.pos, S.posLo⟩

end Extractor
end Hrdc
