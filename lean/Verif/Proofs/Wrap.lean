import Verif.Proofs.Streamer
/-!
# Negative collection kinds

`Collection(-7)` to `Collection(-1)` are accepted: `_rev[int(value)]` (`item.py:222`) counts them from
the end.  A tree compiles to the items of the tree in which such kinds are counted from the start.
-/
namespace Hrdc
open Spec Item

/-- A kind from -7 to -1 counted from the start. -/
def wrapKind : PyVal → PyVal
  | .int i => if -7 ≤ i ∧ i < 0 then .int (i + 7) else .int i
  | k => k

/-- The kind of a token counted from the start. -/
def wrapTok : Tok → Tok
  | .enter k u => .enter (wrapKind k) u
  | t => t

mutual
/-- The kinds of a tree counted from the start. -/
def Node.wrapKinds : Node → Node
  | .value v => .value v
  | .align w b => .align w b
  | .padding w s => .padding w s
  | .report id ms => .report id (wrapKindsL ms)
  | .top ms => .top (wrapKindsL ms)
  | .coll k u ms => .coll (wrapKind k) u (wrapKindsL ms)
/-- The kinds of a list of trees counted from the start. -/
def wrapKindsL : List Node → List Node
  | [] => []
  | n :: ns => n.wrapKinds :: wrapKindsL ns
end

mutual
theorem tokens_wrap (n : Node) : tokens n.wrapKinds = (tokens n).map wrapTok := by
  cases n with
  | value v => rfl
  | align w b => rfl
  | padding w s => rfl
  | report i ms => simp [Node.wrapKinds, tokens, tokensL_wrap ms, wrapTok]
  | top ms => simp [Node.wrapKinds, tokens, tokensL_wrap ms]
  | coll k u ms => simp [Node.wrapKinds, tokens, tokensL_wrap ms, wrapTok]
theorem tokensL_wrap (ns : List Node) : tokensL (wrapKindsL ns) = (tokensL ns).map wrapTok := by
  cases ns with
  | nil => rfl
  | cons n ns => simp [wrapKindsL, tokensL, tokens_wrap n, tokensL_wrap ns]
end

theorem new_wrap (reg : Registry) (k : PyVal) : new reg .collection (wrapKind k) = new reg .collection k := by
  cases k with
  | int i =>
    simp only [wrapKind]
    split
    · rename_i h
      have hl : (collNames.length : Int) = 7 := by decide
      have e : collConst (i + 7) = collConst i := by
        simp only [collConst, hl]
        rw [if_neg (by omega : ¬ i + 7 < 0), if_pos h.2]
      simp only [new, hl, e]
      rw [if_pos (by omega), if_pos (by omega)]
    · rfl
  | _ => rfl

namespace Streamer

mutual
theorem node_wrap (reg : Registry) (st : State) (n : Node) : node reg st n.wrapKinds = node reg st n := by
  cases n with
  | value v => rfl
  | align w b => rfl
  | padding w s => rfl
  | report i ms => simp only [Node.wrapKinds, node, nodes_wrap reg _ ms]
  | top ms => simp only [Node.wrapKinds, node, nodes_wrap reg _ ms]
  | coll k u ms =>
    cases u with
    | none => rfl
    | some u => simp only [Node.wrapKinds, node, nodes_wrap reg _ ms, emit, new_wrap]
theorem nodes_wrap (reg : Registry) (st : State) (ns : List Node) :
    nodes reg st (wrapKindsL ns) = nodes reg st ns := by
  cases ns with
  | nil => rfl
  | cons n ns =>
    simp only [wrapKindsL, nodes, node_wrap reg st n]
    split
    · rfl
    · rename_i st1 a h
      rw [nodes_wrap reg st1 ns]
end

/-- Counting kinds from the start changes no item. -/
theorem compile_wrap (reg : Registry) (n : Node) : compile reg n.wrapKinds = compile reg n := by
  unfold compile; rw [node_wrap]

theorem wrapKind_nonneg {k : PyVal} (h : 0 ≤ k.toInt) : wrapKind k = k := by
  cases k with
  | int i => simp only [PyVal.toInt] at h; simp only [wrapKind]; rw [if_neg (by omega)]
  | _ => rfl

/-- The calls of an `enter` with the kind counted from the start. -/
theorem emit_wrap {reg : Registry} {u k : PyVal} {d : List Item}
    (h : emit reg [(.usage, u), (.collection, k)] = .ok d) :
    emit reg [(.usage, u), (.collection, wrapKind k)] = .ok d ∧ 0 ≤ (wrapKind k).toInt := by
  refine ⟨by simpa only [emit, new_wrap] using h, ?_⟩
  obtain ⟨i1, t1, -, -, h2⟩ := emit_cons_ok h
  obtain ⟨i2, t2, -, hj, -⟩ := emit_cons_ok h2
  have hl : (collNames.length : Int) = 7 := by decide
  cases k with
  | int i =>
    simp only [wrapKind]
    split
    · simp only [PyVal.toInt]; omega
    · rename_i hn
      simp only [PyVal.toInt]
      refine Decidable.byContradiction fun hneg => ?_
      have e : collConst i = .error .index := by
        simp only [collConst, hl]
        rw [if_pos (show i < 0 by omega), if_neg (show ¬ 0 ≤ i + 7 by omega)]
      simp only [new, hl, e] at hj
      rw [if_pos (show i < 7 by omega)] at hj
      simp at hj
  | _ =>
    simp only [wrapKind]
    refine Decidable.byContradiction fun hneg => ?_
    simp [new, baseInit, Cls.signed, hneg] at hj

theorem toks_kind {reg : Registry} (ts : List Tok) (st st' : State) (is : List Item)
    (h : toks reg st ts = .ok (st', is)) (k : PyVal) (u : Option PyVal) (hm : Tok.enter k u ∈ ts) :
    0 ≤ (wrapKind k).toInt := by
  induction ts generalizing st is with
  | nil => simp at hm
  | cons t ts ih =>
    simp only [toks] at h
    split at h
    · simp at h
    · rename_i st1 a ha
      split at h
      · simp at h
      · rename_i st2 b hb
        simp only [Except.ok.injEq, Prod.mk.injEq] at h
        rcases List.mem_cons.1 hm with rfl | hm
        · cases u with
          | none => simp [tok] at ha
          | some u =>
            simp only [tok] at ha
            split at ha
            · simp at ha
            · rename_i d hcc
              exact (emit_wrap hcc).2
        · obtain ⟨e1, e2⟩ := h
          subst e1
          exact ih st1 b hb hm

/-- The kinds of a tree that compiles are not negative when counted from the start. -/
theorem kinds_wrap {reg : Registry} {n : Node} {items : List Item} (h : compile reg n = .ok items)
    (k : PyVal) (u : Option PyVal) (hm : Tok.enter k u ∈ tokens n.wrapKinds) : 0 ≤ k.toInt := by
  obtain ⟨st, hst⟩ := compile_toks h
  rw [tokens_wrap] at hm
  obtain ⟨t, ht, e⟩ := List.mem_map.1 hm
  cases t <;> simp only [wrapTok, reduceCtorEq, Tok.enter.injEq] at e
  obtain ⟨rfl, rfl⟩ := e
  exact toks_kind _ _ _ _ hst _ _ ht

end Streamer
end Hrdc
