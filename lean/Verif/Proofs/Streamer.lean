import Verif.Model.Streamer
import Verif.Spec.Descriptor
import Verif.Proofs.RangeMerge
/-!
# The streamer, read from left to right
-/
namespace Hrdc
open Spec

namespace Streamer

/-- Constructor calls as the host sees them. -/
def ck (cs : List (Cls × PyVal)) : List SItem := cs.map (fun c => (c.1, c.2.toInt))

@[simp] theorem ck_nil : ck [] = [] := rfl
@[simp] theorem ck_cons (c : Cls × PyVal) (cs : List (Cls × PyVal)) :
    ck (c :: cs) = (c.1, c.2.toInt) :: ck cs := rfl
@[simp] theorem ck_append (a b : List (Cls × PyVal)) : ck (a ++ b) = ck a ++ ck b := by simp [ck]

theorem emit_cons_ok {reg : Registry} {c : Cls} {v : PyVal} {r : List (Cls × PyVal)} {is : List Item}
    (h : emit reg ((c, v) :: r) = .ok is) :
    ∃ i t, is = i :: t ∧ Item.new reg c v = .ok i ∧ emit reg r = .ok t := by
  simp only [emit] at h
  split at h
  · simp at h
  · rename_i i hi
    split at h
    · simp at h
    · rename_i t ht
      simp only [Except.ok.injEq] at h
      exact ⟨i, t, h.symm, hi, ht⟩

theorem emit_keys {reg : Registry} {cs : List (Cls × PyVal)} {is : List Item}
    (h : emit reg cs = .ok is) (hc : ∀ c ∈ cs, c.1 = .collection → 0 ≤ c.2.toInt) :
    keys is = ck cs := by
  induction cs generalizing is with
  | nil => simp only [emit, Except.ok.injEq] at h; subst h; rfl
  | cons c cs ih =>
    obtain ⟨c, v⟩ := c
    obtain ⟨i, t, rfl, hi, ht⟩ := emit_cons_ok h
    rw [keys_cons, ck_cons, ih ht (fun x hx => hc x (by simp [hx]))]
    congr 1
    exact Prod.ext (new_cls hi).1 (new_ival hi (fun he => hc (c, v) (by simp) he))

theorem emit_made {reg : Registry} {cs : List (Cls × PyVal)} {is : List Item}
    (h : emit reg cs = .ok is) : ∀ i ∈ is, i.Made := by
  induction cs generalizing is with
  | nil => simp only [emit, Except.ok.injEq] at h; subst h; simp
  | cons c cs ih =>
    obtain ⟨c, v⟩ := c
    obtain ⟨i, t, rfl, hi, ht⟩ := emit_cons_ok h
    intro x hx
    rcases List.mem_cons.1 hx with rfl | hx
    · exact ⟨reg, v, by rw [(new_cls hi).1]; exact hi⟩
    · exact ih ht x hx

/-- What the streamer does at a token. -/
def tok (reg : Registry) (st : State) : Tok → Except PyErr (State × List Item)
  | .report id =>
    match emit reg (if id ≠ 0 then [(.reportID, .int id)] else []) with
    | .error e => .error e
    | .ok a => .ok ({ st with id := id }, a)
  | .endReport => .ok (st, [])
  | .enter kind usage =>
    match usage with
    | none => .error .type
    | some u =>
      match emit reg [(.usage, u), (.collection, kind)] with
      | .error e => .error e
      | .ok a => .ok (st, a)
  | .leave =>
    match emit reg [(.endCollection, .int 0)] with
    | .error e => .error e
    | .ok a => .ok (st, a)
  | .leaf (.value v) => value reg st v
  | .leaf (.align w b) =>
    match padFor st w b 0 with
    | .error e => .error e
    | .ok pad => addPad reg st w pad
  | .leaf (.padding w s) => addPad reg st w s

/-- What the streamer does on a list of tokens. -/
def toks (reg : Registry) (st : State) : List Tok → Except PyErr (State × List Item)
  | [] => .ok (st, [])
  | t :: ts =>
    match tok reg st t with
    | .error e => .error e
    | .ok (st1, a) =>
      match toks reg st1 ts with
      | .error e => .error e
      | .ok (st2, b) => .ok (st2, a ++ b)

theorem toks_one (reg : Registry) (st : State) (t : Tok) : toks reg st [t] = tok reg st t := by
  simp only [toks]
  cases tok reg st t with
  | error e => rfl
  | ok p => simp

theorem toks_append (reg : Registry) (st : State) (xs ys : List Tok) :
    toks reg st (xs ++ ys) =
      match toks reg st xs with
      | .error e => .error e
      | .ok (st1, a) =>
        match toks reg st1 ys with
        | .error e => .error e
        | .ok (st2, b) => .ok (st2, a ++ b) := by
  induction xs generalizing st with
  | nil =>
    simp only [List.nil_append, toks]
    cases toks reg st ys with
    | error e => rfl
    | ok p => rfl
  | cons x xs ih =>
    simp only [List.cons_append, toks]
    cases tok reg st x with
    | error e => rfl
    | ok p =>
      simp only [ih]
      cases toks reg p.1 xs with
      | error e => rfl
      | ok q =>
        simp only
        cases toks reg q.1 ys with
        | error e => rfl
        | ok r => simp

mutual
theorem node_toks (reg : Registry) (st : State) : ∀ n : Node, node reg st n = toks reg st (tokens n)
  | .value v => by rw [tokens, toks_one]; rfl
  | .align w b => by rw [tokens, toks_one]; rfl
  | .padding w s => by rw [tokens, toks_one]; rfl
  | .report id ms => by
    rw [tokens, node, List.cons_append, toks, tok]
    cases emit reg (if id ≠ 0 then [(.reportID, .int id)] else []) with
    | error e => rfl
    | ok a =>
      simp only [toks_append, nodes_toks reg { st with id := id } ms]
      cases toks reg { st with id := id } (tokensL ms) with
      | error e => rfl
      | ok p => simp [toks, tok]
  | .top ms => by rw [tokens, node, nodes_toks reg st ms]
  | .coll k u ms => by
    rw [tokens, List.cons_append, toks]
    cases u with
    | none => simp only [node, tok]
    | some u =>
      simp only [node, tok]
      cases emit reg [(.usage, u), (.collection, k)] with
      | error e => rfl
      | ok a =>
        simp only [toks_append, nodes_toks reg st ms]
        cases toks reg st (tokensL ms) with
        | error e => rfl
        | ok p =>
          simp only [toks, tok]
          cases emit reg [(Cls.endCollection, PyVal.int 0)] with
          | error e => rfl
          | ok c => simp
theorem nodes_toks (reg : Registry) (st : State) : ∀ ns : List Node,
    nodes reg st ns = toks reg st (tokensL ns)
  | [] => rfl
  | n :: ns => by
    rw [tokensL, nodes, toks_append, node_toks reg st n]
    cases toks reg st (tokens n) with
    | error e => rfl
    | ok p => simp only [nodes_toks reg p.1 ns]; cases toks reg p.1 (tokensL ns) <;> rfl
end

theorem compile_toks {reg : Registry} {n : Node} {is : List Item} (h : compile reg n = .ok is) :
    ∃ st, toks reg {} (tokens n) = .ok (st, is) := by
  unfold compile at h
  rw [node_toks] at h
  split at h
  · rename_i st is' he
    simp only [Except.ok.injEq] at h
    subst h
    exact ⟨st, he⟩
  · simp at h

end Streamer

namespace Spec

/-- Pieces of a list of tokens. -/
def inScope (ids : List Int) : List Tok → List Piece
  | [] => []
  | .report i :: r => inScope (i :: ids) r
  | .endReport :: r => inScope ids.tail r
  | .enter k u :: r => .enter k u :: inScope ids r
  | .leave :: r => .leave :: inScope ids r
  | .leaf l :: r => .leaf (ids.headD 0) l :: inScope ids r

mutual
theorem inScope_tokens (ids : List Int) (rest : List Tok) : ∀ n : Node,
    inScope ids (tokens n ++ rest) = pieces (ids.headD 0) n ++ inScope ids rest
  | .value v => rfl
  | .align w b => rfl
  | .padding w s => rfl
  | .report i ms => by
    rw [tokens, pieces, List.cons_append, List.cons_append, inScope, List.append_assoc,
      inScope_tokensL (i :: ids) _ ms]
    rfl
  | .top ms => by rw [tokens, pieces, inScope_tokensL ids rest ms]
  | .coll k u ms => by
    rw [tokens, pieces, List.cons_append, List.cons_append, inScope, List.append_assoc,
      inScope_tokensL ids _ ms]
    simp [inScope]
theorem inScope_tokensL (ids : List Int) (rest : List Tok) : ∀ ns : List Node,
    inScope ids (tokensL ns ++ rest) = piecesL (ids.headD 0) ns ++ inScope ids rest
  | [] => rfl
  | n :: ns => by
    rw [tokensL, piecesL, List.append_assoc, inScope_tokens ids _ n, inScope_tokensL ids rest ns,
      List.append_assoc]
end

theorem pieces_eq (n : Node) : pieces 0 n = inScope [] (tokens n) := by
  have := inScope_tokens [] [] n
  simpa [inScope] using this.symm

end Spec
end Hrdc
