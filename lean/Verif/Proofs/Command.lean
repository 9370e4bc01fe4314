import Verif.Model.Command
import Verif.Proofs.Exact
import Verif.Proofs.Legal
import Verif.Proofs.Hid
import Verif.Props.Formats
import Verif.Props.Passes5
/-!
# Commands item by item
-/
namespace Hrdc
open Spec

namespace Formatter

/-- What stands in the way of the item after the first `k`, if anything. -/
def Stopped (l : List Item) (k : Nat) : Option PyErr → Prop
  | none => k = l.length
  | some e => ∃ i, l[k]? = some i ∧ i.bytes = .error e

theorem writeBinary_spec (l : List Item) :
    ∃ k, binary (l.take k) = .ok (writeBinary l).1 ∧ Stopped l k (writeBinary l).2 := by
  induction l with
  | nil => exact ⟨0, rfl, rfl⟩
  | cons i l ih =>
    obtain ⟨k, h1, h2⟩ := ih
    cases hb : i.bytes with
    | error e => exact ⟨0, by simp [writeBinary, hb, binary], by simp [writeBinary, hb, Stopped]⟩
    | ok b =>
      refine ⟨k + 1, ?_, ?_⟩
      · simp [writeBinary, hb, binary, h1]
      · simp only [writeBinary, hb]
        revert h2
        cases (writeBinary l).2 <;> simp [Stopped]

theorem writeHex_spec (l : List Item) :
    ∃ k, hex (l.take k) = .ok (writeHex l).1 ∧ Stopped l k (writeHex l).2 := by
  induction l with
  | nil => exact ⟨0, rfl, rfl⟩
  | cons i l ih =>
    obtain ⟨k, h1, h2⟩ := ih
    cases hb : i.bytes with
    | error e => exact ⟨0, by simp [writeHex, hb, hex], by simp [writeHex, hb, Stopped]⟩
    | ok b =>
      refine ⟨k + 1, ?_, ?_⟩
      · simp [writeHex, hb, hex, h1]
      · simp only [writeHex, hb]
        revert h2
        cases (writeHex l).2 <;> simp [Stopped]

theorem writeCode_spec (l : List Item) : ∀ ind,
    ∃ k, codeFrom ind (l.take k) = .ok (writeCode ind l).1 ∧ Stopped l k (writeCode ind l).2 := by
  induction l with
  | nil => exact fun _ => ⟨0, rfl, rfl⟩
  | cons i l ih =>
    intro ind
    obtain ⟨k, h1, h2⟩ := ih (indentAfter (indentBefore ind i) i)
    cases hb : i.bytes with
    | error e => exact ⟨0, by simp [writeCode, hb, codeFrom], by simp [writeCode, hb, Stopped]⟩
    | ok b =>
      refine ⟨k + 1, ?_, ?_⟩
      · simp [writeCode, hb, codeFrom, h1]
      · simp only [writeCode, hb]
        revert h2
        cases (writeCode (indentAfter (indentBefore ind i) i) l).2 <;> simp [Stopped]

theorem write_spec (f : Fmt) (l : List Item) :
    ∃ k, render f (l.take k) = .ok (write f l).1 ∧ Stopped l k (write f l).2 := by
  cases f with
  | binary => obtain ⟨k, h1, h2⟩ := writeBinary_spec l; exact ⟨k, by simp [render, write, h1, Except.map], h2⟩
  | hex => obtain ⟨k, h1, h2⟩ := writeHex_spec l; exact ⟨k, by simp [render, write, h1, Except.map], h2⟩
  | code => obtain ⟨k, h1, h2⟩ := writeCode_spec l 0; exact ⟨k, by simp [render, write, code, h1, Except.map], h2⟩

theorem binary_mem {l : List Item} {i : Item} {e : PyErr} (hi : i ∈ l) (he : i.bytes = .error e) :
    ∃ e', binary l = .error e' := by
  induction l with
  | nil => simp at hi
  | cons j l ih =>
    unfold binary
    cases hj : j.bytes with
    | error e' => exact ⟨e', rfl⟩
    | ok b =>
      rcases List.mem_cons.1 hi with rfl | hi
      · rw [he] at hj; simp at hj
      · obtain ⟨e', h⟩ := ih hi
        exact ⟨e', by rw [h]⟩

theorem hex_mem {l : List Item} {i : Item} {e : PyErr} (hi : i ∈ l) (he : i.bytes = .error e) :
    ∃ e', hex l = .error e' := by
  induction l with
  | nil => simp at hi
  | cons j l ih =>
    unfold hex
    cases hj : j.bytes with
    | error e' => exact ⟨e', rfl⟩
    | ok b =>
      rcases List.mem_cons.1 hi with rfl | hi
      · rw [he] at hj; simp at hj
      · obtain ⟨e', h⟩ := ih hi
        exact ⟨e', by rw [h]⟩

theorem code_mem {i : Item} {e : PyErr} (he : i.bytes = .error e) (l : List Item) : ∀ ind, i ∈ l →
    ∃ e', codeFrom ind l = .error e' := by
  induction l with
  | nil => simp
  | cons j l ih =>
    intro ind hi
    unfold codeFrom
    cases hj : j.bytes with
    | error e' => exact ⟨e', rfl⟩
    | ok b =>
      rcases List.mem_cons.1 hi with rfl | hi
      · rw [he] at hj; simp at hj
      · obtain ⟨e', h⟩ := ih (indentAfter (indentBefore ind j) j) hi
        exact ⟨e', by simp only [h]⟩

theorem render_mem (f : Fmt) {l : List Item} {i : Item} {e : PyErr} (hi : i ∈ l) (he : i.bytes = .error e) :
    ∃ e', render f l = .error e' := by
  cases f with
  | binary => obtain ⟨e', h⟩ := binary_mem hi he; exact ⟨e', by simp [render, h, Except.map]⟩
  | hex => obtain ⟨e', h⟩ := hex_mem hi he; exact ⟨e', by simp [render, h, Except.map]⟩
  | code => obtain ⟨e', h⟩ := code_mem he l 0 hi; exact ⟨e', by simp [render, code, h, Except.map]⟩

theorem write_ok_iff (f : Fmt) (l : List Item) (d : Doc) : write f l = (d, none) ↔ render f l = .ok d := by
  obtain ⟨k, h1, h2⟩ := write_spec f l
  constructor
  · intro h
    rw [h] at h1 h2
    rw [show k = l.length from h2, List.take_length] at h1
    exact h1
  · intro h
    cases he : (write f l).2 with
    | none =>
      rw [he] at h2
      rw [show k = l.length from h2, List.take_length, h] at h1
      simp only [Except.ok.injEq] at h1
      exact Prod.ext h1.symm he
    | some e =>
      rw [he] at h2
      obtain ⟨i, hi, hb⟩ := h2
      obtain ⟨e', h'⟩ := render_mem f (List.mem_of_getElem? hi) hb
      rw [h'] at h
      simp at h

end Formatter

namespace Streamer

/-- The result of a run that raised nothing. -/
def Tr.res {α : Type} (x : Tr α) : Option (α × List Item) :=
  match x with
  | (l, .ok a) => some (a, l)
  | (_, .error _) => none

theorem Tr.res_bind {α β : Type} (x : Tr α) (f : α → Tr β) :
    (x.bind f).res = x.res.bind (fun p => ((f p.1).res).map (fun q => (q.1, p.2 ++ q.2))) := by
  obtain ⟨l, r⟩ := x
  cases r with
  | error e => rfl
  | ok a =>
    simp only [Tr.bind, Tr.res, Option.bind_some]
    cases hf : f a with
    | mk l' r' => cases r' <;> rfl

theorem res_pure {α : Type} (x : Except PyErr α) : Tr.res ([], x) = x.toOption.map (fun a => (a, [])) := by
  cases x <;> rfl

theorem res_ok {α : Type} (a : α) : Tr.res ([], .ok a) = some (a, []) := rfl

theorem emitT_res (reg : Registry) (cs : List (Cls × PyVal)) :
    (emitT reg cs).res = (emit reg cs).toOption.map (fun l => ((), l)) := by
  induction cs with
  | nil => rfl
  | cons c cs ih =>
    obtain ⟨c, v⟩ := c
    unfold emitT emit
    cases Item.new reg c v with
    | error e => rfl
    | ok i =>
      simp only
      revert ih
      cases hT : emitT reg cs with
      | mk l r =>
        cases r with
        | error e => cases emit reg cs <;> simp [Tr.res, Except.toOption]
        | ok u =>
          cases emit reg cs with
          | error e => simp [Tr.res, Except.toOption]
          | ok l' => simp [Tr.res, Except.toOption]

theorem emit_append (reg : Registry) (a b : List (Cls × PyVal)) :
    (emit reg (a ++ b)).toOption =
      (emit reg a).toOption.bind (fun x => (emit reg b).toOption.map (fun y => x ++ y)) := by
  induction a with
  | nil => simp [emit, Except.toOption]
  | cons c a ih =>
    obtain ⟨c, v⟩ := c
    simp only [List.cons_append, emit]
    cases Item.new reg c v with
    | error e => rfl
    | ok i =>
      simp only
      revert ih
      cases emit reg (a ++ b) <;> cases emit reg a <;> cases emit reg b <;> simp [Except.toOption]

theorem addPadT_res (reg : Registry) (st : State) (w : Way) (pad : Int) :
    (addPadT reg st w pad).res = (addPad reg st w pad).toOption := by
  unfold addPadT addPad
  split
  · simp only [Tr.res_bind, emitT_res, res_pure]
    cases emit reg [(Cls.reportCount, .int 1), (.reportSize, .int pad)] with
    | error e => rfl
    | ok a =>
      cases bump st w pad with
      | error e => rfl
      | ok st' =>
        cases emit reg [(w.cls, .int 3)] with
        | error e => rfl
        | ok b => simp [Except.toOption]
  · rfl

theorem attrCalls_eq (reg : Registry) (v : Value) (named : Bool) :
    attrCalls reg v named = usageCalls v ++ otherCalls reg v named := by
  unfold attrCalls usageCalls otherCalls
  cases named <;> cases v.namedArray <;> simp only [List.append_assoc] <;> rfl

theorem valueT_res (reg : Registry) (st : State) (v : Value) :
    (valueT reg st v).res = (value reg st v).toOption := by
  unfold valueT value
  simp only [Tr.res_bind, res_pure, attrCalls_eq]
  cases padFor st v.way v.alignment 0 with
  | error e => rfl
  | ok pad =>
    simp only [Except.toOption, Option.map_some, Option.bind_some, addPadT_res]
    cases addPad reg st v.way pad with
    | error e => rfl
    | ok p =>
      obtain ⟨st1, a⟩ := p
      simp only [Except.toOption, Option.bind_some]
      cases hc : constFlag v.flags with
      | true =>
        simp only [if_true, Tr.res_bind, emitT_res, res_pure, fieldT, List.nil_append, Bool.not_true, Bool.and_false,
          Bool.false_and, Bool.false_eq_true, if_false, List.append_nil]
        cases truthOpt v.namedArray with
        | error e =>
          simp only [Except.toOption, Option.map_none]
          cases emit reg [(Cls.reportCount, .int v.count), (.reportSize, .int v.size)] with
          | error e => rfl
          | ok b =>
            cases bump st1 v.way v.size with
            | error e => rfl
            | ok st2 => cases emit reg [(v.way.cls, v.flags)] <;> rfl
        | ok named =>
          cases emit reg [(Cls.reportCount, .int v.count), (.reportSize, .int v.size)] with
          | error e => rfl
          | ok b =>
            cases bump st1 v.way v.size with
            | error e => rfl
            | ok st2 =>
              cases emit reg [(v.way.cls, v.flags)] with
              | error e => rfl
              | ok c => simp [Except.toOption]
      | false =>
        simp only [Bool.false_eq_true, if_false, Tr.res_bind, emitT_res, res_pure, fieldT, Bool.not_false, Bool.and_true]
        cases hn : truthOpt v.namedArray with
        | error e =>
          simp only [Except.toOption, Option.map_none]
          cases emit reg (usageCalls v) <;> rfl
        | ok named =>
          have h1 := emit_append reg (usageCalls v ++ otherCalls reg v named) [(Cls.reportCount, .int v.count), (.reportSize, .int v.size)]
          have h2 := emit_append reg (usageCalls v) (otherCalls reg v named)
          have h3 := emit_append reg [(v.way.cls, v.flags)] (if named && usageGiven v.usage then [(.endCollection, .int 0)] else [])
          rw [h2] at h1
          clear h2 hn hc
          simp only [Except.toOption, Option.map_some, Option.bind_some]
          generalize emit reg (usageCalls v ++ otherCalls reg v named ++ [(Cls.reportCount, .int v.count), (.reportSize, .int v.size)]) = e1 at h1 ⊢
          generalize emit reg ([(v.way.cls, v.flags)] ++ (if named && usageGiven v.usage then [(Cls.endCollection, .int 0)] else [])) = e2 at h3 ⊢
          generalize emit reg (usageCalls v) = x1 at h1 ⊢
          generalize emit reg (otherCalls reg v named) = x2 at h1 ⊢
          generalize emit reg [(Cls.reportCount, .int v.count), (.reportSize, .int v.size)] = x3 at h1 ⊢
          generalize emit reg [(v.way.cls, v.flags)] = x4 at h3 ⊢
          generalize emit reg (if (named && usageGiven v.usage) = true then [(Cls.endCollection, .int 0)] else []) = x5 at h3 ⊢
          generalize bump st1 v.way v.size = x6
          cases x1 <;> cases x2 <;> cases x3 <;> cases e1 <;> simp only [Except.toOption, Option.bind_some, Option.bind_none, Option.map_some, Option.map_none, Option.some.injEq, reduceCtorEq] at h1 <;> (try rfl) <;>
          cases x6 <;> cases x4 <;> cases x5 <;> cases e2 <;> simp only [Except.toOption, Option.bind_some, Option.bind_none, Option.map_some, Option.map_none, Option.some.injEq, reduceCtorEq] at h3 ⊢ <;> (try rfl) <;> simp_all

mutual
theorem nodeT_res (reg : Registry) (st : State) : ∀ n : Node, (nodeT reg st n).res = (node reg st n).toOption
  | .value v => by rw [nodeT, node, valueT_res]
  | .align w b => by
    rw [nodeT, node, Tr.res_bind, res_pure]
    cases padFor st w b 0 with
    | error e => rfl
    | ok pad =>
      simp only [Except.toOption, Option.map_some, Option.bind_some, addPadT_res]
      cases addPad reg st w pad <;> simp [Except.toOption]
  | .padding w s => by rw [nodeT, node, addPadT_res]
  | .report id ms => by
    rw [nodeT, node, Tr.res_bind, emitT_res]
    cases emit reg (if id ≠ 0 then [(.reportID, .int id)] else []) with
    | error e => rfl
    | ok a =>
      simp only [Except.toOption, Option.map_some, Option.bind_some, nodesT_res reg { st with id := id } ms]
      cases nodes reg { st with id := id } ms <;> rfl
  | .top ms => by rw [nodeT, node, nodesT_res]
  | .coll kind usage ms => by
    cases usage with
    | none => rfl
    | some u =>
      rw [nodeT, node]
      simp only [Tr.res_bind, emitT_res, nodesT_res reg st ms, res_ok]
      cases emit reg [(.usage, u), (.collection, kind)] with
      | error e => rfl
      | ok a =>
        cases nodes reg st ms with
        | error e => rfl
        | ok p =>
          cases emit reg [(.endCollection, .int 0)] with
          | error e => rfl
          | ok c => simp [Except.toOption]
theorem nodesT_res (reg : Registry) (st : State) : ∀ ns : List Node, (nodesT reg st ns).res = (nodes reg st ns).toOption
  | [] => rfl
  | n :: ns => by
    rw [nodesT, nodes, Tr.res_bind, nodeT_res reg st n]
    cases node reg st n with
    | error e => rfl
    | ok p =>
      simp only [Except.toOption, Option.bind_some, nodesT_res reg p.1 ns]
      cases nodes reg p.1 ns <;> rfl
end

theorem trace_ok (reg : Registry) (n : Node) (l : List Item) : trace reg n = (l, none) ↔ compile reg n = .ok l := by
  unfold trace compile
  have h := nodeT_res reg {} n
  revert h
  cases hT : nodeT reg {} n with
  | mk l' r =>
    cases r with
    | error e => cases node reg {} n <;> simp [Tr.res, Except.toOption]
    | ok a =>
      cases node reg {} n with
      | error e => simp [Tr.res, Except.toOption]
      | ok p =>
        simp only [Tr.res, Except.toOption, Option.some.injEq]
        rintro rfl
        simp

/-! ## Token by token -/

theorem Tr.bind_assoc {α β γ : Type} (x : Tr α) (f : α → Tr β) (g : β → Tr γ) :
    (x.bind f).bind g = x.bind (fun a => (f a).bind g) := by
  obtain ⟨l, r⟩ := x
  cases r with
  | error e => rfl
  | ok a =>
    simp only [Tr.bind]
    cases hf : f a with
    | mk l' r' =>
      cases r' with
      | error e => rfl
      | ok b => simp [List.append_assoc]

theorem Tr.pure_bind {α β : Type} (a : α) (f : α → Tr β) : Tr.bind ([], .ok a) f = f a := by
  simp [Tr.bind]

theorem Tr.bind_pure {α : Type} (x : Tr α) : (x.bind fun a => ([], .ok a)) = x := by
  obtain ⟨l, r⟩ := x
  cases r <;> simp [Tr.bind]

theorem Tr.bind_ok {α β : Type} {x : Tr α} {f : α → Tr β} {a : α} {l : List Item} (h : x.res = some (a, l)) :
    x.bind f = (l ++ (f a).1, (f a).2) := by
  obtain ⟨l', r⟩ := x
  cases r with
  | error e => simp [Tr.res] at h
  | ok b =>
    simp only [Tr.res, Option.some.injEq, Prod.mk.injEq] at h
    obtain ⟨rfl, rfl⟩ := h
    rfl

/-- What the streamer appends at a token. -/
def tokT (reg : Registry) (st : State) : Tok → Tr State
  | .report id =>
    (emitT reg (if id ≠ 0 then [(.reportID, .int id)] else [])).bind fun _ => ([], .ok { st with id := id })
  | .endReport => ([], .ok st)
  | .enter kind usage =>
    match usage with
    | none => ([], .error .type)
    | some u => (emitT reg [(.usage, u), (.collection, kind)]).bind fun _ => ([], .ok st)
  | .leave => (emitT reg [(.endCollection, .int 0)]).bind fun _ => ([], .ok st)
  | .leaf (.value v) => valueT reg st v
  | .leaf (.align w b) => Tr.bind ([], padFor st w b 0) fun pad => addPadT reg st w pad
  | .leaf (.padding w s) => addPadT reg st w s

/-- What the streamer appends on a list of tokens. -/
def toksT (reg : Registry) (st : State) : List Tok → Tr State
  | [] => ([], .ok st)
  | t :: ts => (tokT reg st t).bind fun st1 => toksT reg st1 ts

theorem toksT_append (reg : Registry) (xs ys : List Tok) : ∀ st,
    toksT reg st (xs ++ ys) = (toksT reg st xs).bind fun st1 => toksT reg st1 ys := by
  induction xs with
  | nil => intro st; simp [toksT, Tr.pure_bind]
  | cons x xs ih => intro st; simp only [List.cons_append, toksT, Tr.bind_assoc, ih]

mutual
theorem nodeT_toks (reg : Registry) (st : State) : ∀ n : Node, nodeT reg st n = toksT reg st (tokens n)
  | .value v => by rw [tokens, toksT]; exact (Tr.bind_pure _).symm
  | .align w b => by rw [tokens, toksT]; exact (Tr.bind_pure _).symm
  | .padding w s => by rw [tokens, toksT]; exact (Tr.bind_pure _).symm
  | .report id ms => by
    rw [tokens, nodeT, List.cons_append, toksT, tokT, Tr.bind_assoc]
    simp only [Tr.pure_bind, toksT_append, ← nodesT_toks reg { st with id := id } ms]
    simp only [toksT, tokT, Tr.pure_bind, Tr.bind_pure]
  | .top ms => by rw [tokens, nodeT, nodesT_toks reg st ms]
  | .coll k u ms => by
    cases u with
    | none => rw [tokens, List.cons_append, toksT]; rfl
    | some u =>
      rw [tokens, List.cons_append, toksT, nodeT, tokT, Tr.bind_assoc]
      simp only [Tr.pure_bind, toksT_append, ← nodesT_toks reg st ms]
      simp only [toksT, tokT, Tr.bind_pure]
theorem nodesT_toks (reg : Registry) (st : State) : ∀ ns : List Node, nodesT reg st ns = toksT reg st (tokensL ns)
  | [] => rfl
  | n :: ns => by
    rw [tokensL, nodesT, toksT_append, nodeT_toks reg st n]
    congr 1
    funext st1
    exact nodesT_toks reg st1 ns
end

theorem tokT_res (reg : Registry) (st : State) (t : Tok) : (tokT reg st t).res = (tok reg st t).toOption := by
  cases t with
  | report id =>
    rw [tokT, tok, Tr.res_bind, emitT_res]
    cases emit reg (if id ≠ 0 then [(.reportID, .int id)] else []) <;> simp [Except.toOption, res_ok]
  | endReport => rfl
  | enter k u =>
    cases u with
    | none => rfl
    | some u =>
      rw [tokT, tok, Tr.res_bind, emitT_res]
      cases emit reg [(.usage, u), (.collection, k)] <;> simp [Except.toOption, res_ok]
  | leave =>
    rw [tokT, tok, Tr.res_bind, emitT_res]
    cases emit reg [(.endCollection, .int 0)] <;> simp [Except.toOption, res_ok]
  | leaf x =>
    cases x with
    | value v => exact valueT_res reg st v
    | align w b => exact nodeT_res reg st (.align w b)
    | padding w s => exact nodeT_res reg st (.padding w s)

theorem toksT_res (reg : Registry) (ts : List Tok) : ∀ st, (toksT reg st ts).res = (toks reg st ts).toOption := by
  induction ts with
  | nil => intro st; rfl
  | cons t ts ih =>
    intro st
    rw [toksT, toks, Tr.res_bind, tokT_res]
    cases tok reg st t with
    | error e => rfl
    | ok p =>
      simp only [Except.toOption, Option.bind_some, ih]
      cases toks reg p.1 ts <;> rfl

/-- Every exception comes from a token that is refused after others were streamed. -/
theorem toks_split (reg : Registry) (ts : List Tok) : ∀ st, (∀ p, toks reg st ts ≠ .ok p) →
    ∃ a t r st' is, ts = a ++ t :: r ∧ toks reg st a = .ok (st', is) ∧ ∀ p, tok reg st' t ≠ .ok p := by
  induction ts with
  | nil => intro st h; exact absurd rfl (h (st, []))
  | cons t ts ih =>
    intro st h
    cases ht : tok reg st t with
    | error e => exact ⟨[], t, ts, st, [], rfl, rfl, by simp [ht]⟩
    | ok p =>
      obtain ⟨st1, a1⟩ := p
      obtain ⟨a, t', r, st', is, h1, h2, h3⟩ := ih st1 (by
        intro p hp
        exact h (p.1, a1 ++ p.2) (by simp [toks, ht, hp]))
      exact ⟨t :: a, t', r, st', a1 ++ is, by rw [h1]; rfl, by simp [toks, ht, h2], h3⟩

theorem trace_split {reg : Registry} {n : Node} (h : ∀ l, compile reg n ≠ .ok l) :
    ∃ a t r st is, tokens n = a ++ t :: r ∧ toks reg {} a = .ok (st, is) ∧ (∀ p, tok reg st t ≠ .ok p) ∧
      (trace reg n).1 = is ++ (tokT reg st t).1 := by
  have h' : ∀ p, toks reg {} (tokens n) ≠ .ok p := by
    intro p hp
    refine h p.2 ?_
    rw [compile, node_toks, hp]
  obtain ⟨a, t, r, st, is, h1, h2, h3⟩ := toks_split reg (tokens n) {} h'
  refine ⟨a, t, r, st, is, h1, h2, h3, ?_⟩
  have hr : (toksT reg {} a).res = some (st, is) := by rw [toksT_res, h2]; rfl
  have ht : ∃ e, (tokT reg st t).2 = .error e := by
    have := tokT_res reg st t
    cases he : (tokT reg st t).2 with
    | error e => exact ⟨e, rfl⟩
    | ok st2 =>
      rw [show tokT reg st t = ((tokT reg st t).1, .ok st2) by rw [← he]] at this
      cases hk : tok reg st t with
      | ok p => exact absurd hk (h3 p)
      | error e => rw [hk] at this; simp [Tr.res, Except.toOption] at this
  obtain ⟨e, he⟩ := ht
  have : nodeT reg {} n = (is ++ (tokT reg st t).1, .error e) := by
    rw [nodeT_toks, h1, toksT_append, Tr.bind_ok hr, toksT]
    have hb : ∀ f : State → Tr State, (tokT reg st t).bind f = ((tokT reg st t).1, .error e) := by
      intro f
      rw [show tokT reg st t = ((tokT reg st t).1, .error e) by rw [← he]]
      rfl
    rw [hb]
  simp [trace, this]

theorem Tr.bind_all {α β : Type} {P : Item → Prop} {x : Tr α} {f : α → Tr β} (hx : ∀ i ∈ x.1, P i)
    (hf : ∀ a, ∀ i ∈ (f a).1, P i) : ∀ i ∈ (x.bind f).1, P i := by
  obtain ⟨l, r⟩ := x
  cases r with
  | error e => exact hx
  | ok a =>
    intro i hi
    rcases List.mem_append.1 hi with hi | hi
    · exact hx i hi
    · exact hf a i hi

theorem emitT_made (reg : Registry) (cs : List (Cls × PyVal)) : ∀ i ∈ (emitT reg cs).1, i.Made := by
  induction cs with
  | nil => simp [emitT]
  | cons c cs ih =>
    obtain ⟨c, v⟩ := c
    unfold emitT
    cases hi : Item.new reg c v with
    | error e => simp
    | ok i =>
      intro x hx
      rcases List.mem_cons.1 hx with rfl | hx
      · exact ⟨reg, v, by rw [(new_cls hi).1]; exact hi⟩
      · exact ih x hx

theorem addPadT_made (reg : Registry) (st : State) (w : Way) (pad : Int) : ∀ i ∈ (addPadT reg st w pad).1, i.Made := by
  unfold addPadT
  split
  · exact Tr.bind_all (emitT_made _ _) fun _ => Tr.bind_all (by simp) fun _ => Tr.bind_all (emitT_made _ _) (by simp)
  · simp

theorem valueT_made (reg : Registry) (st : State) (v : Value) : ∀ i ∈ (valueT reg st v).1, i.Made := by
  have hf : ∀ st, ∀ i ∈ (fieldT reg st v).1, i.Made := fun st =>
    Tr.bind_all (emitT_made _ _) fun _ => Tr.bind_all (by simp) fun _ => Tr.bind_all (emitT_made _ _) (by simp)
  unfold valueT
  refine Tr.bind_all (by simp) fun pad => Tr.bind_all (addPadT_made _ _ _ _) fun st1 => ?_
  split
  · exact Tr.bind_all (hf _) fun _ => Tr.bind_all (by simp) (by simp)
  · exact Tr.bind_all (emitT_made _ _) fun _ => Tr.bind_all (by simp) fun _ => Tr.bind_all (emitT_made _ _) fun _ =>
      Tr.bind_all (hf _) fun _ => Tr.bind_all (emitT_made _ _) (by simp)

theorem tokT_made (reg : Registry) (st : State) (t : Tok) : ∀ i ∈ (tokT reg st t).1, i.Made := by
  cases t with
  | report id => exact Tr.bind_all (emitT_made _ _) (by simp)
  | endReport => simp [tokT]
  | enter k u =>
    cases u with
    | none => simp [tokT]
    | some u => exact Tr.bind_all (emitT_made _ _) (by simp)
  | leave => exact Tr.bind_all (emitT_made _ _) (by simp)
  | leaf x =>
    cases x with
    | value v => exact valueT_made reg st v
    | align w b => exact Tr.bind_all (by simp) fun _ => addPadT_made _ _ _ _
    | padding w s => exact addPadT_made _ _ _ _

theorem toksT_made (reg : Registry) (ts : List Tok) : ∀ st, ∀ i ∈ (toksT reg st ts).1, i.Made := by
  induction ts with
  | nil => simp [toksT]
  | cons t ts ih => exact fun st => Tr.bind_all (tokT_made _ _ _) ih

theorem trace_made (reg : Registry) (n : Node) : ∀ i ∈ (trace reg n).1, i.Made := by
  have := toksT_made reg (tokens n) {}
  rw [← nodeT_toks] at this
  unfold trace
  split <;> rename_i h <;> rw [h] at this <;> exact this

end Streamer

namespace Command

theorem stage_run (reg : Registry) (o : Bool) (l : List Item) :
    (stage reg o).run l = if o then Optimizer.optimize reg l else l := by
  cases o with
  | true => rfl
  | false => exact Pass.sink_run l

theorem stage_feed (reg : Registry) (o : Bool) (l : List Item) :
    ((stage reg o).feed (stage reg o).init l).2 ++ (stage reg o).fin ((stage reg o).feed (stage reg o).init l).1
      = if o then Optimizer.optimize reg l else l := by
  rw [← stage_run, Pass.run, Pass.runFrom_eq]

theorem sink_feed (reg : Registry) (l : List Item) : ((stage reg false).feed (stage reg false).init l).2 = l := by
  have : ∀ st (l : List Item), (Pass.sink.feed st l).2 = l := by
    intro st l
    induction l generalizing st with
    | nil => rfl
    | cons x l ih => simp only [Pass.feed, ih]; rfl
  exact this _ l

end Command
end Hrdc
