import Verif.Proofs.Command
import Verif.Proofs.Extract5
import Verif.Model.DumperTrace
/-!
# Property C69: grouping does not matter
-/
namespace Hrdc
open Spec

namespace Streamer

theorem trace_toks (reg : Registry) (n : Node) : trace reg n =
    match toksT reg {} (tokens n) with
    | (l, .ok _) => (l, none)
    | (l, .error e) => (l, some e) := by
  unfold trace
  rw [nodeT_toks]
  cases toksT reg {} (tokens n) with
  | mk l r => cases r <;> rfl

end Streamer

open Streamer

/-- **C69.** Descriptors with the same collections, reports and elements in the same order give the same items, and
the same exception, however they are grouped. -/
theorem C69_order (reg : Registry) (n m : Node) (h : tokens n = tokens m) :
    Streamer.trace reg n = Streamer.trace reg m ∧
    (∀ name c o, Command.compiler reg name c o n = Command.compiler reg name c o m) ∧
    ∀ uni code, Command.expected reg uni code n = Command.expected reg uni code m := by
  have ht : Streamer.trace reg n = Streamer.trace reg m := by rw [trace_toks, trace_toks, h]
  refine ⟨ht, fun name c o => ?_, fun uni code => ?_⟩
  · unfold Command.compiler
    rw [ht]
  · unfold Command.expected
    rw [ht]

/-- **C69.** A TopLevel among the members of a collection, report or TopLevel can be replaced by its members; an
empty one can be left out. -/
theorem C69_toplevel (reg : Registry) (a b c : List Node) :
    (∀ k u, Streamer.trace reg (.coll k u (a ++ [.top b] ++ c)) = Streamer.trace reg (.coll k u (a ++ b ++ c))) ∧
    (∀ i, Streamer.trace reg (.report i (a ++ [.top b] ++ c)) = Streamer.trace reg (.report i (a ++ b ++ c))) ∧
    Streamer.trace reg (.top (a ++ [.top b] ++ c)) = Streamer.trace reg (.top (a ++ b ++ c)) ∧
    (∀ n, Streamer.trace reg (.top [n]) = Streamer.trace reg n) := by
  refine ⟨fun k u => (C69_order reg _ _ ?_).1, fun i => (C69_order reg _ _ ?_).1, (C69_order reg _ _ ?_).1,
    fun n => (C69_order reg _ _ ?_).1⟩ <;> simp [tokens, tokensL, Extractor.tokensL_append]

/-- **C69.** Members are compiled in order: what the first ones give does not depend on those that follow, and if
they raise, the others do not matter. -/
theorem C69_front (reg : Registry) (a b : List Node) :
    (∃ l, (Streamer.trace reg (.top (a ++ b))).1 = (Streamer.trace reg (.top a)).1 ++ l) ∧
    (∀ e, (Streamer.trace reg (.top a)).2 = some e →
      Streamer.trace reg (.top (a ++ b)) = Streamer.trace reg (.top a)) := by
  have e1 : tokens (.top (a ++ b)) = tokensL a ++ tokensL b := by simp [tokens, Extractor.tokensL_append]
  have e2 : tokens (.top a) = tokensL a := by simp [tokens]
  rw [trace_toks, trace_toks, e1, e2, toksT_append]
  cases toksT reg {} (tokensL a) with
  | mk l r =>
    cases r with
    | error e => exact ⟨⟨[], by simp [Tr.bind]⟩, fun e' _ => rfl⟩
    | ok st =>
      simp only [Tr.bind]
      cases hb : toksT reg st (tokensL b) with
      | mk l' r' => cases r' <;> simp

/-- Two groupings of a collection of two elements, which compile. -/
example : let x := Node.padding .input 3
    let y := Node.align .output 1
    tokens (.coll (.int 1) (some (.int 0x10002)) [.top [x], .top [], y]) =
      tokens (.top [.coll (.int 1) (some (.int 0x10002)) [.top [.top [x, y]]]]) ∧
    ((Streamer.trace [] (.coll (.int 1) (some (.int 0x10002)) [.top [x], .top [], y])).2 = none ∧
    (Streamer.trace [] (.coll (.int 1) (some (.int 0x10002)) [.top [x], .top [], y])).1.length = 6) := by
  refine ⟨by simp [tokens, tokensL], ?_⟩
  decide +kernel

end Hrdc
