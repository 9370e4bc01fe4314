import Verif.Model.DumperTrace
import Verif.Props.Dumper
import Verif.Proofs.Legal
/-!
# Property C67: scripts are written completely or not at all
-/
namespace Hrdc
open Spec

namespace Dumper

/-- The result, when what was written before an exception does not matter. -/
def done : Text × Option PyErr → Except PyErr Text
  | (t, none) => .ok t
  | (_, some e) => .error e

theorem valueT_eq (reg : Registry) (ind : Nat) (v : Value) : value reg ind v = done (valueT reg ind v) := by
  unfold value valueT
  cases flagsShown v <;> rfl

theorem around_eq (a b : Text) (p : Text × Option PyErr) : done (around a p b) = match done p with
    | .error e => .error e
    | .ok t => .ok (a ++ t ++ b) := by
  obtain ⟨t, o⟩ := p
  cases o <;> rfl

mutual
theorem nodeT_eq (reg : Registry) : ∀ (n : Node) (ind : Nat), node reg ind n = done (nodeT reg ind n)
  | .value v, ind => by rw [node, nodeT]; exact valueT_eq reg ind v
  | .align w b, ind => by simp [node, nodeT, done]
  | .padding w s, ind => by simp [node, nodeT, done]
  | .report id ms, ind => by
    rw [node, nodeT, around_eq, nodesT_eq reg ms (ind + 1)]
    cases done (nodesT reg (ind + 1) ms) <;> rfl
  | .top ms, ind => by
    rw [node, nodeT, around_eq, nodesT_eq reg ms (ind + 1)]
    cases done (nodesT reg (ind + 1) ms) <;> rfl
  | .coll k u ms, ind => by
    rw [node, nodeT, around_eq, nodesT_eq reg ms (ind + 1)]
    cases done (nodesT reg (ind + 1) ms) <;> rfl
theorem nodesT_eq (reg : Registry) : ∀ (ns : List Node) (ind : Nat), nodes reg ind ns = done (nodesT reg ind ns)
  | [], ind => by simp [nodes, nodesT, done]
  | n :: ns, ind => by
    rw [nodes, nodesT, nodeT_eq reg n ind, nodesT_eq reg ns ind]
    obtain ⟨a, o⟩ := nodeT reg ind n
    cases o with
    | some e => rfl
    | none =>
      obtain ⟨b, p⟩ := nodesT reg ind ns
      cases p <;> rfl
end

theorem flags_raise (v : Value) : (∃ e, flagsShown v = .error e) ↔ v.flags.toInt ≠ 2 ∧ arrayLegal v.namedArray = false := by
  have h := Streamer.array_legal v.namedArray
  unfold flagsShown
  by_cases hf : v.flags.toInt = 2
  · simp [hf]
  · rw [if_neg hf]
    cases ht : truthOpt v.namedArray with
    | error e =>
      rw [ht] at h
      have : ¬ arrayLegal v.namedArray = true := fun h' => by simpa using h.2 h'
      simp [hf, this]
    | ok b =>
      rw [ht] at h
      simp [h.1 ⟨b, rfl⟩]

/-- A value the test of its flags raises for. -/
def Bad (t : Tok) : Prop := ∃ v, t = .leaf (.value v) ∧ v.flags.toInt ≠ 2 ∧ arrayLegal v.namedArray = false

theorem around_raise (a b : Text) (p : Text × Option PyErr) :
    (∃ e, (around a p b).2 = some e) ↔ ∃ e, p.2 = some e := by
  obtain ⟨t, o⟩ := p
  cases o <;> simp [around]

mutual
theorem node_raise (reg : Registry) : ∀ (n : Node) (ind : Nat), (∃ e, (nodeT reg ind n).2 = some e) ↔
    ∃ t ∈ tokens n, Bad t
  | .value v, ind => by
    rw [nodeT, valueT]
    have h := flags_raise v
    simp only [tokens, List.mem_singleton, exists_eq_left, Bad, Tok.leaf.injEq, Leaf.value.injEq, exists_eq_left']
    rw [← h]
    cases flagsShown v <;> simp
  | .align w b, ind => by simp [nodeT, tokens, Bad]
  | .padding w s, ind => by simp [nodeT, tokens, Bad]
  | .report id ms, ind => by
    rw [nodeT, around_raise, nodes_raise reg ms]
    simp [tokens, Bad]
  | .top ms, ind => by
    rw [nodeT, around_raise, nodes_raise reg ms]
    simp [tokens]
  | .coll k u ms, ind => by
    rw [nodeT, around_raise, nodes_raise reg ms]
    simp [tokens, Bad]
theorem nodes_raise (reg : Registry) : ∀ (ns : List Node) (ind : Nat), (∃ e, (nodesT reg ind ns).2 = some e) ↔
    ∃ t ∈ tokensL ns, Bad t
  | [], ind => by simp [nodesT, tokensL]
  | n :: ns, ind => by
    have h1 := node_raise reg n ind
    have h2 := nodes_raise reg ns ind
    rw [nodesT]
    have hor : (∃ t ∈ tokensL (n :: ns), Bad t) ↔ (∃ t ∈ tokens n, Bad t) ∨ ∃ t ∈ tokensL ns, Bad t := by
      simp only [tokensL, List.mem_append]
      exact ⟨fun ⟨t, h, b⟩ => h.elim (fun h => .inl ⟨t, h, b⟩) (fun h => .inr ⟨t, h, b⟩),
        fun h => h.elim (fun ⟨t, h, b⟩ => ⟨t, .inl h, b⟩) (fun ⟨t, h, b⟩ => ⟨t, .inr h, b⟩)⟩
    rw [hor, ← h1, ← h2]
    cases hn : nodeT reg ind n with
    | mk a o => cases o <;> simp
end

end Dumper

/-- **C67.** Dumping a descriptor raises exactly when some value has an inverted usage range as named array and
flags other than Variable. -/
theorem C67_dump_raises_iff (reg : Registry) (n : Node) : (∃ e, Dumper.dump reg n = .error e) ↔
    ∃ v, Leaf.value v ∈ leaves n ∧ v.flags.toInt ≠ 2 ∧ arrayLegal v.namedArray = false := by
  rw [Dumper.dump, Dumper.nodeT_eq]
  have h := Dumper.node_raise reg n 0
  have hd : (∃ e, Dumper.done (Dumper.nodeT reg 0 n) = .error e) ↔ ∃ e, (Dumper.nodeT reg 0 n).2 = some e := by
    obtain ⟨t, o⟩ := Dumper.nodeT reg 0 n
    cases o <;> simp [Dumper.done]
  rw [hd, h]
  constructor
  · rintro ⟨_, ht, v, rfl, hb⟩
    exact ⟨v, mem_leaves.2 ht, hb⟩
  · rintro ⟨v, hv, hb⟩
    exact ⟨_, mem_leaves.1 hv, v, rfl, hb⟩

/-- **C67.** A descriptor whose values come from the constructor is dumped, completely. -/
theorem C67_dump (reg : Registry) (n : Node) (hm : TreeMade n) :
    ∃ t, Dumper.nodeT reg 0 n = (t, none) ∧ Dumper.dump reg n = .ok t := by
  cases hn : Dumper.nodeT reg 0 n with
  | mk t o =>
    cases o with
    | none => exact ⟨t, rfl, by rw [Dumper.dump, Dumper.nodeT_eq, hn]; rfl⟩
    | some e =>
      exfalso
      obtain ⟨v, hv, -, hb⟩ := (C67_dump_raises_iff reg n).1 ⟨e, by rw [Dumper.dump, Dumper.nodeT_eq, hn]; rfl⟩
      obtain ⟨b, hb', -⟩ := (hm v hv).facts
      rw [(Streamer.array_legal _).1 ⟨b, hb'⟩] at hb
      simp at hb

namespace Extractor

/-- Following the messages does not change the result. -/
theorem trace_snd (reg : Registry) (rest : Text) (xs : List Item) : ∀ st, (trace reg rest st xs).2 = runFrom reg st xs := by
  induction xs with
  | nil => intro st; rfl
  | cons i xs ih =>
    intro st
    rw [trace, runFrom]
    cases step reg st i with
    | error e => rfl
    | ok st' => exact ih st'

end Extractor

/-- **C67 (partial).** The decompiler, from its arguments: an exception and nothing of the script written, or the
complete script and no exception.  Messages are apart. -/
theorem C67_decompiler_partial (reg : Registry) (uni : Parser.Uni) (decode : List UInt8 → Option Text) (rest : Text)
    (name : Text) (c : Command.Channel) (content : List UInt8) :
    (∃ p e, Command.decompile reg uni decode rest name c content = ⟨p, [], some e⟩ ∧
      Command.decompiler reg uni decode name c content = .error e) ∨
    ∃ p t, Command.decompile reg uni decode rest name c content = ⟨p, t, none⟩ ∧
      Command.decompiler reg uni decode name c content = .ok t := by
  unfold Command.decompile Command.decompiler
  cases Command.formatByName name with
  | error e => exact .inl ⟨_, e, rfl, rfl⟩
  | ok f =>
    simp only
    cases Command.input decode c f content with
    | error e => exact .inl ⟨_, e, rfl, rfl⟩
    | ok d =>
      simp only [Decompiler.main, Extractor.trace_snd]
      have hread := deliver_read f reg uni d
      cases hx : Extractor.runFrom reg {} (Formatter.deliver f reg uni d).1 with
      | error e => exact .inl ⟨_, e, rfl, rfl⟩
      | ok st =>
        cases (Formatter.deliver f reg uni d).2 with
        | some e => exact .inl ⟨_, e, rfl, rfl⟩
        | none =>
          simp only
          cases hr : st.root with
          | none => exact .inl ⟨_, _, rfl, rfl⟩
          | some n =>
            right
            have hn : Extractor.extract reg (Formatter.deliver f reg uni d).1 = .ok n := by
              unfold Extractor.extract
              rw [hx]
              simp only [hr]
            obtain ⟨t, h1, h2⟩ := C67_dump reg n (by
              intro v hv
              have := extract_from (fun i hi => (hread i hi).1) hn _ (mem_leaves.1 hv)
              exact this.made)
            refine ⟨(Extractor.trace reg rest {} (Formatter.deliver f reg uni d).1).1, t, ?_, h2⟩
            simp only [h1]

/-- The first and last lines of every script. -/
def scriptHead : Text := tx "from hrdc.usage import *\nfrom hrdc.descriptor import *\n\ndescriptor = "

/-- See `scriptHead`. -/
def scriptFoot : Text := tx "\nif __name__ == \"__main__\":\n    compile_main(descriptor)\n"

/-- **C67 (partial).** What the decompiler writes to a file is nothing, and an exception is raised, or starts and
ends as a script does, and none is. -/
theorem C67_whole_partial (reg : Registry) (uni : Parser.Uni) (decode : List UInt8 → Option Text) (rest : Text)
    (name : Text) (c : Command.Channel) (content : List UInt8) :
    let r := Command.decompile reg uni decode rest name c content
    (r.output .file = [] ∧ ∃ e, r.err = some e) ∨
    ∃ body, r.output .file = scriptHead ++ body ++ scriptFoot ∧ r.err = none := by
  intro r
  rcases C67_decompiler_partial reg uni decode rest name c content with ⟨p, e, h, -⟩ | ⟨p, t, h, h2⟩
  · exact .inl ⟨by simp only [r, h]; rfl, e, by simp only [r, h]⟩
  · right
    have ho : r.output .file = t ∧ r.err = none := by
      simp only [r, h]
      exact ⟨rfl, trivial⟩
    rw [ho.1, ho.2]
    unfold Command.decompiler at h2
    split at h2
    · simp at h2
    · split at h2
      · simp at h2
      · rename_i f _ _ d _
        unfold Decompiler.main at h2
        cases hx : Extractor.runFrom reg {} (Formatter.deliver f reg uni d).1 with
        | error e => rw [hx] at h2; simp at h2
        | ok st =>
          rw [hx] at h2
          cases hd : (Formatter.deliver f reg uni d).2 with
          | some e => rw [hd] at h2; simp at h2
          | none =>
            rw [hd] at h2
            simp only at h2
            cases hr : st.root with
            | none => rw [hr] at h2; simp at h2
            | some n =>
              rw [hr] at h2
              simp only at h2
              have hn : Extractor.extract reg (Formatter.deliver f reg uni d).1 = .ok n := by
                unfold Extractor.extract
                rw [hx]
                simp only [hr]
              obtain ⟨ms, rfl⟩ := ended_root hn
              rw [Dumper.dump, Dumper.node] at h2
              split at h2
              · simp at h2
              · rename_i x hx
                simp only [Except.ok.injEq] at h2
                refine ⟨tx "TopLevel(\n" ++ x ++ tx ")\n", ?_, rfl⟩
                rw [← h2]
                have e1 : Dumper.head 0 = scriptHead := by simp [Dumper.head, scriptHead]
                have e2 : Dumper.indent 0 = [] := by simp [Dumper.indent]
                have e3 : Dumper.foot 0 = tx ")\n" ++ scriptFoot := by
                  simp only [Dumper.foot, e2, scriptFoot]
                  decide +kernel
                rw [e1, e2, e3]
                simp only [List.append_assoc, List.nil_append]

/-- Values the constructor does not return make the dumper stop inside the element. -/
example : let v := { mk (axis 0x10030) with flags := .int 0, namedArray := some (.range ⟨.int 9, .int 3⟩) }
    Dumper.nodeT [] 0 (.value v) = (tx "Value(Value.Input, 0x10030, 8", some .value) := by decide +kernel

example : TreeMade sampleTree := sampleTree_ok.2.1

end Hrdc
