import Verif.Proofs.Sig
import Verif.Props.Fits
/-!
# Property C65: registered usages have no influence on bytes
-/
namespace Hrdc
open Spec

theorem drive_error_sig {p q : Pass} (hpq : Pass.Sim p q) (s t : List Item × Option PyErr)
    (h1 : s.1.map Item.sig = t.1.map Item.sig) (h2 : s.2 = t.2) :
    (Command.drive p (Formatter.write .code) s).2 = (Command.drive q (Formatter.write .code) t).2 := by
  have key : ∀ (p : Pass) (s : List Item × Option PyErr), (Command.drive p (Formatter.write .code) s).2 =
      (Command.drive p (fun l => ((), (Formatter.writeCode 0 l).2)) s).2 := by
    intro p s
    unfold Command.drive
    simp only [Formatter.write]
    cases (Formatter.writeCode 0 (p.feed p.init s.1).2).2 <;> cases s.2 <;> rfl
  rw [key, key, drive_sig hpq _ (fun a b h => by rw [code_error_sig a b 0 0 h]) s t h1 h2]

/-- **C65.** `converter`, with and without `-O`: whatever usages are registered, the same bytes or digits are
written, and the same exception is raised, if any. -/
theorem C65_convert (f g : Formatter.Fmt) (o : Bool) (reg reg' : Registry) (uni : Parser.Uni) (d : Formatter.Doc) :
    (g ≠ .code → Command.convert f g o reg uni d = Command.convert f g o reg' uni d) ∧
    (Command.convert f g o reg uni d).2 = (Command.convert f g o reg' uni d).2 := by
  have h := deliver_sig f reg reg' uni d
  have h1 : g ≠ .code → Command.convert f g o reg uni d = Command.convert f g o reg' uni d :=
    fun hg => drive_sig (stage_sim reg reg' o) _ (write_sig g hg) _ _ h.1 h.2
  refine ⟨h1, ?_⟩
  by_cases hg : g = .code
  · subst hg; exact drive_error_sig (stage_sim reg reg' o) _ _ h.1 h.2
  · rw [h1 hg]

/-- **C65.** `compile_main`, with and without `-N`. -/
theorem C65_compile (g : Formatter.Fmt) (o : Bool) (reg reg' : Registry) (n : Node) :
    (g ≠ .code → Command.compile reg g o n = Command.compile reg' g o n) ∧
    (Command.compile reg g o n).2 = (Command.compile reg' g o n).2 := by
  have h := Streamer.trace_sig reg reg' n
  have h1 : g ≠ .code → Command.compile reg g o n = Command.compile reg' g o n :=
    fun hg => drive_sig (stage_sim reg reg' o) _ (write_sig g hg) _ _ h.1 h.2
  refine ⟨h1, ?_⟩
  by_cases hg : g = .code
  · subst hg; exact drive_error_sig (stage_sim reg reg' o) _ _ h.1 h.2
  · rw [h1 hg]

/-- **C65.** `descriptor_expected` passes or fails, with the same exception, whatever usages are registered. -/
theorem C65_expected (reg reg' : Registry) (uni : Char → Bool) (code : Text) (n : Node) :
    Command.expected reg uni code n = Command.expected reg' uni code n := by
  have h := Streamer.trace_sig reg reg' n
  unfold Command.expected
  cases Parser.codeBlob uni code with
  | error e => rfl
  | ok b =>
    simp only
    rw [drive_sig (stage_sim reg reg' true) _ (fun a b' hab => compare_sig b a b' 0 hab) _ _ h.1 h.2]

/-- **C65.** Any selection of passes, and items that differ in names only: the values sent on are the same. -/
theorem C65_optimizer (reg reg' : Registry) (min max : Int) (xs ys : List Item)
    (h : xs.map Item.sig = ys.map Item.sig) :
    keys ((Optimizer.new reg min max Pass.sink).run xs) = keys ((Optimizer.new reg' min max Pass.sink).run ys) := by
  obtain ⟨S, a1, a2, a3⟩ := sim_new reg reg' min max
  have hf := Pass.feed_sim a2 xs ys _ _ a1 h
  have hr : ∀ (p : Pass) (zs : List Item), p.run zs = (p.feed p.init zs).2 ++ p.fin (p.feed p.init zs).1 :=
    fun p zs => by rw [Pass.run, Pass.runFrom_eq]
  have hs : ((Optimizer.new reg min max Pass.sink).run xs).map Item.sig =
      ((Optimizer.new reg' min max Pass.sink).run ys).map Item.sig := by
    rw [hr, hr, List.map_append, List.map_append, hf.2, a3 _ _ hf.1]
  have := congrArg (List.map (fun x : Cls × Int × Bool => (x.1, x.2.1))) hs
  rw [List.map_map, List.map_map] at this
  exact this

/-- Two registries under which the same bytes are listed with different names, and the optimizer keeps them. -/
example : let b : List UInt8 := [0x0b, 0x30, 0, 1, 0, 0xa1, 1, 0xc0]
    let reg : Registry := [{ name := chars "desktop.X", value := 0x10030 }]
    (Parser.blobParse [] b).1.map Item.sig = (Parser.blobParse reg b).1.map Item.sig ∧
    ((Parser.blobParse [] b).1.map Item.str ≠ (Parser.blobParse reg b).1.map Item.str) := by
  simp only [Parser.blobParse, blobSteps_eq _ 20 _ [0x0b, 0x30, 0, 1, 0, 0xa1, 1, 0xc0] (by decide)]
  decide +kernel

end Hrdc
