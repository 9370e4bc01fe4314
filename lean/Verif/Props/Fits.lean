import Verif.Proofs.Fits
import Verif.Props.Commands
/-!
# Property C64: optimizing does not make a descriptor unwritable
-/
namespace Hrdc
open Spec Optimizer

/-- **C64.** Any selection of passes, any registry: from items that can be written, and whose counts are at
most 2^32 less the number of data items, come items that can be written, in every format. -/
theorem C64_optimizer (reg : Registry) (min max : Int) (g : Formatter.Fmt) (xs : List Item) (b : List UInt8)
    (hm : ∀ i ∈ xs, i.Made) (hb : Formatter.binary xs = .ok b) (hc : CountsSmall (keys xs)) :
    ∃ d, Formatter.render g ((new reg min max Pass.sink).run xs) = .ok d := by
  obtain ⟨b', hb'⟩ := binary_of_fits (optimizer_made reg min max xs hm)
    (optimizer_small reg min max xs (small_of_binary hm hb) hc)
  exact render_of_binary g hb'

instance (ks : List SItem) : Decidable (CountsSmall ks) := by unfold CountsSmall; infer_instance

/-- Met by the buttons of a mouse, which are merged. -/
example : CountsSmall (keys mergeSample) ∧ (∃ b, Formatter.binary mergeSample = .ok b) ∧
    Formatter.binary (optimize [] mergeSample) ≠ Formatter.binary mergeSample :=
  ⟨by decide +kernel, ⟨_, rfl⟩, by decide +kernel⟩

/-- **C64.** `converter -O`: a document that is converted to binary without `-O` is converted with it, to every format. -/
theorem C64_convert (f g : Formatter.Fmt) (reg : Registry) (uni : Parser.Uni) (d : Formatter.Doc) (b : List UInt8)
    (ks : List SItem) (h : Formatter.convert f .binary reg uni d = .ok (.bytes b)) (hr : readAll b = some ks)
    (hc : CountsSmall ks) : ∃ d', Converter.optimized f g reg uni d = .ok d' := by
  have hm := (delivered_items f reg uni d).1
  rw [Formatter.convert] at h
  rw [Converter.optimized]
  cases hd : Formatter.deliver f reg uni d with
  | mk l e =>
    rw [hd] at h hm
    cases e with
    | some e => simp at h
    | none =>
      simp only [Formatter.render] at h
      cases hb : Formatter.binary l with
      | error e => rw [hb] at h; simp [Except.map] at h
      | ok b2 =>
        rw [hb] at h
        simp [Except.map] at h
        subst h
        rw [readAll_binary hm hb, Option.some.injEq] at hr
        subst hr
        exact C64_optimizer reg 0 100 g l b2 hm hb hc

/-- **C64.** `converter -O` on bytes, in terms of what a host reads from them. -/
theorem C64_convert_bytes (g : Formatter.Fmt) (reg : Registry) (uni : Parser.Uni) (b : List UInt8) (ks : List SItem)
    (hr : readAll b = some ks) (hz : ∀ k ∈ ks, ZeroOK k) (hc : CountsSmall ks) :
    ∃ d', Converter.optimized .binary g reg uni (.bytes b) = .ok d' := by
  have hp := (C08_parse_iff_hid reg b ks).2 ⟨hr, hz⟩
  obtain ⟨b', h1, h2, -, -⟩ := C10_convert_idempotent reg reg uni b hp.1
  exact C64_convert .binary g reg uni (.bytes b) b' ks h1 (by rw [h2, hr]) hc

/-- **C64.** `compile_main`: a descriptor compiled with `-N` is compiled without it. -/
theorem C64_compile (g : Formatter.Fmt) (reg : Registry) (n : Node) (b : List UInt8) (ks : List SItem)
    (h : Compiler.main reg .binary false n = .ok (.bytes b)) (hr : readAll b = some ks) (hc : CountsSmall ks) :
    ∃ d, Compiler.main reg g true n = .ok d := by
  rw [Compiler.main] at h ⊢
  cases hl : Streamer.compile reg n with
  | error e => rw [hl] at h; simp at h
  | ok l =>
    rw [hl] at h
    simp only [Formatter.render, Bool.false_eq_true, if_false] at h
    cases hb : Formatter.binary l with
    | error e => rw [hb] at h; simp [Except.map] at h
    | ok b2 =>
      rw [hb] at h
      simp [Except.map] at h
      subst h
      have hm := compile_made hl
      rw [readAll_binary hm hb, Option.some.injEq] at hr
      subst hr
      exact C64_optimizer reg 0 100 g l b2 hm hb hc

/-- Met by a descriptor of a mouse. -/
example : (readAll optBytes).any (fun ks => decide (∀ k ∈ ks, ZeroOK k) && decide (CountsSmall ks)) = true := by
  decide +kernel

/-- The bound cannot be raised by one: with two data items and a count of 2^32 - 1 nothing is written, in any
format, though without `-O` the bytes are copied. -/
theorem C64_overflow_breaks (uni : Parser.Uni) :
    let b : List UInt8 := [0x75, 1, 0x95, 1, 0x81, 2, 0x97, 0xff, 0xff, 0xff, 0xff, 0x81, 2]
    (∃ ks, readAll b = some ks ∧ (∀ k ∈ ks, ZeroOK k) ∧ ∀ k ∈ ks, k.1 = .reportCount → k.2 + dataCount ks ≤ 2 ^ 32 + 1) ∧
    Formatter.convert .binary .binary [] uni (.bytes b) = .ok (.bytes b) ∧
    ∀ g, Converter.optimized .binary g [] uni (.bytes b) = .error .struct := by
  refine ⟨⟨[(.reportSize, 1), (.reportCount, 1), (.input, 2), (.reportCount, 0xffffffff), (.input, 2)],
    by decide +kernel, by decide +kernel, by decide +kernel⟩, ?_, ?_⟩
  · rw [Formatter.convert, Formatter.deliver, Parser.blobParse, blobSteps_eq _ 20 _ _ (by decide)]
    decide +kernel
  · intro g
    rw [Converter.optimized, Formatter.deliver, Parser.blobParse, blobSteps_eq _ 20 _ _ (by decide)]
    cases g <;> decide +kernel

/-- An axis and an array of 2^32 - 1 of them compile with `-N` only. -/
theorem C64_overflow_tree_breaks :
    let n := app [.value (mk (axis 0x10030)), .value (mk { axis 0x10031 with count := 0xffffffff })]
    (Compiler.main [] .binary false n).toOption.isSome = true ∧
      ∀ g, Compiler.main [] g true n = .error .struct := by
  refine ⟨by decide +kernel, fun g => ?_⟩
  cases g <;> decide +kernel

/-- Met by a tree: `C64_compile`. -/
example : (match Compiler.main [] .binary false sampleTree with
    | .ok (.bytes b) => (readAll b).any (fun ks => decide (CountsSmall ks))
    | _ => false) = true := by decide +kernel

end Hrdc
