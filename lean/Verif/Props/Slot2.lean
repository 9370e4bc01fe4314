import Verif.Props.Slot
/-!
# C82, exactly

Where the numbers are after decompiling and compiling any stream with all collections closed, whatever is popped, misaligned,
buffered or in report 0, and when this is where they were.
-/
namespace Hrdc
open Spec Extractor Streamer

theorem recompiled_relaid (bs : List Block) : ∀ (c : Offsets) (nz : Int),
    slots (recompiled c nz bs) = relaid c nz (lumps bs) := by
  induction bs with
  | nil => intros; rfl
  | cons b bs ih =>
    intro c nz
    cases b with
    | enter k u =>
      rw [show lumps (.enter k u :: bs) = lumps bs from List.filterMap_cons_none rfl, recompiled, ← ih c nz]
      exact List.filterMap_cons_none rfl
    | leave =>
      rw [show lumps (.leave :: bs) = lumps bs from List.filterMap_cons_none rfl, recompiled, ← ih c nz]
      exact List.filterMap_cons_none rfl
    | pad w id n =>
      rw [show lumps (.pad w id n :: bs) = .pad w id n :: lumps bs from List.filterMap_cons_some rfl, recompiled, relaid,
        slots_append, slots_replicate _ _ _ rfl, ih]
    | value f =>
      rw [show lumps (.value f :: bs) = .fields f.way f.id f.attrs.size f.attrs.logMin f.attrs.logMax f.count :: lumps bs
        from List.filterMap_cons_some rfl, recompiled, relaid, slots_append, slots_append, slots_replicate _ _ _ rfl, ih]
      have hcomp : ∀ id, slots (f.compiled id) =
          List.replicate f.count (slotOf f.way id f.attrs.size f.attrs.logMin f.attrs.logMax) := by
        intro id
        unfold Fields.compiled
        split <;> rw [slots_fields]
      rw [hcomp]
      rfl

theorem relaid_of {reg reg' : Registry} {rule : PageRule} {xs : List Item} (hm : ∀ i ∈ xs, i.Made) (hu : KindsOf reg xs)
    (hc : complete (keys xs) = true) {t : Node} (ht : extract reg xs = .ok t) {items : List Item}
    (hi : compile reg' t = .ok items) : slots (meaning rule (keys items)) = relaid atStart 0 (elements (keys xs)) := by
  have hr := recompiled_of (reg' := reg') (rule := rule) hm hu
  cases hb : blocks (arrayUsage reg) (keys xs) with
  | error e => rw [hb] at hr; simp only at hr; rw [hr] at ht; simp at ht
  | ok bs =>
    rw [hb] at hr
    obtain ⟨t', h1, -, -, h3⟩ := hr
    rw [ht] at h1
    cases h1
    rw [h3 items hi, recompiled_relaid, blocks_slots hb hc]
    rfl

/-- **C82 (exact).** The bytes a document is compiled to after decompiling it, with or without the default optimization, have
the numbers at these places: what the decompiler reads (no Push or Pop), with report 0 in the report before, fields moved to
multiples of their size counted by elements. -/
theorem C82_exact (reg reg' : Registry) (rule : PageRule) (opt : Bool) (f : Formatter.Fmt) (uni : Parser.Uni)
    (d : Formatter.Doc) (t : Node) (b : List UInt8)
    (ht : extract reg (Formatter.deliver f reg uni d).1 = .ok t) (hb : Compiler.main reg' .binary opt t = .ok (.bytes b))
    (hc : complete (keys (Formatter.deliver f reg uni d).1) = true) :
    ∃ ks, readAll b = some ks ∧
      slots (meaning rule ks) = relaid atStart 0 (elements (keys (Formatter.deliver f reg uni d).1)) := by
  obtain ⟨ks, items, h1, h2, h3⟩ := bytes_frames hb
  refine ⟨ks, h1, ?_⟩
  rw [slots_of_frames (h3 rule)]
  exact relaid_of (fun i hi => (deliver_read f reg uni d i hi).2)
    (read_kinds (fun i hi => (deliver_read f reg uni d i hi).1)) hc ht h2

/-- **C82 (iff).** So the numbers are where they were exactly if this is where the document has them: a test on the document
alone, the same whether the result is optimized. -/
theorem C82_iff (reg reg' : Registry) (rule : PageRule) (opt : Bool) (f : Formatter.Fmt) (uni : Parser.Uni)
    (d : Formatter.Doc) (t : Node) (b : List UInt8) (ks : List SItem)
    (ht : extract reg (Formatter.deliver f reg uni d).1 = .ok t) (hb : Compiler.main reg' .binary opt t = .ok (.bytes b))
    (hk : readAll b = some ks) (hc : complete (keys (Formatter.deliver f reg uni d).1) = true) :
    slots (meaning rule ks) = slots (meaning rule (keys (Formatter.deliver f reg uni d).1)) ↔
      relaid atStart 0 (elements (keys (Formatter.deliver f reg uni d).1)) =
        slots (meaning rule (keys (Formatter.deliver f reg uni d).1)) := by
  obtain ⟨ks', h1, h2⟩ := C82_exact reg reg' rule opt f uni d t b ht hb hc
  rw [hk] at h1
  cases h1
  rw [h2]

/-- Everything restored by Pop is set again, report 0 is set first and buffered bytes are whole: the numbers stay although
`KeepsPlaces` fails in three ways. -/
def popItems : List Item :=
  build! [(.usage, 0x10002), (.collection, 1), (.reportID, 0), (.logMin, 0), (.logMax, 1), (.reportSize, 8), (.reportCount, 1),
    (.push, 0), (.reportSize, 16), (.pop, 0), (.reportSize, 8), (.usage, 0x10030), (.input, 2), (.reportCount, 4),
    (.usage, 0x10031), (.input, 258), (.reportCount, 1), (.usage, 0x10032), (.input, 2), (.endCollection, 0)]

example : popItems.length = 20 ∧ ¬ KeepsPlaces (keys popItems) ∧ complete (keys popItems) = true ∧
    (slots (meaning .atMain (keys popItems))).length = 6 ∧
    relaid atStart 0 (elements (keys popItems)) = slots (meaning .atMain (keys popItems)) ∧
    (match extract [] popItems with
      | .ok t => (Compiler.main [] .binary true t).toOption.isSome
      | .error _ => false) = true := by
  refine ⟨?_, ?_, ?_, ?_, ?_, ?_⟩ <;> decide +kernel

end Hrdc
