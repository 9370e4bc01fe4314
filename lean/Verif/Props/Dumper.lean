import Verif.Proofs.Read
import Verif.Proofs.Dumper2
import Verif.Proofs.Alike
import Verif.Props.Extract2
import Verif.Model.Decompiler
/-!
# C44: written scripts
-/
namespace Hrdc
open Spec Extractor
open Spec.Script (Env runScript Same isContainer Writable dump_rebuilt)

/-- A written script, run by Python, hands `compile_main` a descriptor that is the same and compiles to
the same bytes. -/
def Rebuilds (env : Env) (reg : Registry) (n : Node) (t : Text) : Prop :=
  ∃ m, runScript env t = some m ∧ Same n m ∧
    ∀ (reg' : Registry) (f : Formatter.Fmt) (opt : Bool), f ≠ .code →
      Compiler.main reg' f opt m = Compiler.main reg f opt n

/-- **C44 (partial).** The script written for a descriptor rebuilds it, and what it compiles to, optimized or
not, has the same bytes.  `Writable` asks that names of usages, flags, units and kinds are the ones of
the attributes they are written as.  Missing, and false of the code: see the `C44_*_breaks` below. -/
theorem C44_script_partial (env : Env) (reg : Registry) (n : Node) (hc : isContainer n = true)
    (hw : Writable env reg n) (hk : KindsOK n) :
    ∃ t, Dumper.dump reg n = .ok t ∧ Rebuilds env reg n t := by
  obtain ⟨t, m, h1, h2, h3⟩ := dump_rebuilt env reg n hc hw
  exact ⟨t, h1, m, h2, h3, fun reg' f opt hf => (same_bytes reg reg' h3 hk f hf opt).symm⟩

theorem ended_root {reg : Registry} {xs : List Item} {n : Node} (h : extract reg xs = .ok n) : ∃ ms, n = .top ms := by
  have hstep : ∀ (st st' : State) (i : Item), step reg st i = .ok st' →
      (∀ n, st.root = some n → ∃ ms, n = .top ms) → ∀ n, st'.root = some n → ∃ ms, n = .top ms := by
    intro st st' i hs h0
    have hnew : ∀ (s s' : State) a, s.addNew a = .ok s' → s'.root = s.root := by
      intro s s' a h
      unfold State.addNew at h
      split at h
      · simp at h
      · simp only [Except.ok.injEq] at h
        rw [← h]; rfl
    have hmany : ∀ as (s s' : State), s.addMany as = .ok s' → s'.root = s.root := by
      intro as
      induction as with
      | nil => intro s s' h; simp only [State.addMany, Except.ok.injEq] at h; rw [← h]
      | cons a as ih =>
        intro s s' h
        rw [State.addMany] at h
        split at h
        · simp at h
        · rename_i s1 h1
          rw [ih _ _ h, hnew _ _ _ h1]
    have hleave : ∀ (s s' : State) b, s.leave b = .ok s' → s'.root = s.root := by
      intro s s' b h
      unfold State.leave at h
      split at h
      · simp at h
      · split at h
        · simp at h
        · split at h <;> (simp only [Except.ok.injEq] at h; rw [← h])
    have hdata : ∀ (s s' : State), s.data reg i = .ok s' → s'.root = s.root := by
      intro s s' h
      unfold State.data at h
      split at h
      · split at h
        · simp at h
        · simp only [Except.ok.injEq] at h; rw [← h]; rfl
      · split at h
        · simp at h
        · split at h
          · simp at h
          · rename_i s1 hl
            split at h
            · rw [hnew _ _ _ h, hleave _ _ _ hl]
            · simp at h
        · split at h
          · exact hmany _ _ _ h
          · split at h
            · exact hnew _ _ _ h
            · exact hmany _ _ _ h
    unfold step at hs
    cases hk : i.cls.kind with
    | global =>
      rw [hk] at hs
      simp only [Except.ok.injEq] at hs
      rw [← hs]; exact h0
    | loc =>
      rw [hk] at hs
      simp only [Except.ok.injEq] at hs
      rw [← hs]
      split <;> exact h0
    | main =>
      rw [hk] at hs
      cases hc : i.cls <;> rw [hc] at hk hs <;> simp [Cls.kind] at hk <;> simp only at hs
      case collection =>
        simp only [Except.ok.injEq] at hs
        rw [← hs]; exact h0
      case endCollection =>
        split at hs
        · simp at hs
        · rename_i s hcl
          simp only [Except.ok.injEq] at hs
          rw [← hs]
          unfold State.close at hcl
          split at hcl
          · simp at hcl
          · rename_i s1 hs1
            have h1 : s1.root = st.root := by
              split at hs1
              · simp only [Except.ok.injEq] at hs1
                rw [← hs1]; rfl
              · rw [hleave _ _ _ hs1]; rfl
            simp only [Except.ok.injEq] at hcl
            rw [← hcl]
            split
            · intro n hn
              simp only [State.clear, Option.some.injEq] at hn
              exact ⟨_, hn.symm⟩
            · intro n hn
              exact h0 n (by rw [← h1]; exact hn)
      all_goals
        split at hs
        · simp at hs
        · rename_i s hs'
          simp only [Except.ok.injEq] at hs
          rw [← hs]
          intro n hn
          have := hdata _ _ hs'
          exact h0 n (by rw [← show s.root = st.root from this]; exact hn)
  have hrun : ∀ (xs : List Item) (st st' : State), runFrom reg st xs = .ok st' →
      (∀ n, st.root = some n → ∃ ms, n = .top ms) → ∀ n, st'.root = some n → ∃ ms, n = .top ms := by
    intro xs
    induction xs with
    | nil => intro st st' h; simp only [runFrom, Except.ok.injEq] at h; rw [h]; exact id
    | cons i xs ih =>
      intro st st' h h0
      rw [runFrom] at h
      split at h
      · simp at h
      · rename_i s hs
        exact ih s st' h (hstep st s i hs h0)
  unfold extract at h
  split at h
  · simp at h
  · rename_i st hr
    split at h
    · simp at h
    · rename_i m hm
      simp only [Except.ok.injEq] at h
      rw [← h]
      exact hrun xs {} st hr (by simp) m hm

/-- **C44 (partial), decompiled descriptors.** The script written for a decompiled descriptor rebuilds it.
`Expressible` is about the elements of the descriptor: kinds below 7, flags below 512, no usage 0 on a
value, none of the four misnamed usages, no unit 0xf011.  `Imported` holds of the registry once
`hrdc.usage` is imported. -/
theorem C44_decompiled_partial (reg : Registry) (hreg : Imported reg) (xs : List Item)
    (hx : ∀ i ∈ xs, ReadItem reg i) (n : Node) (h : extract reg xs = .ok n)
    (he : ∀ t ∈ tokens n, Expressible t) :
    ∃ t, Dumper.dump reg n = .ok t ∧ Rebuilds UsageTable.lookup reg n t := by
  have hf := extract_from hx h
  obtain ⟨ms, rfl⟩ := ended_root h
  refine C44_script_partial _ reg _ rfl (writable_of_tokens hreg _ hf he) ?_
  intro k u hku
  rcases (hf _ hku).1 with ⟨j, -, rfl⟩ | ⟨j, hj, rfl⟩
  · exact Int.natCast_nonneg j
  · show 0 ≤ j
    omega

/-- The command on a document that can be read. -/
theorem main_delivered (reg : Registry) (f : Formatter.Fmt) (uni : Parser.Uni) (d : Formatter.Doc) (xs : List Item)
    (hd : Formatter.deliver f reg uni d = (xs, none)) : Decompiler.main reg f uni d = match extract reg xs with
      | .error e => .error e
      | .ok n => Dumper.dump reg n := by
  unfold Decompiler.main extract
  rw [hd]
  cases runFrom reg {} xs with
  | error e => rfl
  | ok st => cases st with | mk g u s d l k v m root => cases root <;> rfl

/-- **C44 (partial), the command.** Decompiling a document that can be read, in any format, writes a script
that rebuilds the descriptor. -/
theorem C44_command_partial (reg : Registry) (hreg : Imported reg) (f : Formatter.Fmt) (uni : Parser.Uni)
    (d : Formatter.Doc) (xs : List Item) (hd : Formatter.deliver f reg uni d = (xs, none)) (n : Node)
    (h : extract reg xs = .ok n) (he : ∀ t ∈ tokens n, Expressible t) :
    ∃ t, Decompiler.main reg f uni d = .ok t ∧ Rebuilds UsageTable.lookup reg n t := by
  have hx : ∀ i ∈ xs, ReadItem reg i := by
    have := deliver_read f reg uni d
    rw [hd] at this
    exact fun i hi => (this i hi).1
  obtain ⟨t, h1, h2⟩ := C44_decompiled_partial reg hreg xs hx n h he
  refine ⟨t, ?_, h2⟩
  rw [main_delivered reg f uni d xs hd, h]
  exact h1

/-- **C44, C42 (partial), there and back.** Decompile a document, run the script and compile without
optimization: the bytes have the meaning of the document.  The conditions are those of C42 and
`Expressible`. -/
theorem C44_pipeline_partial (reg reg' : Registry) (hreg : Imported reg) (rule : PageRule) (f : Formatter.Fmt)
    (uni : Parser.Uni) (d : Formatter.Doc) (xs : List Item) (hd : Formatter.deliver f reg uni d = (xs, none))
    (he : Extractable (keys xs)) (hz : ∀ i ∈ xs, i.cls = .reportID → i.ival ≠ 0)
    (hb : ∀ r ∈ recs .atMain {} (keys xs), r.cls.isData = true → r.isConst = false → r.val / 256 % 2 = 1 →
      r.g .reportCount = 1)
    (ha : aligned (meaning .atMain (keys xs)) = true)
    (hexp : ∀ n, extract reg xs = .ok n → ∀ t ∈ tokens n, Expressible t) :
    ∃ t m, Decompiler.main reg f uni d = .ok t ∧ runScript UsageTable.lookup t = some m ∧
      ∀ b, Compiler.main reg' .binary false m = .ok (.bytes b) →
        ∃ ks, readAll b = some ks ∧ meaning rule ks = meaning .atMain (keys xs) := by
  have hm : ∀ i ∈ xs, i.Made := by
    have := deliver_read f reg uni d
    rw [hd] at this
    exact fun i hi => (this i hi).2
  obtain ⟨n, h1, h2⟩ := C42_decompile_partial reg reg rule xs hm he hz hb ha
  obtain ⟨t, h3, m, h4, -, h5⟩ := C44_command_partial reg hreg f uni d xs hd n h1 (hexp n h1)
  refine ⟨t, m, h3, h4, ?_⟩
  intro b hbm
  rw [h5 reg' .binary false (by simp)] at hbm
  unfold Compiler.main at hbm
  split at hbm
  · simp at hbm
  · rename_i items hi
    simp only [Bool.false_eq_true, if_false, Formatter.render] at hbm
    cases hbi : Formatter.binary items with
    | error e => rw [hbi] at hbm; simp [Except.map] at hbm
    | ok b' =>
      rw [hbi] at hbm
      simp [Except.map] at hbm
      subst hbm
      exact ⟨_, readAll_binary (compile_made hi) hbi, h2 items hi⟩

/-! ## Cases -/

instance (t : Tok) : Decidable (Expressible t) :=
  match t with
  | .leaf (.value v) =>
    decidable_of_iff ((∀ u ∈ v.usage.toList, u.toInt ∉ 0 :: wrongNames) ∧
      (∀ u ∈ arrayVals v.namedArray, u.toInt ∉ wrongNames) ∧
      v.flags.toInt < 512 ∧ v.unit.toInt ≠ 0xf011) (by simp [Expressible])
  | .enter k u =>
    decidable_of_iff (k.toInt < 7 ∧ ∀ x ∈ u.toList, x.toInt ∉ wrongNames) (by simp [Expressible])
  | .leaf (.align _ _) => isTrue trivial
  | .leaf (.padding _ _) => isTrue trivial
  | .report _ => isTrue trivial
  | .endReport => isTrue trivial
  | .leave => isTrue trivial

/-- Bytes of a small mouse. -/
def mouse : List UInt8 := [5, 1, 9, 2, 0xa1, 1, 5, 9, 0x19, 1, 0x29, 3, 0x15, 0, 0x25, 1, 0x75, 1, 0x95, 3, 0x81, 2,
  0x95, 5, 0x81, 3, 5, 1, 9, 0x30, 9, 0x31, 0x15, 0x81, 0x25, 0x7f, 0x75, 8, 0x95, 2, 0x81, 6, 0xc0]

example : Imported UsageTable.registry := ⟨[], (List.nil_append _).symm, by simp⟩

/-- The mouse meets the conditions of `C44_command_partial`. -/
example : (match Parser.blobParse UsageTable.registry mouse with
    | (xs, none) =>
      match extract UsageTable.registry xs with
      | .ok n => (tokens n).all (fun t => decide (Expressible t)) && (tokens n).length == 10
      | .error _ => false
    | _ => false) = true := by
  rw [Parser.blobParse, blobSteps_eq _ 60 0 mouse (by decide)]
  decide +kernel

/-- The mouse meets the conditions of `C44_pipeline_partial`. -/
example : (match Parser.blobParse UsageTable.registry mouse with
    | (xs, none) => decide (Extractable (keys xs)) && xs.all (fun i => i.cls != .reportID || i.ival != 0) &&
        (recs .atMain {} (keys xs)).all (fun r => r.val / 256 % 2 != 1) && aligned (meaning .atMain (keys xs)) &&
        decide ((meaning .atMain (keys xs)).length = 12)
    | _ => false) = true := by
  rw [Parser.blobParse, blobSteps_eq _ 60 0 mouse (by decide)]
  decide +kernel

/-- Run the script written for the tree the items decompile to: it fails, or compiles to other bytes. -/
def ScriptBreaks (reg : Registry) (cs : List (Cls × Int)) : Bool :=
  match Streamer.emit reg (cs.map (fun c => (c.1, .int c.2))) with
  | .error _ => false
  | .ok xs =>
    match extract reg xs with
    | .error _ => false
    | .ok n =>
      match Dumper.dump reg n with
      | .error _ => true
      | .ok t =>
        match runScript UsageTable.lookup t with
        | none => true
        | some m => decide (Compiler.main [] .binary false m ≠ Compiler.main [] .binary false n)

/-- The items around one field. -/
def one (usage unit flags kind : Int) : List (Cls × Int) := [(.usage, 0x10002), (.collection, 1), (.usage, 0x10001),
  (.collection, kind), (.unit, unit), (.logMin, 0), (.logMax, 1), (.reportSize, 8), (.reportCount, 1), (.usage, usage),
  (.input, flags), (.endCollection, 0), (.endCollection, 0)]

example : ScriptBreaks UsageTable.registry (one 0x10030 0x11 2 0) = false := by decide +kernel

/-- **C44.** No script is written when the document cannot be read, or cannot be decompiled.  If the decompiler
accepts what comes before, the exception is the reader's. -/
theorem C44_unreadable (reg : Registry) (f : Formatter.Fmt) (uni : Parser.Uni) (d : Formatter.Doc) :
    (∀ e, (Formatter.deliver f reg uni d).2 = some e → ∃ e', Decompiler.main reg f uni d = .error e' ∧
      (∀ st, runFrom reg {} (Formatter.deliver f reg uni d).1 = .ok st → e' = e)) ∧
    (∀ e, (Formatter.deliver f reg uni d).2 = none → extract reg (Formatter.deliver f reg uni d).1 = .error e →
      Decompiler.main reg f uni d = .error e) ∧
    (∀ b, f = .binary → d = .bytes b → readAll b = none → ∃ e, Decompiler.main reg f uni d = .error e) := by
  have herr : ∀ f d e, (Formatter.deliver f reg uni d).2 = some e → ∃ e', Decompiler.main reg f uni d = .error e' ∧
      (∀ st, runFrom reg {} (Formatter.deliver f reg uni d).1 = .ok st → e' = e) := by
    intro f d e h
    unfold Decompiler.main
    rw [h]
    cases hr : runFrom reg {} (Formatter.deliver f reg uni d).1 with
    | error e' => exact ⟨e', rfl, by simp⟩
    | ok st => exact ⟨e, rfl, fun _ _ => rfl⟩
  refine ⟨herr f d, fun e h he => ?_, ?_⟩
  · rw [main_delivered reg f uni d _ (by rw [← h]), he]
  · rintro b rfl rfl hb
    cases hp : (Parser.blobParse reg b).2 with
    | some e =>
      obtain ⟨e', h, -⟩ := herr .binary (.bytes b) e hp
      exact ⟨e', h⟩
    | none =>
      have := ((C08_parse_iff_hid reg b _).mp ⟨hp, rfl⟩).1
      rw [hb] at this
      simp at this

/-- A field whose usage has the name of no attribute. -/
theorem C44_name_breaks : ScriptBreaks UsageTable.registry (one 0x10009 0 2 0) = true := by decide +kernel

/-- A field with unit cm/s, written `Unit.Velocity`. -/
theorem C44_unit_breaks : ScriptBreaks UsageTable.registry (one 0x10030 0xf011 2 0) = true := by decide +kernel

/-- A field with flag bits above 8 loses them. -/
theorem C44_flags_breaks : ScriptBreaks UsageTable.registry (one 0x10030 0 0x202 0) = true := by decide +kernel

/-- A collection of vendor-defined kind, written `Collection.128`. -/
theorem C44_kind_breaks : ScriptBreaks UsageTable.registry (one 0x10030 0 2 0x80) = true := by decide +kernel

/-- A field with usage 0 loses it. -/
theorem C44_usage_breaks : ScriptBreaks UsageTable.registry (one 0 0 2 0) = true := by decide +kernel

end Hrdc
