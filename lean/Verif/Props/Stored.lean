import Verif.Proofs.Settle
import Verif.Props.Commands
import Verif.Model.DumperTrace
/-!
# Property C74: a descriptor can be kept in any format
-/
namespace Hrdc
open Parser (Uni)

/-- Readable bytes with the same items, of the same classes and values, are read as the very same items. -/
theorem blob_same (reg : Registry) (n : Nat) : ∀ (page : Int) (b b' : List UInt8) (l l' : List Item), b.length ≤ n →
    Parser.blobLoop reg page b = (l, none) → Parser.blobLoop reg page b' = (l', none) →
    l.map Item.key = l'.map Item.key → l = l' := by
  induction n with
  | zero =>
    intro page b b' l l' hn h h' hk
    have : b = [] := List.length_eq_zero_iff.1 (by omega)
    subst this
    rw [blobLoop_nil] at h
    simp only [Prod.mk.injEq, and_true] at h
    subst h
    simp only [List.map_nil] at hk
    exact (List.map_eq_nil_iff.1 hk.symm).symm
  | succ n ih =>
    intro page b b' l l' hn h h' hk
    cases b with
    | nil =>
      rw [blobLoop_nil] at h
      simp only [Prod.mk.injEq, and_true] at h
      subst h
      simp only [List.map_nil] at hk
      exact (List.map_eq_nil_iff.1 hk.symm).symm
    | cons x t =>
      rw [blobLoop_cons] at h
      cases hp : Parser.itemParse reg page ((x :: t).take (Parser.sliceLen x)) with
      | error e => rw [hp] at h; simp at h
      | ok q =>
        obtain ⟨p, i⟩ := q
        rw [hp] at h
        simp only [Prod.mk.injEq] at h
        obtain ⟨rfl, h2⟩ := h
        cases b' with
        | nil =>
          rw [blobLoop_nil] at h'
          simp only [Prod.mk.injEq, and_true] at h'
          subst h'
          simp at hk
        | cons x' t' =>
          rw [blobLoop_cons] at h'
          cases hp' : Parser.itemParse reg page ((x' :: t').take (Parser.sliceLen x')) with
          | error e => rw [hp'] at h'; simp at h'
          | ok q' =>
            obtain ⟨p', i'⟩ := q'
            rw [hp'] at h'
            simp only [Prod.mk.injEq] at h'
            obtain ⟨rfl, h2'⟩ := h'
            simp only [List.map_cons, List.cons.injEq] at hk
            obtain ⟨hk1, hk2⟩ := hk
            have hraw : ∀ (w : List UInt8) (p : Int) (i : Item), Parser.itemParse reg page w = .ok (p, i) →
                ∃ k, RawItem reg k ∧ Parser.append reg page k = .ok (p, i) ∧ k.key = i.key := by
              intro w p i h
              unfold Parser.itemParse at h
              split at h
              · rename_i k hk
                have hr := parse_raw hk
                obtain ⟨v, hv⟩ := hr
                obtain ⟨p', j, e1, -, e2⟩ := append_ok reg page (made_of_new hv)
                rw [h] at e1
                simp only [Except.ok.injEq, Prod.mk.injEq] at e1
                exact ⟨k, ⟨v, hv⟩, h, by rw [e1.2, e2]⟩
              · simp at h
            obtain ⟨k, a1, a2, a3⟩ := hraw _ _ _ hp
            obtain ⟨k', b1, b2, b3⟩ := hraw _ _ _ hp'
            have hkk : k = k' := Extractor.raw_eq a1 b1 (by rw [a3, hk1, b3])
            subst hkk
            rw [a2] at b2
            simp only [Except.ok.injEq, Prod.mk.injEq] at b2
            obtain ⟨rfl, rfl⟩ := b2
            congr 1
            refine ih p _ _ _ _ ?_ (Prod.ext rfl h2) (Prod.ext rfl h2') hk2
            have : 0 < Parser.sliceLen x := by rw [sliceLen_eq]; omega
            simp only [List.length_drop, List.length_cons] at hn ⊢
            omega

/-- A document that can be read delivers the items of some bytes, whatever usages are registered. -/
theorem deliver_bytes (f : Formatter.Fmt) (uni : Uni) (d : Formatter.Doc) (reg : Registry)
    (h : (Formatter.deliver f reg uni d).2 = none) :
    ∃ b, ∀ reg', Formatter.deliver f reg' uni d = Parser.blobParse reg' b := by
  cases f with
  | binary =>
    cases d with
    | bytes b => exact ⟨b, fun _ => rfl⟩
    | text t =>
      cases t with
      | nil => exact ⟨[], fun reg' => by rw [Parser.blobParse, blobLoop_nil]; rfl⟩
      | cons c t => simp [Formatter.deliver] at h
  | hex =>
    cases d with
    | bytes b => simp [Formatter.deliver] at h
    | text t => exact ⟨_, fun _ => rfl⟩
  | code =>
    cases d with
    | bytes b => simp [Formatter.deliver] at h
    | text t =>
      cases hc : Parser.codeBlob uni.space t with
      | error e => simp [Formatter.deliver, hc] at h
      | ok b => exact ⟨b, fun reg' => by simp [Formatter.deliver, hc]⟩

/-- Documents that can be read, with the same items, are read as the very same items. -/
theorem deliver_same {f g : Formatter.Fmt} {uni : Uni} {d d' : Formatter.Doc} (reg : Registry)
    (h : (Formatter.deliver f reg uni d).2 = none) (h' : (Formatter.deliver g reg uni d').2 = none)
    (hk : (Formatter.deliver f reg uni d).1.map Item.key = (Formatter.deliver g reg uni d').1.map Item.key) (reg' : Registry) :
    Formatter.deliver f reg' uni d = Formatter.deliver g reg' uni d' := by
  obtain ⟨b, hb⟩ := deliver_bytes f uni d reg h
  obtain ⟨b', hb'⟩ := deliver_bytes g uni d' reg h'
  rw [hb] at h hk
  rw [hb'] at h' hk
  rw [hb, hb']
  have e := C16_registry_independent reg reg' b
  have e' := C16_registry_independent reg reg' b'
  have n := e.2.1 h
  have n' := e'.2.1 h'
  rw [e.1, e'.1] at hk
  exact Prod.ext (blob_same reg' b.length 0 b b' _ _ (Nat.le_refl _) (Prod.ext rfl n) (Prod.ext rfl n') hk) (by rw [n, n'])

/-- **C74.** A document that can be read, taken through any formats without optimization, is read afterwards as the very
same items, with the same names, whatever usages are registered then.  The usages registered while converting have names of
one line, as those of the usage modules, buttons and ordinals do (`table_oneLine`). -/
theorem C74_same_items (reg : Registry) (hreg : reg.oneLine) (uni : Uni) (f : Formatter.Fmt) (gs : List Formatter.Fmt)
    (d : Formatter.Doc) (h : (Formatter.deliver f reg uni d).2 = none) :
    ∃ d', convertChain reg uni f gs d = .ok (gs.getLastD f, d') ∧
      ∀ reg', Formatter.deliver (gs.getLastD f) reg' uni d' = Formatter.deliver f reg' uni d := by
  induction gs generalizing f d with
  | nil => exact ⟨d, rfl, fun _ => rfl⟩
  | cons g gs ih =>
    obtain ⟨b, hb⟩ := deliver_bytes f uni d reg h
    obtain ⟨l, hl⟩ : ∃ l, Parser.blobParse reg b = (l, none) := ⟨_, by rw [← h, hb]⟩
    obtain ⟨hm, b', hb'⟩ := parsed_encodable reg b l hl
    have hn : ∀ i ∈ l, '\n' ∉ i.str := by
      have := delivered_nl hreg b.length 0 b (Nat.le_refl _)
      unfold Parser.blobParse at hl
      rw [hl] at this; exact this
    obtain ⟨d1, e1, e2, e3⟩ := C13_formats_agree_partial g reg uni l hm hn b' hb'
    obtain ⟨d2, e4, e5⟩ := ih g d1 e2
    have hd : Formatter.deliver f reg uni d = (l, none) := by rw [hb, hl]
    refine ⟨d2, ?_, ?_⟩
    · simp only [convertChain, Formatter.convert, hd, e1]
      rw [e4, List.getLastD_cons]
    · intro reg'
      have := e5 reg'
      rw [List.getLastD_cons, this]
      exact (deliver_same reg h e2 (by rw [e3, hd]) reg').symm

/-- A mouse written with longer payloads than needed, read by the usage modules, buttons and ordinals. -/
example : Registry.oneLine ([Button 300] ++ UsageTable.registry) ∧
    (Formatter.deliver .binary [] ⟨fun _ => false, fun _ => false⟩
      (.bytes [0x06, 0x01, 0x00, 0x0a, 0x02, 0x00, 0xa3, 1, 0, 0, 0, 0xc0])).2 = none := by
  refine ⟨table_oneLine _ ?_, ?_⟩
  · intro u hu
    simp only [List.mem_cons, List.not_mem_nil, or_false] at hu
    subst hu
    exact ⟨300, by decide, by decide, .inl rfl⟩
  · rw [Formatter.deliver, Parser.blobParse, blobSteps_eq _ 20 _ _ (by decide)]
    decide +kernel

/-- **C74.** Whatever a command does with the converted document, it does with the original: the converter writes the same,
in any format, with and without optimization, and the decompiler prints and writes the same, or ends with the same exception.
`content` is what is stored, in a file or on standard input. -/
theorem C74_commands (reg : Registry) (hreg : reg.oneLine) (uni : Uni) (f : Formatter.Fmt) (gs : List Formatter.Fmt)
    (d : Formatter.Doc) (h : (Formatter.deliver f reg uni d).2 = none) :
    ∃ d', convertChain reg uni f gs d = .ok (gs.getLastD f, d') ∧
      ∀ (reg' : Registry) (decode : List UInt8 → Option Text) (name name' : Text) (c c' : Command.Channel)
        (content content' : List UInt8),
        Command.formatByName name = .ok f → Command.input decode c f content = .ok d →
        Command.formatByName name' = .ok (gs.getLastD f) → Command.input decode c' (gs.getLastD f) content' = .ok d' →
        (∀ out oc o, Command.converter reg' uni decode name' out c' oc o content' =
          Command.converter reg' uni decode name out c oc o content) ∧
        ∀ rest, Command.decompile reg' uni decode rest name' c' content' = Command.decompile reg' uni decode rest name c content := by
  obtain ⟨d', e1, e2⟩ := C74_same_items reg hreg uni f gs d h
  refine ⟨d', e1, ?_⟩
  intro reg' decode name name' c c' content content' h1 h2 h3 h4
  constructor
  · intro out oc o
    unfold Command.converter
    rw [h1, h3]
    cases Command.formatByName out with
    | error e => rfl
    | ok g => simp only [h2, h4, e2 reg']
  · intro rest
    unfold Command.decompile
    simp only [h1, h2, h3, h4, e2 reg']

/-- **C74, the library.** Every format is read as every other: two documents of the same items are converted, optimized and
decompiled alike. -/
theorem C74_alike (f g : Formatter.Fmt) (uni : Uni) (d d' : Formatter.Doc) (reg : Registry)
    (h : (Formatter.deliver f reg uni d).2 = none) (h' : (Formatter.deliver g reg uni d').2 = none)
    (hk : (Formatter.deliver f reg uni d).1.map Item.key = (Formatter.deliver g reg uni d').1.map Item.key) (reg' : Registry) :
    Formatter.deliver f reg' uni d = Formatter.deliver g reg' uni d' ∧
    (∀ o k, Command.convert f k o reg' uni d = Command.convert g k o reg' uni d') ∧
    Decompiler.main reg' f uni d = Decompiler.main reg' g uni d' := by
  have e := deliver_same reg h h' hk reg'
  refine ⟨e, fun o k => ?_, ?_⟩
  · unfold Command.convert
    rw [e]
  · unfold Decompiler.main
    rw [e]

end Hrdc
