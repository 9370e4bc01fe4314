import Verif.Props.Compile3
import Verif.Proofs.OneLine
import Verif.Props.Table
/-!
# Property C61: checking a descriptor against expected code
-/
namespace Hrdc
open Spec

/-- **C61.** `descriptor_expected` passes exactly when the expected code can be read and its bytes are those
`compile_main` writes for the descriptor. -/
theorem C61_expected_exact (reg : Registry) (uni : Char → Bool) (code : Text) (n : Node) :
    Compiler.expected reg uni code n = .ok () ↔
      ∃ b, Parser.codeBlob uni code = .ok b ∧ Compiler.main reg .binary true n = .ok (.bytes b) := by
  unfold Compiler.expected Compiler.main
  cases hb : Parser.codeBlob uni code with
  | error e => simp
  | ok b =>
    cases hc : Streamer.compile reg n with
    | error e => simp
    | ok l =>
      simp only [if_true, Formatter.render, Except.ok.injEq, exists_eq_left']
      rw [C17_comparer_exact]
      cases hbin : Formatter.binary (Optimizer.optimize reg l) <;> simp [Except.map]

theorem names_nl : UsageTable.modules.all (fun p => p.2.all (fun r => r.name.all (· != '\n'))) = true := by decide +kernel

/-- The registry of a script that imports `hrdc.usage` and creates buttons and ordinals has no newline. -/
theorem table_oneLine (extra : List UsageC) (hx : Created extra) : Registry.oneLine (extra ++ UsageTable.registry) := by
  have hB : ∀ (n : Int) (u : UsageC), u = Button n ∨ u = Ordinal n → '\n' ∉ u.name := by
    have h1 : '\n' ∉ tx "button.Button(" ∧ '\n' ∉ tx "ordinal.Ordinal(" ∧ '\n' ∉ tx ")" := by decide
    rintro n u (rfl | rfl) <;> simp [Button, Ordinal, List.mem_append, h1, pyStr_nl]
  intro u hu
  rcases List.mem_append.mp hu with h | h
  · obtain ⟨n, -, -, hn⟩ := hx u h
    exact hB n u hn
  · rcases (UsageTable.mem_registered u).mp (by simpa [UsageTable.registry] using h) with ⟨n, -, e⟩ | ⟨n, -, e⟩ | ⟨m, r, hr, e⟩
    · exact hB n u (.inl e)
    · exact hB n u (.inr e)
    · obtain ⟨p, hp, -, hr⟩ := hr
      have := List.all_eq_true.1 (List.all_eq_true.1 (List.all_eq_true.1 names_nl p hp) r hr)
      rw [← e]
      intro hm
      exact absurd (this '\n' hm) (by decide)

/-- Every constant given in the descriptor has a name of one line. -/
def Spec.oneLineTree (n : Node) : Prop := ∀ t ∈ tokens n, ∀ x ∈ tokVals t, '\n' ∉ x.str

/-- What `compile_main` writes is shown on one line each. -/
theorem compiled_lines {reg : Registry} (hreg : reg.oneLine) {n : Node} (hn : oneLineTree n) {l : List Item}
    (hl : Streamer.compile reg n = .ok l) (o : Bool) :
    ∀ i ∈ (if o then Optimizer.optimize reg l else l), '\n' ∉ i.str := by
  intro i hi
  have hp := Streamer.compile_plain hreg hn hl
  cases o with
  | false => exact str_nl (hp i hi)
  | true => exact str_nl (optimizer_plain hreg _ _ l hp i hi)

/-- The code `compile_main` writes for a descriptor passes for this descriptor, as long as no name has a
newline. -/
theorem C61_own_output (reg : Registry) (hreg : reg.oneLine) (uni : Char → Bool) (n : Node) (hn : oneLineTree n)
    (t : Text) (h : Compiler.main reg .code true n = .ok (.text t)) : Compiler.expected reg uni t n = .ok () := by
  rw [C61_expected_exact]
  unfold Compiler.main at h ⊢
  cases hl : Streamer.compile reg n with
  | error e => rw [hl] at h; simp at h
  | ok l =>
    have hn := compiled_lines hreg hn hl true
    rw [hl] at h
    simp only [if_true, Formatter.render] at h hn ⊢
    cases hc : Formatter.code (Optimizer.optimize reg l) with
    | error e => rw [hc] at h; simp [Except.map] at h
    | ok t' =>
      rw [hc] at h
      simp only [Except.map, Except.ok.injEq, Formatter.Doc.text.injEq] at h
      subst h
      obtain ⟨b, h1, h2⟩ := C12_code_roundtrip uni 0 _ _ hn hc
      exact ⟨b, h2, by rw [h1]; rfl⟩

/-- **C12 for the compiler.** Whenever `compile_main` can write a descriptor in one format it can write it in
every format, and each document reads back as the bytes of the binary one. -/
theorem C12_compiled (reg : Registry) (hreg : reg.oneLine) (uni : Parser.Uni) (n : Node) (hn : oneLineTree n) (o : Bool)
    (f : Formatter.Fmt) (d : Formatter.Doc) (h : Compiler.main reg f o n = .ok d) :
    ∃ b hx co, Compiler.main reg .binary o n = .ok (.bytes b) ∧ Compiler.main reg .hex o n = .ok (.text hx) ∧
      Compiler.main reg .code o n = .ok (.text co) ∧ Parser.hexBlob uni.word hx = b ∧
      Parser.codeBlob uni.space co = .ok b := by
  unfold Compiler.main at h ⊢
  cases hl : Streamer.compile reg n with
  | error e => rw [hl] at h; simp at h
  | ok l =>
    have hn := compiled_lines hreg hn hl o
    rw [hl] at h
    simp only [Formatter.render] at h hn ⊢
    generalize (if o then Optimizer.optimize reg l else l) = is at h hn ⊢
    have hb : ∃ b, Formatter.binary is = .ok b := by
      cases f with
      | binary => cases hb : Formatter.binary is with
        | ok b => exact ⟨b, rfl⟩
        | error e => rw [hb] at h; simp [Except.map] at h
      | hex => cases hc : Formatter.hex is with
        | ok t => exact ⟨_, C11_hex_roundtrip (fun _ => false) _ _ hc⟩
        | error e => rw [hc] at h; simp [Except.map] at h
      | code => cases hc : Formatter.code is with
        | ok t =>
          obtain ⟨b, h1, -⟩ := C12_code_roundtrip (fun _ => false) 0 _ _ hn hc
          exact ⟨b, h1⟩
        | error e => rw [hc] at h; simp [Except.map] at h
    obtain ⟨b, hb⟩ := hb
    obtain ⟨hx, hh⟩ := hex_ok_of_binary is b hb
    obtain ⟨co, hc⟩ := code_ok_of_binary 0 is b hb
    have h11 := C11_hex_roundtrip uni.word is hx hh
    obtain ⟨b', h1, h2⟩ := C12_code_roundtrip uni.space 0 _ _ hn hc
    rw [hb] at h11 h1
    simp only [Except.ok.injEq] at h11 h1
    exact ⟨b, hx, co, by simp [hb, Except.map], by simp [hh, Except.map],
      by simp [Formatter.code, hc, Except.map], h11.symm, by rw [h2, h1]⟩

/-- A descriptor with names, in the three formats. -/
example : oneLineTree (.coll (.named (tx "Application") 1) (some (.int 0x10002)) []) ∧
    Compiler.main [] .binary true (.coll (.named (tx "Application") 1) (some (.int 0x10002)) [])
      = .ok (.bytes [0x05, 0x01, 0x09, 0x02, 0xa1, 0x01, 0xc0]) ∧
    Compiler.main [] .hex true (.coll (.named (tx "Application") 1) (some (.int 0x10002)) [])
      = .ok (.text (tx "05 01\n09 02\na1 01\nc0\n")) := by
  refine ⟨?_, by decide +kernel, by decide +kernel⟩
  intro t ht x hx
  simp [tokens] at ht
  rcases ht with rfl | ht | rfl
  rotate_left
  · simp [tokensL] at ht
  rotate_left
  · simp [tokVals] at hx
    rcases hx with rfl | rfl
    · decide
    · exact int_nl _
  · simp [tokVals] at hx

/-- A descriptor that passes has the meaning of the expected code (conditions of C31). -/
theorem C31_expected_partial (reg : Registry) (uni : Char → Bool) (code : Text) (n : Node)
    (h : Compiler.expected reg uni code n = .ok ()) (hm : TreeMade n) (hn : NoNamedCollection n) (hk : KindsOK n)
    (hr : ReportsLast n) (a : Nat) (hf : CountsFit a n) (ho : OptTree n) :
    ∃ b ks, Parser.codeBlob uni code = .ok b ∧ readAll b = some ks ∧ meaning .atUsage ks = treeMeaning n := by
  obtain ⟨b, h1, h2⟩ := (C61_expected_exact reg uni code n).1 h
  obtain ⟨ks, h3, h4⟩ := C31_optimized_bytes_partial reg n b h2 hm hn hk hr a hf ho
  exact ⟨b, ks, h1, h3, h4⟩

/-- One byte more or less, or another one, fails. -/
example : Compiler.expected [] (fun _ => false) (tx "0x09, 0x02, // Usage\n0xa1, 0x01, 0xc0")
      (.coll (.int 1) (some (.int 2)) []) = .error .assertion ∧
    Compiler.expected [] (fun _ => false) (tx "0x05, 0x00, 0x09, 0x02, // Usage\n0xa1, 0x01, 0xc0")
      (.coll (.int 1) (some (.int 2)) []) = .ok () ∧
    Compiler.expected [] (fun _ => false) (tx "0x05, 0x00, 0x09, 0x02, // Usage\n0xa1, 0x01, 0xc0, 0xc0")
      (.coll (.int 1) (some (.int 2)) []) = .error .assertion := by
  decide +kernel

end Hrdc
