import Verif.Props.Formats
/-!
# C11, C12 on whole documents
-/
namespace Hrdc
open Parser

/-- **C11, documents.** What is read from a hex document is what is read from the binary document of the same items: the same
items, and the same exception if there is one.  The one can be written exactly when the other can. -/
theorem C11_documents (reg : Registry) (uni : Uni) (l : List Item) :
    (∀ d, Formatter.render .hex l = .ok d → ∃ b, Formatter.render .binary l = .ok b ∧
      Formatter.deliver .hex reg uni d = Formatter.deliver .binary reg uni b) ∧
    (∀ b, Formatter.render .binary l = .ok b → ∃ d, Formatter.render .hex l = .ok d) := by
  refine ⟨fun d h => ?_, fun b h => ?_⟩
  · simp only [Formatter.render] at h
    cases ht : Formatter.hex l with
    | error e => rw [ht] at h; simp [Except.map] at h
    | ok t =>
      rw [ht] at h
      simp only [Except.map, Except.ok.injEq] at h
      subst h
      have hb := C11_hex_roundtrip uni.word l t ht
      exact ⟨.bytes (hexBlob uni.word t), by simp [Formatter.render, hb, Except.map], by simp [Formatter.deliver]⟩
  · simp only [Formatter.render] at h
    cases hb : Formatter.binary l with
    | error e => rw [hb] at h; simp [Except.map] at h
    | ok b' =>
      obtain ⟨t, ht⟩ := hex_ok_of_binary l b' hb
      exact ⟨.text t, by simp [Formatter.render, ht, Except.map]⟩

/-- **C12, documents.** The same for C code, when the names in the comments have no newline. -/
theorem C12_documents (reg : Registry) (uni : Uni) (l : List Item) (hn : ∀ i ∈ l, '\n' ∉ i.str) :
    (∀ d, Formatter.render .code l = .ok d → ∃ b, Formatter.render .binary l = .ok b ∧
      Formatter.deliver .code reg uni d = Formatter.deliver .binary reg uni b) ∧
    (∀ b, Formatter.render .binary l = .ok b → ∃ d, Formatter.render .code l = .ok d) := by
  refine ⟨fun d h => ?_, fun b h => ?_⟩
  · simp only [Formatter.render, Formatter.code] at h
    cases ht : Formatter.codeFrom 0 l with
    | error e => rw [ht] at h; simp [Except.map] at h
    | ok t =>
      rw [ht] at h
      simp only [Except.map, Except.ok.injEq] at h
      subst h
      obtain ⟨b, hb, hc⟩ := C12_code_roundtrip uni.space 0 l t hn ht
      exact ⟨.bytes b, by simp [Formatter.render, hb, Except.map], by simp [Formatter.deliver, hc]⟩
  · simp only [Formatter.render] at h
    cases hb : Formatter.binary l with
    | error e => rw [hb] at h; simp [Except.map] at h
    | ok b' =>
      obtain ⟨t, ht⟩ := code_ok_of_binary 0 l b' hb
      exact ⟨.text t, by simp [Formatter.render, Formatter.code, ht, Except.map]⟩

/-- An application collection with Push and Pop inside, in the three formats. -/
example : let l : List Item := [⟨.usage, .int 0x10002⟩, ⟨.collection, .int 1⟩, ⟨.push, .int 0⟩, ⟨.logMax, .int 300⟩,
      ⟨.pop, .int 0⟩, ⟨.endCollection, .int 0⟩]
    (∀ i ∈ l, '\n' ∉ i.str) ∧ (Formatter.render .hex l).isOk = true ∧ (Formatter.render .code l).isOk = true := by
  decide +kernel

end Hrdc
