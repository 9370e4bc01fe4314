import Verif.Props.Written
import Verif.Props.Dumper
/-!
# C44, C42: from a document to a script, and back to bytes
-/
namespace Hrdc
open Spec Extractor Streamer
open Spec.Script (runScript)

namespace Spec

/-- What a script can say and a compiler encode: collections of the seven kinds, with a usage; numbers
that fit, no flags above bit 8, no unit cm/s; each control is for something, never for usage 0 alone.
`wrong` are usages with wrong names. -/
def Event.sayable (wrong : List Int) : Event → Bool
  | .enter k w => decide (k < 7) && w.usage.any (fun u => decide (u ∉ wrong) && unsigned32 u)
  | .control _ f _ a ws =>
    decide (f < 512) && decide (a.unit ≠ 0xf011) && unsigned32 a.unit && unsigned32 a.size &&
    [a.logMin, a.logMax, a.physMin, a.physMax, a.unitExp].all signed32 && !ws.isEmpty &&
    ws.all (fun w => unsigned32 w.string && unsigned32 w.desig &&
      w.usage.all (fun u => decide (u ∉ wrong) && unsigned32 u && (decide (u ≠ 0) || decide (1 < ws.length))))
  | _ => true

end Spec

/-- Tokens whose numbers fit. -/
def TokFits : Tok → Prop
  | .report i => unsigned32 i = true
  | .endReport => True
  | .enter k u => unsigned32 ((u.map PyVal.toInt).getD 0) = true ∧ unsigned32 (keptValue .collection k) = true
  | .leave => True
  | .leaf (.value v) => valueFits v = true ∧ v.alignment ≤ 2 ^ 32
  | .leaf (.padding _ s) => unsigned32 s = true
  | .leaf (.align _ b) => b ≤ 2 ^ 32

theorem mod_fits (c a : Int) (h : a ≤ 2 ^ 32) : unsigned32 (if a > 1 then (-c) % a else 0) = true := by
  split
  · have h1 := Int.emod_nonneg (-c) (show a ≠ 0 by omega)
    have h2 := Int.emod_lt_of_pos (-c) (show 0 < a by omega)
    simp only [unsigned32, Bool.and_eq_true, decide_eq_true_eq]
    omega
  · rfl

theorem numbersFit_of (ts : List Tok) (c : Count) (id : Int) (h : ∀ t ∈ ts, TokFits t) :
    numbersFit c id ts = true := by
  induction ts generalizing c id with
  | nil => rfl
  | cons t ts ih =>
    have ht := h t (by simp)
    have ih' := fun c id => ih c id (fun t' h' => h t' (by simp [h']))
    cases t with
    | report i => simp only [numbersFit, ih', Bool.and_true]; exact ht
    | endReport => simp only [numbersFit, ih']
    | leave => simp only [numbersFit, ih']
    | enter k u => simp only [numbersFit, ih', ht.1, ht.2, Bool.and_true]
    | leaf l =>
      cases l with
      | value v => simp only [numbersFit, ih', ht.1, Bool.and_true, padBefore]; exact mod_fits _ _ ht.2
      | align w b => simp only [numbersFit, ih', Bool.and_true, padBefore]; exact mod_fits _ _ ht
      | padding w s => simp only [numbersFit, ih', Bool.and_true, padBefore]; exact ht

/-- **C66.** A legal descriptor whose numbers fit, element by element, is written. -/
theorem C66_written (reg : Registry) (f : Formatter.Fmt) (n : Node) (hl : legal 0 (tokens n) = true)
    (h : ∀ t ∈ tokens n, TokFits t) : ∃ d, Compiler.main reg f false n = .ok d :=
  (C66_written_iff reg f n).2 ⟨hl, numbersFit_of _ _ _ h⟩

/-! ## Decompiled elements -/

theorem array_usages {reg : Registry} {a : NamedArray} (h : KnownArray reg (some a)) :
    arrayUsages (some a) ≠ [] ∧ ∀ u ∈ arrayVals (some a), u.toInt ∈ arrayUsages (some a) := by
  cases a with
  | list l =>
    refine ⟨by simpa [arrayUsages] using h.1.1, fun u hu => List.mem_map_of_mem hu⟩
  | range r =>
    have hle : r.min.toInt ≤ r.max.toInt := Int.le_of_lt h.1
    have hmem : ∀ x, r.min.toInt ≤ x → x ≤ r.max.toInt → x ∈ arrayUsages (some (.range r)) := by
      intro x h1 h2
      exact List.mem_map.2 ⟨(x - r.min.toInt).toNat, List.mem_range.2 (by omega), by omega⟩
    refine ⟨List.ne_nil_of_mem (hmem _ (Int.le_refl _) hle), ?_⟩
    intro u hu
    simp only [arrayVals, List.mem_cons, List.not_mem_nil, or_false] at hu
    rcases hu with rfl | rfl
    · exact hmem _ (Int.le_refl _) hle
    · exact hmem _ hle (Int.le_refl _)

theorem value_sayable {reg : Registry} {v : Value} {id : Int} (hf : FromItems reg v)
    (hv : ValueOK (fun c => c = 1) v)
    (h : ∀ e ∈ valueEvents id v, e.sayable wrongNames = true) :
    Expressible (.leaf (.value v)) ∧ TokFits (.leaf (.value v)) := by
  obtain ⟨hm, hal, hs0, hb, hnu, hcnt⟩ := hv
  have hcnt : v.count = 1 := hcnt
  have hal' : v.alignment ≤ 2 ^ 32 := by omega
  have hc1 : unsigned32 v.count = true := by rw [hcnt]; rfl
  cases hn : v.namedArray with
  | none =>
    have hau : arrayUsages v.namedArray = [] := by rw [hn]; rfl
    have he := h (.control v.way.cls v.flags.toInt id (attrsOf v)
        (if bitSet v.flags.toInt 1 then [selectorOf v (usageOf v.usage)]
         else (usageOf v.usage).toList.map (fun u => selectorOf v (some u)))) (by
      simp [valueEvents_eq, hau, hb, hcnt])
    simp only [Event.sayable, attrsOf, Bool.and_eq_true, decide_eq_true_eq, List.all_cons, List.all_nil,
      Bool.and_true, List.all_eq_true] at he
    obtain ⟨⟨⟨⟨⟨⟨e1, e2⟩, e3⟩, e4⟩, e5, e6, e7, e8, e9⟩, e10⟩, e11⟩ := he
    have hsel : ∀ x ∈ (usageOf v.usage).toList, x ∉ wrongNames ∧ unsigned32 x = true ∧ x ≠ 0 := by
      intro x hx
      have hx' : usageOf v.usage = some x := by simpa using hx
      have := e11 (selectorOf v (some x)) (by split <;> simp [hx'])
      have hlen : ¬ 1 < (if bitSet v.flags.toInt 1 then [selectorOf v (usageOf v.usage)]
         else (usageOf v.usage).toList.map (fun u => selectorOf v (some u))).length := by
        split <;> simp [hx']
      rw [decide_eq_false hlen] at this
      simpa [selectorOf, and_assoc] using this.2
    have hsd : unsigned32 v.string = true ∧ unsigned32 v.designator = true := by
      cases hw : (if bitSet v.flags.toInt 1 then [selectorOf v (usageOf v.usage)]
         else (usageOf v.usage).toList.map (fun u => selectorOf v (some u))) with
      | nil => rw [hw] at e10; simp at e10
      | cons w ws =>
        have hw1 : w.string = v.string ∧ w.desig = v.designator := by
          have : w ∈ (if bitSet v.flags.toInt 1 then [selectorOf v (usageOf v.usage)]
            else (usageOf v.usage).toList.map (fun u => selectorOf v (some u))) := by rw [hw]; simp
          split at this
          · simp only [List.mem_cons, List.not_mem_nil, or_false] at this; subst this; exact ⟨rfl, rfl⟩
          · obtain ⟨u, -, rfl⟩ := List.mem_map.1 this; exact ⟨rfl, rfl⟩
        have := e11 w (by rw [hw]; simp)
        rw [hw1.1, hw1.2] at this
        exact this.1
    refine ⟨⟨?_, by rw [hn]; simp [arrayVals], e1, of_decide_eq_true e2⟩, ?_, hal'⟩
    · intro u hu
      have : usageOf v.usage = some u.toInt := by
        rcases hf.usage u hu with ⟨i, h0, rfl⟩ | ⟨w, rfl⟩
        · have : i ≠ 0 := by omega
          simp [usageOf, hu, PyVal.truthy, PyVal.toInt, this]
        · simp [usageOf, hu, PyVal.truthy, PyVal.toInt]
      have := hsel u.toInt (by simp [this])
      simp only [List.mem_cons, not_or]
      exact ⟨this.2.2, this.1⟩
    · simp only [valueFits, hau, hb, Bool.and_eq_true, Bool.false_or, List.append_nil, List.all_eq_true]
      have hfl : unsigned32 v.flags.toInt = true := by
        obtain ⟨k, hk, hkf⟩ := hf.flags hn
        rw [hkf] at e1 ⊢
        have e1 : k < 512 := e1
        show unsigned32 k = true
        simp only [unsigned32, Bool.and_eq_true, decide_eq_true_eq]; omega
      simp only [e3, e4, e5, e6, e7, e8, e9, hc1, hfl, hsd, and_self, List.isEmpty_nil, Bool.not_true, Bool.false_or,
        Bool.and_self, and_true, true_and]
      exact fun x hx => (hsel x hx).2.1
  | some a =>
    have hka := hf.array
    rw [hn] at hka
    obtain ⟨hne, hmem⟩ := array_usages hka
    rw [← hn] at hne hmem
    have hu := hnu hne
    obtain ⟨named, hn1, hn2, -⟩ := hm.facts
    have hnt : named = true := by
      rw [NamedArray.truth_eq hn1]; simpa using hne
    obtain ⟨hfl, lo, hlo, hhi⟩ := hn2 hnt
    have hfl : v.flags.toInt = 0 := by rw [hfl, hu]; rfl
    have he := h (.control v.way.cls 0 id (arrayAttrs v (arrayUsages v.namedArray).length)
      ((arrayUsages v.namedArray).map (fun u => selectorOf v (some u)))) (by
      rw [valueEvents_array id v hne (by rw [hu]; rfl), hcnt]; simp)
    simp only [Event.sayable, arrayAttrs, attrsOf, Bool.and_eq_true, List.all_cons, List.all_nil,
      Bool.and_true, List.all_eq_true] at he
    obtain ⟨⟨⟨⟨⟨⟨-, e2⟩, e3⟩, e4⟩, e5, e6, e7, e8, e9⟩, -⟩, e11⟩ := he
    have hsel : ∀ x ∈ arrayUsages v.namedArray, x ∉ wrongNames ∧ unsigned32 x = true := by
      intro x hx
      have := (e11 _ (List.mem_map_of_mem (f := fun u => selectorOf v (some u)) hx)).2
      simp only [selectorOf, Option.all_some, Bool.and_eq_true, decide_eq_true_eq] at this
      exact this.1
    have hsd : unsigned32 v.string = true ∧ unsigned32 v.designator = true := by
      obtain ⟨x, hx⟩ := List.exists_mem_of_ne_nil _ hne
      exact (e11 _ (List.mem_map_of_mem (f := fun u => selectorOf v (some u)) hx)).1
    refine ⟨⟨?_, ?_, by rw [hfl]; decide, of_decide_eq_true e2⟩, ?_, hal'⟩
    · intro u hu'; rw [hu] at hu'; simp at hu'
    · intro u hu'
      exact (hsel _ (hmem u (by rw [hn]; rw [hn] at hu'; exact hu'))).1
    · have h1 : signed32 (v.logicalMax.getD 0) = true := by
        rw [hhi]; rw [hlo] at e6
        simp only [Option.getD_some] at e6 ⊢
        rw [show ((arrayUsages v.namedArray).length : Int) + lo - 1
          = lo + (arrayUsages v.namedArray).length - 1 by omega]
        exact e6
      simp only [valueFits, hb, Bool.and_eq_true, Bool.false_or, List.all_eq_true, List.mem_append]
      have hfl' : unsigned32 v.flags.toInt = true := by rw [hfl]; rfl
      have hie : (arrayUsages v.namedArray).isEmpty = false := by simpa using hne
      simp only [e3, e4, e5, h1, e9, hc1, hfl', hsd, hie, Bool.not_false, Bool.true_or, and_self, and_true, true_and]
      intro x hx
      rcases hx with hx | hx
      · rw [hu] at hx; simp [usageOf] at hx
      · exact (hsel x hx).2

theorem tree_sayable {reg : Registry} {xs : List Item} {t : Node} {es : List Event}
    (hf : ∀ k ∈ tokens t, TokFrom reg k) (hk : ∀ k ∈ tokens t, TokOK k) (hb : bareMeaning t = es)
    (hp : ∀ p ∈ Spec.pieces 0 t, PieceOK (fun c => c = 1) p)
    (hs : ∀ e ∈ es, e.sayable wrongNames = true) (hlen : es.length < 2 ^ 32) :
    (∀ k ∈ tokens t, Expressible k ∧ TokFits k) ∧ ∀ k, Tok.enter k none ∉ tokens t := by
  have hin : ∀ p ∈ Spec.pieces 0 t, ∀ e ∈ bare p, e ∈ es := by
    intro p hp e he
    rw [← hb]
    exact List.mem_flatMap.2 ⟨p, hp, he⟩
  have henter : ∀ k u, Tok.enter k u ∈ tokens t → Event.sayable wrongNames
      (.enter k.toInt ⟨u.map PyVal.toInt, 0, 0⟩) = true := by
    intro k u h
    have := enter_scope [] _ _ _ h
    rw [← pieces_eq] at this
    exact hs _ (hin _ this _ (by simp [bare]))
  refine ⟨?_, ?_⟩
  · intro k hkt
    cases k with
    | report i =>
      have := hk _ hkt
      refine ⟨trivial, ?_⟩
      have h1 : 0 ≤ i := this.1
      have h2 : i < 256 := this.2
      show unsigned32 i = true
      simp only [unsigned32, Bool.and_eq_true, decide_eq_true_eq]; omega
    | endReport => exact ⟨trivial, trivial⟩
    | leave => exact ⟨trivial, trivial⟩
    | enter k u =>
      have h1 := henter k u hkt
      simp only [Event.sayable, Bool.and_eq_true, decide_eq_true_eq] at h1
      cases u with
      | none => simp at h1
      | some u =>
        simp only [Option.map_some, Option.any_some, Bool.and_eq_true, decide_eq_true_eq] at h1
        refine ⟨⟨h1.1, ?_⟩, h1.2.2, ?_⟩
        · intro x hx; cases hx; exact h1.2.1
        · have h0 : 0 ≤ keptValue .collection k := (hk _ hkt).1
          have : keptValue .collection k ≤ max 7 k.toInt := by
            cases k with
            | int i => simp only [keptValue, PyVal.toInt]; split <;> omega
            | named a b => show b ≤ _; simp only [PyVal.toInt]; omega
            | usage a => show a.value ≤ _; simp only [PyVal.toInt]; omega
          simp only [unsigned32, Bool.and_eq_true, decide_eq_true_eq]; omega
    | leaf l =>
      obtain ⟨id, hid⟩ := leaf_scope [] _ _ hkt
      rw [← pieces_eq] at hid
      have hev := hin _ hid
      have hpo := hp _ hid
      cases l with
      | align w b => exact absurd hpo (by simp [PieceOK])
      | padding w s =>
        refine ⟨trivial, ?_⟩
        have h0 : 0 ≤ s := hk _ hkt
        have hle : (bare (.leaf id (.padding w s))).length ≤ es.length := by
          rw [← hb]
          obtain ⟨a, b, hab⟩ := List.append_of_mem hid
          unfold bareMeaning
          rw [hab, List.flatMap_append, List.flatMap_cons, List.length_append, List.length_append]
          omega
        simp only [bare, bareLeaf_value, bareLeaf_align, bareLeaf_padding, List.length_replicate] at hle
        show unsigned32 s = true
        simp only [unsigned32, Bool.and_eq_true, decide_eq_true_eq]; omega
      | value v =>
        exact value_sayable (hf _ hkt) hpo (fun e he => hs e (hev e he))
  · intro k h
    have := henter k none h
    simp [Event.sayable] at this

/-- **C44, C42 (partial), there and back.** Decompile a document that can be read, in any format; run the
script; compile without optimization: bytes are written, and have the meaning of the document.  The
conditions are on the items of the document and their meaning only.  Missing, and false of the code: see
`C42_*_breaks` and `C44_*_breaks`. -/
theorem C44_there_and_back_partial (reg reg' : Registry) (hreg : Imported reg) (rule : PageRule) (f : Formatter.Fmt)
    (uni : Parser.Uni) (d : Formatter.Doc) (xs : List Item) (hd : Formatter.deliver f reg uni d = (xs, none))
    (he : Extractable (keys xs)) (hz : ∀ i ∈ xs, i.cls = .reportID → i.ival ≠ 0 ∧ i.ival < 256)
    (hb : ∀ r ∈ recs .atMain {} (keys xs), r.cls.isData = true → r.isConst = false → r.val / 256 % 2 = 1 →
      r.g .reportCount = 1)
    (ha : aligned (meaning .atMain (keys xs)) = true)
    (hs : ∀ e ∈ meaning .atMain (keys xs), e.sayable wrongNames = true)
    (hlen : (meaning .atMain (keys xs)).length < 2 ^ 32) :
    ∃ t m b ks, Decompiler.main reg f uni d = .ok t ∧ runScript UsageTable.lookup t = some m ∧
      Compiler.main reg' .binary false m = .ok (.bytes b) ∧ readAll b = some ks ∧
      meaning rule ks = meaning .atMain (keys xs) := by
  have hread := deliver_read f reg uni d
  rw [hd] at hread
  have hm : ∀ i ∈ xs, i.Made := fun i hi => (hread i hi).2
  have hx : ∀ i ∈ xs, ReadItem reg i := fun i hi => (hread i hi).1
  obtain ⟨n, h1, -, h3, h4, -⟩ := extract_ok reg xs hm he (fun c => c = 1) rfl hb
  have hok := extract_toks reg xs hm (fun i hi hc => (hz i hi hc).2) h1
  obtain ⟨hsay, hnone⟩ := tree_sayable (xs := xs) (extract_from hx h1) hok h3 h4 hs hlen
  obtain ⟨t, m, g1, g2, g3⟩ := C44_pipeline_partial reg reg' hreg rule f uni d xs hd he
    (fun i hi hc => (hz i hi hc).1) hb ha (by
      intro n' hn' k hk
      rw [h1] at hn'
      cases hn'
      exact (hsay k hk).1)
  obtain ⟨t', g1', m', g2', -, g5⟩ := C44_command_partial reg hreg f uni d xs hd n h1 (fun k hk => (hsay k hk).1)
  rw [g1] at g1'
  cases g1'
  rw [g2] at g2'
  cases g2'
  obtain ⟨w, hw⟩ := C66_written reg .binary n (legal_of_toks _ 0 (by decide) hok hnone) (fun k hk => (hsay k hk).2)
  rw [← g5 reg' .binary false (by simp)] at hw
  cases w with
  | bytes b =>
    obtain ⟨ks, e1, e2⟩ := g3 b hw
    exact ⟨t, m, b, ks, g1, g2, hw, e1, e2⟩
  | text t' =>
    exfalso
    unfold Compiler.main at hw
    split at hw
    · simp at hw
    · simp only [Bool.false_eq_true, if_false, Formatter.render] at hw
      rename_i l _
      cases hbl : Formatter.binary l <;> rw [hbl] at hw <;> simp [Except.map] at hw

/-- The items decompile to a descriptor that compiles but cannot be written. -/
def Unwritable (cs : List (Cls × Int)) : Bool :=
  match extract [] (build! cs) with
  | .ok t => decide (Extractable (keys (build! cs))) && (Formatter.binary (build! cs)).toOption.isSome &&
      (compile [] t).toOption.isSome && !(Compiler.main [] .binary false t).toOption.isSome
  | .error _ => false

/-- 65536 constant fields of 65536 bits are joined to one field of 2^32 bits, which has no encoding. -/
theorem C42_wide_padding_breaks : Unwritable [(.usage, 0x10002), (.collection, 1), (.logMin, 0), (.logMax, 1),
    (.reportSize, 65536), (.reportCount, 65536), (.input, 3), (.reportSize, 8), (.reportCount, 1), (.usage, 0x10030),
    (.input, 2), (.endCollection, 0)] = true := by decide +kernel

/-- On a page above 65535 the whole usage has no encoding. -/
theorem C42_wide_page_breaks : Unwritable [(.usage, 0x10002), (.collection, 1), (.logMin, 0), (.logMax, 1),
    (.reportSize, 8), (.reportCount, 1), (.usagePage, 65536), (.usage, 0x30), (.input, 2), (.endCollection, 0)]
    = true := by decide +kernel

/-- The mouse meets the conditions. -/
example : (match Parser.blobParse UsageTable.registry mouse with
    | (xs, none) => decide (Extractable (keys xs)) && aligned (meaning .atMain (keys xs)) &&
        (meaning .atMain (keys xs)).all (Event.sayable wrongNames)
    | _ => false) = true := by
  rw [Parser.blobParse, blobSteps_eq _ 60 0 mouse (by decide)]
  decide +kernel

end Hrdc
