import Verif.Proofs.Wire
import Verif.Props.Rewritten
import Verif.Props.Stored
import Verif.Props.Expected
import Verif.Props.Written
import Verif.Props.Fits
/-!
# C86: optimizing can be left for later

`compile_main -N`, any conversions, then `converter -O` gives what `compile_main` gives at once.
-/
namespace Hrdc
open Spec Optimizer Streamer

/-- The values of items that are read are on one line. -/
theorem delivered_val_nl {reg : Registry} (hreg : reg.oneLine) (n : Nat) (page : Int) (b : List UInt8)
    (hn : b.length ≤ n) : ∀ i ∈ (Parser.blobLoop reg page b).1, '\n' ∉ i.val.str := by
  induction n generalizing page b with
  | zero =>
    have : b = [] := List.length_eq_zero_iff.mp (by omega)
    subst this; simp [blobLoop_nil]
  | succ n ih =>
    cases b with
    | nil => simp [blobLoop_nil]
    | cons h t =>
      rw [blobLoop_cons]
      cases hp : Parser.itemParse reg page ((h :: t).take (Parser.sliceLen h)) with
      | error e => simp
      | ok pj =>
        obtain ⟨p, j⟩ := pj
        simp only [List.mem_cons, forall_eq_or_imp]
        constructor
        · unfold Parser.itemParse at hp
          split at hp
          · rename_i i hi
            have hi' : '\n' ∉ i.val.str := by
              unfold Item.parse at hi
              split at hi
              · simp at hi
              · split at hi
                · simp at hi
                · simp only at hi
                  split at hi
                  · exact new_val_nl hreg (int_nl 0) hi
                  · split at hi
                    · rename_i v _; exact new_val_nl hreg (int_nl v) hi
                    · simp at hi
            unfold Parser.append at hp
            have huse : ∀ j', Item.new reg i.cls (Usage.inpage reg page i.ival) = .ok j' → '\n' ∉ j'.val.str := by
              intro j' hj'
              exact new_val_nl hreg (split_nl (lookup_nl hreg (int_nl _))) hj'
            split at hp
            · split at hp
              · rename_i j' hj'
                simp only [Except.ok.injEq, Prod.mk.injEq] at hp
                rw [← hp.2]; exact new_val_nl hreg (page_nl _) hj'
              · simp at hp
            all_goals first
              | (split at hp
                 · split at hp
                   · rename_i j' hj'
                     simp only [Except.ok.injEq, Prod.mk.injEq] at hp
                     rw [← hp.2]; exact huse _ hj'
                   · simp at hp
                 · simp only [Except.ok.injEq, Prod.mk.injEq] at hp
                   rw [← hp.2]; exact hi')
              | (simp only [Except.ok.injEq, Prod.mk.injEq] at hp
                 rw [← hp.2]; exact hi')
          · simp at hp
        · apply ih
          have : 0 < Parser.sliceLen h := by rw [sliceLen_eq]; omega
          simp at hn ⊢; omega

/-- Any selection of passes, and items that differ in names only. -/
theorem wire_optimizer (reg reg' : Registry) (min max : Int) (xs ys : List Item)
    (h : xs.map Item.wire = ys.map Item.wire) :
    keys ((new reg min max Pass.sink).run xs) = keys ((new reg' min max Pass.sink).run ys) := by
  obtain ⟨S, a1, a2, a3⟩ := Wire.sim_new reg reg' min max
  have hf := Wire.Pass.feed_sim a2 xs ys _ _ a1 h
  have hr : ∀ (p : Pass) (zs : List Item), p.run zs = (p.feed p.init zs).2 ++ p.fin (p.feed p.init zs).1 :=
    fun p zs => by rw [Pass.run, Pass.runFrom_eq]
  have hs : ((new reg min max Pass.sink).run xs).map Item.wire =
      ((new reg' min max Pass.sink).run ys).map Item.wire := by
    rw [hr, hr, List.map_append, List.map_append, hf.2, a3 _ _ hf.1]
  have := congrArg (List.map (fun x : Cls × Int × Bool => (x.1, x.2.1))) hs
  rw [List.map_map, List.map_map] at this
  exact this

theorem loc_truthy {i : Item} (hm : i.Made) (hl : i.cls.kind = .loc) (h : usageLike i.cls = false → i.ival ≠ 0) :
    i.val.truthy = true := by
  by_cases hu : usageLike i.cls = true
  · obtain ⟨reg, v, hn⟩ := hm
    rw [new_plain reg (by simp [plainCls, hl]), if_pos hu] at hn
    split at hn
    · simp only [Except.ok.injEq] at hn
      have : i.val = .usage (Usage.lookup reg v) := by rw [← hn]
      rw [this]; rfl
    · simp at hn
  · have h := h (by simpa using hu)
    unfold Item.ival at h
    cases hv : i.val with
    | int k => rw [hv] at h; simpa [PyVal.truthy] using h
    | named _ _ => rfl
    | usage _ => rfl

/-- Locals that are not usages are not 0. -/
def Indexed (k : SItem) : Prop := k.1.kind = .loc → usageLike k.1 = false → k.2 ≠ 0

theorem wire_made {xs : List Item} (hm : ∀ i ∈ xs, i.Made) (h : ∀ k ∈ keys xs, Indexed k) :
    xs.map Item.wire = (keys xs).map (fun k => (k.1, k.2, true)) := by
  unfold keys
  rw [List.map_map]
  apply List.map_congr_left
  intro i hi
  have h := h i.key (List.mem_map_of_mem hi)
  simp only [Item.wire, Function.comp, Item.key, Prod.mk.injEq, true_and]
  by_cases hl : i.cls.kind = .loc
  · simp [loc_truthy (hm i hi) hl (h hl)]
  · simp [hl]

theorem val_indexed (v : Value) : ∀ k ∈ valKeys v, k.1 = .strIndex → k.2 ≠ 0 := by
  intro k hk
  have hw : v.way.cls ≠ .strIndex := by cases v.way <;> simp [Way.cls]
  unfold valKeys at hk
  split at hk
  · simp only [List.mem_cons, List.not_mem_nil, or_false] at hk
    rcases hk with rfl | rfl | rfl
    · simp
    · simp
    · exact fun h => absurd h hw
  · simp only [fieldKeys, List.mem_append, List.mem_map, List.mem_cons, List.not_mem_nil, or_false] at hk
    rcases hk with (((⟨u, h, rfl⟩ | rfl | rfl) | h) | ((((⟨u, h, rfl⟩ | (rfl | rfl | rfl | rfl)) | h) | h) | (rfl | rfl | rfl))) | h
    · simp
    · simp
    · simp
    · rw [(mem_when h).1]; simp
    · simp
    · simp
    · simp
    · simp
    · simp
    · obtain ⟨rfl, h'⟩ := mem_unless h; simp
    · obtain ⟨rfl, h'⟩ := mem_unless h; exact fun _ => h'
    · simp
    · simp
    · exact fun h => absurd h hw
    · rw [(mem_when h).1]; simp

theorem tree_strings (ts : List Tok) (c : Count) (last : Int) :
    ∀ k ∈ treeKeys c last ts, k.1 = .strIndex → k.2 ≠ 0 := by
  induction ts generalizing c last with
  | nil => simp [treeKeys]
  | cons t ts ih =>
    intro k hk
    cases t with
    | report i =>
      rw [treeKeys, List.mem_append] at hk
      rcases hk with hk | hk
      · split at hk
        · simp at hk
        · simp at hk; subst hk; simp
      · exact ih _ _ k hk
    | endReport => exact ih _ _ k hk
    | enter kk u =>
      rw [treeKeys, List.mem_cons, List.mem_cons] at hk
      rcases hk with rfl | rfl | hk
      · simp
      · simp
      · exact ih _ _ k hk
    | leave =>
      rw [treeKeys, List.mem_cons] at hk
      rcases hk with rfl | hk
      · simp
      · exact ih _ _ k hk
    | leaf l =>
      rw [treeKeys, List.mem_append] at hk
      rcases hk with hk | hk
      · unfold Streamer.leafKeys at hk
        rw [List.mem_append] at hk
        rcases hk with hk | hk
        · unfold padKeys at hk
          split at hk
          · simp at hk
          · have hw : l.way.cls ≠ .strIndex := by cases l.way <;> simp [Way.cls]
            simp only [List.mem_cons, List.not_mem_nil, or_false] at hk
            rcases hk with rfl | rfl | rfl
            · simp
            · simp
            · exact fun h => absurd h hw
        · cases l with
          | value v => exact val_indexed v k hk
          | align => simp [ownKeys] at hk
          | padding => simp [ownKeys] at hk
      · exact ih _ _ k hk

theorem compiled_indexed {reg : Registry} {n : Node} {items : List Item} (h : compile reg n = .ok items) :
    ∀ k ∈ keys items, Indexed k := by
  rw [compile_keys h]
  intro k hk hl hu
  have hp := treeKeys_plain (tokens n) (fun _ _ => 0) 0 ((tokens n).flatMap tokUsages)
    (fun t ht u hu => List.mem_flatMap.2 ⟨t, ht, hu⟩) k hk
  have hs := tree_strings _ _ _ k hk
  obtain ⟨c, x⟩ := k
  have hl : c.kind = .loc := hl
  have hu : usageLike c = false := hu
  cases c <;> first
    | exact absurd hl (by decide)
    | exact absurd hu (by decide)
    | exact hs rfl
    | exact hp
    | exact False.elim hp

/-- Items read that are those of a compiled tree are optimized alike. -/
theorem later_keys {reg reg' : Registry} {n : Node} {items ys : List Item} (h : compile reg n = .ok items)
    (hy : ∀ i ∈ ys, i.Made) (hk : keys ys = keys items) (min max : Int) :
    keys ((new reg' min max Pass.sink).run ys) = keys ((new reg min max Pass.sink).run items) := by
  apply wire_optimizer
  rw [wire_made hy (by rw [hk]; exact compiled_indexed h), wire_made (compile_made h) (compiled_indexed h), hk]

/-- A compiled document is read as the items it was written from. -/
theorem compiled_read {reg : Registry} {f : Formatter.Fmt} {n : Node} {d : Formatter.Doc}
    (h : Compiler.main reg f false n = .ok d) (hn : f = .code → reg.oneLine ∧ oneLineTree n) (reg' : Registry) (uni : Parser.Uni) :
    ∃ items, compile reg n = .ok items ∧ (Formatter.deliver f reg' uni d).2 = none ∧
      keys (Formatter.deliver f reg' uni d).1 = keys items := by
  obtain ⟨items, hc, hr⟩ := main_items h
  refine ⟨items, hc, ?_⟩
  by_cases hf : f = .code
  · subst hf
    obtain ⟨h1, h2⟩ := hn rfl
    have hl := compiled_lines h1 h2 hc false
    simp only [Bool.false_eq_true, if_false] at hl
    obtain ⟨b, hb⟩ : ∃ b, Formatter.binary items = .ok b := by
      simp only [Formatter.render] at hr
      cases hx : Formatter.code items with
      | error e => rw [hx] at hr; simp [Except.map] at hr
      | ok t => exact binary_of_code items 0 t hx
    obtain ⟨d', e1, e2, e3⟩ := C13_formats_agree_partial .code reg' uni items (compile_made hc) hl b hb
    rw [hr] at e1
    cases e1
    exact ⟨e2, e3⟩
  · exact render_delivers (compile_made hc) hf uni hr

/-- The items of a compiled document, optimized by the reader. -/
theorem later_items {reg reg' : Registry} {uni : Parser.Uni} {f : Formatter.Fmt} {n : Node} {d : Formatter.Doc}
    (h : Compiler.main reg f false n = .ok d) (hn : f = .code → reg.oneLine ∧ oneLineTree n) :
    ∃ items xs, compile reg n = .ok items ∧ Formatter.deliver f reg' uni d = (xs, none) ∧
      (∀ i ∈ optimize reg' xs, i.Made) ∧ (∀ i ∈ optimize reg items, i.Made) ∧
      keys (optimize reg' xs) = keys (optimize reg items) := by
  obtain ⟨items, hc, h1, h2⟩ := compiled_read h hn reg' uni
  have hm : ∀ i ∈ (Formatter.deliver f reg' uni d).1, i.Made := fun i hi => (deliver_read f reg' uni d i hi).2
  refine ⟨items, _, hc, Prod.ext rfl h1, optimize_made _ _ hm, optimize_made _ _ (compile_made hc), ?_⟩
  exact later_keys hc hm h2 0 100

/-- **C86.** A descriptor compiled with `-N` and converted with `-O` is the descriptor compiled at once: the same
document, or the same exception when it has no writing. -/
theorem C86_later (reg reg' : Registry) (uni : Parser.Uni) (f g : Formatter.Fmt) (hg : g ≠ .code) (n : Node) (d : Formatter.Doc)
    (h : Compiler.main reg f false n = .ok d) (hn : f = .code → reg.oneLine ∧ oneLineTree n) :
    Converter.optimized f g reg' uni d = Compiler.main reg g true n := by
  obtain ⟨items, xs, hc, hd, m1, m2, hk⟩ := later_items (reg' := reg') (uni := uni) h hn
  rw [Converter.optimized, Compiler.main, hd, hc]
  exact render_same m1 m2 hk hg

/-- **C86.** To code: there is a text exactly when compiling at once has one, and it is code the descriptor is
tested against. -/
theorem C86_code (reg reg' : Registry) (hreg' : reg'.oneLine) (uni : Parser.Uni) (f : Formatter.Fmt) (n : Node)
    (d : Formatter.Doc) (h : Compiler.main reg f false n = .ok d) (hn : f = .code → reg.oneLine ∧ oneLineTree n) :
    ((∃ t, Converter.optimized f .code reg' uni d = .ok t) ↔ ∃ t, Compiler.main reg .code true n = .ok t) ∧
    ∀ t, Converter.optimized f .code reg' uni d = .ok (.text t) → Compiler.expected reg uni.space t n = .ok () := by
  obtain ⟨items, xs, hc, hd, m1, m2, hk⟩ := later_items (reg' := reg') (uni := uni) h hn
  have hb := binary_congr m1 m2 hk
  have hw : ∀ l : List Item, (∃ t, Formatter.render .code l = .ok t) ↔ ∃ b, Formatter.binary l = .ok b := by
    intro l
    refine ⟨fun ⟨t, ht⟩ => ?_, fun ⟨b, hb⟩ => render_of_binary .code hb⟩
    simp only [Formatter.render] at ht
    cases hx : Formatter.code l with
    | error e => rw [hx] at ht; simp [Except.map] at ht
    | ok t => exact binary_of_code l 0 t hx
  have e1 : Converter.optimized f .code reg' uni d = Formatter.render .code (optimize reg' xs) := by
    rw [Converter.optimized, hd]
  have e2 : ∀ g, Compiler.main reg g true n = Formatter.render g (optimize reg items) := by
    intro g; rw [Compiler.main, hc]; rfl
  rw [e1, e2, hw, hw, hb]
  refine ⟨Iff.rfl, fun t ht => ?_⟩
  have hl : ∀ i ∈ optimize reg' xs, '\n' ∉ i.str := by
    intro i hi
    refine str_nl (optimizer_plain hreg' _ _ xs (fun j hj => ?_) i hi)
    obtain ⟨b, hb⟩ := deliver_bytes f uni d reg' (by rw [hd])
    rw [hb] at hd
    exact delivered_val_nl hreg' b.length 0 b (Nat.le_refl _) j (by rw [show Parser.blobLoop reg' 0 b = (xs, none) from hd]; exact hj)
  simp only [Formatter.render] at ht
  cases hx : Formatter.code (optimize reg' xs) with
  | error e => rw [hx] at ht; simp [Except.map] at ht
  | ok t' =>
    rw [hx] at ht
    simp only [Except.map, Except.ok.injEq, Formatter.Doc.text.injEq] at ht
    subst ht
    obtain ⟨b, b1, b2⟩ := C12_code_roundtrip uni.space 0 _ _ hl hx
    rw [C61_expected_exact]
    exact ⟨b, b2, by rw [e2, Formatter.render, ← hb, b1]; rfl⟩

/-- **C86.** Whatever the document went through in between. -/
theorem C86_chain (reg reg' reg'' : Registry) (hreg' : reg'.oneLine) (uni : Parser.Uni) (f g : Formatter.Fmt) (hg : g ≠ .code)
    (gs : List Formatter.Fmt) (n : Node) (d : Formatter.Doc) (h : Compiler.main reg f false n = .ok d)
    (hn : f = .code → reg.oneLine ∧ oneLineTree n) :
    ∃ d', convertChain reg' uni f gs d = .ok (gs.getLastD f, d') ∧
      Converter.optimized (gs.getLastD f) g reg'' uni d' = Compiler.main reg g true n := by
  obtain ⟨items, hc, h1, h2⟩ := compiled_read h hn reg' uni
  obtain ⟨d', e1, e2⟩ := C74_same_items reg' hreg' uni f gs d h1
  refine ⟨d', e1, ?_⟩
  rw [← C86_later reg reg'' uni f g hg n d h hn, Converter.optimized, Converter.optimized, e2]

/-- **C86.** In a library chain, any selection of passes: what they are given when the document is read, and what they
are given by the streamer. -/
theorem C86_passes (reg reg' : Registry) (uni : Parser.Uni) (f : Formatter.Fmt) (n : Node) (d : Formatter.Doc)
    (h : Compiler.main reg f false n = .ok d) (hn : f = .code → reg.oneLine ∧ oneLineTree n) (min max : Int) :
    ∃ items xs, compile reg n = .ok items ∧ Formatter.deliver f reg' uni d = (xs, none) ∧
      keys ((new reg' min max Pass.sink).run xs) = keys ((new reg min max Pass.sink).run items) ∧
      Formatter.binary ((new reg' min max Pass.sink).run xs) = Formatter.binary ((new reg min max Pass.sink).run items) := by
  obtain ⟨items, hc, h1, h2⟩ := compiled_read h hn reg' uni
  have hm : ∀ i ∈ (Formatter.deliver f reg' uni d).1, i.Made := fun i hi => (deliver_read f reg' uni d i hi).2
  have hk := later_keys (reg' := reg') hc hm h2 min max
  exact ⟨items, _, hc, Prod.ext rfl h1, hk,
    binary_congr (optimizer_made _ _ _ _ hm) (optimizer_made _ _ _ _ (compile_made hc)) hk⟩

/-- Met by a tree, as code and as bytes; optimizing changes it. -/
example : oneLineTree sampleTree ∧ Registry.oneLine [] ∧
    (match Compiler.main [] .binary false sampleTree, Compiler.main [] .binary true sampleTree with
      | .ok (.bytes b), .ok (.bytes c) => decide (b.length = 1245 ∧ c.length = 68)
      | _, _ => false) = true ∧
    (Compiler.main [] .code false sampleTree).toOption.isSome := by
  refine ⟨by unfold oneLineTree; decide +kernel, by simp [Registry.oneLine], by decide +kernel, by decide +kernel⟩

/-- **C86.** Names are to be on one line when the document in between is code. -/
theorem C86_newline_breaks (uni : Parser.Uni) (hu : uni.space = fun _ => false) :
    let n : Node := .coll (.named (tx "x\n0x09, 0x05, //") 1) (some (.int 0x10002)) []
    ∃ d, Compiler.main [] .code false n = .ok d ∧
      Compiler.main [] .binary true n = .ok (.bytes [0x05, 1, 0x09, 2, 0xa1, 1, 0xc0]) ∧
      Converter.optimized .code .binary [] uni d = .ok (.bytes [0x05, 1, 0x09, 2, 0xa1, 1, 0x05, 0, 0x09, 5, 0xc0]) := by
  obtain ⟨word, space⟩ := uni
  simp only at hu
  subst hu
  refine ⟨.text (tx "     0x0b, 0x02, 0x00, 0x01, 0x00,  // Usage (0x10002)\n     0xa1, 0x01,                    // Collection (x\n0x09, 0x05, //)\n     0xc0,                          // EndCollection\n"),
    by decide +kernel, by decide +kernel, ?_⟩
  have h1 : Parser.codeBlob (fun _ => false) (tx "     0x0b, 0x02, 0x00, 0x01, 0x00,  // Usage (0x10002)\n     0xa1, 0x01,                    // Collection (x\n0x09, 0x05, //)\n     0xc0,                          // EndCollection\n") =
      .ok [0x0b, 2, 0, 1, 0, 0xa1, 1, 9, 5, 0xc0] := by decide +kernel
  rw [Converter.optimized, Formatter.deliver, h1]
  simp only [Parser.blobParse]
  rw [blobSteps_eq _ 20 _ _ (by decide)]
  decide +kernel

end Hrdc
