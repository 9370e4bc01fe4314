import Verif.Proofs.Compile2
import Verif.Props.Streams
import Verif.Model.Compiler
/-!
# C29, C31, C34, C36, C45, C54: descriptor trees and their compilation
-/
namespace Hrdc
open Spec Streamer

/-! ## Trees -/

/-- All values of the tree come from the constructor. -/
def TreeMade (n : Node) : Prop := ∀ v, Leaf.value v ∈ leaves n → v.Made

/-- No value of the tree has both a usage and a named array. -/
def NoNamedCollection (n : Node) : Prop :=
  ∀ v, Leaf.value v ∈ leaves n → arrayUsages v.namedArray ≠ [] → usageOf v.usage = none

/-- Collection kinds are not negative (a negative plain int is taken as a Python list index). -/
def KindsOK (n : Node) : Prop := ∀ k u, Tok.enter k u ∈ tokens n → 0 ≤ k.toInt

theorem mem_leaves {l : Leaf} {n : Node} : l ∈ leaves n ↔ Tok.leaf l ∈ tokens n := by
  unfold leaves
  rw [List.mem_filterMap]
  constructor
  · rintro ⟨t, ht, he⟩
    cases t <;> simp at he
    subst he; exact ht
  · intro h; exact ⟨_, h, rfl⟩

theorem leafFit_of {a : Nat} {n : Node} (h : CountsFit a n) {l : Leaf} (hl : l ∈ leaves n) :
    LeafFit a l := by
  have := h l hl
  cases l <;> exact this

/-! ## C29 -/

/-- **C29 (partial).** The items a descriptor compiles to have exactly the meaning of the tree, for
both sorts of hosts.  Missing, and false of the code: named arrays that have a usage
(`C45_usage_breaks`), values after the end of a Report (`C35_values_after_report`), values with a
count whose further fields break the alignment (`C32_counts_break`), negative collection kinds. -/
theorem C29_compile_meaning_partial (reg : Registry) (rule : PageRule) (n : Node) (items : List Item)
    (h : compile reg n = .ok items) (hm : TreeMade n) (hn : NoNamedCollection n) (hk : KindsOK n)
    (hr : ReportsLast n) (a : Nat) (hf : CountsFit a n) :
    meaning rule (keys items) = treeMeaning n := by
  obtain ⟨st, hst⟩ := compile_toks h
  unfold treeMeaning meaning
  rw [pieces_eq]
  refine toks_events (A := a) rule (tokens n) [] 0 0 {} st _ {} items hst hr ?_ hk (by decide) rfl rfl
    ⟨rfl, rfl, rfl, rfl⟩ ?_
  · intro l hl
    have hl' := mem_leaves.2 hl
    refine ⟨leafFit_of hf hl', ?_⟩
    cases l with
    | value v => exact ⟨hm v hl', hn v hl'⟩
    | align w b => trivial
    | padding w s => trivial
  · intro w k _ _
    simp

/-- Everything a tree that has one field per value, the same report throughout and no named arrays
needs: the conditions of C29 hold for it whatever its alignments. -/
theorem countsFit_single {n : Node} (h : ∀ v, Leaf.value v ∈ leaves n → v.count = 1) : CountsFit 0 n := by
  intro l hl
  cases l with
  | value v =>
    refine ⟨fun _ => ?_, ?_⟩
    · exact Int.dvd_zero _
    · rw [h v hl]; simp
  | align w b => intro _; exact Int.dvd_zero _
  | padding w s => trivial

/-- Value of a pointer button. -/
def button (n : Int) : ValueArgs :=
  { way := .input, usage := some (.usage (Button n)), size := 1, logicalMin := some 0, logicalMax := some 1 }

/-- Value of a pointer axis. -/
def axis (u : Int) : ValueArgs :=
  { way := .input, usage := some (.int u), size := 8, flags := .int 6, logicalMin := some (-127),
    logicalMax := some 127 }

/-- Value of an argument list the constructor accepts. -/
def mk (a : ValueArgs) : Value :=
  match Value.new a with
  | .ok v => v
  | .error _ => default

theorem mk_made {a : ValueArgs} (h : (Value.new a).toOption.isSome) : (mk a).Made := by
  refine ⟨a, ?_⟩
  unfold mk
  cases hv : Value.new a with
  | ok v => rfl
  | error e => rw [hv] at h; simp [Except.toOption] at h

/-- The keyboard value of `doc/descriptor.rst`, six times. -/
def keys6 : ValueArgs :=
  { way := .input, usage := none, size := 8, logicalMin := some 0, count := 6,
    namedArray := some (.range ⟨.int 0x70000, .int 0x700dd⟩) }

/-- A mouse report with buttons, padding and axes, and a keyboard report. -/
def sampleTree : Node :=
  .coll (.named (tx "Application") 1) (some (.int 0x10002)) [
    .report 1 [.value (mk (button 1)), .value (mk (button 2)), .align .input 8, .value (mk (axis 0x10030)),
      .value (mk (axis 0x10031))],
    .report 2 [.padding .input 8, .value (mk keys6)]]

theorem sample_leaves {v : Value} (h : Leaf.value v ∈ leaves sampleTree) :
    v = mk (button 1) ∨ v = mk (button 2) ∨ v = mk (axis 0x10030) ∨ v = mk (axis 0x10031) ∨
      v = mk keys6 := by
  simp [leaves, sampleTree, tokens, tokensL] at h
  exact h

theorem sampleTree_ok : (compile [] sampleTree).toOption.isSome ∧ TreeMade sampleTree ∧
    NoNamedCollection sampleTree ∧ KindsOK sampleTree ∧ ReportsLast sampleTree ∧
    CountsFit 8 sampleTree := by
  refine ⟨by decide +kernel, ?_, ?_, ?_, ?_, ?_⟩
  · intro v hv
    rcases sample_leaves hv with rfl | rfl | rfl | rfl | rfl <;> exact mk_made (by decide +kernel)
  · intro v hv
    rcases sample_leaves hv with rfl | rfl | rfl | rfl | rfl <;> decide +kernel
  · intro k u h
    simp [sampleTree, tokens, tokensL] at h
    rw [h.1]; decide
  · decide +kernel
  · intro l hl
    cases l with
    | value v => rcases sample_leaves hl with rfl | rfl | rfl | rfl | rfl <;> decide +kernel
    | align w b =>
      simp [leaves, sampleTree, tokens, tokensL] at hl
      rw [hl.2]
      show (8 : Int) > 1 → (8 : Int) ∣ ((8 : Nat) : Int)
      intro _; decide
    | padding w s => trivial

example : (treeMeaning sampleTree).length = 26 := by decide +kernel

/-! ## C31 -/

theorem addPad_made {reg : Registry} {st st' : State} {w : Way} {pad : Int} {is : List Item}
    (h : addPad reg st w pad = .ok (st', is)) : ∀ i ∈ is, i.Made := by
  unfold addPad at h
  split at h
  · split at h
    · simp at h
    · rename_i a ha
      split at h
      · simp at h
      · split at h
        · simp at h
        · rename_i b hb
          simp only [Except.ok.injEq, Prod.mk.injEq] at h
          rw [← h.2]
          intro i hi
          rcases List.mem_append.1 hi with hi | hi
          · exact emit_made ha i hi
          · exact emit_made hb i hi
  · simp only [Except.ok.injEq, Prod.mk.injEq] at h
    rw [← h.2]; simp

theorem value_made {reg : Registry} {st st' : State} {v : Value} {is : List Item}
    (h : value reg st v = .ok (st', is)) : ∀ i ∈ is, i.Made := by
  unfold value at h
  split at h
  · simp at h
  · split at h
    · simp at h
    · rename_i st1 a ha
      split at h
      · simp at h
      · simp only at h
        split at h
        · simp at h
        · rename_i b hb
          split at h
          · simp at h
          · split at h
            · simp at h
            · rename_i c hc
              simp only [Except.ok.injEq, Prod.mk.injEq] at h
              rw [← h.2]
              intro i hi
              rcases List.mem_append.1 hi with hi | hi
              · rcases List.mem_append.1 hi with hi | hi
                · exact addPad_made ha i hi
                · exact emit_made hb i hi
              · exact emit_made hc i hi

theorem tok_made {reg : Registry} {st st' : State} {t : Tok} {is : List Item}
    (h : tok reg st t = .ok (st', is)) : ∀ i ∈ is, i.Made := by
  cases t with
  | report id =>
    simp only [tok] at h
    split at h
    · simp at h
    · rename_i a ha
      simp only [Except.ok.injEq, Prod.mk.injEq] at h
      rw [← h.2]; exact emit_made ha
  | endReport =>
    simp only [tok, Except.ok.injEq, Prod.mk.injEq] at h
    rw [← h.2]; simp
  | enter k u =>
    cases u with
    | none => simp [tok] at h
    | some u =>
      simp only [tok] at h
      split at h
      · simp at h
      · rename_i a ha
        simp only [Except.ok.injEq, Prod.mk.injEq] at h
        rw [← h.2]; exact emit_made ha
  | leave =>
    simp only [tok] at h
    split at h
    · simp at h
    · rename_i a ha
      simp only [Except.ok.injEq, Prod.mk.injEq] at h
      rw [← h.2]; exact emit_made ha
  | leaf l =>
    cases l with
    | value v => exact value_made h
    | align w b =>
      simp only [tok] at h
      split at h
      · simp at h
      · exact addPad_made h
    | padding w s => exact addPad_made h

theorem toks_made {reg : Registry} {st st' : State} {ts : List Tok} {is : List Item}
    (h : toks reg st ts = .ok (st', is)) : ∀ i ∈ is, i.Made := by
  induction ts generalizing st is with
  | nil => simp only [toks, Except.ok.injEq, Prod.mk.injEq] at h; rw [← h.2]; simp
  | cons t ts ih =>
    simp only [toks] at h
    split at h
    · simp at h
    · rename_i st1 a ha
      split at h
      · simp at h
      · rename_i st2 b hb
        simp only [Except.ok.injEq, Prod.mk.injEq] at h
        obtain ⟨rfl, rfl⟩ := h
        intro i hi
        rcases List.mem_append.1 hi with hi | hi
        · exact tok_made ha i hi
        · exact ih hb i hi

theorem compile_made {reg : Registry} {n : Node} {items : List Item}
    (h : compile reg n = .ok items) : ∀ i ∈ items, i.Made := by
  obtain ⟨st, hst⟩ := compile_toks h
  exact toks_made hst

/-- **C31 (partial).** The bytes a descriptor compiles to (`compile_main -N`) decode, as HID
prescribes, to items having the meaning of the tree.  Missing: as for C29. -/
theorem C31_bytes_meaning_partial (reg : Registry) (rule : PageRule) (n : Node) (b : List UInt8)
    (h : Compiler.main reg .binary false n = .ok (.bytes b)) (hm : TreeMade n)
    (hn : NoNamedCollection n) (hk : KindsOK n) (hr : ReportsLast n) (a : Nat) (hf : CountsFit a n) :
    ∃ ks, readAll b = some ks ∧ meaning rule ks = treeMeaning n := by
  unfold Compiler.main at h
  split at h
  · simp at h
  · rename_i items hi
    simp only [Bool.false_eq_true, if_false, Formatter.render] at h
    cases hb : Formatter.binary items with
    | error e => rw [hb] at h; simp [Except.map] at h
    | ok b' =>
      rw [hb] at h
      simp [Except.map] at h
      subst h
      exact ⟨_, readAll_binary (compile_made hi) hb,
        C29_compile_meaning_partial reg rule n items hi hm hn hk hr a hf⟩

example : (Compiler.main [] .binary false sampleTree).toOption.isSome := by decide +kernel

/-! ## C34 -/

/-- Collection depth after a list of items: `none` once an EndCollection closes nothing. -/
def Spec.depth (d : Nat) : List Cls → Option Nat
  | [] => some d
  | .collection :: r => Spec.depth (d + 1) r
  | .endCollection :: r => match d with
    | 0 => none
    | d + 1 => Spec.depth d r
  | _ :: r => Spec.depth d r

theorem depth_cons_other (d : Nat) (c : Cls) (r : List Cls) (h1 : c ≠ .collection)
    (h2 : c ≠ .endCollection) : Spec.depth d (c :: r) = Spec.depth d r := by
  cases c <;> first | rfl | exact absurd rfl h1 | exact absurd rfl h2

theorem depth_append (d : Nat) (xs ys : List Cls) :
    Spec.depth d (xs ++ ys) = (Spec.depth d xs).bind (fun e => Spec.depth e ys) := by
  induction xs generalizing d with
  | nil => rfl
  | cons x xs ih =>
    by_cases h1 : x = .collection
    · subst h1; exact ih (d + 1)
    · by_cases h2 : x = .endCollection
      · subst h2
        cases d with
        | zero => rfl
        | succ d => exact ih d
      · rw [List.cons_append, depth_cons_other d x _ h1 h2, depth_cons_other d x _ h1 h2, ih]

theorem depth_flat (d : Nat) (xs : List Cls) (h : ∀ c ∈ xs, c ≠ .collection ∧ c ≠ .endCollection) :
    Spec.depth d xs = some d := by
  induction xs with
  | nil => rfl
  | cons x xs ih =>
    rw [depth_cons_other d x _ (h x (by simp)).1 (h x (by simp)).2]
    exact ih (fun c hc => h c (by simp [hc]))

theorem emit_cls {reg : Registry} {cs : List (Cls × PyVal)} {is : List Item}
    (h : emit reg cs = .ok is) : is.map Item.cls = cs.map Prod.fst := by
  induction cs generalizing is with
  | nil => simp only [emit, Except.ok.injEq] at h; subst h; rfl
  | cons c cs ih =>
    obtain ⟨c, v⟩ := c
    obtain ⟨i, t, rfl, hi, ht⟩ := emit_cons_ok h
    simp [ih ht, (new_cls hi).1]

theorem way_flat (w : Way) : w.cls ≠ .collection ∧ w.cls ≠ .endCollection := by
  cases w <;> simp [Way.cls]

theorem addPad_depth {reg : Registry} {st st' : State} {w : Way} {pad : Int} {is : List Item}
    (h : addPad reg st w pad = .ok (st', is)) (d : Nat) :
    Spec.depth d (is.map Item.cls) = some d := by
  unfold addPad at h
  split at h
  · split at h
    · simp at h
    · rename_i a ha
      split at h
      · simp at h
      · split at h
        · simp at h
        · rename_i b hb
          simp only [Except.ok.injEq, Prod.mk.injEq] at h
          rw [← h.2, List.map_append, emit_cls ha, emit_cls hb]
          apply depth_flat
          intro c hc
          simp at hc
          rcases hc with rfl | rfl | rfl
          · simp
          · simp
          · exact way_flat w
  · simp only [Except.ok.injEq, Prod.mk.injEq] at h
    rw [← h.2]; rfl

theorem value_depth {reg : Registry} {st st' : State} {v : Value} {is : List Item}
    (h : value reg st v = .ok (st', is)) (d : Nat) : Spec.depth d (is.map Item.cls) = some d := by
  unfold value at h
  split at h
  · simp at h
  · split at h
    · simp at h
    · rename_i st1 a ha
      split at h
      · simp at h
      · rename_i named hn
        simp only at h
        split at h
        · simp at h
        · rename_i b hb
          split at h
          · simp at h
          · split at h
            · simp at h
            · rename_i c hc
              simp only [Except.ok.injEq, Prod.mk.injEq] at h
              rw [← h.2, List.map_append, List.map_append, emit_cls hb, emit_cls hc,
                List.append_assoc, depth_append, addPad_depth ha, Option.bind_some]
              -- the attributes open a collection exactly when the end of the value closes one
              have hw := way_flat v.way
              have hflat : ∀ (o : List (Cls × PyVal)), (∀ c ∈ o, c.1 ≠ .collection ∧ c.1 ≠ .endCollection) →
                  ∀ e, Spec.depth e (o.map Prod.fst) = some e := by
                intro o ho e
                apply depth_flat
                intro c hc
                obtain ⟨x, hx, rfl⟩ := List.mem_map.1 hc
                exact ho x hx
              have hopt : ∀ (p : Prop) [Decidable p] (y : Cls × PyVal) (x : Cls × PyVal),
                  x ∈ (if p then [y] else []) → x = y := by
                intro p _ y x hy; split at hy <;> simp_all
              have hstart : ∀ e, Spec.depth e ((match v.usage with
                    | some u => if u.truthy then [(Cls.usage, u)] else []
                    | none => []).map Prod.fst) = some e := by
                apply hflat
                intro x hx
                split at hx
                · rw [hopt _ _ _ hx]; simp
                · simp at hx
              have hend : ∀ e, Spec.depth e (([(Cls.logMin, orZero v.logicalMin), (.logMax, orZero v.logicalMax),
                    (.unit, v.unit), (.unitExp, .int v.unitExponent)] ++
                    (if v.designator ≠ 0 then [(Cls.desigIndex, PyVal.int v.designator)] else []) ++
                    (if v.string ≠ 0 then [(Cls.strIndex, PyVal.int v.string)] else [])).map Prod.fst) = some e := by
                apply hflat
                intro x hx
                simp only [List.mem_append] at hx
                rcases hx with (hx | hx) | hx
                · simp at hx; rcases hx with rfl | rfl | rfl | rfl <;> simp
                · rw [hopt _ _ _ hx]; simp
                · rw [hopt _ _ _ hx]; simp
              have hmain : ∀ e, Spec.depth e (([(Cls.reportCount, PyVal.int v.count),
                  (.reportSize, .int v.size)] : List (Cls × PyVal)).map Prod.fst ++ [v.way.cls]) = some e := by
                intro e
                apply depth_flat
                intro c hc
                simp at hc
                rcases hc with rfl | rfl | rfl
                · simp
                · simp
                · exact hw
              by_cases hcl : (named && !constFlag v.flags && usageGiven v.usage) = true
              · have h1 : named = true := by revert hcl; cases named <;> simp
                have h2 : constFlag v.flags = false := by revert hcl; cases constFlag v.flags <;> simp
                have h3 : usageGiven v.usage = true := by revert hcl; cases usageGiven v.usage <;> simp
                subst h1
                obtain ⟨arr, harr⟩ : ∃ arr, v.namedArray = some arr := by
                  cases hna : v.namedArray with
                  | none => rw [hna] at hn; simp [truthOpt] at hn
                  | some arr => exact ⟨arr, rfl⟩
                have harrs : ∀ e, Spec.depth e (((arr.elems reg).map (fun u => (Cls.usage, u))).map Prod.fst)
                    = some e := by
                  apply hflat
                  intro x hx
                  obtain ⟨u, -, rfl⟩ := List.mem_map.1 hx
                  simp
                have e1 : (if constFlag v.flags = true then [] else attrCalls reg v true) =
                    (match v.usage with
                      | some u => if u.truthy then [(Cls.usage, u)] else []
                      | none => []) ++ ([(.physMin, .int 0), (.physMax, .int 0)] ++
                      ([(.collection, .named (tx "Logical") 2)] ++
                      ((arr.elems reg).map (fun u => (Cls.usage, u)) ++
                      ([(Cls.logMin, orZero v.logicalMin), (.logMax, orZero v.logicalMax),
                        (.unit, v.unit), (.unitExp, .int v.unitExponent)] ++
                        (if v.designator ≠ 0 then [(.desigIndex, .int v.designator)] else []) ++
                        (if v.string ≠ 0 then [(.strIndex, .int v.string)] else []))))) := by
                  rw [h2]
                  unfold attrCalls
                  rw [harr]
                  simp only [h3, if_true, Bool.false_eq_true, if_false, List.append_assoc]
                  cases v.usage <;> rfl
                rw [e1, h2, h3]
                simp only [List.map_append, List.append_assoc] at hend harrs hmain hstart ⊢
                rw [depth_append, hstart, Option.bind_some, depth_append]
                simp only [List.map_cons, List.map_nil, Spec.depth, Option.bind_some]
                rw [depth_append]
                simp only [List.map_cons, List.map_nil, Spec.depth, Option.bind_some]
                rw [depth_append, harrs, Option.bind_some, ← List.append_assoc, ← List.append_assoc,
                  depth_append]
                simp only [List.append_assoc] at hend ⊢
                simp only [List.map_cons, List.map_nil] at hend ⊢
                rw [hend, Option.bind_some, ← List.append_assoc, depth_append]
                simp only [List.map_cons, List.map_nil] at hmain
                rw [hmain]
                simp [Spec.depth]
              · have hx : (named && !constFlag v.flags && usageGiven v.usage) = false := by simpa using hcl
                rw [hx]
                apply depth_flat
                intro c hc
                simp only [List.mem_append, List.map_append, Bool.false_eq_true, if_false,
                  List.map_nil, List.append_nil] at hc
                rcases hc with (hc | hc) | hc
                · obtain ⟨x, hx', rfl⟩ := List.mem_map.1 hc
                  split at hx'
                  · simp at hx'
                  · rename_i hcf
                    have hng : named = true → usageGiven v.usage = false := by
                      intro hh; rw [hh] at hx
                      simpa [hcf] using hx
                    constructor
                    · intro hh
                      have hmm := attr_no_main reg v named hng (x.1, x.2.toInt)
                        (List.mem_map.2 ⟨x, hx', rfl⟩)
                      rw [hh] at hmm; exact hmm rfl
                    · intro hh
                      have hmm := attr_no_main reg v named hng (x.1, x.2.toInt)
                        (List.mem_map.2 ⟨x, hx', rfl⟩)
                      rw [hh] at hmm; exact hmm rfl
                · simp at hc; rcases hc with rfl | rfl <;> simp
                · simp at hc; rw [hc]; exact hw

mutual
theorem node_depth (reg : Registry) : ∀ (n : Node) (st st' : State) (is : List Item),
    node reg st n = .ok (st', is) → ∀ d, Spec.depth d (is.map Item.cls) = some d
  | .value v, st, st', is, h, d => by rw [node] at h; exact value_depth h d
  | .align w b, st, st', is, h, d => by
    rw [node] at h
    split at h
    · simp at h
    · exact addPad_depth h d
  | .padding w s, st, st', is, h, d => by rw [node] at h; exact addPad_depth h d
  | .report id ms, st, st', is, h, d => by
    rw [node] at h
    split at h
    · simp at h
    · rename_i a ha
      split at h
      · simp at h
      · rename_i st1 b hb
        simp only [Except.ok.injEq, Prod.mk.injEq] at h
        rw [← h.2, List.map_append, depth_append, emit_cls ha, depth_flat d _ (by
          intro c hc; split at hc <;> simp at hc; subst hc; simp), Option.bind_some]
        exact nodes_depth reg ms _ _ _ hb d
  | .top ms, st, st', is, h, d => by rw [node] at h; exact nodes_depth reg ms _ _ _ h d
  | .coll k u ms, st, st', is, h, d => by
    cases u with
    | none => simp [node] at h
    | some u =>
      simp only [node] at h
      split at h
      · simp at h
      · rename_i a ha
        split at h
        · simp at h
        · rename_i st1 b hb
          split at h
          · simp at h
          · rename_i c hc
            simp only [Except.ok.injEq, Prod.mk.injEq] at h
            rw [← h.2, List.map_append, List.map_append, List.append_assoc, depth_append,
              emit_cls ha, emit_cls hc]
            simp only [List.map_cons, List.map_nil, Spec.depth, Option.bind_some]
            rw [depth_append, nodes_depth reg ms _ _ _ hb (d + 1)]
            rfl
theorem nodes_depth (reg : Registry) : ∀ (ns : List Node) (st st' : State) (is : List Item),
    nodes reg st ns = .ok (st', is) → ∀ d, Spec.depth d (is.map Item.cls) = some d
  | [], st, st', is, h, d => by
    simp only [nodes, Except.ok.injEq, Prod.mk.injEq] at h
    rw [← h.2]; rfl
  | n :: ns, st, st', is, h, d => by
    rw [nodes] at h
    split at h
    · simp at h
    · rename_i st1 a ha
      split at h
      · simp at h
      · rename_i st2 b hb
        simp only [Except.ok.injEq, Prod.mk.injEq] at h
        rw [← h.2, List.map_append, depth_append, node_depth reg n _ _ _ ha d, Option.bind_some]
        exact nodes_depth reg ns _ _ _ hb d
end

/-- **C34.** Whatever the tree, a successful compilation has properly nested collections: no
EndCollection closes nothing and all collections are closed at the end. -/
theorem C34_balanced (reg : Registry) (n : Node) (items : List Item)
    (h : compile reg n = .ok items) : Spec.depth 0 (items.map Item.cls) = some 0 := by
  unfold compile at h
  split at h
  · rename_i st is he
    simp only [Except.ok.injEq] at h
    subst h
    exact node_depth reg n _ _ _ he 0
  · simp at h

example : Spec.depth 0 [.collection, .endCollection, .endCollection] = none ∧
    Spec.depth 0 [.collection] = some 1 := by decide

end Hrdc
