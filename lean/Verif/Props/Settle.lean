import Verif.Proofs.Settle6
import Verif.Props.Rebuild
/-!
# Property C73: rebuilding a document settles
-/
namespace Hrdc
open Spec Extractor Streamer
open Spec.Script (runScript)

/-- Decompiled trees whose items read back: report 0 is not used after others; named arrays with a usage have one the usage
table lists for arrays, and nothing else looks like one; the last element is in a collection; no padding is empty. -/
structure Steady (known : Int → Bool) (n : Node) : Prop where
  reports : ReportsLast n
  arrays : namedReadable known [] (tokens n) = true
  ends : endsClosed false (tokens n) = true
  padding : ∀ w, Tok.leaf (.padding w 0) ∉ tokens n

theorem steady_iff (known : Int → Bool) (n : Node) : Steady known n ↔
    ReportsLast n ∧ namedReadable known [] (tokens n) = true ∧ endsClosed false (tokens n) = true ∧
      (tokens n).all (fun t => match t with
        | .leaf (.padding _ s) => s != 0
        | _ => true) = true := by
  rw [List.all_eq_true]
  constructor
  · rintro ⟨h1, h2, h3, h4⟩
    refine ⟨h1, h2, h3, ?_⟩
    intro t ht
    split
    · rename_i w s
      simp only [bne_iff_ne, ne_eq]
      rintro rfl
      exact h4 w ht
    · rfl
  · rintro ⟨h1, h2, h3, h4⟩
    refine ⟨h1, h2, h3, ?_⟩
    intro w hw
    have := h4 _ hw
    simp at this

instance (known : Int → Bool) (n : Node) : Decidable (Steady known n) := decidable_of_iff _ (steady_iff known n).symm

/-- **C73 (partial), descriptors.** Compile a decompiled descriptor without optimization and decompile it again: there are the
same elements in the same reports, every usage as the usage table has it, with padding elements where the compiler moved a
field to a boundary.  Missing, and false of the code: trees that are not `Steady`, see the witnesses below. -/
theorem C73_rebuilt_partial (reg : Registry) (f : Formatter.Fmt) (uni : Parser.Uni) (d : Formatter.Doc) (xs : List Item)
    (hd : Formatter.deliver f reg uni d = (xs, none)) (t : Node) (h : extract reg xs = .ok t) (is : List Item)
    (hc : compile reg t = .ok is) (hs : Steady (arrayUsage reg) t) :
    ∃ t', extract reg is = .ok t' ∧ pieces 0 t' = padded noBits ((pieces 0 t).map (normP reg)) ∧
      (padded noBits ((pieces 0 t).map (normP reg)) = pieces 0 t → t' = t) := by
  have hx : ∀ i ∈ xs, ReadItem reg i := by
    have := deliver_read f reg uni d
    rw [hd] at this
    exact fun i hi => (this i hi).1
  obtain ⟨l, l', hw, rfl, h1, hm⟩ := rebuild hx h hc hs.reports hs.arrays hs.ends
  have hp : pieces 0 (ended l') = padded noBits ((pieces 0 (ended l)).map (normP reg)) := by
    rw [ended_pieces, ended_pieces, hm]
    have := padXL_pieces reg l.members noBits [] hw
    simpa [padded] using this.symm
  refine ⟨ended l', h1, hp, ?_⟩
  intro he
  rw [he, ended_pieces, ended_pieces] at hp
  obtain ⟨k, hk, e⟩ := extract_ended h1
  have hk' : xpiecesL k.members = xpiecesL l.members := by
    rw [← ended_pieces 0, ← e, ended_pieces, hp]
  have a1 := buildL_same k.members ([], {}) hk
  rw [hk', buildL_same l.members ([], {}) hw] at a1
  simp only [siteAdd, List.nil_append, Prod.mk.injEq, true_and, Level.mk.injEq] at a1
  rw [e]
  simp only [ended, a1]

/-- **C73 (partial), items.** What is read back compiles to the same items: from then on nothing changes. -/
theorem C73_settles_partial (reg : Registry) (f : Formatter.Fmt) (uni : Parser.Uni) (d : Formatter.Doc) (xs : List Item)
    (hd : Formatter.deliver f reg uni d = (xs, none)) (t : Node) (h : extract reg xs = .ok t) (is : List Item)
    (hc : compile reg t = .ok is) (hs : Steady (arrayUsage reg) t) :
    ∃ t', extract reg is = .ok t' ∧ compile reg t' = .ok is := by
  have hx : ∀ i ∈ xs, ReadItem reg i := by
    have := deliver_read f reg uni d
    rw [hd] at this
    exact fun i hi => (this i hi).1
  obtain ⟨l, l', hw, e, h1, hm⟩ := rebuild hx h hc hs.reports hs.arrays hs.ends
  exact ⟨ended l', h1, rebuild_again hx h hc hs.reports hw e hm hs.padding⟩

theorem scope_enter (ids : List Int) (ts : List Tok) (k : PyVal) (u : Option PyVal) (h : Piece.enter k u ∈ inScope ids ts) :
    Tok.enter k u ∈ ts := by
  induction ts generalizing ids with
  | nil => simp [inScope] at h
  | cons t ts ih =>
    cases t with
    | report i => exact List.mem_cons_of_mem _ (ih _ h)
    | endReport => exact List.mem_cons_of_mem _ (ih _ h)
    | enter k u =>
      rw [inScope, List.mem_cons] at h
      rcases h with h | h
      · simp only [Piece.enter.injEq] at h; rw [h.1, h.2]; exact List.mem_cons_self
      · exact List.mem_cons_of_mem _ (ih _ h)
    | leave =>
      rw [inScope, List.mem_cons] at h
      rcases h with h | h
      · simp at h
      · exact List.mem_cons_of_mem _ (ih _ h)
    | leaf l' =>
      rw [inScope, List.mem_cons] at h
      rcases h with h | h
      · simp at h
      · exact List.mem_cons_of_mem _ (ih _ h)

theorem expressible_norm {reg : Registry} {n n' : Node} (hp : pieces 0 n' = padded noBits ((pieces 0 n).map (normP reg)))
    (he : ∀ k ∈ tokens n, Expressible k) : ∀ k ∈ tokens n', Expressible k := by
  have hpad : ∀ (ps : List Piece) (off : Offs) p, p ∈ padded off ps → (∃ id w s, p = .leaf id (.padding w s)) ∨ p ∈ ps := by
    intro ps
    induction ps with
    | nil => intro off p h; simp [padded] at h
    | cons q ps ih =>
      intro off p h
      have hpp : ∀ {id w n}, p ∈ padPiece id w n → ∃ id w s, p = .leaf id (.padding w s) := by
        intro id w n hp
        unfold padPiece at hp
        split at hp
        · simp only [List.mem_singleton] at hp
          exact ⟨_, _, _, hp⟩
        · simp at hp
      cases q with
      | enter k u =>
        simp only [padded, List.mem_cons] at h
        rcases h with rfl | h
        · exact .inr (by simp)
        · exact (ih _ _ h).imp id (by intro h; simp [h])
      | leave =>
        simp only [padded, List.mem_cons] at h
        rcases h with rfl | h
        · exact .inr (by simp)
        · exact (ih _ _ h).imp id (by intro h; simp [h])
      | leaf i l =>
        cases l with
        | value v =>
          simp only [padded, List.mem_append, List.mem_cons] at h
          rcases h with h | rfl | h
          · exact .inl (hpp h)
          · exact .inr (by simp)
          · exact (ih _ _ h).imp id (by intro h; simp [h])
        | align w a =>
          simp only [padded, List.mem_append] at h
          rcases h with h | h
          · exact .inl (hpp h)
          · exact (ih _ _ h).imp id (by intro h; simp [h])
        | padding w s =>
          simp only [padded, List.mem_append] at h
          rcases h with h | h
          · exact .inl (hpp h)
          · exact (ih _ _ h).imp id (by intro h; simp [h])
  intro k hk
  cases k with
  | report i => trivial
  | endReport => trivial
  | leave => trivial
  | enter k u =>
    have h1 := enter_scope [] _ _ _ hk
    rw [← pieces_eq, hp] at h1
    rcases hpad _ _ _ h1 with ⟨id, w, s, h⟩ | h
    · simp at h
    · obtain ⟨q, hq, e⟩ := List.mem_map.1 h
      cases q with
      | leave => simp [normP] at e
      | leaf i l => simp [normP] at e
      | enter k' u' =>
        simp only [normP, Piece.enter.injEq] at e
        obtain ⟨rfl, rfl⟩ := e
        rw [pieces_eq] at hq
        obtain ⟨h2, h3⟩ := he _ (scope_enter _ _ _ _ hq)
        refine ⟨h2, ?_⟩
        intro x hx
        obtain ⟨y, rfl, rfl⟩ := Option.map_eq_some_iff.1 hx
        rw [norm_toInt]
        exact h3 y rfl
  | leaf l =>
    cases l with
    | align w a => trivial
    | padding w s => trivial
    | value v =>
      obtain ⟨id, h1⟩ := leaf_scope [] _ _ hk
      rw [← pieces_eq, hp] at h1
      rcases hpad _ _ _ h1 with ⟨id, w, s, h⟩ | h
      · simp at h
      · obtain ⟨q, hq, e⟩ := List.mem_map.1 h
        cases q with
        | leave => simp [normP] at e
        | enter k u => simp [normP] at e
        | leaf i l =>
          cases l with
          | align w a => simp [normP, normLeaf] at e
          | padding w s => simp [normP, normLeaf] at e
          | value v0 =>
            simp only [normP, normLeaf, Piece.leaf.injEq, Leaf.value.injEq] at e
            obtain ⟨rfl, rfl⟩ := e
            rw [pieces_eq] at hq
            obtain ⟨h2, h3, h4, h5⟩ := he _ (scope_leaf _ _ _ _ hq)
            refine ⟨?_, ?_, h4, h5⟩
            · intro u hu
              obtain ⟨y, hy, rfl⟩ := Option.map_eq_some_iff.1 hu
              rw [norm_toInt]
              exact h2 y hy
            · intro u hu
              simp only [normV] at hu
              cases ha : v0.namedArray with
              | none => rw [ha] at hu; simp [arrayVals] at hu
              | some a =>
                rw [ha] at hu h3
                cases a with
                | list l =>
                  simp only [Option.map_some, normA, arrayVals, List.mem_map] at hu
                  obtain ⟨y, hy, rfl⟩ := hu
                  rw [norm_toInt]
                  exact h3 y hy
                | range r =>
                  simp only [Option.map_some, normA, arrayVals, List.mem_cons, List.not_mem_nil, or_false] at hu
                  rcases hu with rfl | rfl <;> rw [norm_toInt] <;> exact h3 _ (by simp [arrayVals])

/-- **C73 (partial), the commands.** Decompile a document that can be read, in any format; run the script; compile without
optimization, to bytes or hex.  The result can be decompiled, and compiles to the very same document; so decompiling,
running and compiling again, however often, gives this document and the same script. -/
theorem C73_commands_partial (reg reg' : Registry) (hreg : Imported reg) (f g : Formatter.Fmt) (hg : g ≠ .code) (uni : Parser.Uni)
    (d : Formatter.Doc) (xs : List Item) (hd : Formatter.deliver f reg uni d = (xs, none)) (t : Node) (h : extract reg xs = .ok t)
    (he : ∀ k ∈ tokens t, Expressible k) (hs : Steady (arrayUsage reg) t) :
    ∃ s m, Decompiler.main reg f uni d = .ok s ∧ runScript UsageTable.lookup s = some m ∧
      ∀ d', Compiler.main reg' g false m = .ok d' →
        ∃ s' m', Decompiler.main reg g uni d' = .ok s' ∧ runScript UsageTable.lookup s' = some m' ∧
          Compiler.main reg' g false m' = .ok d' := by
  obtain ⟨s, g1, m, g2, -, g5⟩ := C44_command_partial reg hreg f uni d xs hd t h he
  refine ⟨s, m, g1, g2, ?_⟩
  intro d' hd'
  rw [g5 reg' g false hg] at hd'
  have hcm := hd'
  unfold Compiler.main at hd'
  cases hc : compile reg t with
  | error e => rw [hc] at hd'; simp at hd'
  | ok is =>
    rw [hc] at hd'
    simp only [Bool.false_eq_true, if_false] at hd'
    obtain ⟨t', e1, e2, -⟩ := C73_rebuilt_partial reg f uni d xs hd t h is hc hs
    obtain ⟨t'', e1', e3⟩ := C73_settles_partial reg f uni d xs hd t h is hc hs
    rw [e1] at e1'
    cases e1'
    have hmade : ∀ i ∈ is, i.Made := compile_made hc
    -- what is delivered
    have hdel : (Formatter.deliver g reg uni d').2 = none ∧ keys (Formatter.deliver g reg uni d').1 = keys is := by
      cases g with
      | code => exact absurd rfl hg
      | binary =>
        simp only [Formatter.render] at hd'
        cases hb : Formatter.binary is with
        | error e => rw [hb] at hd'; simp [Except.map] at hd'
        | ok b =>
          rw [hb] at hd'
          simp only [Except.map, Except.ok.injEq] at hd'
          subst hd'
          exact C07_stream_roundtrip reg is hmade b hb
      | hex =>
        simp only [Formatter.render] at hd'
        cases hb : Formatter.hex is with
        | error e => rw [hb] at hd'; simp [Except.map] at hd'
        | ok b =>
          rw [hb] at hd'
          simp only [Except.map, Except.ok.injEq] at hd'
          subst hd'
          exact C07_stream_roundtrip reg is hmade _ (C11_hex_roundtrip uni.word is b hb)
    obtain ⟨ys, er, hdl⟩ : ∃ ys er, Formatter.deliver g reg uni d' = (ys, er) := ⟨_, _, rfl⟩
    rw [hdl] at hdel
    obtain ⟨rfl, hk⟩ := hdel
    have hf := extract_from (by
      have := deliver_read f reg uni d
      rw [hd] at this
      exact fun i hi => (this i hi).1) h
    have hraw : ∀ i ∈ is, RawItem reg i := by
      unfold compile at hc
      rw [node_toks] at hc
      cases ht : Streamer.toks reg {} (tokens t) with
      | error e => rw [ht] at hc; simp at hc
      | ok p =>
        rw [ht] at hc
        simp only [Except.ok.injEq] at hc
        subst hc
        exact toks_raw reg _ _ _ _ ht hf
    have hy : ∀ i ∈ ys, ReadItem reg i := by
      have := deliver_read g reg uni d'
      rw [hdl] at this
      exact fun i hi => (this i hi).1
    have hlen : ys.length = is.length := by
      have := congrArg List.length hk
      simpa [keys] using this
    have hsame : extract reg ys = .ok t' := by
      rw [← e1]
      apply extract_same reg hlen
      intro p hp
      obtain ⟨k, hk1, hk2⟩ := List.mem_iff_getElem.1 hp
      simp only [List.length_zip] at hk1
      rw [List.getElem_zip] at hk2
      have hkk : (ys[k]'(by omega)).key = (is[k]'(by omega)).key := by
        have := congrArg (fun l => l[k]?) hk
        simp only [keys, List.getElem?_map] at this
        rw [List.getElem?_eq_getElem (by omega), List.getElem?_eq_getElem (by omega)] at this
        simpa using this
      subst hk2
      exact twin_of (hy _ (List.getElem_mem _)) (.inl (hraw _ (List.getElem_mem _))) hkk
    obtain ⟨s', k1, m', k2, -, k5⟩ := C44_command_partial reg hreg g uni d' ys hdl t' hsame (expressible_norm e2 he)
    refine ⟨s', m', k1, k2, ?_⟩
    rw [k5 reg' g false hg, ← hcm]
    unfold Compiler.main
    rw [hc, e3]

/-! ## Examples and witnesses -/

/-- The items are decompiled to a tree that compiles; the tree is steady. -/
def SteadyItems (xs : List Item) : Bool :=
  match extract [] xs with
  | .ok t => decide (Steady (arrayUsage []) t) && (match compile [] t with | .ok _ => true | .error _ => false)
  | .error _ => false

/-- A collection with a 3-bit field and then an 8-bit one: rebuilding inserts padding, once. -/
def misaligned : List Item :=
  build! [(.usage, 0x10002), (.collection, 1), (.logMin, 0), (.logMax, 1), (.reportCount, 1), (.reportSize, 3),
    (.usage, 0x10030), (.input, 2), (.reportSize, 8), (.usage, 0x10031), (.input, 2), (.endCollection, 0)]

example : SteadyItems rangeItems = true ∧ SteadyItems misaligned = true ∧
    (match extract [] misaligned with
     | .ok t => (pieces 0 t).length == 4 && (padded noBits ((pieces 0 t).map (normP []))).length == 5
     | .error _ => false) = true := by
  decide +kernel

/-- The items are decompiled to a tree that compiles; decompiling and compiling once more fails or gives other items. -/
def Unsettled (cs : List (Cls × Int)) : Bool :=
  match extract [] (build! cs) with
  | .ok t =>
    match compile [] t with
    | .ok is =>
      (build! cs).length == cs.length &&
      match extract [] is with
      | .ok t' =>
        match compile [] t' with
        | .ok is' => decide (keys is' ≠ keys is)
        | .error _ => true
      | .error _ => true
    | .error _ => false
  | .error _ => false

/-- Report 0 after report 1: the first rebuild leaves its field in report 1. -/
theorem C73_report_breaks : Unsettled [(.usage, 0x10002), (.collection, 1), (.logMin, 0), (.logMax, 1), (.reportSize, 8),
    (.reportCount, 1), (.reportID, 1), (.usage, 0x10030), (.input, 2), (.reportID, 0), (.usage, 0x10031), (.input, 2),
    (.endCollection, 0)] = true := by decide +kernel

/-- A NamedArray collection whose usage is not one of an array. -/
theorem C73_array_breaks : Unsettled [(.usage, 0x10002), (.collection, 1), (.logMin, 0), (.logMax, 1), (.reportSize, 8),
    (.reportCount, 1), (.usage, 0x10033), (.collection, 4), (.usage, 0x10030), (.usage, 0x10031), (.input, 2),
    (.endCollection, 0), (.endCollection, 0)] = true := by decide +kernel

/-- A field outside collections, then an empty collection: what is compiled cannot be decompiled. -/
theorem C73_end_breaks : Unsettled [(.logMin, 0), (.logMax, 1), (.reportSize, 8), (.reportCount, 1), (.usage, 0x10030),
    (.input, 2), (.usage, 0x10033), (.collection, 1), (.endCollection, 0)] = true := by decide +kernel

/-- A report holding only padding of no bits: the second rebuild has one Report ID less. -/
theorem C73_padding_breaks : Unsettled [(.usage, 0x10002), (.collection, 1), (.logMin, 0), (.logMax, 1), (.reportSize, 8),
    (.reportCount, 1), (.reportID, 1), (.usage, 0x10030), (.input, 2), (.reportID, 2), (.reportCount, 0), (.input, 3),
    (.reportID, 3), (.reportCount, 1), (.usage, 0x10031), (.input, 2), (.endCollection, 0)] = true := by decide +kernel

/-- The mouse meets the conditions of the command theorem. -/
example : (match Parser.blobParse UsageTable.registry mouse with
    | (xs, none) =>
      match extract UsageTable.registry xs with
      | .ok t => decide (Steady (arrayUsage UsageTable.registry) t) && (tokens t).all (fun k => decide (Expressible k))
      | .error _ => false
    | _ => false) = true := by
  rw [Parser.blobParse, blobSteps_eq _ 60 0 mouse (by decide)]
  decide +kernel

end Hrdc
