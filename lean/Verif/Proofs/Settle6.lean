import Verif.Proofs.Settle5
/-!
# Rebuilding a decompiled descriptor
-/
namespace Hrdc
open Spec Extractor
open Streamer (wrapped endsClosed)
namespace Extractor

/-! ## Items of the compiler are those of numbers -/

/-- The item is the one of some number. -/
def RawCall (reg : Registry) (c : Cls × PyVal) : Prop := ∃ k : Int, Item.new reg c.1 (.int k) = Item.new reg c.1 c.2

theorem emit_raw (reg : Registry) : ∀ (cs : List (Cls × PyVal)) (is : List Item), Streamer.emit reg cs = .ok is →
    (∀ c ∈ cs, RawCall reg c) → ∀ i ∈ is, RawItem reg i
  | [], is, h, _, i, hi => by
    simp only [Streamer.emit, Except.ok.injEq] at h
    subst h
    simp at hi
  | (c, v) :: cs, is, h, hc, i, hi => by
    obtain ⟨j, t, rfl, h1, h2⟩ := Streamer.emit_cons_ok h
    rcases List.mem_cons.1 hi with rfl | hi
    · obtain ⟨k, hk⟩ := hc (c, v) (List.mem_cons_self ..)
      refine ⟨k, ?_⟩
      have hcl : i.cls = c := by
        exact (new_cls h1).1
      rw [hcl]
      exact hk.trans h1
    · exact emit_raw reg cs t h2 (fun c hc' => hc c (by simp [hc'])) i hi

theorem raw_int (reg : Registry) (c : Cls) (k : Int) : RawCall reg (c, .int k) := ⟨k, rfl⟩

theorem raw_usage {reg : Registry} {u : PyVal} (h : KnownVal reg u) : RawCall reg (.usage, u) := by
  refine ⟨u.toInt, ?_⟩
  have := norm_known h
  simp only [norm] at this
  simp only [Item.new, this]

theorem raw_unit {reg : Registry} {v : Value} (h : FromItems reg v) : RawCall reg (.unit, v.unit) := by
  rcases h.unit with h | ⟨k, h⟩
  · rw [h]; exact raw_int ..
  · rw [h]
    exact ⟨k, by simp only [Item.new, usualUnit_again]⟩

theorem raw_flags {reg : Registry} {v : Value} (h : FromItems reg v) : RawCall reg (v.way.cls, v.flags) := by
  have hn : ∀ k : Int, RawCall reg (v.way.cls, .named (Item.dataName k) k) := by
    intro k
    refine ⟨k, ?_⟩
    cases v.way <;> rfl
  cases ha : v.namedArray with
  | none =>
    obtain ⟨k, -, hk⟩ := h.flags ha
    rw [hk]
    exact hn k
  | some a =>
    obtain ⟨-, -, -, -, hf⟩ := new_again h ha
    rw [hf]
    split
    · exact hn 2
    · exact raw_int ..

theorem raw_kind {reg : Registry} {k : PyVal} (h : KindFrom k) : RawCall reg (.collection, k) := by
  rcases h with ⟨j, hj, rfl⟩ | ⟨j, hj, rfl⟩
  · refine ⟨j, ?_⟩
    have : j = 0 ∨ j = 1 ∨ j = 2 ∨ j = 3 ∨ j = 4 ∨ j = 5 ∨ j = 6 := by omega
    rcases this with rfl | rfl | rfl | rfl | rfl | rfl | rfl <;> rfl
  · exact raw_int ..

theorem raw_attrs {reg : Registry} {v : Value} (h : FromItems reg v) (named : Bool) :
    ∀ c ∈ Streamer.attrCalls reg v named, RawCall reg c := by
  intro c hc
  have hk := attrs_known h named c hc
  unfold Streamer.attrCalls at hc
  simp only [List.mem_append] at hc
  rcases hc with (((hc | hc) | hc) | hc) | hc
  · cases hu : v.usage with
    | none => rw [hu] at hc; simp at hc
    | some u =>
      rw [hu] at hc
      simp only at hc
      split at hc
      · simp only [List.mem_singleton] at hc
        subst hc
        exact raw_usage (hk rfl)
      · simp at hc
  · cases named with
    | false =>
      simp only at hc
      split at hc <;>
      · simp only [List.mem_cons, List.not_mem_nil, or_false] at hc
        rcases hc with rfl | rfl <;> exact raw_int ..
    | true =>
      cases ha : v.namedArray with
      | none =>
        rw [ha] at hc
        simp only at hc
        split at hc <;>
        · simp only [List.mem_cons, List.not_mem_nil, or_false] at hc
          rcases hc with rfl | rfl <;> exact raw_int ..
      | some a =>
        rw [ha] at hc
        simp only [List.mem_append, List.mem_cons, List.not_mem_nil, or_false, List.mem_map] at hc
        rcases hc with ((rfl | rfl) | hc) | ⟨u, hu, rfl⟩
        · exact raw_int ..
        · exact raw_int ..
        · split at hc
          · simp only [List.mem_singleton] at hc
            subst hc
            exact ⟨2, rfl⟩
          · simp at hc
        · exact raw_usage (hk rfl)
  · simp only [List.mem_cons, List.not_mem_nil, or_false] at hc
    rcases hc with rfl | rfl | rfl | rfl
    · exact raw_int ..
    · exact raw_int ..
    · exact raw_unit h
    · exact raw_int ..
  · split at hc
    · simp only [List.mem_singleton] at hc
      subst hc
      exact raw_int ..
    · simp at hc
  · split at hc
    · simp only [List.mem_singleton] at hc
      subst hc
      exact raw_int ..
    · simp at hc

theorem addPad_raw {reg : Registry} {s s' : Streamer.State} {w : Way} {n : Int} {is : List Item}
    (h : Streamer.addPad reg s w n = .ok (s', is)) : ∀ i ∈ is, RawItem reg i := by
  unfold Streamer.addPad at h
  split at h
  · split at h
    · simp at h
    · rename_i a ha
      split at h
      · simp at h
      · split at h
        · simp at h
        · rename_i b hb
          simp only [Except.ok.injEq, Prod.mk.injEq] at h
          obtain ⟨rfl, rfl⟩ := h
          intro i hi
          rcases List.mem_append.1 hi with hi | hi
          · refine emit_raw reg _ _ ha ?_ i hi
            intro c hc
            simp only [List.mem_cons, List.not_mem_nil, or_false] at hc
            rcases hc with rfl | rfl <;> exact raw_int ..
          · refine emit_raw reg _ _ hb ?_ i hi
            intro c hc
            simp only [List.mem_singleton] at hc
            subst hc
            exact raw_int ..
  · simp only [Except.ok.injEq, Prod.mk.injEq] at h
    obtain ⟨rfl, rfl⟩ := h
    simp

theorem value_raw {reg : Registry} {s s' : Streamer.State} {v : Value} {is : List Item} (hf : FromItems reg v)
    (h : Streamer.value reg s v = .ok (s', is)) : ∀ i ∈ is, RawItem reg i := by
  unfold Streamer.value at h
  split at h
  · simp at h
  split at h
  · simp at h
  rename_i sst1 a ha
  split at h
  · simp at h
  rename_i named hnamed
  simp only at h
  split at h
  · simp at h
  rename_i b hb
  split at h
  · simp at h
  split at h
  · simp at h
  rename_i c hc
  simp only [Except.ok.injEq, Prod.mk.injEq] at h
  obtain ⟨rfl, rfl⟩ := h
  intro i hi
  simp only [List.mem_append] at hi
  rcases hi with (hi | hi) | hi
  · exact addPad_raw ha i hi
  · refine emit_raw reg _ _ hb ?_ i hi
    intro c hc
    rcases List.mem_append.1 hc with hc | hc
    · split at hc
      · simp at hc
      · exact raw_attrs hf named c hc
    · simp only [List.mem_cons, List.not_mem_nil, or_false] at hc
      rcases hc with rfl | rfl <;> exact raw_int ..
  · refine emit_raw reg _ _ hc ?_ i hi
    intro c hc
    rcases List.mem_append.1 hc with hc | hc
    · simp only [List.mem_singleton] at hc
      subst hc
      exact raw_flags hf
    · split at hc
      · simp only [List.mem_singleton] at hc
        subst hc
        exact raw_int ..
      · simp at hc

theorem toks_raw (reg : Registry) : ∀ (ts : List Tok) (s s' : Streamer.State) (is : List Item),
    Streamer.toks reg s ts = .ok (s', is) → (∀ t ∈ ts, TokFrom reg t) → ∀ i ∈ is, RawItem reg i := by
  intro ts
  induction ts with
  | nil =>
    intro s s' is h _ i hi
    simp only [Streamer.toks, Except.ok.injEq, Prod.mk.injEq] at h
    obtain ⟨rfl, rfl⟩ := h
    simp at hi
  | cons t ts ih =>
    intro s s' is h ht i hi
    simp only [Streamer.toks] at h
    split at h
    · simp at h
    rename_i sst1 a ha
    split at h
    · simp at h
    rename_i sst2 c hc
    simp only [Except.ok.injEq, Prod.mk.injEq] at h
    obtain ⟨rfl, rfl⟩ := h
    rcases List.mem_append.1 hi with hi | hi
    · have h1 := ht t (by simp)
      cases t with
      | report j =>
        simp only [Streamer.tok] at ha
        split at ha
        · simp at ha
        rename_i x hx
        simp only [Except.ok.injEq, Prod.mk.injEq] at ha
        obtain ⟨rfl, rfl⟩ := ha
        refine emit_raw reg _ _ hx ?_ i hi
        intro c hc
        split at hc
        · simp only [List.mem_singleton] at hc
          subst hc
          exact raw_int ..
        · simp at hc
      | endReport =>
        simp only [Streamer.tok, Except.ok.injEq, Prod.mk.injEq] at ha
        obtain ⟨rfl, rfl⟩ := ha
        simp at hi
      | enter k u =>
        simp only [Streamer.tok] at ha
        split at ha
        · simp at ha
        rename_i u
        split at ha
        · simp at ha
        rename_i x hx
        simp only [Except.ok.injEq, Prod.mk.injEq] at ha
        obtain ⟨rfl, rfl⟩ := ha
        refine emit_raw reg _ _ hx ?_ i hi
        intro c hc
        simp only [List.mem_cons, List.not_mem_nil, or_false] at hc
        rcases hc with rfl | rfl
        · exact raw_usage (h1.2 u rfl)
        · exact raw_kind h1.1
      | leave =>
        simp only [Streamer.tok] at ha
        split at ha
        · simp at ha
        rename_i x hx
        simp only [Except.ok.injEq, Prod.mk.injEq] at ha
        obtain ⟨rfl, rfl⟩ := ha
        refine emit_raw reg _ _ hx ?_ i hi
        intro c hc
        simp only [List.mem_singleton] at hc
        subst hc
        exact raw_int ..
      | leaf l =>
        cases l with
        | value v => exact value_raw h1 ha i hi
        | align w n =>
          simp only [Streamer.tok] at ha
          split at ha
          · simp at ha
          exact addPad_raw ha i hi
        | padding w n => exact addPad_raw ha i hi
    · exact ih _ _ _ hc (fun t h => ht t (by simp [h])) i hi

/-! ## Rebuilding -/

mutual
theorem padX_pieces (reg : Registry) : ∀ (x : XNode) (off : Offs) (rest : List Piece), x.WF →
    padded off ((x.pieces ++ rest).map (normP reg)) =
      xpiecesL (padX reg off x).1 ++ padded (padX reg off x).2 (rest.map (normP reg))
  | .leaf id n, off, rest, h => by
    rcases h with ⟨v, rfl⟩ | ⟨w, m, rfl⟩
    · simp only [XNode.pieces, pieces, List.cons_append, List.nil_append, List.map_cons, normP, normLeaf, padded, padX]
      have e1 : (normV reg v).way = v.way := rfl
      have e2 : (normV reg v).alignment = v.alignment := rfl
      have e3 : (normV reg v).size = v.size := rfl
      rw [e1, e2, e3]
      unfold padPiece
      split <;> simp [xpiecesL, XNode.pieces, pieces]
    · simp only [XNode.pieces, pieces, List.cons_append, List.nil_append, List.map_cons, normP, normLeaf, padded, padX]
      unfold padPiece
      split <;> simp [xpiecesL, XNode.pieces, pieces]
  | .coll k u ms, off, rest, h => by
    simp only [XNode.pieces, List.cons_append, List.map_cons, normP, padded, padX]
    rw [List.append_assoc, List.cons_append, List.nil_append, padXL_pieces reg ms off _ h]
    simp [List.map_cons, normP, padded, xpiecesL, XNode.pieces]
theorem padXL_pieces (reg : Registry) : ∀ (xs : List XNode) (off : Offs) (rest : List Piece), WFL xs →
    padded off ((xpiecesL xs ++ rest).map (normP reg)) =
      xpiecesL (padXL reg off xs).1 ++ padded (padXL reg off xs).2 (rest.map (normP reg))
  | [], off, rest, _ => by simp [xpiecesL, padXL]
  | x :: xs, off, rest, h => by
    simp only [xpiecesL, padXL, xpiecesL_append]
    rw [List.append_assoc, padX_pieces reg x off _ h.1, padXL_pieces reg xs _ _ h.2]
    simp
end

/-- What the compiler writes for a decompiled tree decompiles to the tree with the padding put in. -/
theorem rebuild {reg : Registry} {xs : List Item} (hx : ∀ i ∈ xs, ReadItem reg i) {t : Node} (h : extract reg xs = .ok t)
    {is : List Item} (hc : Streamer.compile reg t = .ok is) (hr : ReportsLast t)
    (ha : namedReadable (arrayUsage reg) [] (tokens t) = true) (he : endsClosed false (tokens t) = true) :
    ∃ l l' : Level, WFL l.members ∧ t = ended l ∧ extract reg is = .ok (ended l') ∧ l'.members = (padXL reg noBits l.members).1 := by
  obtain ⟨l, hw, rfl⟩ := extract_ended h
  have hf := extract_from hx h
  unfold Streamer.compile at hc
  rw [Streamer.node_toks] at hc
  cases ht : Streamer.toks reg {} (tokens (ended l)) with
  | error e => rw [ht] at hc; simp at hc
  | ok p =>
    obtain ⟨s, is'⟩ := p
    rw [ht] at hc
    simp only [Except.ok.injEq] at hc
    subst hc
    obtain ⟨st', q1, q2, q3, q4, q5⟩ := run_toks reg (tokens (ended l)) {} s is' {} [] [] 0 false ht (Int.le_refl 0)
      ⟨rfl, rfl, rfl, fun _ => rfl, rfl, rfl⟩ hf hr rfl ha ⟨rfl, rfl⟩ (by simp)
    have q5 := q5 he
    refine ⟨l, st'.level, hw, rfl, ?_, ?_⟩
    · unfold extract
      rw [q1]
      simp only [q5]
    · have e : inScope [] (tokens (ended l)) = xpiecesL l.members := by
        rw [← pieces_eq, ended_pieces]
      rw [e] at q2
      have := buildL_pad reg l.members noBits ([], {}) [] hw
      simp only [List.append_nil, List.map_nil, padded, List.foldl_nil] at this
      have q2 : (st'.stack, st'.level) = siteAdd ([], {}) (padXL reg noBits l.members).1 := by
        rw [q2]; exact this
      simp only [siteAdd, List.nil_append, Prod.mk.injEq] at q2
      rw [q2.2]

/-- The tree read back compiles to the same items. -/
theorem rebuild_again {reg : Registry} {xs : List Item} (hx : ∀ i ∈ xs, ReadItem reg i) {t : Node} (h : extract reg xs = .ok t)
    {is : List Item} (hc : Streamer.compile reg t = .ok is) (hr : ReportsLast t) {l l' : Level} (hw : WFL l.members)
    (hl : t = ended l) (hm : l'.members = (padXL reg noBits l.members).1)
    (hz : ∀ w, Tok.leaf (.padding w 0) ∉ tokens t) : Streamer.compile reg (ended l') = .ok is := by
  have hf := extract_from hx h
  subst hl
  have hs : SolidL l.members := by
    apply solidL_of _ hw
    intro id w hp
    rw [← ended_pieces 0, pieces_eq] at hp
    exact hz w (scope_leaf _ _ _ _ hp)
  unfold Streamer.compile at hc ⊢
  rw [Streamer.node_toks] at hc ⊢
  cases ht : Streamer.toks reg {} (tokens (ended l)) with
  | error e => rw [ht] at hc; simp at hc
  | ok p =>
    obtain ⟨s, is'⟩ := p
    rw [ht] at hc
    simp only [Except.ok.injEq] at hc
    subst hc
    have h1 := toks_again reg _ _ _ _ [] 0 ht (Int.le_refl 0) hf (fun t ht => (hr t ht).1)
    have h2 := padT_grp reg l.members none noBits [] hs
    simp only [Option.toList_none, List.append_nil, padT] at h2
    rw [ended_grp, hm, ← h2, ← ended_grp]
    have e : padT reg ({} : Streamer.State).size [] (tokens (ended l)) = padT reg noBits [] (tokens (ended l)) := rfl
    rw [← e, h1]

end Extractor
end Hrdc
