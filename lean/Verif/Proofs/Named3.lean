import Verif.Proofs.Named2
/-!
# Trees with named arrays, compiled and decompiled
-/
namespace Hrdc
open Spec

namespace Streamer
open Extractor

/-- The registry lists the usage of the item for named arrays if and only if it is. -/
def KnownItem (reg : Registry) (i : Item) : Prop :=
  i.cls = .usage → Usage.testKind reg .NAry i.val = arrayUsage reg i.ival

/-- The same for an item to come. -/
def KnownCall (reg : Registry) (c : Cls × PyVal) : Prop := c.1 = .usage → kindKnown reg c.2 = true

theorem emit_known {reg : Registry} {cs : List (Cls × PyVal)} {is : List Item}
    (h : emit reg cs = .ok is) (hc : ∀ c ∈ cs, KnownCall reg c) : ∀ i ∈ is, KnownItem reg i := by
  induction cs generalizing is with
  | nil => simp only [emit, Except.ok.injEq] at h; subst h; simp
  | cons c cs ih =>
    obtain ⟨c, v⟩ := c
    obtain ⟨i, t, rfl, hi, ht⟩ := emit_cons_ok h
    intro x hx
    rcases List.mem_cons.1 hx with rfl | hx
    · intro hcls
      have hc1 := (new_cls hi).1
      rw [hcls] at hc1
      subst hc1
      have hv := new_ival hi (by simp)
      have hk := testKind_known (hc (.usage, v) (by simp) rfl)
      rw [hv]
      refine Eq.trans ?_ hk
      simp only [Item.new] at hi
      rw [(baseInit_ok hi).1]
      rfl
    · exact ih ht (fun y hy => hc y (by simp [hy])) x hx

theorem addPad_known {reg : Registry} {st st' : State} {w : Way} {pad : Int} {is : List Item}
    (h : addPad reg st w pad = .ok (st', is)) : ∀ i ∈ is, KnownItem reg i := by
  unfold addPad at h
  split at h
  · split at h
    · simp at h
    · rename_i a ha
      split at h
      · simp at h
      · split at h
        · simp at h
        · rename_i b hb
          simp only [Except.ok.injEq, Prod.mk.injEq] at h
          rw [← h.2]
          intro i hi
          rcases List.mem_append.1 hi with hi | hi
          · exact emit_known ha (by simp [KnownCall]) i hi
          · exact emit_known hb (by cases w <;> simp [KnownCall, Way.cls]) i hi
  · simp only [Except.ok.injEq, Prod.mk.injEq] at h
    rw [← h.2]; simp

theorem lookup_kind (reg : Registry) (k : Int) : kindKnown reg (.usage (Usage.lookup reg (.int k))) = true := by
  have h := testKind_int reg k
  unfold Usage.testKind at h
  simp only [kindKnown, lookup_value, PyVal.toInt, ← h, BEq.rfl]

theorem attr_known {reg : Registry} (v : Value) (named : Bool)
    (hv : tokKnown reg (.leaf (.value v)) = true) : ∀ c ∈ attrCalls reg v named, KnownCall reg c := by
  simp only [tokKnown, Bool.and_eq_true] at hv
  obtain ⟨hv1, hv2⟩ := hv
  unfold attrCalls
  simp only [List.forall_mem_append]
  refine ⟨⟨⟨⟨?_, ?_⟩, ?_⟩, ?_⟩, ?_⟩
  · cases hu : v.usage with
    | none => simp
    | some u =>
      rw [hu] at hv1
      simp only
      split <;> simp [KnownCall]
      simpa using hv1
  · split
    · rename_i arr harr
      rw [harr] at hv2
      simp only [List.forall_mem_append]
      refine ⟨⟨by simp [KnownCall], ?_⟩, ?_⟩
      · split <;> simp [KnownCall]
      · intro c hc
        obtain ⟨x, hx, rfl⟩ := List.mem_map.1 hc
        intro _
        cases arr with
        | list l => exact List.all_eq_true.1 hv2 x hx
        | range r =>
          simp only [NamedArray.elems, UsageRange.iter, List.map_map, List.mem_map, Function.comp] at hx
          obtain ⟨k, -, rfl⟩ := hx
          exact lookup_kind reg k
    · split <;> simp [KnownCall]
  · simp [KnownCall]
  · split <;> simp [KnownCall]
  · split <;> simp [KnownCall]

theorem value_known {reg : Registry} {st st' : State} {v : Value} {is : List Item}
    (hv : tokKnown reg (.leaf (.value v)) = true)
    (h : value reg st v = .ok (st', is)) : ∀ i ∈ is, KnownItem reg i := by
  unfold value at h
  split at h
  · simp at h
  · split at h
    · simp at h
    · rename_i st1 a ha
      split at h
      · simp at h
      · rename_i named hn
        simp only at h
        split at h
        · simp at h
        · rename_i b hb
          split at h
          · simp at h
          · split at h
            · simp at h
            · rename_i c hc
              simp only [Except.ok.injEq, Prod.mk.injEq] at h
              rw [← h.2]
              intro i hi
              rcases List.mem_append.1 hi with hi | hi
              · rcases List.mem_append.1 hi with hi | hi
                · exact addPad_known ha i hi
                · refine emit_known hb ?_ i hi
                  rw [List.forall_mem_append]
                  refine ⟨?_, by simp [KnownCall]⟩
                  split
                  · simp
                  · exact attr_known v named hv
              · refine emit_known hc ?_ i hi
                rw [List.forall_mem_append]
                refine ⟨by cases v.way <;> simp [KnownCall, Way.cls], ?_⟩
                split <;> simp [KnownCall]

theorem tok_known {reg : Registry} {st st' : State} {t : Tok} {is : List Item}
    (hv : tokKnown reg t = true) (h : tok reg st t = .ok (st', is)) : ∀ i ∈ is, KnownItem reg i := by
  cases t with
  | report id =>
    simp only [tok] at h
    split at h
    · simp at h
    · rename_i a ha
      simp only [Except.ok.injEq, Prod.mk.injEq] at h
      rw [← h.2]
      refine emit_known ha ?_
      split <;> simp [KnownCall]
  | endReport =>
    simp only [tok, Except.ok.injEq, Prod.mk.injEq] at h
    rw [← h.2]; simp
  | enter k u =>
    cases u with
    | none => simp [tok] at h
    | some u =>
      simp only [tok] at h
      split at h
      · simp at h
      · rename_i a ha
        simp only [Except.ok.injEq, Prod.mk.injEq] at h
        rw [← h.2]
        refine emit_known ha ?_
        simp only [tokKnown, Option.all_some] at hv
        simp [KnownCall, hv]
  | leave =>
    simp only [tok] at h
    split at h
    · simp at h
    · rename_i a ha
      simp only [Except.ok.injEq, Prod.mk.injEq] at h
      rw [← h.2]
      exact emit_known ha (by simp [KnownCall])
  | leaf l =>
    cases l with
    | value v => exact value_known hv h
    | align w b =>
      simp only [tok] at h
      split at h
      · simp at h
      · exact addPad_known h
    | padding w s => exact addPad_known h

theorem toks_known {reg : Registry} {st st' : State} {ts : List Tok} {is : List Item}
    (hv : ∀ t ∈ ts, tokKnown reg t = true) (h : toks reg st ts = .ok (st', is)) : ∀ i ∈ is, KnownItem reg i := by
  induction ts generalizing st is with
  | nil => simp only [toks, Except.ok.injEq, Prod.mk.injEq] at h; rw [← h.2]; simp
  | cons t ts ih =>
    simp only [toks] at h
    split at h
    · simp at h
    · rename_i st1 a ha
      split at h
      · simp at h
      · rename_i st2 b hb
        simp only [Except.ok.injEq, Prod.mk.injEq] at h
        obtain ⟨rfl, rfl⟩ := h
        intro i hi
        rcases List.mem_append.1 hi with hi | hi
        · exact tok_known (hv t (by simp)) ha i hi
        · exact ih (fun t' h' => hv t' (by simp [h'])) hb i hi

theorem compile_known {reg : Registry} {n : Node} {items : List Item}
    (hv : (tokens n).all (tokKnown reg) = true) (h : compile reg n = .ok items) : ∀ i ∈ items, KnownItem reg i := by
  obtain ⟨st, hst⟩ := compile_toks h
  exact toks_known (fun t ht => List.all_eq_true.1 hv t ht) hst

/-- Collections that compile have a usage. -/
theorem toks_usages {reg : Registry} {st st' : State} {ts : List Tok} {is : List Item}
    (h : toks reg st ts = .ok (st', is)) : ∀ k u, Tok.enter k u ∈ ts → u.isSome = true := by
  induction ts generalizing st is with
  | nil => simp
  | cons t ts ih =>
    simp only [toks] at h
    split at h
    · simp at h
    · rename_i st1 a ha
      split at h
      · simp at h
      · rename_i st2 b hb
        simp only [Except.ok.injEq, Prod.mk.injEq] at h
        obtain ⟨rfl, rfl⟩ := h
        intro k u hku
        rcases List.mem_cons.1 hku with rfl | hku
        · cases u with
          | none => simp [tok] at ha
          | some u => rfl
        · exact ih hb k u hku

end Streamer

namespace Extractor
open Streamer

/-! ## Alignment -/

/-- No room is taken. -/
def Quiet (es : List Event) : Prop := ∀ e ∈ es, e = .leave ∨ ∃ k s, e = .enter k s

theorem quiet_aligned {es : List Event} (h : Quiet es) (off : Cls → Int → Nat) : alignedFrom off es = true := by
  induction es generalizing off with
  | nil => rfl
  | cons e es ih =>
    rw [alignedFrom, Bool.and_eq_true]
    refine ⟨?_, ih (fun e he => h e (by simp [he])) _⟩
    rcases h e (by simp) with rfl | ⟨k, s, rfl⟩ <;> rfl

theorem quiet_bits {es : List Event} (h : Quiet es) (w : Cls) (i : Int) : reportBits w i es = 0 := by
  induction es with
  | nil => rfl
  | cons e es ih =>
    have h1 : e.bits w i = 0 := by
      rcases h e (by simp) with rfl | ⟨k, s, rfl⟩ <;> rfl
    have h2 := ih (fun e he => h e (by simp [he]))
    simp only [reportBits, List.map_cons, List.sum_cons] at h2 ⊢
    omega

/-- A value describes padding, or controls with at most a collection around them. -/
theorem value_shape (id : Int) (v : Value) :
    (∃ n, valueEvents id v = List.replicate n (.padBit v.way.cls id) ∧ n = v.size.toNat * v.count.toNat ∧
      bitSet v.flags.toInt 0 = true ∧ arrayUsages v.namedArray = []) ∨
    (bitSet v.flags.toInt 0 = false ∨ arrayUsages v.namedArray ≠ []) ∧ ∃ pre post f a what, Quiet pre ∧ Quiet post ∧
      a.size = v.size ∧
      valueEvents id v = pre ++ (List.replicate v.count.toNat (.control v.way.cls f id a what) ++ post) := by
  rw [valueEvents_eq]
  split
  · rename_i he
    cases hb : bitSet v.flags.toInt 0 with
    | true => exact Or.inl ⟨_, rfl, rfl, rfl, he⟩
    | false => exact Or.inr ⟨Or.inl rfl, [], [], v.flags.toInt, attrsOf v, _, by simp [Quiet], by simp [Quiet], rfl,
        by rw [List.nil_append, List.append_nil]; rfl⟩
  · rename_i hne
    right
    refine ⟨Or.inr hne, ?_⟩
    cases usageOf v.usage with
    | none => exact ⟨[], [], 0, arrayAttrs v _, _, by simp [Quiet], by simp [Quiet], rfl,
        by rw [List.nil_append, List.append_nil]⟩
    | some u =>
      exact ⟨[.enter 2 ⟨some u, 0, 0⟩], [.leave], 0, arrayAttrs v _, _, by simp [Quiet], by simp [Quiet], rfl, rfl⟩

theorem controls_bits (w : Cls) (f id : Int) (a : Attrs) (what : List Selector) (n : Nat) (w' : Cls) (i : Int) :
    reportBits w' i (List.replicate n (.control w f id a what)) = if w = w' ∧ id = i then a.size.toNat * n else 0 := by
  simp only [reportBits, List.map_replicate, sum_replicate, Event.bits]
  by_cases hh : w = w' ∧ id = i <;> simp [hh, Nat.mul_comm]

/-- Bits of a value. -/
theorem value_bits (id : Int) (v : Value) (w' : Cls) (i : Int) : reportBits w' i (valueEvents id v) =
    if v.way.cls = w' ∧ id = i then v.size.toNat * v.count.toNat else 0 := by
  rcases value_shape id v with ⟨n, e, hn, -⟩ | ⟨-, pre, post, f, a, what, h1, h2, hs, e⟩
  · rw [e, hn]
    simp only [reportBits, List.map_replicate, sum_replicate, Event.bits]
    by_cases hh : v.way.cls = w' ∧ id = i <;> simp [hh]
  · rw [e, reportBits_append, reportBits_append, quiet_bits h1, quiet_bits h2, controls_bits, hs]
    simp

/-- What a value leaves without padding. -/
theorem place_bareN {C : Int → Prop} (hC : ∀ c, C c → 0 < c) (ps : List Piece) (off : Layout)
    (off' : Cls → Int → Nat) (ho : ∀ (w : Way) i, off' w.cls i = off w i) (hp : ∀ p ∈ ps, PieceOKN C p)
    (ha : alignedFrom off' (ps.flatMap bare) = true) : place off ps = ps.flatMap bare := by
  induction ps generalizing off off' with
  | nil => rfl
  | cons p ps ih =>
    have hp' : ∀ q ∈ ps, PieceOKN C q := fun q hq => hp q (by simp [hq])
    rw [List.flatMap_cons, alignedFrom_append, Bool.and_eq_true] at ha
    obtain ⟨ha1, ha2⟩ := ha
    cases p with
    | enter k u =>
      rw [place, List.flatMap_cons, ih off _ (by intro w i; simp [bare, reportBits, Event.bits, ho]) hp' ha2]
      rfl
    | leave =>
      rw [place, List.flatMap_cons, ih off _ (by intro w i; simp [bare, reportBits, Event.bits, ho]) hp' ha2]
      rfl
    | leaf id l =>
      rw [place, List.flatMap_cons]
      have h0 := hp (.leaf id l) (by simp)
      cases l with
      | align w b =>
        rcases h0 with h0 | ⟨i, v, h0, -⟩
        · exact absurd h0 (fun h => h)
        · simp at h0
      | padding w s =>
        have hb : bare (.leaf id (.padding w s)) = List.replicate s.toNat (.padBit w.cls id) := rfl
        rw [ih (off.add id (.padding w s)) _ ?_ hp' ha2]
        · simp [leafEvents_eq, room, bare, bareLeaf_value, bareLeaf_align, bareLeaf_padding, Leaf.way]
        · intro w' i
          rw [hb, ho]
          simp only [reportBits, List.map_replicate, sum_replicate, Event.bits, Layout.add, Leaf.way, room]
          by_cases hh : w' = w ∧ i = id
          · obtain ⟨rfl, rfl⟩ := hh
            simp
          · rw [if_neg (show ¬ (w.cls = w'.cls ∧ id = i) from fun ⟨x, y⟩ => hh ⟨(way_cls_inj x).symm, y.symm⟩)]
            simp [hh]
      | value v =>
        have hv : v.alignment = min 8 v.size ∧ 0 ≤ v.size ∧ 0 < v.count ∧
            (bitSet v.flags.toInt 0 = false ∨ arrayUsages v.namedArray ≠ []) := by
          rcases h0 with h0 | ⟨i, v', he, h0⟩
          · have hv : ValueOK C v := h0
            exact ⟨hv.2.1, hv.2.2.1, hC _ hv.2.2.2.2.2, Or.inl hv.2.2.2.1⟩
          · cases he
            exact ⟨h0.2.1, h0.2.2.1, by rw [h0.2.2.2.2]; decide, Or.inr h0.2.2.2.1⟩
        obtain ⟨hal, hsz, hc, hnp⟩ := hv
        have hb : bare (.leaf id (.value v)) = valueEvents id v := rfl
        have hmiss : missing v.alignment (off v.way id) = 0 := by
          rw [hb] at ha1
          rcases value_shape id v with ⟨n, -, -, z1, z2⟩ | ⟨-, pre, post, f, a, what, q1, q2, hs, e⟩
          · exfalso
            rcases hnp with z | z
            · rw [z1] at z; simp at z
            · exact z z2
          have hn : v.count.toNat = v.count.toNat - 1 + 1 := by omega
          rw [e, alignedFrom_append, hn, List.replicate_succ, List.cons_append, alignedFrom, Bool.and_eq_true,
            Bool.and_eq_true] at ha1
          have h1 := ha1.2.1
          simp only [Event.aligned, decide_eq_true_eq, hs, quiet_bits q1, Nat.add_zero, ho] at h1
          unfold missing
          rw [hal]
          split
          · rename_i hg
            have h2 := h1 (by omega)
            have h3 := Int.dvd_of_emod_eq_zero h2
            have h4 : min 8 v.size ∣ -(off v.way id : Int) := (Int.dvd_neg).2 h3
            rw [Int.emod_eq_zero_of_dvd h4]
            rfl
          · rfl
        rw [ih (off.add id (.value v)) _ ?_ hp' ha2]
        · simp only [leafEvents_eq, room, hmiss, Leaf.way]
          rfl
        · intro w' i
          rw [hb, ho, value_bits]
          simp only [Layout.add, Leaf.way, room]
          by_cases hh : w' = v.way ∧ i = id
          · obtain ⟨rfl, rfl⟩ := hh
            simp [hmiss]
          · rw [if_neg (show ¬ (v.way.cls = w'.cls ∧ id = i) from fun ⟨x, y⟩ => hh ⟨(way_cls_inj x).symm, y.symm⟩)]
            simp [hh]

/-- Fields of a tree start where their sizes ask. -/
theorem place_alignedN (ps : List Piece) (off : Layout) (off' : Cls → Int → Nat)
    (ho : ∀ (w : Way) i, off' w.cls i = off w i)
    (hp : ∀ id v, Piece.leaf id (.value v) ∈ ps → 0 ≤ v.size ∧ selfAligned v = true) :
    alignedFrom off' (place off ps) = true := by
  induction ps generalizing off off' with
  | nil => rfl
  | cons p ps ih =>
    have ih := fun off off' ho => ih off off' ho (fun id v h => hp id v (by simp [h]))
    cases p with
    | enter k u =>
      rw [place, alignedFrom, Event.aligned.eq_def]
      exact ih _ _ (by intro w i; simp [Event.bits, ho])
    | leave =>
      rw [place, alignedFrom, Event.aligned.eq_def]
      exact ih _ _ (by intro w i; simp [Event.bits, ho])
    | leaf id l =>
      rw [place, alignedFrom_append, Bool.and_eq_true, leafEvents_eq, alignedFrom_append, Bool.and_eq_true]
      have hpads : ∀ w' i, reportBits w' i (List.replicate (room (off l.way id) l).1 (.padBit l.way.cls id)) =
          if l.way.cls = w' ∧ id = i then (room (off l.way id) l).1 else 0 := by
        intro w' i
        simp only [reportBits, List.map_replicate, sum_replicate, Event.bits]
        split <;> simp
      have hlayout : ∀ (own : List Event), (∀ w' i, reportBits w' i own =
          if l.way.cls = w' ∧ id = i then (room (off l.way id) l).2 else 0) →
          ∀ (w : Way) i, off' w.cls i + reportBits w.cls i
            (List.replicate (room (off l.way id) l).1 (.padBit l.way.cls id) ++ own) = off.add id l w i := by
        intro own hown w i
        rw [reportBits_append, hpads, hown, ho]
        unfold Layout.add
        by_cases hh : w = l.way ∧ i = id
        · obtain ⟨rfl, rfl⟩ := hh
          simp; omega
        · have hno : ¬ (l.way.cls = w.cls ∧ id = i) := fun ⟨x, y⟩ => hh ⟨(way_cls_inj x).symm, y.symm⟩
          simp only [hno, hh, if_false]; omega
      cases l with
      | align w b => exact ⟨⟨aligned_pads _ _ _ _, rfl⟩, ih _ _ (hlayout [] (by simp [reportBits, room]))⟩
      | padding w s => exact ⟨⟨aligned_pads _ _ _ _, rfl⟩, ih _ _ (hlayout [] (by simp [reportBits, room]))⟩
      | value v =>
        obtain ⟨hsz, hself⟩ := hp id v (by simp)
        refine ⟨⟨aligned_pads _ _ _ _, ?_⟩, ih _ _ (hlayout _ (value_bits id v))⟩
        show alignedFrom _ (valueEvents id v) = true
        rcases value_shape id v with ⟨n, e, -⟩ | ⟨hnc, pre, post, f, a, what, q1, q2, hs, e⟩
        · rw [e]; exact aligned_pads _ _ _ _
        · rw [e, alignedFrom_append, alignedFrom_append, quiet_aligned q1, quiet_aligned q2, Bool.true_and, Bool.and_true]
          by_cases hone : v.size ≤ 1
          · exact aligned_controls _ _ _ _ _ _ (by omega) (Or.inr (Or.inl (by omega))) _ (by omega)
          · simp only [selfAligned, Bool.or_eq_true, Bool.and_eq_true, decide_eq_true_eq, hone, or_false,
              List.isEmpty_iff] at hself
            have hself' : ¬ (bitSet v.flags.toInt 0 = true ∧ arrayUsages v.namedArray = []) := by
              rintro ⟨x, y⟩
              rcases hnc with z | z
              · rw [x] at z; simp at z
              · exact z y
            rcases hself with hself | hself
            · exact absurd hself hself'
            obtain ⟨⟨h1, h2⟩, h3⟩ := hself
            refine aligned_controls _ _ _ _ _ _ (by omega) ?_ _ ?_
            · rw [hs]
              rcases h3 with h3 | h3
              · left; omega
              · exact Or.inr (Or.inr h3)
            · intro _
              rw [hs, quiet_bits q1, hpads, ho]
              simp only [Leaf.way, and_self, if_true, room, Nat.add_zero]
              exact missing_aligned _ _ _ h1 h2

/-! ## The items of a tree -/

theorem ahead_cases {known : Int → Bool} {c : MainRec} {rs : List MainRec} {x : MainRec × MainRec}
    (h : arrayAhead known c rs = some x) : ∃ rs', rs = x.1 :: x.2 :: rs' ∧ x.2.cls = .endCollection := by
  unfold arrayAhead at h
  split at h
  · rename_i d e rs'
    split at h
    · rename_i hn
      simp only [Option.some.injEq] at h
      subst h
      refine ⟨rs', rfl, ?_⟩
      simp only [namedArray, Bool.and_eq_true, beq_iff_eq] at hn
      exact hn.2
    · simp at h
  · simp at h

theorem named_last (known : Int → Bool) (n : Nat) (rs : List MainRec) (hn : rs.length ≤ n) (ops ops' : List Opened)
    (hw : namedWalk known 0 ops rs = some ops') (r : MainRec)
    (hl : rs.getLast? = some r) (hc : r.cls = .collection) : ops' ≠ [] := by
  induction n generalizing rs ops with
  | zero =>
    have : rs = [] := by cases rs with | nil => rfl | cons a l => simp at hn
    subst this; simp at hl
  | succ n ih =>
    cases rs with
    | nil => simp at hl
    | cons a rs =>
      simp only [List.length_cons, Nat.add_le_add_iff_right] at hn
      rw [namedWalk] at hw
      cases ha : arrayAhead known a rs with
      | some x =>
        obtain ⟨rs', rfl, he⟩ := ahead_cases ha
        rw [ha] at hw
        have hw : namedWalk known 0 (markOpen true ops) rs' = some ops' := hw
        cases rs' with
        | nil =>
          simp at hl
          rw [← hl, he] at hc
          simp at hc
        | cons b l => exact ih (b :: l) (by simp at hn ⊢; omega) _ hw (by simpa using hl)
      | none =>
        rw [ha] at hw
        simp only at hw
        cases hs : namedStep known ops a with
        | none => rw [hs] at hw; simp at hw
        | some o =>
          rw [hs] at hw
          simp only at hw
          cases rs with
          | nil =>
            simp at hl; subst hl
            simp only [namedWalk, Option.some.injEq] at hw
            subst hw
            unfold namedStep at hs
            rw [hc] at hs
            simp only at hs
            split at hs
            · simp at hs; rw [← hs]; simp
            · simp at hs
          | cons b l => exact ih (b :: l) hn _ hw (by simpa using hl)

/-- Compiled trees with named arrays can be decompiled, to what the tree says. -/
theorem tree_namedExtractable {reg : Registry} (known : Int → Bool) {n : Node} {items : List Item}
    (h : compile reg n = .ok items) (hk : ∀ k u, Tok.enter k u ∈ tokens n → 0 ≤ k.toInt)
    (hm : ∀ v, Tok.leaf (.value v) ∈ tokens n → v.Made) (hl : ReportsLast n) (a : Nat)
    (hf : ∀ l, Tok.leaf l ∈ tokens n → LeafFit a l)
    (hr : namedReadable known [] (tokens n) = true) (he : endsClosed false (tokens n) = true) :
    NamedExtractable known (keys items) ∧ (∀ r ∈ recs .atMain {} (keys items), CountOK r) ∧
      (asArrays known 0 (recs .atMain {} (keys items))).flatMap MainRec.events = treeMeaning n := by
  have hkeys := compile_keys h
  have hplain : ∀ k ∈ keys items, Plain ((tokens n).flatMap tokUsages) k := by
    rw [hkeys]
    exact treeKeys_plain _ _ _ _ (fun t ht u hu => List.mem_flatMap.2 ⟨t, ht, hu⟩)
  have hno : ∀ c ∈ [Cls.usagePage, .push, .pop, .usageMin, .usageMax, .strMin, .strMax, .desigMin, .desigMax],
      ∀ i ∈ keys items, i.1 ≠ c := by
    intro c hc i hi he
    have := hplain i hi
    simp only [List.mem_cons, List.not_mem_nil, or_false] at hc
    rcases hc with rfl | rfl | rfl | rfl | rfl | rfl | rfl | rfl | rfl <;> simp [Plain, he] at this
  have hrecs : recs .atMain {} (keys items) = recs .atUsage {} (keys items) :=
    recs_noPage _ _ rfl (fun i hi => ⟨hno .usagePage (by simp) i hi, hno .push (by simp) i hi,
      hno .pop (by simp) i hi⟩)
  obtain ⟨st, hst⟩ := compile_toks h
  have hsane := (compile_exact .atUsage h).2
  obtain ⟨hw, hev, hco⟩ := tree_named known (tokens n) (fun _ _ => 0) 0 {} [] [] ⟨rfl, rfl, rfl, rfl⟩ trivial hr
    (fun k u hku => ⟨hk k u hku, toks_usages hst k u hku⟩) hm hsane
  rw [namedTree_place (A := a) (tokens n) [] _ _ _ (fun _ _ => 0) hl (fun l hll => hf l hll) hsane
    (by simp), ← pieces_eq] at hev
  rw [← hkeys] at hw hco hev
  rw [hrecs]
  refine ⟨⟨fun i hi => ⟨hno .push (by simp) i hi, hno .pop (by simp) i hi⟩, ?_, ?_, ?_, by rw [hrecs]; exact hw, ?_⟩,
    hco, hev⟩
  · exact oneRange_single _ _ _ (fun i hi => ⟨hno .usageMin (by simp) i hi, hno .usageMax (by simp) i hi⟩)
  · exact oneRange_single _ _ _ (fun i hi => ⟨hno .strMin (by simp) i hi, hno .strMax (by simp) i hi⟩)
  · exact oneRange_single _ _ _ (fun i hi => ⟨hno .desigMin (by simp) i hi, hno .desigMax (by simp) i hi⟩)
  · rw [hrecs]
    have htr : trailingK false (keys items) = true := by
      rw [hkeys]; exact tree_trailing (tokens n) _ 0 false he
    rcases trailing_last .atUsage (keys items) {} false htr with ⟨-, hb⟩ | ⟨r, hl, hd, hkind⟩
    · simp at hb
    · unfold endsClosedRec
      rw [hl]
      simp only [beq_iff_eq]
      cases hc : r.cls <;> rw [hc] at hd hkind <;> simp [Cls.isData] at hd <;> simp [Cls.kind] at hkind
      exact absurd rfl (named_last known _ _ (Nat.le_refl _) _ _ hw r hl hc)

end Extractor
end Hrdc
