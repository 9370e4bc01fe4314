import Verif.Spec.Nesting
import Verif.Props.Extract
/-!
# The decompiler follows the nesting of calm streams
-/
namespace Hrdc
open Spec Extractor
namespace Extractor

/-- The open levels are the collections `ops`, and the root. -/
def Heads : List (Int × Bool) → List Level → Prop
  | [], [l] => l.head = none
  | (k, u) :: o, l :: r => (∃ k' u', l.head = some (k', u') ∧ k'.toInt = k ∧ u'.isSome = u) ∧ Heads o r
  | _, _ => False

theorem heads_ne {o : List (Int × Bool)} {r : List Level} (h : Heads o r) : r ≠ [] := by
  cases o <;> cases r <;> simp [Heads] at h ⊢

theorem heads_len {o : List (Int × Bool)} : ∀ {r : List Level}, Heads o r → r.length = o.length + 1 := by
  induction o with
  | nil =>
    intro r h
    match r, h with
    | [l], _ => rfl
  | cons p o ih =>
    intro r h
    match r, h with
    | l :: r, h => simp [ih h.2]

/-- Brackets described by elements under construction. -/
def shapeL (xs : List XNode) : Brackets := ((Spec.ownPiecesL xs).flatMap bare).filterMap Event.kindOf

theorem ownPiecesL_append (xs ys : List XNode) : Spec.ownPiecesL (xs ++ ys) = Spec.ownPiecesL xs ++ Spec.ownPiecesL ys := by
  induction xs with
  | nil => rfl
  | cons x xs ih => simp [Spec.ownPiecesL, ih]

theorem shapeL_append (xs ys : List XNode) : shapeL (xs ++ ys) = shapeL xs ++ shapeL ys := by
  simp [shapeL, ownPiecesL_append]

theorem shapeL_coll (k : PyVal) (u : Option PyVal) (ms : List XNode) :
    shapeL [.coll k u ms] = some k.toInt :: shapeL ms ++ [none] := by
  simp [shapeL, Spec.ownPiecesL, Spec.ownPieces, bare, Event.kindOf]

/-- The open collections with what is in them. -/
def FramesOK : List Frame → List Level → Prop
  | [], [] => True
  | f :: fs, l :: ls => ((∀ k u, l.head = some (k, u) → k.toInt = f.kind ∧ u.isSome = f.usage ∧ (usageOf u).isSome = f.usage) ∧ f.shown = true ∧
      f.full = !l.members.isEmpty ∧ f.inner = shapeL l.members) ∧ FramesOK fs ls
  | _, _ => False

/-- The levels of the decompiler and the open collections: after an absorbed field the innermost collection
has been left already. -/
def Framed (fs : List Frame) (st : State) : Prop :=
  (st.inNamed = false → FramesOK fs (st.level :: st.stack)) ∧
  (st.inNamed = true → ∃ f p r ms x, fs = f :: p :: r ∧ f.full = true ∧ st.level.members = ms ++ [x] ∧
    shapeL [x] = f.all ∧ FramesOK (p :: r) ({ st.level with members := ms } :: st.stack))

theorem framed_clear {fs : List Frame} {st : State} : Framed fs st.clear ↔ Framed fs st := Iff.rfl

/-- State of the decompiler and reading of the stream; `nxt`: the rest of the stream. -/
structure Tally (st : State) (ops : List (Int × Bool)) (fresh : Bool) (s : Look) (nxt : List SItem) : Prop where
  g : ∀ c, st.num c = s.g c
  single : st.usages.length = s.single
  lo : (st.loc .usageMin).map PyVal.toInt = s.lo
  hi : (st.loc .usageMax).map PyVal.toInt = s.hi
  levels : st.inNamed = false → Heads ops (st.level :: st.stack) ∧ (fresh = true → st.level.members = [])
  named : st.inNamed = true → Heads ops.tail (st.level :: st.stack) ∧ ops ≠ [] ∧ fresh = false ∧ closes nxt = true

theorem tally_init (xs : List SItem) : Tally {} [] false {} xs :=
  ⟨fun _ => rfl, rfl, rfl, rfl, fun _ => ⟨rfl, by simp⟩, by simp⟩

theorem count_expand {st : State} {ops : List (Int × Bool)} {fresh : Bool} {s : Look} {nxt : List SItem}
    (T : Tally st ops fresh s nxt) : st.expandAll.usages.length = s.count := by
  show (expand (st.loc .usageMin) (st.loc .usageMax) st.usages).length = s.count
  have h1 := T.single
  have h2 := T.lo
  have h3 := T.hi
  unfold Look.count
  rw [← h1, ← h2, ← h3]
  cases hu : st.usages with
  | nil =>
    cases st.loc .usageMin <;> cases st.loc .usageMax <;> simp [expand, UsageRange.pyRange]
  | cons a l =>
    cases st.loc .usageMin <;> cases st.loc .usageMax <;> simp [expand]

theorem usage_isSome (reg : Registry) (st : State) (k : Nat) : (st.usage reg k).isSome = (st.usages.length != 0) := by
  unfold State.usage
  cases hu : st.usages with
  | nil => simp [clamp]
  | cons a l =>
    have : ∃ u, clamp (a :: l) k = some u := by
      unfold clamp
      refine ⟨(a :: l)[min ((a :: l).length - 1) k]'(by simp; omega), ?_⟩
      simp
    obtain ⟨u, hu'⟩ := this
    rw [hu']
    simp only
    split <;> simp

theorem array_len (reg : Registry) (st : State) (h : st.usages.length ≠ 0) :
    ∃ n, n ≠ 0 ∧ (st.array reg).len = .ok n := by
  have hl : ((List.range st.usages.length).filterMap (st.usage reg)).length = st.usages.length := by
    have : ∀ l : List Nat, (l.filterMap (st.usage reg)).length = l.length := by
      intro l
      induction l with
      | nil => rfl
      | cons a l ih =>
        have h1 := usage_isSome reg st a
        cases hu : st.usage reg a with
        | none => rw [hu] at h1; simp at h1; exact absurd (by simp [h1]) h
        | some v => rw [List.filterMap_cons, hu]; simp [ih]
    rw [this]; simp
  have key : ∃ us : List Int, us ≠ [] ∧ arrayUsages (some (st.array reg)) = us := by
    refine ⟨_, ?_, rfl⟩
    unfold State.array
    simp only
    cases hf : UsageRange.fromArray ((List.range st.usages.length).filterMap (st.usage reg)) with
    | ok ur =>
      simp only [arrayUsages]
      rw [range_upTo reg hf]
      intro h0
      have := congrArg List.length h0
      simp only [List.length_map, List.length_nil] at this
      omega
    | error e =>
      simp only [arrayUsages]
      intro h0
      have := congrArg List.length h0
      simp only [List.length_map, List.length_nil] at this
      omega
  obtain ⟨us, h1, h2⟩ := key
  exact ⟨us.length, by simpa using h1, len_of_usages h2 h1⟩

theorem new_arrayArgs (reg : Registry) (st : State) (i : Item) (u : Option PyVal) (h : st.usages.length ≠ 0) :
    ∃ v, Value.new (st.arrayArgs reg i u) = .ok v := by
  obtain ⟨n, hn, hl⟩ := array_len reg st h
  have hp' : (n != 0) = true := by simp [hn]
  unfold Value.new State.arrayArgs
  simp only [truthOpt, NamedArray.truth, hl, hp']
  simp [intGiven]

theorem array_some (reg : Registry) (st : State) (h : st.usages.length ≠ 0) :
    arrayUsages (some (st.array reg)) ≠ [] := by
  obtain ⟨n, hn, hl⟩ := array_len reg st h
  intro h0
  have h1 := NamedArray.truth_eq (o := some (st.array reg)) (b := true) (by simp [truthOpt, NamedArray.truth, hl, hn])
  simp [h0] at h1

theorem kinds_const {es : List Event} (h : ∀ e ∈ es, e.kindOf = none) : es.filterMap Event.kindOf = [] :=
  List.filterMap_eq_nil_iff.2 h

theorem field_kinds {n : Nat} {w : Cls} {f id : Int} {a : Attrs} {ss : List Selector} :
    (List.replicate n (Event.control w f id a ss)).filterMap Event.kindOf = [] :=
  kinds_const (fun e he => by obtain ⟨-, rfl⟩ := List.mem_replicate.1 he; rfl)

theorem kinds_none {id : Int} {v : Value} (h : arrayUsages v.namedArray = [] ∨ usageOf v.usage = none) :
    shapeL [.leaf id (.value v)] = [] := by
  simp only [shapeL, Spec.ownPiecesL, Spec.ownPieces, pieces, List.append_nil, List.flatMap_cons, List.flatMap_nil,
    bare, bareLeaf]
  rw [valueEvents_eq]
  split
  · split
    · exact kinds_const (fun e he => by obtain ⟨-, rfl⟩ := List.mem_replicate.1 he; rfl)
    · exact field_kinds
  · rename_i hne
    rcases h with h | h
    · exact absurd h hne
    · rw [h]
      exact field_kinds

theorem kinds_some {id : Int} {v : Value} (h : arrayUsages v.namedArray ≠ []) (hu : (usageOf v.usage).isSome = true) :
    shapeL [.leaf id (.value v)] = [some 2, none] := by
  simp only [shapeL, Spec.ownPiecesL, Spec.ownPieces, pieces, List.append_nil, List.flatMap_cons, List.flatMap_nil,
    bare, bareLeaf]
  rw [valueEvents_eq]
  split
  · contradiction
  · obtain ⟨u, hu⟩ := Option.isSome_iff_exists.1 hu
    simp only [hu, List.cons_append, List.filterMap_cons, List.filterMap_append, field_kinds]
    rfl

/-- After adding values only the members of the level differ, by elements without brackets; there is one
if `full`. -/
def Grown (full : Bool) (st st' : State) : Prop :=
  ∃ new, st' = { st with level := { st.level with members := st.level.members ++ new } } ∧ shapeL new = [] ∧
    new.isEmpty = !full

theorem addNew_grown {st : State} {a : ValueArgs} {v : Value} (hv : Value.new a = .ok v)
    (hb : arrayUsages v.namedArray = [] ∨ usageOf v.usage = none) : ∃ st', st.addNew a = .ok st' ∧ Grown true st st' :=
  ⟨st.addValue (.value v), by simp [State.addNew, hv], _, rfl, kinds_none hb, rfl⟩

theorem addMany_grown {as : List ValueArgs} : ∀ {st : State},
    (∀ a ∈ as, ∃ v, Value.new a = .ok v ∧ (arrayUsages v.namedArray = [] ∨ usageOf v.usage = none)) →
    ∃ st', st.addMany as = .ok st' ∧ Grown (!as.isEmpty) st st' := by
  induction as with
  | nil => intro st _; exact ⟨st, rfl, [], by simp, rfl, rfl⟩
  | cons a as ih =>
    intro st h
    obtain ⟨v, hv, hb⟩ := h a (by simp)
    obtain ⟨s1, h1, n1, rfl, e1, f1⟩ := addNew_grown (st := st) hv hb
    obtain ⟨s2, h2, n2, rfl, e2, f2⟩ := ih (st := { st with level := { st.level with members := st.level.members ++ n1 } })
      (fun b hb => h b (by simp [hb]))
    refine ⟨_, by rw [State.addMany, h1]; exact h2, n1 ++ n2, by simp [List.append_assoc], by rw [shapeL_append, e1, e2]; rfl, ?_⟩
    cases n1 with
    | nil => simp at f1
    | cons _ _ => rfl

theorem data_calm (reg : Registry) {st : State} {ops : List (Int × Bool)} {fresh alone : Bool} {s : Look} {i : Item}
    (hg : ∀ c, st.num c = s.g c) (hc : st.usages.length = s.count)
    (hl : st.inNamed = false) (hh : Heads ops (st.level :: st.stack)) (hf : fresh = true → st.level.members = [])
    (ha : alone = true → fresh = true) (hk : dataCalm ops alone s i.ival = true) {f : Frame} {fs : List Frame}
    (hfr : FramesOK (f :: fs) (st.level :: st.stack)) :
    ∃ st', st.data reg i = .ok st' ∧ ((Grown (s.holds i.ival) st st' ∧ (f.kind == 4 && i.ival == 2 && s.lone) = false) ∨
      (alone = true ∧ ops ≠ [] ∧ ∃ p r x, st.stack = p :: r ∧ shapeL [x] = (f.data s i.ival).all ∧
        (f.data s i.ival).full = true ∧
        st' = { st with inNamed := true, stack := r, level := { p with members := p.members ++ [x] } })) := by
  unfold State.data
  by_cases h0 : bitSet i.ival 0 = true
  · rw [if_pos h0, padding_ok]
    have h1 : (i.ival % 2 == 1) = true := by simpa [bitSet] using h0
    refine ⟨_, rfl, .inl ⟨⟨_, rfl, ?_, by simp [Look.holds, h1]⟩, ?_⟩⟩
    · simp only [shapeL, Spec.ownPiecesL, Spec.ownPieces, pieces, List.append_nil, List.flatMap_cons, List.flatMap_nil,
        bare, bareLeaf]
      exact kinds_const (fun e he => by obtain ⟨-, rfl⟩ := List.mem_replicate.1 he; rfl)
    · have : i.ival ≠ 2 := by intro h; rw [h] at h1; simp at h1
      simp [this]
  · rw [if_neg h0]
    have h0' : (i.ival % 2 == 1) = false := by simpa [bitSet] using h0
    unfold dataCalm at hk
    rw [h0', Bool.false_or, Bool.and_eq_true] at hk
    obtain ⟨hk1, hk2⟩ := hk
    have hrest : ∃ st', (if i.ival = 0 ∧ (st.usages.length : Int) = st.num .logMax - st.num .logMin + 1 then
        st.addMany (List.replicate (st.num .reportCount).toNat (st.arrayArgs reg i none))
      else if bitSet i.ival 8 then
        st.addNew { st.args reg i 0 with count := st.num .reportCount }
      else
        st.addMany ((List.range (st.num .reportCount).toNat).map (st.args reg i))) = .ok st' ∧
          Grown (s.holds i.ival) st st' := by
      split
      · rename_i hz
        have hholds : s.holds i.ival = !(List.replicate (st.num .reportCount).toNat (st.arrayArgs reg i none)).isEmpty := by
          rw [hg]
          unfold Look.holds
          rw [hz.1]
          by_cases hp : 0 < s.g .reportCount
          · simp [hp]
          · have : (s.g .reportCount).toNat = 0 := by omega
            simp [hp, this]
        rw [hholds]
        apply addMany_grown
        intro a hm
        obtain ⟨hn, rfl⟩ := List.mem_replicate.1 hm
        have hcn : st.usages.length ≠ 0 := by
          rw [hc]
          intro h00
          have hz2 : s.full = true := by
            have := hz.2
            rw [hg, hg, hc] at this
            simpa [Look.full] using this
          have hz3 : 0 < s.g .reportCount := by rw [← hg]; omega
          simp [hz.1, hz2, hz3, h00] at hk1
        obtain ⟨v, hv⟩ := new_arrayArgs reg st i none hcn
        refine ⟨v, hv, .inr ?_⟩
        rw [(C36_fields_partial _ _ hv).1.2.1]
        rfl
      · split
        · rename_i h8
          have hholds : s.holds i.ival = true := by
            unfold Look.holds
            rw [bitSet_eight] at h8
            simp [h8]
          rw [hholds]
          exact addNew_grown (new_plain reg st i 0 _) (.inl rfl)
        · rename_i h8
          have hholds : s.holds i.ival = !((List.range (st.num .reportCount).toNat).map (st.args reg i)).isEmpty := by
            rw [hg]
            unfold Look.holds
            rw [bitSet_eight] at h8
            rw [h0', Bool.false_or, Bool.eq_false_iff.2 h8]
            by_cases hp : 0 < s.g .reportCount
            · simp [hp]
            · have : (s.g .reportCount).toNat = 0 := by omega
              simp [hp, this]
          rw [hholds]
          apply addMany_grown
          intro a hm
          obtain ⟨k, -, rfl⟩ := List.mem_map.1 hm
          exact ⟨_, new_plain reg st i k 1, .inl rfl⟩
    unfold State.namedTest
    by_cases hn : st.num .reportCount = 1 ∧ (st.usages.length : Int) = st.num .logMax - st.num .logMin + 1
    · rw [if_pos hn]
      have hb : (s.g .reportCount == 1 && s.full) = true := by
        rw [hg, hg, hg, hc] at hn
        simp [Look.full, hn.1, hn.2]
      have hlone : s.lone = true := hb
      rw [hb, Bool.not_true, Bool.false_or] at hk2
      match hops : ops, hk2 with
      | (k, u) :: o, hk2 =>
        obtain ⟨⟨k', u', e1, e2, e3⟩, hr⟩ := hh
        obtain ⟨⟨hfr1, hfs, hff, hfi⟩, hfr2⟩ := hfr
        obtain ⟨hfk, hfu, hfu'⟩ := hfr1 k' u' e1
        obtain ⟨p, r, hpr⟩ : ∃ p r, st.stack = p :: r := by
          have := heads_ne hr
          match hst : st.stack, this with
          | p :: r, _ => exact ⟨p, r, rfl⟩
        have hnamed : alone = true → s.count ≠ 0 →
            (f.data s i.ival).all = (if (usageOf u').isSome then [some 2, none] else []) →
            (f.data s i.ival).full = true →
            ∃ st', ({ st with inNamed := true } : State).leave false =
                .ok { st with inNamed := true, stack := r, level := p } ∧ st.level.members.isEmpty = true ∧
              ({ st with inNamed := true, stack := r, level := p } : State).addNew
                (st.arrayArgs reg i (st.level.head.bind (·.2))) = .ok st' ∧
              ((Grown (s.holds i.ival) st st' ∧ (f.kind == 4 && i.ival == 2 && s.lone) = false) ∨
              (alone = true ∧ (k, u) :: o ≠ [] ∧ ∃ p r x, st.stack = p :: r ∧ shapeL [x] = (f.data s i.ival).all ∧
                (f.data s i.ival).full = true ∧
                st' = { st with inNamed := true, stack := r, level := { p with members := p.members ++ [x] } })) := by
          intro hal hcn hall hfull
          have hlv : ({ st with inNamed := true } : State).leave false =
              .ok { st with inNamed := true, stack := r, level := p } := by
            simp [State.leave, hpr, e1]
          have hem : st.level.members.isEmpty = true := by rw [hf (ha hal)]; rfl
          have hcn' : st.usages.length ≠ 0 := by rw [hc]; exact hcn
          obtain ⟨v, hv⟩ := new_arrayArgs reg st i (st.level.head.bind (·.2)) hcn'
          have hfields := (C36_fields_partial _ _ hv).1
          have hvu : v.usage = u' := by rw [hfields.2.1]; simp [State.arrayArgs, e1]
          have hva : arrayUsages v.namedArray ≠ [] := by
            rw [hfields.2.2.2.2.1]; exact array_some reg st hcn'
          refine ⟨({ st with inNamed := true, stack := r, level := p } : State).addValue (.value v), hlv, hem,
            by simp [State.addNew, hv], .inr ⟨hal, by simp, p, r, .leaf (st.num .reportID) (.value v), hpr, ?_, hfull, rfl⟩⟩
          rw [hall]
          split
          · rename_i h
            exact kinds_some hva (by rw [hvu]; exact h)
          · rename_i h
            apply kinds_none
            right
            rw [hvu]
            simpa using h
        unfold inArrayCollection
        rw [e1]
        simp only
        have hin : alone = true → f.inner = [] := fun h => by rw [hfi, hf (ha h)]; rfl
        by_cases h4 : i.ival = 2 ∧ k'.toInt = 4
        · rw [if_pos h4]
          simp only at hk2
          have hfd : f.data s i.ival = { f with kind := 2, full := true, shown := f.usage } := by
            unfold Frame.data
            rw [← hfk, h4.1, h4.2, hlone]
            rfl
          rw [e2] at h4
          rw [if_pos (by simp [h4.1, h4.2])] at hk2
          simp only [Bool.and_eq_true, bne_iff_ne] at hk2
          obtain ⟨st', f1, f2, f3, f4⟩ := hnamed hk2.1 hk2.2
            (by rw [hfd, hfu']; simp only [Frame.all, hin hk2.1]; rfl) (by rw [hfd])
          refine ⟨st', ?_, f4⟩
          rw [e1] at f3
          simp only [f1, f2, if_true]
          exact f3
        · rw [if_neg h4]
          have hno : (f.kind == 4 && i.ival == 2 && s.lone) = false := by
            rw [← hfk, hlone]
            simp
            intro a b
            exact h4 ⟨b, a⟩
          have hfd : f.data s i.ival = { f with full := f.full || s.holds i.ival } := by
            unfold Frame.data
            rw [if_neg (by rw [hno]; simp)]
          rw [e2] at h4
          simp only at hk2
          rw [if_neg (by simp; intro a b; exact h4 ⟨b, a⟩)] at hk2
          by_cases h2 : k'.toInt = 2
          · rw [if_pos h2]
            have hk22 : f.kind = 2 := by rw [← hfk]; exact h2
            rw [e2] at h2
            simp only [h2, bne_self_eq_false, Bool.false_or, Bool.and_eq_true, bne_iff_ne] at hk2
            rw [← e3] at hk2
            cases hu : u' with
            | none => rw [hu] at hk2; simp at hk2
            | some uu =>
              simp only
              cases Usage.testKind reg .NAry uu with
              | true =>
                obtain ⟨st', f1, f2, f3, f4⟩ := hnamed hk2.1.2 hk2.2
                  (by
                    rw [hfd, hfu', ← hfu, hk2.1.1]
                    simp only [Frame.all, hin hk2.1.2, hfs, hk22]
                    rfl)
                  (by
                    rw [hfd]
                    have : 0 < s.g .reportCount := by rw [← hg, hn.1]; omega
                    simp [Look.holds, this])
                refine ⟨st', ?_, f4⟩
                rw [e1, hu] at f3
                simp only [f1, f2, if_true]
                exact f3
              | false =>
                obtain ⟨st', h1, h2⟩ := hrest
                exact ⟨st', h1, .inl ⟨h2, hno⟩⟩
          · rw [if_neg h2]
            obtain ⟨st', h1, h2⟩ := hrest
            exact ⟨st', h1, .inl ⟨h2, hno⟩⟩
    · rw [if_neg hn]
      obtain ⟨st', h1, h2⟩ := hrest
      refine ⟨st', h1, .inl ⟨h2, ?_⟩⟩
      have : s.lone = false := by
        rw [hg, hg, hg, hc] at hn
        rw [Bool.eq_false_iff]
        intro h
        simp [Look.lone, Look.full] at h
        exact hn h
      simp [this]

theorem closes_main {i : Item} {xs : List SItem} (hk : i.cls.kind = .main) (h : closes (i.key :: xs) = true) :
    i.cls = .endCollection := by
  unfold closes at h
  rw [if_pos (show i.key.1.kind = .main from hk)] at h
  exact of_decide_eq_true h

theorem closes_other {i : Item} {xs : List SItem} (hk : i.cls.kind ≠ .main) (h : closes (i.key :: xs) = true) :
    closes xs = true := by
  unfold closes at h
  rwa [if_neg (show i.key.1.kind ≠ .main from hk)] at h

theorem closesAll_other (d : Nat) (c : Cls) (r : List Cls) (h1 : c ≠ .collection) (h2 : c ≠ .endCollection) :
    closesAll d (c :: r) = closesAll d r := by
  cases c <;> first | rfl | exact absurd rfl h1 | exact absurd rfl h2

theorem tally_other (reg : Registry) {st : State} {ops : List (Int × Bool)} {fresh : Bool} {s : Look} {i : Item}
    {xs : List SItem} (T : Tally st ops fresh s (i.key :: xs)) (hk : i.cls.kind ≠ .main) :
    ∃ st', step reg st i = .ok st' ∧ Tally st' ops fresh (s.next i.key) xs ∧ st'.root = st.root := by
  have hn : ∀ h : st.inNamed = true, _ := fun h => T.named h
  cases hk' : i.cls.kind with
  | main => exact absurd hk' hk
  | global =>
    refine ⟨{ st with g := fun c => if c = i.cls then i.val else st.g c }, by unfold step; rw [hk'], ?_, rfl⟩
    have hnext : s.next i.key = { s with g := fun c => if c = i.cls then i.ival else s.g c } := by
      unfold Look.next
      rw [show i.key.1.kind = .global from hk']
      rfl
    rw [hnext]
    refine ⟨fun c => ?_, T.single, T.lo, T.hi, T.levels, fun h => ?_⟩
    · have := T.g c
      simp only [State.num] at this ⊢
      split
      · rfl
      · exact this
    · obtain ⟨a, b, c, d⟩ := T.named h
      exact ⟨a, b, c, closes_other hk d⟩
  | loc =>
    have hnm : ∀ st' : State, st'.inNamed = st.inNamed → st'.level = st.level → st'.stack = st.stack →
        st'.inNamed = true → Heads ops.tail (st'.level :: st'.stack) ∧ ops ≠ [] ∧ fresh = false ∧ closes xs = true := by
      intro st' e1 e2 e3 h
      rw [e1] at h
      obtain ⟨a, b, c, d⟩ := T.named h
      rw [e2, e3]
      exact ⟨a, b, c, closes_other hk d⟩
    obtain ⟨c, v⟩ := i
    unfold step Look.next
    simp only at hk'
    simp only [Item.key, hk']
    cases c <;> simp [Cls.kind] at hk' <;> refine ⟨_, rfl, ?_, rfl⟩ <;>
      refine ⟨T.g, ?_, ?_, ?_, T.levels, hnm _ rfl rfl rfl⟩ <;> first
      | exact T.single
      | exact T.lo
      | exact T.hi
      | (simp [T.single]; done)
      | rfl

theorem tally_clear {st : State} {ops : List (Int × Bool)} {fresh : Bool} {s : Look} {i : Item} {xs : List SItem}
    (hk : i.cls.kind = .main) (hg : ∀ c, st.num c = s.g c)
    (h1 : st.inNamed = false → Heads ops (st.level :: st.stack) ∧ (fresh = true → st.level.members = []))
    (h2 : st.inNamed = true → Heads ops.tail (st.level :: st.stack) ∧ ops ≠ [] ∧ fresh = false ∧ closes xs = true) :
    Tally st.clear ops fresh (s.next i.key) xs := by
  have hnext : s.next i.key = { g := s.g } := by
    unfold Look.next
    rw [show i.key.1.kind = .main from hk]
  rw [hnext]
  exact ⟨hg, rfl, rfl, rfl, h1, h2⟩

/-- The brackets of a tree. -/
def treeBrackets (t : Node) : Brackets := (bareMeaning t).filterMap Event.kindOf

theorem ended_brackets (l : Level) : treeBrackets (ended l) = shapeL l.members := by
  unfold treeBrackets bareMeaning shapeL
  rw [← C40_grouping 0 l.members]
  rfl

theorem usageOf_isSome (reg : Registry) (st : State) (k : Nat) :
    (usageOf (st.usage reg k)).isSome = (st.usages.length != 0) := by
  rw [← usage_isSome reg st k]
  unfold State.usage
  cases hu : clamp st.usages k with
  | none => rfl
  | some u =>
    simp only
    split
    · rename_i h
      have : u.truthy = true := by
        cases u with
        | int n =>
          simp only [PyVal.toInt] at h
          simp only [PyVal.truthy]
          have : n ≠ 0 := by rintro rfl; simp at h
          simp [this]
        | _ => rfl
      simp [usageOf, this]
    · simp [usageOf, PyVal.truthy]

theorem frames_len {fs : List Frame} : ∀ {ls : List Level}, FramesOK fs ls → fs.length = ls.length := by
  induction fs with
  | nil => intro ls h; cases ls with
    | nil => rfl
    | cons _ _ => exact h.elim
  | cons f fs ih => intro ls h; cases ls with
    | nil => exact h.elim
    | cons _ _ => simp [ih h.2]

theorem outline_other {fs : List Frame} {s : Look} {last : Brackets} {i : SItem} {xs : List SItem} (hk : i.1.kind ≠ .main) :
    outline fs s last (i :: xs) = outline fs (s.next i) last xs := by
  obtain ⟨c, v⟩ := i
  cases c <;> first | rfl | exact absurd rfl hk

theorem outline_data {f : Frame} {fs : List Frame} {s : Look} {last : Brackets} {i : SItem} {xs : List SItem}
    (hk : i.1.kind = .main) (h1 : i.1 ≠ .collection) (h2 : i.1 ≠ .endCollection) :
    outline (f :: fs) s last (i :: xs) = outline (f.data s i.2 :: fs) (s.next i) last xs := by
  obtain ⟨c, v⟩ := i
  cases c <;> first | rfl | exact absurd rfl h1 | exact absurd rfl h2 | simp [Cls.kind] at hk

theorem run_calm (reg : Registry) (xs : List Item) : ∀ (st : State) (ops : List (Int × Bool)) (fresh : Bool) (s : Look)
    (fs : List Frame) (last : Brackets),
    Tally st ops fresh s (keys xs) → Framed fs st → (∀ t, st.root = some t → treeBrackets t = last) →
    calm ops fresh s (keys xs) = true →
    Spec.depth ops.length (xs.map Item.cls) ≠ none →
    ∃ st', runFrom reg st xs = .ok st' ∧ st'.root.isSome = (st.root.isSome || closesAll ops.length (xs.map Item.cls)) ∧
      ∀ t, st'.root = some t → treeBrackets t = outline fs s last (keys xs) := by
  induction xs with
  | nil => intro st ops fresh s fs last _ _ hr _ _; exact ⟨st, rfl, by simp [closesAll], hr⟩
  | cons i xs ih =>
    intro st ops fresh s fs last T F R hc hd
    have hkeys : keys (i :: xs) = i.key :: keys xs := rfl
    rw [hkeys] at T hc ⊢
    rw [List.map_cons] at hd ⊢
    rw [runFrom]
    by_cases hk : i.cls.kind = .main
    · have hst : step reg st i = (match (match i.cls with
          | .collection => .ok (st.expandAll.enter i.val (st.expandAll.usage reg 0))
          | .endCollection => st.expandAll.close
          | _ => st.expandAll.data reg i : Except PyErr State) with
          | .error e => .error e
          | .ok st' => .ok st'.clear) := by
        unfold step; rw [hk]; cases i.cls <;> rfl
      have hcnt := count_expand T
      by_cases h1 : i.cls = .collection
      · rw [h1] at hd hst
        rw [hst]
        simp only
        have hcalm : calm ((i.ival, s.count != 0) :: ops) true (s.next i.key) (keys xs) = true := by
          unfold calm at hc
          rw [show i.key.1 = .collection from h1] at hc
          exact hc
        have hnn : st.inNamed = false := by
          cases hn : st.inNamed with
          | false => rfl
          | true =>
            have := closes_main hk (T.named hn).2.2.2
            rw [h1] at this; simp at this
        obtain ⟨hh, -⟩ := T.levels hnn
        have := ih (st.expandAll.enter i.val (st.expandAll.usage reg 0)).clear ((i.ival, s.count != 0) :: ops) true
          (s.next i.key) ({ kind := i.ival, usage := s.count != 0 } :: fs) last
          (tally_clear hk T.g (fun _ => ⟨⟨⟨i.val, _, rfl, rfl, by rw [usage_isSome, hcnt]⟩, hh⟩, fun _ => rfl⟩)
            (fun h => by
              have h : st.inNamed = true := h
              rw [hnn] at h; simp at h))
          (framed_clear.2 ⟨fun _ => ⟨⟨fun k u h => by
              simp only [State.enter, Option.some.injEq, Prod.mk.injEq] at h
              rw [← h.1, ← h.2, usage_isSome, usageOf_isSome, hcnt]
              exact ⟨rfl, rfl, rfl⟩, rfl, rfl, rfl⟩, F.1 hnn⟩,
            fun h => by
              have h : st.inNamed = true := h
              rw [hnn] at h; simp at h⟩) R hcalm hd
        obtain ⟨st', e1, e2, e3⟩ := this
        refine ⟨st', e1, ?_, fun t ht => ?_⟩
        · rw [e2, h1]
          rfl
        · rw [e3 t ht]
          obtain ⟨c, v⟩ := i
          simp only at h1
          subst h1
          rfl
      · by_cases h2 : i.cls = .endCollection
        · rw [h2] at hd hst
          rw [hst]
          simp only
          have hcalm : calm ops.tail false (s.next i.key) (keys xs) = true := by
            unfold calm at hc
            rw [show i.key.1 = .endCollection from h2] at hc
            exact hc
          have hne : ops ≠ [] := by
            intro h0; subst h0; simp [Spec.depth] at hd
          obtain ⟨⟨k, u⟩, o, rfl⟩ : ∃ p o, ops = p :: o := by
            cases ops with
            | nil => exact absurd rfl hne
            | cons p o => exact ⟨p, o, rfl⟩
          have hcl : ∃ sa : State, st.expandAll.close = .ok { sa with root := if o = [] then some (ended sa.level) else st.root } ∧
              sa.g = st.g ∧ sa.inNamed = false ∧ Heads o (sa.level :: sa.stack) ∧
              ∃ f p r, fs = f :: p :: r ∧ FramesOK (f.close p :: r) (sa.level :: sa.stack) := by
            have fin : ∀ sa : State, Heads o (sa.level :: sa.stack) → sa.root = st.root →
                (if sa.stack.isEmpty then { sa with root := some (ended sa.level) } else sa) =
                { sa with root := if o = [] then some (ended sa.level) else st.root } := by
              intro sa hh hr
              have hl := heads_len hh
              simp only [List.length_cons] at hl
              by_cases ho : o = []
              · subst ho
                have : sa.stack = [] := by simpa using hl
                simp [this]
              · have : sa.stack.isEmpty = false := by
                  cases hs : sa.stack with
                  | nil => rw [hs] at hl; simp at hl; exact absurd hl ho
                  | cons _ _ => rfl
                rw [if_neg (by simp [this]), if_neg ho, ← hr]
            cases hn : st.inNamed with
            | true =>
              obtain ⟨hh, -⟩ := T.named hn
              obtain ⟨f, p, r, ms, x, F1, F2, F3, F4, F5⟩ := F.2 hn
              refine ⟨{ st.expandAll with inNamed := false }, ?_, rfl, rfl, hh, f, p, r, F1,
                ⟨?_, ?_, ?_, ?_⟩, F5.2⟩
              rotate_left
              · unfold Frame.close
                rw [if_pos F2]
                exact F5.1.1
              · unfold Frame.close
                rw [if_pos F2]
                exact F5.1.2.1
              · unfold Frame.close
                rw [if_pos F2]
                show true = !st.level.members.isEmpty
                rw [F3]
                simp
              · unfold Frame.close
                rw [if_pos F2]
                show p.inner ++ f.all = shapeL st.level.members
                rw [F3, shapeL_append, F4, F5.1.2.2.2]
              unfold State.close
              rw [if_pos (show st.expandAll.inNamed = true from hn)]
              simp only
              rw [fin { st.expandAll with inNamed := false } hh rfl]
            | false =>
              obtain ⟨⟨⟨k', u', e1, -, -⟩, hh⟩, -⟩ := T.levels hn
              have hF := F.1 hn
              obtain ⟨p, r, hpr⟩ : ∃ p r, st.stack = p :: r := by
                have := heads_ne hh
                match hst : st.stack, this with
                | p :: r, _ => exact ⟨p, r, rfl⟩
              rw [hpr] at hh
              rw [hpr] at hF
              obtain ⟨f, pf, rf, hfs, hF⟩ : ∃ f pf rf, fs = f :: pf :: rf ∧ FramesOK (f :: pf :: rf) (st.level :: p :: r) := by
                match hfs : fs, hF with
                | f :: pf :: rf, hF => exact ⟨f, pf, rf, rfl, hF⟩
              have hleave : ∃ ms, st.expandAll.leave true = .ok { st.expandAll with stack := r, level := { p with members := ms } } ∧
                  FramesOK (f.close pf :: rf) ({ p with members := ms } :: r) := by
                unfold State.leave
                rw [show st.expandAll.stack = p :: r from hpr, show st.expandAll.level.head = some (k', u') from e1]
                simp only
                obtain ⟨⟨a1, a2, a3, a4⟩, ⟨b1, b2, b3, b4⟩, b5⟩ := hF
                have hkk := (a1 _ _ e1).1
                split
                · rename_i hcond
                  refine ⟨_, rfl, ?_⟩
                  have hfull : f.full = true := by rw [a3]; simpa [State.expandAll] using hcond
                  unfold Frame.close
                  rw [if_pos hfull]
                  refine ⟨⟨b1, b2, by simp, ?_⟩, b5⟩
                  show pf.inner ++ f.all = shapeL (p.members ++ _)
                  rw [shapeL_append, shapeL_coll, b4, hkk]
                  unfold Frame.all
                  rw [a2, if_pos rfl, a4]
                  rfl
                · rename_i hcond
                  refine ⟨p.members, rfl, ?_⟩
                  have hfull : f.full = false := by
                    rw [a3]
                    simpa [State.expandAll] using hcond
                  unfold Frame.close
                  rw [if_neg (by simp [hfull])]
                  exact ⟨⟨b1, b2, b3, b4⟩, b5⟩
              obtain ⟨ms, hleave, hFr⟩ := hleave
              have hh' : Heads o ({ p with members := ms } :: r) := by
                cases o with
                | nil =>
                  cases r with
                  | nil => exact hh
                  | cons _ _ => exact hh
                | cons q o => exact hh
              refine ⟨{ st.expandAll with stack := r, level := { p with members := ms } }, ?_, rfl, hn, hh', f, pf, rf, hfs, hFr⟩
              unfold State.close
              rw [if_neg (show ¬ st.expandAll.inNamed = true by show ¬ st.inNamed = true; simp [hn]), hleave]
              simp only
              rw [fin { st.expandAll with stack := r, level := { p with members := ms } } hh' rfl]
          obtain ⟨sa, hcl, hg, hin, hh, f, pf, rf, rfl, hF⟩ := hcl
          rw [hcl]
          simp only
          have := ih ({ sa with root := if o = [] then some (ended sa.level) else st.root } : State).clear o false
            (s.next i.key) (f.close pf :: rf) (if rf.isEmpty then (f.close pf).inner else last)
            (tally_clear hk (fun c => by rw [← T.g c]; simp only [State.num, hg])
              (fun _ => ⟨hh, by simp⟩) (fun h => by simp only [hin] at h; simp at h))
            (framed_clear.2 ⟨fun _ => hF, fun h => by simp only [hin] at h; simp at h⟩)
            (by
              intro t ht
              have hl1 := heads_len hh
              have hl2 := frames_len hF
              simp only [List.length_cons] at hl1 hl2
              simp only [State.clear] at ht
              by_cases ho : o = []
              · subst ho
                rw [if_pos rfl] at ht
                have hrf : rf = [] := List.eq_nil_of_length_eq_zero (by simp only [List.length_nil] at hl1; omega)
                subst hrf
                simp only [Option.some.injEq] at ht
                rw [← ht, ended_brackets, ← hF.1.2.2.2]
                rfl
              · rw [if_neg ho] at ht
                have hrf : rf.isEmpty = false := by
                  cases rf with
                  | nil =>
                    simp only [List.length_nil] at hl2
                    exact absurd (List.eq_nil_of_length_eq_zero (by omega)) ho
                  | cons _ _ => rfl
                rw [hrf]
                exact R t ht) hcalm
            (by simpa [Spec.depth] using hd)
          obtain ⟨st', e1, e2, e3⟩ := this
          refine ⟨st', e1, ?_, fun t ht => ?_⟩
          · rw [e2, h2]
            simp only [State.clear, closesAll, List.length_cons]
            cases o with
            | nil => simp
            | cons _ _ => simp
          · rw [e3 t ht]
            obtain ⟨c, v⟩ := i
            simp only at h2
            subst h2
            rfl
        · rw [depth_cons_other _ _ _ h1 h2] at hd
          rw [closesAll_other _ _ _ h1 h2]
          have hst' : step reg st i = (match st.expandAll.data reg i with
              | .error e => .error e
              | .ok st' => .ok st'.clear) := by
            rw [hst]
            cases hcc : i.cls <;> rw [hcc] at h1 h2 <;> first | rfl | exact absurd rfl h1 | exact absurd rfl h2
          have hcalm : dataCalm ops (fresh && closes (keys xs)) s i.ival = true ∧
              calm ops false (s.next i.key) (keys xs) = true := by
            rw [← Bool.and_eq_true]
            revert hc h1 h2 hk
            clear hst hst' hd T hcnt
            obtain ⟨c, v⟩ := i
            cases c <;> simp [Cls.kind, calm, Item.key, Item.ival]
          have hnn : st.inNamed = false := by
            cases hn : st.inNamed with
            | false => rfl
            | true => exact absurd (closes_main hk (T.named hn).2.2.2) h2
          obtain ⟨hh, hf⟩ := T.levels hnn
          have hF := F.1 hnn
          obtain ⟨f, fr, rfl⟩ : ∃ f fr, fs = f :: fr := by
            cases fs with
            | nil => exact hF.elim
            | cons f fr => exact ⟨f, fr, rfl⟩
          obtain ⟨sd, hsd, hcase⟩ := data_calm reg (st := st.expandAll) (alone := fresh && closes (keys xs)) (fresh := fresh)
            T.g hcnt hnn hh hf (fun h => by simp at h; exact h.1) hcalm.1 hF
          rw [hst', hsd]
          simp only
          have hFr : Framed (f.data s i.ival :: fr) sd := by
            rcases hcase with ⟨⟨new, rfl, g1, g2⟩, g3⟩ | ⟨hal, hne, p, r, x, hpr, g1, g2, rfl⟩
            · refine ⟨fun _ => ?_, fun h => ?_⟩
              · have hfd : f.data s i.ival = { f with full := f.full || s.holds i.ival } := by
                  unfold Frame.data
                  rw [if_neg (by rw [g3]; simp)]
                rw [hfd]
                refine ⟨⟨hF.1.1, hF.1.2.1, ?_, ?_⟩, hF.2⟩
                · show (f.full || s.holds i.ival) = !(st.level.members ++ new).isEmpty
                  rw [hF.1.2.2.1]
                  show (!st.level.members.isEmpty || s.holds i.ival) = _
                  cases st.level.members with
                  | nil => simp [g2]
                  | cons _ _ => simp
                · show f.inner = shapeL (st.level.members ++ new)
                  rw [shapeL_append, g1, List.append_nil]
                  exact hF.1.2.2.2
              · have h : st.inNamed = true := h
                rw [hnn] at h; simp at h
            · refine ⟨fun h => by simp at h, fun _ => ?_⟩
              have hF2 := hF.2
              rw [show st.stack = p :: r from hpr] at hF2
              match hfr : fr, hF2 with
              | pf :: rf, hF2 => exact ⟨_, pf, rf, p.members, x, rfl, g2, rfl, g1, hF2⟩
          have hT : Tally sd.clear ops false (s.next i.key) (keys xs) ∧ sd.root = st.root := by
            rcases hcase with ⟨⟨new, rfl, -, -⟩, -⟩ | ⟨hal, hne, p, r, x, hpr, -, -, rfl⟩
            · refine ⟨tally_clear hk T.g (fun _ => ⟨?_, by simp⟩) (fun h => ?_), rfl⟩
              · cases ops with
                | nil =>
                  have hl := heads_len hh
                  simp only [List.length_cons, List.length_nil] at hl
                  have hs0 : st.stack = [] := List.eq_nil_of_length_eq_zero (by omega)
                  rw [hs0] at hh
                  show Heads [] (_ :: st.stack)
                  rw [hs0]
                  exact hh
                | cons q o => exact hh
              · have h : st.inNamed = true := h
                rw [hnn] at h; simp at h
            · refine ⟨tally_clear hk T.g (fun h => ?_) (fun _ => ⟨?_, hne, rfl, ?_⟩), rfl⟩
              · simp at h
              · rw [show st.stack = p :: r from hpr] at hh
                cases ops with
                | nil => exact absurd rfl hne
                | cons q o =>
                  have hh' := hh.2
                  show Heads o (_ :: r)
                  cases o with
                  | nil =>
                    cases r with
                    | nil => exact hh'
                    | cons _ _ => exact hh'
                  | cons q o => exact hh'
              · simp at hal; exact hal.2
          obtain ⟨st', e1, e2, e3⟩ := ih _ _ _ _ _ last hT.1 (framed_clear.2 hFr)
            (fun t ht => R t (by rw [← hT.2]; exact ht)) hcalm.2 hd
          refine ⟨st', e1, ?_, fun t ht => ?_⟩
          · rw [e2]
            show (sd.root.isSome || _) = _
            rw [hT.2]
          · rw [e3 t ht, outline_data hk h1 h2]
            rfl
    · have h1 : i.cls ≠ .collection := by intro h; rw [h] at hk; simp [Cls.kind] at hk
      have h2 : i.cls ≠ .endCollection := by intro h; rw [h] at hk; simp [Cls.kind] at hk
      obtain ⟨st1, e1, T1, hr⟩ := tally_other reg T hk
      rw [e1]
      simp only
      rw [depth_cons_other _ _ _ h1 h2] at hd
      rw [closesAll_other _ _ _ h1 h2]
      have hcalm : calm ops fresh (s.next i.key) (keys xs) = true := by
        unfold calm at hc
        have hi1 : i.key.1 = i.cls := rfl
        rw [hi1] at hc
        cases hkk : i.cls.kind with
        | main => exact absurd hkk hk
        | global => rw [hkk] at hc; exact hc
        | loc => rw [hkk] at hc; exact hc
      have F1 : Framed fs st1 := by
        obtain ⟨c, v⟩ := i
        unfold step at e1
        cases c <;> simp [Cls.kind] at hk e1 <;> (subst e1; exact F)
      obtain ⟨st', f1, f2, f3⟩ := ih _ _ _ _ fs last T1 F1 (fun t ht => R t (by rw [← hr]; exact ht)) hcalm hd
      exact ⟨st', f1, by rw [f2, hr], fun t ht => by rw [f3 t ht, outline_other hk]⟩

/-! ## Streams without empty collections -/

/-- The same open collections. -/
def Opens : List (Int × Bool) → List Frame → Prop
  | [], [f] => f.kind = 0
  | (k, b) :: o, f :: r => f.kind = k ∧ f.full = b ∧ f.shown = true ∧ Opens o r
  | _, _ => False

/-- The brackets read so far. -/
def sofar : List Frame → Brackets
  | [] => []
  | [f] => f.inner
  | f :: r => sofar r ++ some f.kind :: f.inner

theorem sofar_cons (f : Frame) (r : List Frame) (h : r ≠ []) : sofar (f :: r) = sofar r ++ some f.kind :: f.inner := by
  cases r with
  | nil => exact absurd rfl h
  | cons _ _ => rfl

theorem opens_ne {o : List (Int × Bool)} {r : List Frame} (h : Opens o r) : r ≠ [] := by
  cases o <;> cases r <;> simp [Opens] at h ⊢

theorem sofar_data {f : Frame} {fs : List Frame} {b : Bool} : sofar ({ f with full := b } :: fs) = sofar (f :: fs) := by
  cases fs <;> rfl

theorem outline_solid (xs : List SItem) : ∀ (ops : List (Int × Bool)) (fs : List Frame) (s : Look) (last : Brackets),
    Opens ops fs → (ops = [] → last = sofar fs) → solid ops s xs = true →
    outline fs s last xs = sofar fs ++ brackets xs := by
  induction xs with
  | nil =>
    intro ops fs s last hO hl hs
    have : ops = [] := by simpa [solid] using hs
    simp [outline, brackets, hl this]
  | cons i xs ih =>
    intro ops fs s last hO hl hs
    by_cases hk : i.1.kind = .main
    · by_cases h1 : i.1 = .collection
      · obtain ⟨c, v⟩ := i
        simp only at h1
        subst h1
        have := ih ((v, false) :: ops) ({ kind := v, usage := s.count != 0 } :: fs) (s.next (.collection, v)) last
          ⟨rfl, rfl, rfl, hO⟩ (by simp) hs
        show outline ({ kind := v, usage := s.count != 0 } :: fs) _ _ _ = _
        rw [this, sofar_cons _ _ (opens_ne hO)]
        simp [brackets]
      · by_cases h2 : i.1 = .endCollection
        · obtain ⟨c, v⟩ := i
          simp only at h2
          subst h2
          match ops, fs, hO, hs with
          | (k, true) :: o, f :: r, hO, hs =>
            obtain ⟨e1, e2, e3, hO⟩ := hO
            match r, hO with
            | [], hO => exact absurd rfl (opens_ne hO)
            | p :: r, hO =>
              have hcl : f.close p = { p with full := true, inner := p.inner ++ (some k :: f.inner ++ [none]) } := by
                unfold Frame.close Frame.all
                rw [e2, if_pos rfl, e3, if_pos rfl, e1]
              have hO' : Opens (fill true o) (f.close p :: r) := by
                rw [hcl]
                match o, r, hO with
                | [], [], hO => exact hO
                | (k', b') :: o, r, hO =>
                  obtain ⟨a1, a2, a3, a4⟩ := hO
                  exact ⟨a1, by simp, a3, a4⟩
              have hsf : sofar (f.close p :: r) = sofar (f :: p :: r) ++ [none] := by
                rw [hcl, sofar_cons f _ (by simp)]
                cases r with
                | nil => simp [sofar, e1]
                | cons q r => rw [sofar_cons _ _ (by simp), sofar_cons p _ (by simp)]; simp [e1]
              have := ih (fill true o) (f.close p :: r) (s.next (.endCollection, v))
                (if r.isEmpty then (f.close p).inner else last) hO'
                (by
                  intro ho
                  have ho' : o = [] := by
                    cases o with
                    | nil => rfl
                    | cons q o => obtain ⟨a, b⟩ := q; simp [fill] at ho
                  subst ho'
                  match r, hO with
                  | [], hO => rfl) hs
              show outline (f.close p :: r) _ _ _ = _
              rw [this, hsf]
              simp [brackets]
        · obtain ⟨f, r, rfl⟩ : ∃ f r, fs = f :: r := by
            cases fs with
            | nil => exact absurd rfl (opens_ne hO)
            | cons f r => exact ⟨f, r, rfl⟩
          rw [outline_data hk h1 h2]
          have hs' : (!((ops.head?.map (·.1)) == some 4 && i.2 == 2 && s.lone)) = true ∧
              solid (fill (s.holds i.2) ops) (s.next i) xs = true := by
            rw [← Bool.and_eq_true]
            revert hs h1 h2 hk
            obtain ⟨c, v⟩ := i
            cases c <;> simp [Cls.kind, solid]
          have hb : brackets (i :: xs) = brackets xs := by
            obtain ⟨c, v⟩ := i
            cases c <;> first | rfl | exact absurd rfl h1 | exact absurd rfl h2
          have hfd : f.data s i.2 = { f with full := f.full || s.holds i.2 } := by
            unfold Frame.data
            rw [if_neg]
            intro hc
            have h4 := hs'.1
            match ops, r, hO, h4 with
            | [], [], hO, _ =>
              have hO : f.kind = 0 := hO
              rw [hO] at hc; simp at hc
            | (k, b) :: o, r, hO, h4 =>
              rw [hO.1] at hc
              simp only [Bool.and_eq_true, beq_iff_eq] at hc
              have h4 : (!(some k == some 4 && i.2 == 2 && s.lone)) = true := h4
              rw [hc.1.1, hc.1.2, hc.2] at h4
              simp at h4
          rw [hb, hfd]
          have hsf : sofar ({ f with full := f.full || s.holds i.2 } :: r) = sofar (f :: r) := sofar_data
          rw [← hsf]
          apply ih (fill (s.holds i.2) ops)
          · match ops, r, hO with
            | [], [], hO => exact hO
            | (k, b) :: o, r, hO => exact ⟨hO.1, by simp [hO.2.1], hO.2.2⟩
          · intro ho
            have : ops = [] := by
              cases ops with
              | nil => rfl
              | cons q o => obtain ⟨a, b⟩ := q; simp [fill] at ho
            rw [hsf]
            exact hl this
          · exact hs'.2
    · rw [outline_other hk]
      have hb : brackets (i :: xs) = brackets xs := by
        obtain ⟨c, v⟩ := i
        cases c <;> first | rfl | exact absurd rfl hk
      have hs' : solid ops (s.next i) xs = true := by
        obtain ⟨c, v⟩ := i
        cases c <;> first | exact hs | exact absurd rfl hk
      rw [hb]
      exact ih ops fs _ last hO hl hs'

theorem framed_init : Framed [{}] {} := ⟨fun _ => ⟨⟨fun _ _ h => by simp at h, rfl, rfl, rfl⟩, trivial⟩, fun h => by simp at h⟩

end Extractor
end Hrdc
