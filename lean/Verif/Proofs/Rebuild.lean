import Verif.Spec.Rebuild
import Verif.Proofs.Nesting
import Verif.Proofs.Named
/-!
# What the decompiler makes of any stream
-/
namespace Hrdc
open Spec

/-- The exception of a refused stream. -/
def Spec.Refusal.raised : Refusal → PyErr
  | .surplus => .index
  | .outside => .attribute
  | .noUsage => .type
  | .beside => .assertion
  | .noValue => .value
  | .noRoot => .attribute

namespace Extractor

/-- The state without its levels. -/
def State.apart (st : State) : State := { st with inNamed := false, level := {}, stack := [] }

/-! ## Reading indices and globals -/

/-- The indices of one sort in the state. -/
structure Gathered (d : Gather) (t : List PyVal) (lo hi : Option PyVal) : Prop where
  items : t.map PyVal.toInt = d.items
  lo : lo.map PyVal.toInt = d.lo
  hi : hi.map PyVal.toInt = d.hi

theorem gathered_values {d : Gather} {t : List PyVal} {lo hi : Option PyVal} (h : Gathered d t lo hi) :
    d.values = (expand lo hi t).map PyVal.toInt := by
  obtain ⟨h1, h2, h3⟩ := h
  unfold Gather.values
  rw [← h1, ← h2, ← h3]
  cases t with
  | nil =>
    cases lo <;> cases hi <;> simp [expand]
    unfold UsageRange.pyRange upTo
    rw [List.map_map]
    rfl
  | cons a l => cases lo <;> cases hi <;> simp [expand]

/-- The state between two items. -/
structure Follows (reg : Registry) (s : Reader) (st : State) : Prop where
  g : ∀ c, (st.g c).toInt = s.g c
  usages : Gathered s.usages st.usages (st.loc .usageMin) (st.loc .usageMax)
  strings : Gathered s.strings st.strings (st.loc .strMin) (st.loc .strMax)
  desigs : Gathered s.desigs st.desigs (st.loc .desigMin) (st.loc .desigMax)
  page : 0 ≤ s.g .usagePage
  size : 0 ≤ s.g .reportSize
  count : 0 ≤ s.g .reportCount
  pos : ∀ u ∈ st.usages, 0 ≤ u.toInt
  posLo : ∀ l, st.loc .usageMin = some l → 0 ≤ l.toInt
  known : UsagesKnown reg st.usages

theorem follows_main {reg : Registry} {s : Reader} {st : State} (F : Follows reg s st) (i : SItem) :
    AtMain (s.main i) st.expandAll.apart [] := by
  refine ⟨F.g, ?_, ?_, ?_, rfl, rfl, F.page, F.size, F.count, ?_⟩
  · show s.usages.values.map _ = _
    rw [gathered_values F.usages, List.map_map]
    rfl
  · exact gathered_values F.strings
  · exact gathered_values F.desigs
  · intro u hu
    have hu : u ∈ expand (st.loc .usageMin) (st.loc .usageMax) st.usages := hu
    unfold expand at hu
    split at hu
    · rename_i l h' h1 h2 h3
      simp only [List.mem_map, UsageRange.pyRange] at hu
      obtain ⟨_, ⟨k, _, rfl⟩, rfl⟩ := hu
      have := F.posLo l h1
      show 0 ≤ l.toInt + (k : Int)
      omega
    · exact F.pos u hu

theorem follows_known {reg : Registry} {s : Reader} {st : State} (F : Follows reg s st) :
    UsagesKnown reg st.expandAll.usages := by
  intro u hu hne
  have hu : u ∈ expand (st.loc .usageMin) (st.loc .usageMax) st.usages := hu
  unfold expand at hu
  split at hu
  · obtain ⟨k, -, rfl⟩ := List.mem_map.1 hu
    exact testKind_int reg k
  · exact F.known u hu hne

theorem gathered_add {d : Gather} {t : List PyVal} {lo hi : Option PyVal} (h : Gathered d t lo hi) (v : PyVal) :
    Gathered { d with items := d.items ++ [v.toInt] } (t ++ [v]) lo hi :=
  ⟨by simp [h.items], h.lo, h.hi⟩

theorem follows_other {reg : Registry} {s : Reader} {st : State} (F : Follows reg s st) {i : Item}
    (hk : i.cls.kind ≠ .main) (hm : i.Made)
    (hu : i.cls = .usage → i.ival / 65536 ≠ 0 → Usage.testKind reg .NAry i.val = arrayUsage reg i.ival) :
    ∃ st', step reg st i = .ok st' ∧ Follows reg (s.next i.key) st' ∧ st'.level = st.level ∧ st'.stack = st.stack ∧
      st'.inNamed = st.inNamed ∧ st'.root = st.root := by
  have hn := hm.nonneg
  cases hkk : i.cls.kind with
  | main => exact absurd hkk hk
  | global =>
    have hst : step reg st i = .ok { st with g := fun c => if c = i.cls then i.val else st.g c } := by
      unfold step; rw [hkk]
    have hnext : s.next i.key = { s with g := fun c => if c = i.cls then i.ival else s.g c } := by
      unfold Reader.next
      rw [show i.key.1.kind = .global from hkk]
      rfl
    have hp : ∀ c : Cls, c.signed = false → 0 ≤ s.g c → 0 ≤ (if c = i.cls then i.ival else s.g c) := by
      intro c hc h
      split
      · rename_i e
        rw [← e, hc] at hn
        simpa using hn
      · exact h
    refine ⟨_, hst, ?_, rfl, rfl, rfl, rfl⟩
    rw [hnext]
    refine ⟨fun c => ?_, F.usages, F.strings, F.desigs, hp _ rfl F.page, hp _ rfl F.size, hp _ rfl F.count, F.pos, F.posLo,
      F.known⟩
    show (if c = i.cls then i.val else st.g c).toInt = if c = i.cls then i.ival else s.g c
    split
    · rfl
    · exact F.g c
  | loc =>
  obtain ⟨c, v⟩ := i
  have hnv : c.signed = true ∨ 0 ≤ v.toInt := hn
  unfold step Reader.next
  cases c <;> simp only [Cls.kind, reduceCtorEq] at hkk <;> simp only [Item.key, Cls.kind] <;>
    refine ⟨_, rfl, ?_, rfl, rfl, rfl, rfl⟩ <;>
    refine ⟨F.g, ?_, ?_, ?_, F.page, F.size, F.count, ?_, ?_, ?_⟩ <;>
    first
    | exact F.usages
    | exact F.strings
    | exact F.desigs
    | exact gathered_add F.usages v
    | exact gathered_add F.strings v
    | exact gathered_add F.desigs v
    | exact ⟨F.usages.items, rfl, F.usages.hi⟩
    | exact ⟨F.usages.items, F.usages.lo, rfl⟩
    | exact ⟨F.strings.items, rfl, F.strings.hi⟩
    | exact ⟨F.strings.items, F.strings.lo, rfl⟩
    | exact ⟨F.desigs.items, rfl, F.desigs.hi⟩
    | exact ⟨F.desigs.items, F.desigs.lo, rfl⟩
    | exact F.pos
    | exact F.posLo
    | exact F.known
    | skip
  · intro u hmem
    simp only [List.mem_append, List.mem_singleton] at hmem
    rcases hmem with hmem | rfl
    · exact F.pos u hmem
    · simpa [Cls.signed] using hnv
  · intro u hmem hne
    simp only [List.mem_append, List.mem_singleton] at hmem
    rcases hmem with hmem | rfl
    · exact F.known u hmem hne
    · exact hu rfl hne
  · intro l hl
    simp only [if_true, Option.some.injEq] at hl
    subst hl
    simpa [Cls.signed] using hnv

theorem follows_clear {reg : Registry} {s : Reader} {st st' : State} (F : Follows reg s st) {i : Item}
    (hk : i.cls.kind = .main) (hg : st'.g = st.g) : Follows reg (s.next i.key) st'.clear := by
  have hnext : s.next i.key = { g := s.g } := by
    unfold Reader.next
    rw [show i.key.1.kind = .main from hk]
  rw [hnext]
  refine ⟨fun c => ?_, ⟨rfl, rfl, rfl⟩, ⟨rfl, rfl, rfl⟩, ⟨rfl, rfl, rfl⟩, F.page, F.size, F.count, ?_, ?_, ?_⟩
  · show (st'.g c).toInt = _
    rw [hg]; exact F.g c
  · intro u hu; simp [State.clear] at hu
  · intro l hl; simp [State.clear] at hl
  · intro u hu; simp [State.clear] at hu

/-! ## What values describe -/

/-- The element a piece of a tree is. -/
def blockOf : Piece → Block
  | .enter k u => .enter k.toInt (u.map PyVal.toInt)
  | .leave => .leave
  | .leaf id (.padding w s) => .pad w.cls id s.toNat
  | .leaf id (.align w _) => .pad w.cls id 0
  | .leaf id (.value v) => .value
    { way := v.way.cls
      id := id
      flags := if arrayUsages v.namedArray = [] then v.flags.toInt else 0
      attrs := if arrayUsages v.namedArray = [] then attrsOf v else arrayAttrs v (arrayUsages v.namedArray).length
      what :=
        if arrayUsages v.namedArray = [] then
          if bitSet v.flags.toInt 1 then [selectorOf v (usageOf v.usage)]
          else (usageOf v.usage).toList.map (fun u => selectorOf v (some u))
        else (arrayUsages v.namedArray).map (fun u => selectorOf v (some u))
      count := v.count.toNat
      inside := if arrayUsages v.namedArray = [] then none else usageOf v.usage
      named := decide (arrayUsages v.namedArray ≠ [])
      marks := (v.string, v.designator) }

/-- Pieces of decompiled trees. -/
def PieceFits : Piece → Prop
  | .enter k _ => 0 ≤ k.toInt
  | .leave => True
  | .leaf _ (.padding _ s) => 0 ≤ s
  | .leaf _ (.align _ _) => False
  | .leaf _ (.value v) => v.Made ∧ v.alignment = min 8 v.size ∧ 0 ≤ v.size ∧ 0 ≤ v.count ∧
      bitSet v.flags.toInt 0 = false ∧ (arrayUsages v.namedArray ≠ [] → v.count = 1) ∧
      (arrayUsages v.namedArray = [] → v.logicalMin.isSome ∧ v.logicalMax.isSome ∧ v.physicalMin.isSome ∧ v.physicalMax.isSome)

theorem block_events {p : Piece} (h : PieceFits p) : bare p = (blockOf p).events := by
  cases p with
  | enter k u => rfl
  | leave => rfl
  | leaf id l =>
    cases l with
    | align w n => exact h.elim
    | padding w s => simp [bare, bareLeaf_padding, blockOf, Block.events]
    | value v =>
      have hf : bitSet v.flags.toInt 0 = false := h.2.2.2.2.1
      simp only [bare, bareLeaf_value, valueEvents_eq, blockOf, Block.events, Fields.events, hf, Bool.false_eq_true, if_false]
      cases hu : arrayUsages v.namedArray with
      | nil => simp [within]
      | cons x l => cases usageOf v.usage <;> simp [within]

/-- Elements under construction. -/
def told (xs : List XNode) : List Block := (Spec.ownPiecesL xs).map blockOf

theorem told_append (xs ys : List XNode) : told (xs ++ ys) = told xs ++ told ys := by
  simp [told, ownPiecesL_append]

theorem told_coll (k : PyVal) (u : Option PyVal) (ms : List XNode) :
    told [.coll k u ms] = .enter k.toInt (u.map PyVal.toInt) :: told ms ++ [.leave] := by
  simp [told, Spec.ownPiecesL, Spec.ownPieces, blockOf]

/-- Pieces of elements under construction. -/
def AllFit (xs : List XNode) : Prop := ∀ p ∈ Spec.ownPiecesL xs, PieceFits p

theorem allFit_append {xs ys : List XNode} (h : AllFit xs) (h' : AllFit ys) : AllFit (xs ++ ys) := by
  intro p hp
  rw [ownPiecesL_append] at hp
  rcases List.mem_append.1 hp with hp | hp
  · exact h p hp
  · exact h' p hp

theorem told_map {α : Type} (id : Int) (l : List α) (f : α → Value) (b : α → Block)
    (h : ∀ a ∈ l, blockOf (.leaf id (.value (f a))) = b a ∧ PieceFits (.leaf id (.value (f a)))) :
    told (l.map (fun a => .leaf id (.value (f a)))) = l.map b ∧ AllFit (l.map (fun a => .leaf id (.value (f a)))) := by
  induction l with
  | nil => exact ⟨rfl, by intro p hp; simp [Spec.ownPiecesL] at hp⟩
  | cons a l ih =>
    obtain ⟨h1, h2⟩ := ih (fun b hb => h b (by simp [hb]))
    obtain ⟨g1, g2⟩ := h a (by simp)
    rw [List.map_cons, ← List.singleton_append]
    refine ⟨?_, allFit_append ?_ h2⟩
    · rw [told_append, h1, List.map_cons, ← g1]
      rfl
    · intro p hp
      simp [Spec.ownPiecesL, Spec.ownPieces, Spec.pieces] at hp
      subst hp
      exact g2

theorem told_ended (l : Level) : (pieces 0 (ended l)).map blockOf = told l.members := by
  unfold told
  rw [← C40_grouping 0 l.members]
  rfl

theorem fits_ended {l : Level} (h : AllFit l.members) : ∀ p ∈ pieces 0 (ended l), PieceFits p := by
  intro p hp
  have : pieces 0 (ended l) = Spec.ownPiecesL l.members := by
    rw [← C40_grouping 0 l.members]; rfl
  rw [this] at hp
  exact h p hp

theorem array_told (reg : Registry) {r : MainRec} {st : State} {ops : List (Int × Bool)}
    (A : AtMain r st ops) {i : Item} (hd : i.cls.isData = true) (hr : r.cls = i.cls)
    (hne : r.usages ≠ []) (hfull : r.full = true) (u : Option PyVal) :
    blockOf (.leaf (st.num .reportID) (.value (st.namedValue reg i r.usages.length u))) =
      .value (r.arrayFields (usageOf u)) ∧
    PieceFits (.leaf (st.num .reportID) (.value (st.namedValue reg i r.usages.length u))) := by
  have hu : arrayUsages (st.namedValue reg i r.usages.length u).namedArray = r.usages := array_usages reg A
  have hnum : ∀ c, st.num c = r.g c := A.g
  refine ⟨?_, ⟨_, new_named reg A i hne u⟩, rfl, ?_, Int.zero_le_ofNat 1, ?_, fun _ => rfl, fun h => absurd (hu.symm.trans h) hne⟩
  · simp only [blockOf, hu, hne, if_false]
    simp only [MainRec.full, beq_iff_eq] at hfull
    have hat : arrayAttrs (st.namedValue reg i r.usages.length u) r.usages.length = r.arrayField.attrs := by
      simp only [arrayAttrs, attrsOf, State.namedValue, State.arrayValue, hnum, Option.getD_some, PyVal.toInt,
        MainRec.attrs, MainRec.arrayField]
      simp
      omega
    have hwhat : r.arrayField.what 0 =
        r.usages.map (fun x => selectorOf (st.namedValue reg i r.usages.length u) (some x)) := by
      have hnv : r.arrayField.isVar = false := by simp [MainRec.isVar, MainRec.arrayField]
      have htake : ∀ (l : List Int) j, pick (l.take 1) j = pick l 0 := by
        intro l j
        cases l with
        | nil => simp [pick]
        | cons a l => cases j <;> simp [pick]
      simp only [MainRec.what, hnv, Bool.false_eq_true, if_false]
      apply List.ext_getElem
      · simp [MainRec.arrayField]
      · intro j h1 h2
        have hj : j < r.usages.length := by simpa using h2
        have h5 : pick r.usages j = some r.usages[j] := by simp [pick, hj]
        simp only [List.getElem_map, List.getElem_range, MainRec.selector]
        simp only [MainRec.arrayField, htake, h5, selectorOf, State.namedValue, State.arrayValue, string_pick A, desig_pick A]
    rw [hat, ← hwhat]
    simp [MainRec.arrayFields, State.namedValue, State.arrayValue, wayOf_cls hd, hnum, hr, hne, MainRec.selector, string_pick A, desig_pick A]
  · show 0 ≤ st.num .reportSize
    rw [hnum]; exact A.size
  · show bitSet (if usageGiven u then PyVal.named (tx "Variable") 2 else .int 0).toInt 0 = false
    split <;> rfl

theorem plain_told (reg : Registry) {r : MainRec} {st : State} {ops : List (Int × Bool)}
    (A : AtMain r st ops) {i : Item} (hd : i.cls.isData = true) (hr : r.cls = i.cls) (hv : r.val = i.ival)
    (hc : r.isConst = false) (k n : Nat) :
    blockOf (.leaf (st.num .reportID) (.value (st.plainValue reg i k n))) = .value (r.plainFields k n) ∧
    PieceFits (.leaf (st.num .reportID) (.value (st.plainValue reg i k n))) := by
  have hu := (usage_pick reg A k).2
  have hb : bitSet i.val.toInt 0 = false := by
    rw [bitSet_zero]; rw [MainRec.isConst, hv] at hc; exact hc
  have hnum : ∀ c, st.num c = r.g c := A.g
  have hunit : (st.g .unit).toInt = r.g .unit := A.g .unit
  have hwhat : (if bitSet i.val.toInt 1 = true then [selectorOf (st.plainValue reg i k n) (usageOf (st.usage reg k))]
      else List.map (fun u => selectorOf (st.plainValue reg i k n) (some u)) (usageOf (st.usage reg k)).toList) =
      r.shown k := by
    have hvar : r.isVar = bitSet i.val.toInt 1 := by
      rw [bitSet_one, MainRec.isVar, hv]; rfl
    rw [MainRec.shown, hvar]
    by_cases h1 : bitSet i.val.toInt 1 = true
    · rw [if_pos h1, if_pos (by simp [h1])]
      simp [selectorOf, State.plainValue, MainRec.selector, hu, string_pick A, desig_pick A]
    · rw [if_neg h1]
      cases hus : r.usages with
      | nil => simp [hu, hus, pick, h1]
      | cons a l =>
        have : ∃ x, pick (a :: l) k = some x := by
          unfold pick
          cases h : (a :: l)[k]? with
          | some x => exact ⟨x, rfl⟩
          | none => exact ⟨(a :: l).getLast (by simp), by simp [List.getLast?_eq_some_getLast]⟩
        obtain ⟨x, hx⟩ := this
        rw [if_pos (by simp), hu, hus, hx]
        simp [selectorOf, State.plainValue, MainRec.selector, hus, hx, string_pick A, desig_pick A]
  have hat : attrsOf (st.plainValue reg i k n) = r.attrs := by
    simp only [attrsOf, State.plainValue, MainRec.attrs, hnum, hunit, Option.getD_some]
  refine ⟨?_, ⟨_, new_plain reg st i k n⟩, rfl, ?_, by simp [State.plainValue], hb, fun h => absurd rfl h,
    fun _ => ⟨rfl, rfl, rfl, rfl⟩⟩
  · have hid : st.num .reportID = r.g .reportID := A.g _
    have e : arrayUsages (st.plainValue reg i k n).namedArray = [] := rfl
    simp only [blockOf, e, if_true, hat]
    have hw : (if bitSet (st.plainValue reg i k n).flags.toInt 1 = true then
        [selectorOf (st.plainValue reg i k n) (usageOf (st.plainValue reg i k n).usage)]
      else (usageOf (st.plainValue reg i k n).usage).toList.map (fun u => selectorOf (st.plainValue reg i k n) (some u))) =
      r.shown k := hwhat
    rw [hw, hid]
    simp [MainRec.plainFields, State.plainValue, wayOf_cls hd, hr, hv, Item.ival, MainRec.selector, string_pick A, desig_pick A]
  · show 0 ≤ st.num .reportSize
    rw [hnum]; exact A.size

theorem new_noValue (reg : Registry) (st : State) (i : Item) (u : Option PyVal) (h : st.usages = []) :
    Value.new (st.arrayArgs reg i u) = .error .value := by
  have ha : st.array reg = .list [] := by
    simp [State.array, h, UsageRange.fromArray]
  unfold Value.new State.arrayArgs
  simp [truthOpt, NamedArray.truth, NamedArray.len, ha, constFlag, bitSet, PyVal.toInt]

/-! ## Levels -/

/-- An open collection. -/
def RoomOK (reg : Registry) (f : Room) (l : Level) : Prop :=
  (∀ k u, l.head = some (k, u) → 0 ≤ k.toInt ∧ k.toInt = f.kind ∧ u.map PyVal.toInt = f.usage ∧ usageOf u = f.usage ∧
    ∀ x, u = some x → Usage.testKind reg .NAry x = arrayUsage reg x.toInt) ∧
  f.full = !l.members.isEmpty ∧ f.inner = told l.members ∧ AllFit l.members

/-- The open collections; the last level is the root. -/
def RoomsOK (reg : Registry) : Room → List Room → Level → List Level → Prop
  | f, [], l, [] => l.head = none ∧ RoomOK reg f l
  | f, p :: o, l, q :: r => (∃ k u, l.head = some (k, u)) ∧ RoomOK reg f l ∧ RoomsOK reg p o q r
  | _, _, _, _ => False

/-- State and reading. -/
structure Built (reg : Registry) (s : Rooms) (st : State) : Prop where
  rooms : RoomsOK reg s.room s.outer st.level st.stack
  left : st.inNamed = s.left
  tree : st.root.map (fun n => (pieces 0 n).map blockOf) = s.tree
  fits : ∀ n, st.root = some n → ∀ p ∈ pieces 0 n, PieceFits p

theorem rooms_ok {reg : Registry} {f : Room} {o : List Room} {l : Level} {r : List Level} (h : RoomsOK reg f o l r) :
    RoomOK reg f l := by
  cases o <;> cases r <;> simp only [RoomsOK] at h
  · exact h.2
  · exact h.2.1

theorem rooms_put {reg : Registry} {f : Room} {o : List Room} {l : Level} {r : List Level} (h : RoomsOK reg f o l r)
    {full : Bool} {es : List Block} {ms : List XNode} (hf : ms.isEmpty = !full) (he : told ms = es) (ha : AllFit ms) :
    RoomsOK reg (f.put full es) o { l with members := l.members ++ ms } r := by
  have hk : ∀ {f : Room} {l : Level}, RoomOK reg f l → RoomOK reg (f.put full es) { l with members := l.members ++ ms } := by
    rintro f l ⟨h1, h2, h3, h4⟩
    refine ⟨h1, ?_, ?_, allFit_append h4 ha⟩
    · show (f.full || full) = !(l.members ++ ms).isEmpty
      rw [h2]
      cases hl : l.members with
      | nil => simp [hf]
      | cons _ _ => simp
    · show f.inner ++ es = told (l.members ++ ms)
      rw [told_append, h3, he]
  cases o with
  | nil => cases r with
    | nil => exact ⟨h.1, hk h.2⟩
    | cons _ _ => exact h.elim
  | cons p o => cases r with
    | nil => exact h.elim
    | cons q r => exact ⟨h.1, hk h.2.1, h.2.2⟩

/-- Data items that are no named array. -/
theorem read_fields {reg : Registry} {r : MainRec} {st : State} {s : Rooms} (A : AtMain r st.apart []) (B : Built reg s st)
    {i : Item} (hd : i.cls.isData = true) (hr : r.cls = i.cls) (hv : r.val = i.ival)
    (htest : r.isConst = false → st.namedTest reg i = .ok false) :
    match s.fields r with
    | .error e => st.data reg i = .error e.raised
    | .ok s' => ∃ st', st.data reg i = .ok st' ∧ Built reg s' st' ∧ st'.g = st.g := by
  have hnum : ∀ c, st.num c = r.g c := A.g
  have hbit0 : bitSet i.ival 0 = r.isConst := by rw [bitSet_zero, MainRec.isConst, hv]
  have hok : (∃ ns : List Node, st.data reg i = .ok (st.addLeaves ns) ∧ told (ns.map (.leaf (st.num .reportID))) = r.blocks ∧
      AllFit (ns.map (.leaf (st.num .reportID))) ∧ ns.isEmpty = !hasFields r) → ∃ st', st.data reg i = .ok st' ∧
        Built reg { s with room := s.room.put (hasFields r) r.blocks } st' ∧ st'.g = st.g := by
    rintro ⟨ns, h1, h2, h4, h3⟩
    exact ⟨_, h1, ⟨rooms_put B.rooms (by simpa using h3) h2 h4, B.left, B.tree, B.fits⟩, rfl⟩
  unfold Rooms.fields
  cases hconst : r.isConst with
  | true =>
    simp only [Bool.not_true, Bool.false_and, Bool.false_eq_true, if_false]
    apply hok
    refine ⟨[.padding (wayOf i.cls) (st.num .reportSize * st.num .reportCount)], ?_, ?_, ?_, ?_⟩
    · unfold State.data
      rw [hbit0, hconst]
      simp [padding_ok, State.addLeaves, State.addValue]
    · rw [MainRec.blocks, if_pos hconst]
      simp [told, Spec.ownPiecesL, Spec.ownPieces, Spec.pieces, blockOf, wayOf_cls hd, hnum, hr]
      rw [Int.toNat_mul A.size A.count]
    · intro p hp
      simp [Spec.ownPiecesL, Spec.ownPieces, Spec.pieces] at hp
      subst hp
      show 0 ≤ st.num .reportSize * st.num .reportCount
      rw [hnum, hnum]
      exact Int.mul_nonneg A.size A.count
    · simp [hasFields, hconst]
  | false =>
    have hdata : st.data reg i = (if i.ival = 0 ∧ (st.usages.length : Int) = st.num .logMax - st.num .logMin + 1 then
        st.addMany (List.replicate (st.num .reportCount).toNat (st.arrayArgs reg i none))
      else if bitSet i.ival 8 then
        st.addNew { st.args reg i 0 with count := st.num .reportCount }
      else
        st.addMany ((List.range (st.num .reportCount).toNat).map (st.args reg i))) := by
      unfold State.data
      rw [hbit0, hconst, htest hconst]
      simp only [Bool.false_eq_true, if_false]
    have hlen : (st.usages.length : Int) = r.usages.length := by
      have := A.usages
      rw [this]; simp [State.apart]
    have hfull : ((st.usages.length : Int) = st.num .logMax - st.num .logMin + 1) ↔ r.full = true := by
      simp [MainRec.full, hnum, hlen]
    simp only [Bool.not_false, Bool.true_and]
    by_cases ha : r.val = 0 ∧ r.full = true
    · have hdata : st.data reg i = st.addMany (List.replicate (r.g .reportCount).toNat (st.arrayArgs reg i none)) := by
        rw [hdata, if_pos ⟨by rw [← hv]; exact ha.1, hfull.2 ha.2⟩, hnum]
      have hz : (r.val == 0 && r.full && decide (0 < r.g .reportCount) && r.usages.isEmpty) =
          (decide (0 < r.g .reportCount) && r.usages.isEmpty) := by simp [ha.1, ha.2]
      rw [hz]
      by_cases hcn : 0 < r.g .reportCount ∧ r.usages = []
      · rw [if_pos (by simp [hcn.1, hcn.2])]
        simp only
        have hus : st.usages = [] := by
          have := hlen
          rw [hcn.2] at this
          exact List.eq_nil_of_length_eq_zero (by simpa using this)
        obtain ⟨m, hm⟩ : ∃ m, (r.g .reportCount).toNat = m + 1 := ⟨(r.g .reportCount).toNat - 1, by omega⟩
        rw [hdata, hm, List.replicate_succ, State.addMany, State.addNew, new_noValue reg st i none hus]
        rfl
      · rw [if_neg (by simpa using hcn)]
        simp only
        apply hok
        have htm : told ((List.replicate (r.g .reportCount).toNat (Node.value (st.namedValue reg i r.usages.length none))).map
              (.leaf (st.num .reportID))) = r.blocks ∧
            AllFit ((List.replicate (r.g .reportCount).toNat (Node.value (st.namedValue reg i r.usages.length none))).map
              (.leaf (st.num .reportID))) := by
          rw [MainRec.blocks, if_neg (by simp [hconst]), if_pos ha]
          have := told_map (st.num .reportID) (List.replicate (r.g .reportCount).toNat ())
            (fun _ => st.namedValue reg i r.usages.length none) (fun _ => .value (r.arrayFields none)) (by
              intro a hmem
              obtain ⟨hm, -⟩ := List.mem_replicate.1 hmem
              have hne : r.usages ≠ [] := fun h => hcn ⟨by omega, h⟩
              exact array_told reg A hd hr hne ha.2 none)
          simpa using this
        refine ⟨List.replicate (r.g .reportCount).toNat (.value (st.namedValue reg i r.usages.length none)), ?_, htm.1, htm.2, ?_⟩
        · rw [hdata, addMany_ok st (fun _ => st.namedValue reg i r.usages.length none)]
          · simp [State.addLeaves]
          · intro a hmem
            obtain ⟨hm, rfl⟩ := List.mem_replicate.1 hmem
            have hne : r.usages ≠ [] := fun h => hcn ⟨by omega, h⟩
            exact new_named reg A i hne none
        · have hb : r.val / 256 % 2 ≠ 1 := by rw [ha.1]; decide
          simp only [hasFields, hconst, Bool.false_or]
          have := A.count
          by_cases h0 : r.g .reportCount > 0
          · simp [h0]
          · have : (r.g .reportCount).toNat = 0 := by omega
            simp [h0, this, hb]
    · rw [if_neg (by simp; intro h1 h2; exact absurd ⟨h1, h2⟩ ha)]
      simp only
      apply hok
      rw [if_neg (by rintro ⟨h1, h2⟩; exact ha ⟨by rw [hv]; exact h1, hfull.1 h2⟩), bitSet_eight, ← hv] at hdata
      rw [MainRec.blocks, if_neg (by simp [hconst]), if_neg ha]
      have hpl : ∀ k n : Nat, blockOf (.leaf (st.num .reportID) (.value (st.plainValue reg i k n))) = .value (r.plainFields k n) ∧
          PieceFits (.leaf (st.num .reportID) (.value (st.plainValue reg i k n))) :=
        fun k n => plain_told reg A hd hr hv hconst k n
      by_cases hb : r.val / 256 % 2 = 1
      · rw [if_pos (by simp [hb])] at hdata
        rw [if_pos hb]
        have hcount : st.num .reportCount = ((r.g .reportCount).toNat : Int) := by
          rw [hnum]; have := A.count; omega
        have htm := told_map (st.num .reportID) [()] (fun _ => st.plainValue reg i 0 ((r.g .reportCount).toNat : Int))
          (fun _ => .value (r.plainFields 0 (r.g .reportCount).toNat)) (fun _ _ => hpl 0 _)
        refine ⟨[.value (st.plainValue reg i 0 ((r.g .reportCount).toNat : Int))], ?_, htm.1, htm.2, ?_⟩
        · rw [hdata, State.addNew, new_plain, hcount]
          simp [State.addLeaves, State.addValue]
        · simp [hasFields, hb]
      · rw [if_neg (by simp [hb])] at hdata
        rw [if_neg hb]
        have htm := told_map (st.num .reportID) (List.range (r.g .reportCount).toNat) (fun k => st.plainValue reg i k 1)
          (fun k => .value (r.plainFields k 1)) (fun k _ => hpl k 1)
        refine ⟨(List.range (r.g .reportCount).toNat).map (fun k => .value (st.plainValue reg i k 1)), ?_,
          by rw [List.map_map]; exact htm.1, by rw [List.map_map]; exact htm.2, ?_⟩
        · have hargs : ∀ k, Value.new (st.args reg i k) = .ok (st.plainValue reg i k 1) := fun k =>
            new_plain reg st i k 1
          have : ∀ ks : List Nat, ∀ s : State,
              s.addMany (ks.map (st.args reg i)) =
                .ok (s.addLeaves (ks.map (fun k => .value (st.plainValue reg i k 1)))) := by
            intro ks
            induction ks with
            | nil => intro s; simp [State.addMany, State.addLeaves]
            | cons k ks ih =>
              intro s
              rw [List.map_cons, State.addMany, State.addNew, hargs]
              simp only
              rw [ih]
              simp [State.addLeaves, State.addValue, State.num]
          rw [hdata, hnum]
          exact this _ st
        · have hb' : (r.val / 256 % 2 == 1) = false := by simp [hb]
          simp only [hasFields, hconst, Bool.false_or, hb', Bool.or_false]
          have := A.count
          by_cases h0 : r.g .reportCount > 0
          · have : (r.g .reportCount).toNat ≠ 0 := by omega
            simp [h0]
          · have : (r.g .reportCount).toNat = 0 := by omega
            simp [h0, this]

/-- Data items. -/
theorem rooms_data {reg : Registry} {r : MainRec} {st : State} {s : Rooms} (A : AtMain r st.apart []) (B : Built reg s st)
    {i : Item} (hd : i.cls.isData = true) (hr : r.cls = i.cls) (hv : r.val = i.ival) :
    match s.next (arrayUsage reg) r with
    | .error e => st.data reg i = .error e.raised
    | .ok s' => ∃ st', st.data reg i = .ok st' ∧ Built reg s' st' ∧ st'.g = st.g := by
  have hnum : ∀ c, st.num c = r.g c := A.g
  have hbit0 : bitSet i.ival 0 = r.isConst := by rw [bitSet_zero, MainRec.isConst, hv]
  have hlen : (st.usages.length : Int) = r.usages.length := by
    have := A.usages
    rw [this]; simp [State.apart]
  have hnext : s.next (arrayUsage reg) r = if r.single then
      match s.outer with
      | [] => .error .outside
      | p :: o =>
        match s.room.array (arrayUsage reg) r.val with
        | .error e => .error e
        | .ok true => s.named p o r
        | .ok false => s.fields r
    else s.fields r := by
    unfold Rooms.next
    rw [← hr] at hd
    cases hc : r.cls <;> rw [hc] at hd <;> simp [Cls.isData] at hd <;> rfl
  rw [hnext]
  have htest : st.namedTest reg i = if r.g .reportCount = 1 ∧ r.full = true then inArrayCollection reg st.level i.ival else .ok false := by
    unfold State.namedTest
    simp only [hnum, hlen, MainRec.full, beq_iff_eq]
  by_cases hs : r.single = true
  · rw [if_pos hs]
    simp only [MainRec.single, Bool.and_eq_true, Bool.not_eq_true', beq_iff_eq] at hs
    obtain ⟨⟨hconst, h1⟩, hfull⟩ := hs
    rw [if_pos ⟨h1, hfull⟩] at htest
    have hdata : st.data reg i = (match inArrayCollection reg st.level i.ival with
        | .error e => .error e
        | .ok true =>
          match ({ st with inNamed := true } : State).leave false with
          | .error e => .error e
          | .ok st' =>
            if st.level.members.isEmpty then
              st'.addNew (st.arrayArgs reg i (st.level.head.bind (·.2)))
            else .error .assertion
        | .ok false => st.data reg i) := by
      cases hin : inArrayCollection reg st.level i.ival with
      | error e =>
        unfold State.data
        rw [hbit0, hconst, htest, hin]
        simp
      | ok b =>
        cases b with
        | true =>
          unfold State.data
          rw [hbit0, hconst, htest, hin]
          simp only [Bool.false_eq_true, if_false]
          cases ({ st with inNamed := true } : State).leave false <;> rfl
        | false => rfl
    obtain ⟨Br, Bl, Bt, Bf⟩ := B
    cases ho : s.outer with
    | nil =>
      rw [ho] at Br
      cases hst : st.stack with
      | cons _ _ => rw [hst] at Br; exact Br.elim
      | nil =>
        rw [hst] at Br
        simp only
        rw [hdata]
        simp [inArrayCollection, Br.1, Refusal.raised]
    | cons p o =>
      rw [ho] at Br
      cases hst : st.stack with
      | nil => rw [hst] at Br; exact Br.elim
      | cons q rest =>
        rw [hst] at Br
        obtain ⟨⟨k, u, hhd⟩, ⟨hR1, hR2, hR3⟩, hR⟩ := Br
        obtain ⟨-, hk, hu, hu', hkn⟩ := hR1 k u hhd
        have harr : inArrayCollection reg st.level i.ival =
            match s.room.array (arrayUsage reg) r.val with
            | .error e => .error e.raised
            | .ok b => .ok b := by
          unfold inArrayCollection Room.array
          rw [hhd, ← hv]
          simp only
          rw [hk]
          by_cases h4 : r.val = 2 ∧ s.room.kind = 4
          · rw [if_pos h4, if_pos ⟨h4.2, h4.1⟩]
          · rw [if_neg h4, if_neg (show ¬ (s.room.kind = 4 ∧ r.val = 2) from fun h => h4 ⟨h.2, h.1⟩)]
            by_cases h2 : s.room.kind = 2
            · rw [if_pos h2, if_pos h2, ← hu]
              cases u with
              | none => rfl
              | some x => simp only [Option.map_some]; rw [hkn x rfl]
            · rw [if_neg h2, if_neg h2]
        simp only
        rw [harr] at hdata
        cases hb : s.room.array (arrayUsage reg) r.val with
        | error e => rw [hb] at hdata; exact hdata
        | ok b =>
          rw [hb] at hdata
          cases b with
          | false =>
            simp only
            refine read_fields A ⟨?_, Bl, Bt, Bf⟩ hd hr hv (fun _ => by rw [htest, harr, hb])
            rw [ho, hst]
            exact ⟨⟨k, u, hhd⟩, ⟨hR1, hR2, hR3⟩, hR⟩
          | true =>
            simp only at hdata ⊢
            have hlv : ({ st with inNamed := true } : State).leave false =
                .ok { st with inNamed := true, stack := rest, level := q } := by
              simp [State.leave, hst, hhd]
            rw [hlv] at hdata
            simp only at hdata
            unfold Rooms.named
            rw [hR2]
            by_cases hm : st.level.members.isEmpty = true
            · rw [if_neg (by simp [hm])]
              rw [if_pos hm] at hdata
              by_cases hus : r.usages = []
              · rw [if_pos (by simp [hus])]
                simp only
                have hus' : st.usages = [] := by
                  rw [hus] at hlen
                  exact List.eq_nil_of_length_eq_zero (by simpa using hlen)
                rw [hdata, State.addNew, new_noValue reg st i _ hus']
                rfl
              · rw [if_neg (by simpa using hus)]
                simp only
                have hnew : Value.new (st.arrayArgs reg i (st.level.head.bind (·.2))) =
                    .ok (st.namedValue reg i r.usages.length u) := by
                  rw [hhd]
                  exact new_named reg A i hus u
                refine ⟨({ st with inNamed := true, stack := rest, level := q } : State).addValue
                  (.value (st.namedValue reg i r.usages.length u)), by rw [hdata, State.addNew, hnew], ⟨?_, rfl, Bt, Bf⟩, rfl⟩
                have hev := told_map (st.num .reportID) [()] (fun _ => st.namedValue reg i r.usages.length u)
                  (fun _ => .value (r.arrayFields s.room.usage)) (fun _ _ => by
                    rw [← hu']; exact array_told reg A hd hr hus hfull u)
                exact rooms_put hR (full := true) rfl hev.1 hev.2
            · rw [if_pos (by simpa using hm)]
              rw [if_neg hm] at hdata
              exact hdata
  · rw [if_neg hs]
    refine read_fields A B hd hr hv (fun hc => ?_)
    rw [htest, if_neg]
    rintro ⟨h1, h2⟩
    simp [MainRec.single, hc, h1, h2] at hs

/-- Reading a main item. -/
theorem read_main {reg : Registry} {s : Reader} {w : Rooms} {st : State} (F : Follows reg s st) (B : Built reg w st)
    {i : Item} (hk : i.cls.kind = .main) (hm : i.Made) :
    match w.next (arrayUsage reg) (s.main i.key) with
    | .error e => step reg st i = .error e.raised
    | .ok w' => ∃ st', step reg st i = .ok st' ∧ Built reg w' st' ∧ Follows reg (s.next i.key) st' := by
  have A := follows_main F i.key
  have hst : step reg st i = (match (match i.cls with
      | .collection => .ok (st.expandAll.enter i.val (st.expandAll.usage reg 0))
      | .endCollection => st.expandAll.close
      | _ => st.expandAll.data reg i : Except PyErr State) with
      | .error e => .error e
      | .ok st' => .ok st'.clear) := by
    unfold step; rw [hk]; cases i.cls <;> rfl
  have B' : Built reg w st.expandAll := ⟨B.rooms, B.left, B.tree, B.fits⟩
  have fin : ∀ st' w', Built reg w' st' → st'.g = st.g →
      Built reg w' st'.clear ∧ Follows reg (s.next i.key) st'.clear :=
    fun st' w' h1 h2 => ⟨⟨h1.rooms, h1.left, h1.tree, h1.fits⟩, follows_clear F hk h2⟩
  have hclosed : ∀ (w' : Rooms) (st' : State), Built reg w' st' →
      Built reg w'.closed (if st'.stack.isEmpty then { st' with root := some (ended st'.level) } else st') := by
    intro w' st' h
    obtain ⟨h1, h2, h3, h4⟩ := h
    unfold Rooms.closed
    have hR := rooms_ok h1
    cases ho : w'.outer with
    | nil =>
      rw [ho] at h1
      cases hs : st'.stack with
      | cons _ _ => rw [hs] at h1; exact h1.elim
      | nil =>
        rw [hs] at h1
        refine ⟨?_, h2, ?_, ?_⟩
        · simp only [List.isEmpty_nil, if_true]
          first | exact h1 | (rw [ho, hs]; exact h1)
        · simp only [List.isEmpty_nil, if_true, Option.map_some]
          rw [told_ended, hR.2.2.1]
        · intro n hn
          simp only [List.isEmpty_nil, if_true, Option.some.injEq] at hn
          subst hn
          exact fits_ended hR.2.2.2
    | cons p o =>
      rw [ho] at h1
      cases hs : st'.stack with
      | nil => rw [hs] at h1; exact h1.elim
      | cons q r =>
        rw [hs] at h1
        refine ⟨?_, h2, h3, h4⟩
        simp only [List.isEmpty_cons, Bool.false_eq_true, if_false]
        rw [ho, hs]; exact h1
  by_cases h1 : i.cls = .collection
  · rw [h1] at hst
    have hn : w.next (arrayUsage reg) (s.main i.key) = .ok
        { w with room := { kind := i.ival, usage := (s.main i.key).usages.head? }, outer := w.room :: w.outer } := by
      unfold Rooms.next
      rw [show (s.main i.key).cls = .collection from h1]
      rfl
    rw [hn]
    simp only
    simp only at hst
    refine ⟨_, hst, fin _ _ ⟨⟨⟨i.val, _, rfl⟩, ⟨?_, rfl, rfl, by intro p hp; simp [State.enter, Spec.ownPiecesL] at hp⟩, B'.rooms⟩, B'.left, B'.tree, B'.fits⟩ rfl⟩
    intro k u hh
    simp only [State.enter, Option.some.injEq, Prod.mk.injEq] at hh
    obtain ⟨rfl, rfl⟩ := hh
    have hp : ∀ l : List Int, pick l 0 = l.head? := by
      intro l; cases l <;> simp [pick]
    have hu : (st.expandAll.usage reg 0).map PyVal.toInt = pick (s.main i.key).usages 0 ∧
        usageOf (st.expandAll.usage reg 0) = pick (s.main i.key).usages 0 := usage_pick reg A 0
    refine ⟨made_unsigned hm (by rw [h1]; rfl), rfl, ?_, ?_, fun x hx => usage_known (follows_known F) hx⟩
    · rw [hu.1, hp]
    · rw [hu.2, hp]
  · by_cases h2 : i.cls = .endCollection
    · rw [h2] at hst
      have hn : w.next (arrayUsage reg) (s.main i.key) = (if w.left then .ok ({ w with left := false } : Rooms).closed
          else
            match w.outer with
            | [] => .error .surplus
            | p :: o => .ok ({ w with room := w.room.close p, outer := o } : Rooms).closed) := by
        unfold Rooms.next
        rw [show (s.main i.key).cls = .endCollection from h2]
        cases w.outer <;> rfl
      rw [hn]
      simp only at hst
      obtain ⟨Br, Bl, Bt, Bf⟩ := B'
      cases hl : w.left with
      | true =>
        rw [hl] at Bl
        rw [if_pos rfl]
        simp only
        have hc : st.expandAll.close = .ok (if st.expandAll.stack.isEmpty then
            { st.expandAll with inNamed := false, root := some (ended st.expandAll.level) } else { st.expandAll with inNamed := false }) := by
          unfold State.close
          rw [if_pos Bl]
        rw [hc] at hst
        simp only at hst
        refine ⟨_, hst, ?_⟩
        have := hclosed { w with left := false } { st.expandAll with inNamed := false } ⟨Br, rfl, Bt, Bf⟩
        refine fin _ _ this ?_
        split <;> rfl
      | false =>
        rw [hl] at Bl
        rw [if_neg (by simp)]
        cases ho : w.outer with
        | nil =>
          rw [ho] at Br
          cases hs : st.expandAll.stack with
          | cons _ _ => rw [hs] at Br; exact Br.elim
          | nil =>
            simp only
            have hc : st.expandAll.close = .error .index := by
              unfold State.close
              rw [if_neg (by rw [Bl]; simp)]
              simp [State.leave, hs]
            rw [hst, hc]
            rfl
        | cons p o =>
          rw [ho] at Br
          cases hs : st.expandAll.stack with
          | nil => rw [hs] at Br; exact Br.elim
          | cons q r =>
            rw [hs] at Br
            obtain ⟨⟨k, u, hhd⟩, ⟨hR1, hR2, hR3, hR4⟩, hR⟩ := Br
            obtain ⟨hk0, hkk, hu, -, -⟩ := hR1 k u hhd
            simp only
            have hlv : ∃ st', st.expandAll.leave true = .ok st' ∧
                Built reg { w with room := w.room.close p, outer := o, left := false } st' ∧ st'.g = st.g := by
              unfold State.leave
              rw [hs, hhd]
              simp only
              split
              · rename_i hcond
                refine ⟨_, rfl, ⟨?_, Bl, Bt, Bf⟩, rfl⟩
                have hfull : w.room.full = true := by rw [hR2]; simpa using hcond
                simp only [Room.close, hfull, if_true]
                refine rooms_put hR rfl ?_ ?_
                · rw [told_coll, hkk, hu, hR3]
                · intro p hp
                  simp only [Spec.ownPiecesL, Spec.ownPieces, List.append_nil, List.cons_append, List.mem_cons, List.mem_append,
                    List.not_mem_nil, or_false] at hp
                  rcases hp with rfl | hp | rfl
                  · exact hk0
                  · exact hR4 p hp
                  · trivial
              · rename_i hcond
                refine ⟨_, rfl, ⟨?_, Bl, Bt, Bf⟩, rfl⟩
                have hfull : w.room.full = false := by
                  rw [hR2]
                  simpa using hcond
                simp only [Room.close, hfull, Bool.false_eq_true, if_false]
                exact hR
            obtain ⟨st', e1, e2, e3⟩ := hlv
            have hc : st.expandAll.close = .ok (if st'.stack.isEmpty then { st' with root := some (ended st'.level) } else st') := by
              unfold State.close
              rw [if_neg (by rw [Bl]; simp), e1]
            rw [hc] at hst
            simp only at hst
            refine ⟨_, hst, fin _ _ (hclosed _ _ e2) ?_⟩
            split <;> exact e3
    · have hd : i.cls.isData = true := by
        cases hcc : i.cls <;> rw [hcc] at hk h1 h2 <;> simp [Cls.kind] at hk h1 h2 <;> rfl
      have hst' : step reg st i = (match st.expandAll.data reg i with
          | .error e => .error e
          | .ok st' => .ok st'.clear) := by
        rw [hst]
        cases hcc : i.cls <;> rw [hcc] at h1 h2 <;> first | rfl | exact absurd rfl h1 | exact absurd rfl h2
      have := rooms_data (r := s.main i.key) A B' hd rfl rfl
      cases hn : w.next (arrayUsage reg) (s.main i.key) with
      | error e =>
        rw [hn] at this
        simp only at this ⊢
        rw [hst', this]
      | ok w' =>
        rw [hn] at this
        simp only at this ⊢
        obtain ⟨st', e1, e2, e3⟩ := this
        rw [e1] at hst'
        exact ⟨_, hst', fin _ _ e2 e3⟩

/-- Reading a stream. -/
theorem read_stream {reg : Registry} (xs : List Item) : ∀ {s : Reader} {w : Rooms} {st : State}, Follows reg s st → Built reg w st →
    (∀ i ∈ xs, i.Made) → KindsOf reg xs →
    match w.read (arrayUsage reg) (mainsOf s (keys xs)) with
    | .error e => runFrom reg st xs = .error e.raised
    | .ok w' => ∃ st', runFrom reg st xs = .ok st' ∧ Built reg w' st' := by
  induction xs with
  | nil => intro s w st _ B _ _; exact ⟨st, rfl, B⟩
  | cons i xs ih =>
    intro s w st F B hm hu
    have hm' : ∀ j ∈ xs, j.Made := fun j hj => hm j (by simp [hj])
    have hu' : KindsOf reg xs := fun j hj => hu j (by simp [hj])
    rw [keys_cons, mainsOf, runFrom]
    by_cases hk : i.cls.kind = .main
    · rw [if_pos (show i.key.1.kind = .main from hk), List.singleton_append, Rooms.read]
      have := read_main F B hk (hm i (by simp))
      cases hn : w.next (arrayUsage reg) (s.main i.key) with
      | error e =>
        rw [hn] at this
        simp only at this ⊢
        rw [this]
      | ok w' =>
        rw [hn] at this
        simp only at this ⊢
        obtain ⟨st', e1, e2, e3⟩ := this
        rw [e1]
        exact ih e3 e2 hm' hu'
    · rw [if_neg (show ¬ i.key.1.kind = .main from hk), List.nil_append]
      obtain ⟨st', e1, e2, e3, e4, e5, e6⟩ := follows_other F hk (hm i (by simp)) (hu i (by simp))
      rw [e1]
      exact ih e2 ⟨by rw [e3, e4]; exact B.rooms, by rw [e5]; exact B.left, by rw [e6]; exact B.tree, by rw [e6]; exact B.fits⟩ hm' hu'

/-- What the decompiler makes of a stream. -/
theorem extract_blocks {reg : Registry} (xs : List Item) (hm : ∀ i ∈ xs, i.Made) (hu : KindsOf reg xs) :
    match blocks (arrayUsage reg) (keys xs) with
    | .error e => extract reg xs = .error e.raised
    | .ok bs => ∃ t, extract reg xs = .ok t ∧ (pieces 0 t).map blockOf = bs ∧ ∀ p ∈ pieces 0 t, PieceFits p := by
  have F0 : Follows reg {} {} :=
    ⟨fun _ => rfl, ⟨rfl, rfl, rfl⟩, ⟨rfl, rfl, rfl⟩, ⟨rfl, rfl, rfl⟩, by simp, by simp, by simp, by simp, by simp,
      by intro u hu; simp at hu⟩
  have B0 : Built reg {} {} := ⟨⟨rfl, by simp, rfl, rfl, by intro p hp; simp [Spec.ownPiecesL] at hp⟩, rfl, rfl, by simp⟩
  have := read_stream xs F0 B0 hm hu
  unfold blocks extract
  cases hr : ({} : Rooms).read (arrayUsage reg) (mainsOf {} (keys xs)) with
  | error e =>
    rw [hr] at this
    simp only at this ⊢
    rw [this]
  | ok w =>
    rw [hr] at this
    simp only at this ⊢
    obtain ⟨st, e1, e2⟩ := this
    rw [e1]
    simp only
    have ht := e2.tree
    cases hroot : st.root with
    | none => rw [hroot] at ht; rw [← ht]; rfl
    | some n => rw [hroot] at ht; rw [← ht]; exact ⟨n, rfl, rfl, e2.fits n hroot⟩

theorem bare_blocks {t : Node} (h : ∀ p ∈ pieces 0 t, PieceFits p) :
    bareMeaning t = ((pieces 0 t).map blockOf).flatMap Block.events := by
  unfold bareMeaning
  generalize pieces 0 t = ps at h
  induction ps with
  | nil => rfl
  | cons p ps ih =>
    rw [List.flatMap_cons, List.map_cons, List.flatMap_cons, ih (fun q hq => h q (by simp [hq])), block_events (h p (by simp))]

/-- What the decompiled tree describes. -/
theorem extract_rebuilt {reg : Registry} (xs : List Item) (hm : ∀ i ∈ xs, i.Made) (hu : KindsOf reg xs) :
    match rebuilt (arrayUsage reg) (keys xs) with
    | .error e => extract reg xs = .error e.raised
    | .ok es => ∃ t, extract reg xs = .ok t ∧ bareMeaning t = es := by
  have h := extract_blocks xs hm hu
  unfold rebuilt
  cases hb : blocks (arrayUsage reg) (keys xs) with
  | error e => rw [hb] at h; exact h
  | ok bs =>
    rw [hb] at h
    obtain ⟨t, h1, h2, h3⟩ := h
    exact ⟨t, h1, by rw [bare_blocks h3, h2]⟩

end Extractor
end Hrdc
