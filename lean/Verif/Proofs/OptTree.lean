import Verif.Proofs.TreeKeys
import Verif.Props.Passes5
/-!
# Which trees compile to streams the optimizer handles
-/
namespace Hrdc
open Spec
namespace Streamer

/-! ## Conditions on trees -/

/-- Two consecutive values that would be compiled to the same data item with the same attributes, the
first being a single field. -/
def sameField (v w : Value) : Prop :=
  w.way = v.way ∧ w.flags.toInt = v.flags.toInt ∧ w.size = v.size ∧
    w.logicalMin.getD 0 = v.logicalMin.getD 0 ∧ w.logicalMax.getD 0 = v.logicalMax.getD 0 ∧
    physOf w = physOf v ∧ w.unit.toInt = v.unit.toInt ∧ w.unitExponent = v.unitExponent ∧ v.count = 1

instance (v w : Value) : Decidable (sameField v w) := by unfold sameField; infer_instance

/-- The index as a list: empty if it is 0. -/
def indices (i : Int) : List Int := if i = 0 then [] else [i]

/-- Such values can be made one item: Variable values that both have or both lack a usage, a string,
a designator, or Array values without usages. -/
def fitTogether (v w : Value) : Prop :=
  (bitSet v.flags.toInt 1 = true ∧ Joinable (fieldUsages v) (fieldUsages w) ∧
    (v.string = 0 ↔ w.string = 0) ∧ (v.designator = 0 ↔ w.designator = 0)) ∨
  (bitSet v.flags.toInt 1 = false ∧ fieldUsages v = [] ∧ fieldUsages w = [])

instance (v w : Value) : Decidable (fitTogether v w) := by unfold fitTogether; infer_instance

/-- `v` fits together with the preceding value `prev` if it looks like it. -/
def prevFits (prev : Option (Value × Int)) (cur : Int) (v : Value) : Bool :=
  match prev with
  | none => true
  | some (p, i) => decide (i = cur → sameField p v → fitTogether p v)

/-- Consecutive values of the same report that look alike fit together.  `prev` is the preceding
value and its report, `cur` the current report. -/
def alikeFit (prev : Option (Value × Int)) (cur : Int) : List Tok → Bool
  | [] => true
  | .report i :: r => alikeFit prev (if i = 0 then cur else i) r
  | .endReport :: r => alikeFit prev cur r
  | .enter _ _ :: r => alikeFit none cur r
  | .leave :: r => alikeFit none cur r
  | .leaf (.align _ _) :: r => alikeFit prev cur r
  | .leaf (.padding _ s) :: r => alikeFit (if s = 0 then prev else none) cur r
  | .leaf (.value v) :: r =>
    if constFlag v.flags = true ∨ wrapped v = true then alikeFit none cur r
    else
      prevFits prev cur v && alikeFit (some (v, cur)) cur r

/-- No value goes back to physical bounds equal to the logical ones right after one with other
physical bounds, except that bounds left at (0, 0) do when the logical bounds are not also (0, 0).
`e`: the preceding value has physical bounds of its own. -/
def physBack (e : Bool) : List Tok → Bool
  | [] => true
  | .leaf (.value v) :: r =>
    if constFlag v.flags then physBack e r
    else if wrapped v then !e && physBack false r
    else if physOf v = (0, 0) then
      !(e && decide (v.logicalMin.getD 0 = 0 ∧ v.logicalMax.getD 0 = 0)) && physBack false r
    else if physOf v = (v.logicalMin.getD 0, v.logicalMax.getD 0) then !e && physBack false r
    else physBack true r
  | .leaf (.align _ _) :: r => physBack e r
  | .leaf (.padding _ _) :: r => physBack e r
  | .report _ :: r => physBack e r
  | .endReport :: r => physBack e r
  | .enter _ _ :: r => physBack e r
  | .leave :: r => physBack e r

/-- No value or padding follows the last collection. -/
def endsClosed (b : Bool) : List Tok → Bool
  | [] => b
  | .leaf (.value v) :: r => endsClosed (wrapped v) r
  | .leaf (.align _ _) :: r => endsClosed false r
  | .leaf (.padding _ s) :: r => endsClosed (if s = 0 then b else false) r
  | .report _ :: r => endsClosed b r
  | .endReport :: r => endsClosed b r
  | .enter _ _ :: r => endsClosed true r
  | .leave :: r => endsClosed true r

/-- Usages of a token. -/
def tokUsages : Tok → List Int
  | .enter _ u => [(u.map PyVal.toInt).getD 0]
  | .leaf (.value v) =>
    if constFlag v.flags then [] else (usageOf v.usage).toList ++ arrayUsages v.namedArray
  | _ => []

/-! ## Streams of keys -/

/-- `physSafe` on keys. -/
def physSafeK (m : PhysMode) (s : Bounds) : List SItem → Bool
  | [] => true
  | i :: r =>
    if i.1.kind = .main then
      match physNext m s with
      | none => false
      | some m' => physSafeK m' (fun _ => none) r
    else if i.1.kind = .global ∧ Optimizer.rangeTag i.1 then
      physSafeK m (fun c => if c = i.1 then some i.2 else s c) r
    else physSafeK m s r

theorem physSafe_keys (m : PhysMode) (s : Bounds) (xs : List Item) :
    physSafe m s xs = physSafeK m s (keys xs) := by
  induction xs generalizing m s with
  | nil => rfl
  | cons x xs ih =>
    rw [keys_cons, physSafe, physSafeK]
    simp only [key_fst, key_snd, ih]
    rfl

/-- `trailing` on keys. -/
def trailingK (b : Bool) : List SItem → Bool
  | [] => b
  | i :: r => trailingK (if i.1.kind = .main then !i.1.isData else b) r

theorem trailing_keys (b : Bool) (xs : List Item) : trailing b xs = trailingK b (keys xs) := by
  induction xs generalizing b with
  | nil => rfl
  | cons x xs ih => rw [keys_cons, trailing, trailingK]; simp only [key_fst, ih]; rfl

theorem trailingK_append (b : Bool) (xs ys : List SItem) :
    trailingK b (xs ++ ys) = trailingK (trailingK b xs) ys := by
  induction xs generalizing b with
  | nil => rfl
  | cons x xs ih => rw [List.cons_append, trailingK, trailingK, ih]

theorem trailingK_quiet (b : Bool) (xs : List SItem) (h : ∀ i ∈ xs, i.1.kind ≠ .main) :
    trailingK b xs = b := by
  induction xs generalizing b with
  | nil => rfl
  | cons x xs ih =>
    rw [trailingK, if_neg (h x (by simp)), ih _ (fun i hi => h i (by simp [hi]))]

theorem physK_skip (m : PhysMode) (s : Bounds) (xs ys : List SItem)
    (h : ∀ i ∈ xs, i.1.kind ≠ .main ∧ Optimizer.rangeTag i.1 = false) :
    physSafeK m s (xs ++ ys) = physSafeK m s ys := by
  induction xs with
  | nil => rfl
  | cons x xs ih =>
    obtain ⟨h1, h2⟩ := h x (by simp)
    rw [List.cons_append, physSafeK, if_neg h1, if_neg (by simp [h2]), ih (fun i hi => h i (by simp [hi]))]

/-! ## Membership -/

theorem mem_unless {α : Type} {p : Prop} [Decidable p] {x k : α} (h : k ∈ (if p then [] else [x])) :
    k = x ∧ ¬ p := by
  by_cases hp : p
  · simp [hp] at h
  · rw [if_neg hp] at h; simp at h; exact ⟨h, hp⟩

theorem mem_when {α : Type} {p : Prop} [Decidable p] {x k : α} (h : k ∈ (if p then [x] else [])) :
    k = x ∧ p := by
  by_cases hp : p
  · rw [if_pos hp] at h; simp at h; exact ⟨h, hp⟩
  · simp [hp] at h

/-- Items a compiled tree is made of. -/
def Plain (us : List Int) (k : SItem) : Prop :=
  match k.1 with
  | .usage => k.2 ∈ us
  | .desigIndex => k.2 ≠ 0
  | .push | .pop | .usageMin | .usageMax | .desigMin | .desigMax | .strMin | .strMax | .delimiter
  | .usagePage => False
  | _ => True

theorem way_plain (us : List Int) (w : Way) (x : Int) : Plain us (w.cls, x) := by cases w <;> trivial

theorem valKeys_plain {v : Value} {us : List Int}
    (hu : constFlag v.flags = false → ∀ u ∈ (usageOf v.usage).toList ++ arrayUsages v.namedArray, u ∈ us) :
    ∀ k ∈ valKeys v, Plain us k := by
  intro k hk
  unfold valKeys at hk
  split at hk
  · simp only [List.mem_cons, List.not_mem_nil, or_false] at hk
    rcases hk with rfl | rfl | rfl
    · trivial
    · trivial
    · exact way_plain _ _ _
  · next hc =>
    have hu := hu (by simpa using hc)
    simp only [fieldKeys, List.mem_append, List.mem_map, List.mem_cons, List.not_mem_nil, or_false] at hk
    rcases hk with (((⟨u, h, rfl⟩ | rfl | rfl) | h) | ((((⟨u, h, rfl⟩ | (rfl | rfl | rfl | rfl)) | h) | h) | (rfl | rfl | rfl))) | h
    · exact hu u (by simp [h])
    · trivial
    · trivial
    · rw [(mem_when h).1]; trivial
    · exact hu u (by simp [h])
    · trivial
    · trivial
    · trivial
    · trivial
    · obtain ⟨rfl, h'⟩ := mem_unless h; exact h'
    · obtain ⟨rfl, h⟩ := mem_unless h; trivial
    · trivial
    · trivial
    · exact way_plain _ _ _
    · rw [(mem_when h).1]; trivial

theorem padKeys_plain (us : List Int) (w : Way) (p : Int) : ∀ k ∈ padKeys w p, Plain us k := by
  intro k hk
  unfold padKeys at hk
  split at hk
  · simp at hk
  · simp only [List.mem_cons, List.not_mem_nil, or_false] at hk
    rcases hk with rfl | rfl | rfl
    · trivial
    · trivial
    · exact way_plain _ _ _

theorem treeKeys_plain (ts : List Tok) (c : Count) (last : Int) (us : List Int)
    (hu : ∀ t ∈ ts, ∀ u ∈ tokUsages t, u ∈ us) : ∀ k ∈ treeKeys c last ts, Plain us k := by
  induction ts generalizing c last with
  | nil => simp [treeKeys]
  | cons t ts ih =>
    have ih := fun c last => ih c last (fun t ht => hu t (by simp [ht]))
    have hu := hu t (by simp)
    intro k hk
    cases t with
    | report i =>
      rw [treeKeys, List.mem_append] at hk
      rcases hk with hk | hk
      · split at hk
        · simp at hk
        · simp at hk; subst hk; trivial
      · exact ih _ _ k hk
    | endReport => exact ih _ _ k hk
    | enter kk u =>
      rw [treeKeys, List.mem_cons, List.mem_cons] at hk
      rcases hk with rfl | rfl | hk
      · exact hu _ (by simp [tokUsages])
      · trivial
      · exact ih _ _ k hk
    | leave =>
      rw [treeKeys, List.mem_cons] at hk
      rcases hk with rfl | hk
      · trivial
      · exact ih _ _ k hk
    | leaf l =>
      rw [treeKeys, List.mem_append] at hk
      rcases hk with hk | hk
      · unfold leafKeys at hk
        rw [List.mem_append] at hk
        rcases hk with hk | hk
        · exact padKeys_plain _ _ _ k hk
        · cases l with
          | value v =>
            refine valKeys_plain (fun hc u h => hu u ?_) k hk
            simp only [tokUsages, hc, Bool.false_eq_true, if_false]; exact h
          | align => simp [ownKeys] at hk
          | padding => simp [ownKeys] at hk
      · exact ih _ _ k hk

theorem rangesClosed_plain (xs : List SItem) (us : List Int) (h : ∀ k ∈ xs, Plain us k) (host : Host)
    (hu : host.usages.closed = true) (hs : host.strings.closed = true) (hd : host.desigs.closed = true) :
    rangesClosed .atUsage host xs = true := by
  induction xs generalizing host with
  | nil => rfl
  | cons x xs ih =>
    have hx := h x (by simp)
    rw [rangesClosed, hu, hs, hd]
    simp only [Bool.and_self, Bool.or_true, Bool.true_and]
    obtain ⟨c, n⟩ := x
    apply ih (fun k hk => h k (by simp [hk])) <;>
      cases c <;> simp only [Plain] at hx <;>
        first | exact hu | exact hs | exact hd | rfl | exact hx.elim

/-! ## Records -/

/-- Global items describing a field of `v` in report `id`. -/
def fieldOf (id : Int) (v : Value) : Cls → Int
  | .logMin => v.logicalMin.getD 0
  | .logMax => v.logicalMax.getD 0
  | .physMin => (physOf v).1
  | .physMax => (physOf v).2
  | .unit => v.unit.toInt
  | .unitExp => v.unitExponent
  | .reportSize => v.size
  | _ => id

/-- `r` is the record of the data item of `v` in report `id`. -/
def RecOf (id : Int) (v : Value) (r : MainRec) : Prop :=
  r.cls = v.way.cls ∧ r.val = v.flags.toInt ∧ r.usages = fieldUsages v ∧
    r.strings = indices v.string ∧ r.desigs = indices v.designator ∧ r.g .reportCount = v.count ∧
    ∀ c ∈ fieldTags, r.g c = fieldOf id v c

theorem usages_after (rule : PageRule) (h : Host) (us : List Int) (hp : h.g .usagePage = 0) :
    h.after rule (us.map (fun u => (.usage, u))) =
      { h with usages := { h.usages with ranges := h.usages.ranges ++ us.map (fun u => (u, u)) } } := by
  induction us generalizing h with
  | nil => simp
  | cons u us ih =>
    rw [List.map_cons, after_cons, ih _ (by simpa [Host.step] using hp)]
    simp [Host.step, Decl.one, hp, declare_zero]

theorem way_kind (w : Way) : w.cls.kind = .main := by cases w <;> rfl
theorem way_data (w : Way) : w.cls.isData = true := by cases w <;> rfl
theorem way_inj {a b : Way} (h : a.cls = b.cls) : a = b := by
  cases a <;> cases b <;> simp_all [Way.cls]

theorem way_step (rule : PageRule) (h : Host) (w : Way) (x : Int) :
    h.step rule (w.cls, x) = { h with usages := {}, strings := {}, desigs := {} } := by
  cases w <;> rfl

/-- Items of a value before its data item, for a value that is neither constant nor wrapped. -/
def preKeys (v : Value) : List SItem :=
  (usageOf v.usage).toList.map (fun u => (.usage, u)) ++
  ([(.physMin, (physOf v).1), (.physMax, (physOf v).2)] ++
  ((arrayUsages v.namedArray).map (fun u => (.usage, u)) ++
  (ck (attrTail v) ++ [(.reportCount, v.count), (.reportSize, v.size)])))

theorem ck_attrTail (v : Value) : ck (attrTail v) =
    [(.logMin, v.logicalMin.getD 0), (.logMax, v.logicalMax.getD 0), (.unit, v.unit.toInt),
      (.unitExp, v.unitExponent)] ++
    (if v.designator = 0 then [] else [(.desigIndex, v.designator)]) ++
    (if v.string = 0 then [] else [(.strIndex, v.string)]) := by
  unfold attrTail
  by_cases h1 : v.designator = 0 <;> by_cases h2 : v.string = 0 <;> simp [h1, h2]

theorem valKeys_plainValue (v : Value) (hc : constFlag v.flags = false) (hw : wrapped v = false) :
    valKeys v = preKeys v ++ [(v.way.cls, v.flags.toInt)] := by
  unfold valKeys preKeys fieldKeys
  rw [ck_attrTail]
  simp [hc, hw]

theorem preKeys_after (rule : PageRule) (h : Host) (hcl : Clean h) (v : Value)
    (hc : constFlag v.flags = false) (hw : wrapped v = false) :
    ∃ g', h.after rule (preKeys v) = { attrHost h (fieldUsages v) (physOf v).1 (physOf v).2 v with g := g' } ∧
      g' .reportSize = v.size ∧ g' .reportCount = v.count ∧
      ∀ c, c ≠ .reportSize → c ≠ .reportCount →
        g' c = (attrHost h (fieldUsages v) (physOf v).1 (physOf v).2 v).g c := by
  obtain ⟨g, stack, usages, strings, desigs⟩ := h
  obtain ⟨h1, h2, h3, h4⟩ := hcl
  simp only at h1 h2 h3 h4
  subst h1 h2 h3
  unfold preKeys
  rw [after_append, after_append, after_append, after_append,
    usages_after rule ⟨g, stack, {}, {}, {}⟩ _ h4, usages_after]
  rotate_left
  · simpa [Host.step] using h4
  rw [attrTail_after rule _ v (fieldUsages v) (physOf v).1 (physOf v).2]
  rotate_left
  · simp [Host.step]
  · simp [Host.step]
  · simp only [wrapped, hc, Bool.not_false, Bool.true_and, Bool.and_eq_false_iff, Bool.not_eq_false',
      List.isEmpty_iff, Option.isSome_eq_false_iff, Option.isNone_iff_eq_none] at hw
    simp only [after_cons, after_nil, Host.step, fieldUsages, List.nil_append]
    split
    · next he => simp [he]
    · next he =>
      rcases hw with hw | hw
      · exact absurd hw he
      · simp [hw]
  · simp [Host.step]
  · simp [Host.step]
  refine ⟨fun c => if c = .reportSize then v.size else if c = .reportCount then v.count else
      (attrHost ⟨g, stack, {}, {}, {}⟩ (fieldUsages v) (physOf v).1 (physOf v).2 v).g c, ?_, rfl, rfl, ?_⟩
  · simp only [after_cons, after_nil, Host.step, attrHost]
    congr 1
    funext c
    cases c <;> rfl
  · intro c a b; simp [a, b]

theorem indices_values (x : Int) :
    (Decl.mk (if x ≠ 0 then [(x, x)] else []) none none).values id = indices x := by
  unfold indices Decl.values
  by_cases h : x = 0 <;> simp [h, upTo_self]

theorem plain_rec (h : Host) (hcl : Clean h) (v : Value)
    (hc : constFlag v.flags = false) (hw : wrapped v = false) :
    ∃ r, recs .atUsage h (valKeys v) = [r] ∧ RecOf (h.g .reportID) v r ∧
      Clean (h.after .atUsage (valKeys v)) ∧ (h.after .atUsage (valKeys v)).g .reportID = h.g .reportID := by
  obtain ⟨g', ha, e1, e2, e3⟩ := preKeys_after .atUsage h hcl v hc hw
  have hnm : ∀ i ∈ preKeys v, i.1.kind ≠ .main := by
    intro i hi
    unfold preKeys at hi
    rw [ck_attrTail] at hi
    simp only [List.mem_append, List.mem_map, List.mem_cons, List.not_mem_nil, or_false] at hi
    rcases hi with ⟨u, -, rfl⟩ | (rfl | rfl) | ⟨u, -, rfl⟩ | (((rfl | rfl | rfl | rfl) | hi) | hi) | rfl | rfl
    all_goals first | (simp [Cls.kind]; done) | (rw [(mem_unless hi).1]; simp [Cls.kind])
  rw [valKeys_plainValue v hc hw, recs_append, recs_no_main _ _ _ hnm, ha, List.nil_append, recs_cons,
    if_pos (way_kind _), recs_nil, List.append_nil, after_append, ha]
  have hpage : g' .usagePage = 0 := by rw [e3 _ (by simp) (by simp)]; exact hcl.2.2.2
  refine ⟨_, rfl, ⟨rfl, rfl, ?_, ?_, ?_, e2, ?_⟩, ?_, ?_⟩
  · show (Decl.mk ((fieldUsages v).map (fun u => (u, u))) none none).values _ = _
    simp only [Decl.values, List.flatMap_map, PageRule.consume, upTo_self, List.flatMap_singleton']
  · exact indices_values _
  · exact indices_values _
  · intro c hcm
    show g' c = _
    simp only [fieldTags, List.mem_cons, List.not_mem_nil, or_false] at hcm
    rcases hcm with rfl | rfl | rfl | rfl | rfl | rfl | rfl | rfl
    all_goals first | exact e1 | (rw [e3 _ (by simp) (by simp)]; rfl)
  · rw [after_cons, after_nil, way_step]; exact ⟨rfl, rfl, rfl, hpage⟩
  · rw [after_cons, after_nil, way_step]; exact e3 _ (by simp) (by simp)

end Streamer
end Hrdc
