import Verif.Proofs.Named
import Verif.Proofs.Extract6
/-!
# Named arrays of compiled trees in the decompiler
-/
namespace Hrdc
open Spec Streamer

namespace Extractor

/-! ## Reading main items -/

theorem ahead_data {known : Int → Bool} {r : MainRec} (h : r.cls ≠ .collection) (rs : List MainRec) :
    arrayAhead known r rs = none := by
  unfold arrayAhead
  split
  · rw [if_neg]
    simp [namedArray, h]
  · rfl

/-- Whether a data item can be read in its place. -/
def DataFits (known : Int → Bool) (ops : List Opened) (r : MainRec) : Prop :=
  ((r.isConst || !lonely known ops r) && dataOK (some 0) r) = true

theorem walk_dataN {known : Int → Bool} {ops : List Opened} {r : MainRec} (hd : r.cls.isData = true)
    (hf : DataFits known ops r) (rs : List MainRec) :
    namedWalk known 0 ops (r :: rs) = namedWalk known 0 (markOpen (hasFields r) ops) rs ∧
      asArrays known 0 (r :: rs) = r :: asArrays known 0 rs := by
  have hc : r.cls ≠ .collection := by intro h; rw [h] at hd; simp [Cls.isData] at hd
  have hs : namedStep known ops r = some (markOpen (hasFields r) ops) := by
    unfold namedStep
    unfold DataFits at hf
    cases hc : r.cls <;> rw [hc] at hd <;> simp [Cls.isData] at hd <;> simp only [hf, if_true]
  constructor
  · rw [namedWalk, ahead_data hc]
    simp only [hs]
  · rw [asArrays, ahead_data hc]

theorem const_fits {known : Int → Bool} {ops : List Opened} {r : MainRec} (h : r.isConst = true) : DataFits known ops r := by
  simp [DataFits, dataOK, h]

/-- The first item inside a collection that can be read is not that of a named array. -/
theorem not_ahead {known : Int → Bool} {c : MainRec} {ops : List Opened} {rs : List MainRec} {o : List Opened}
    (h : namedWalk known 0 ((c.val, c.usages.head?, false) :: ops) rs = some o) : arrayAhead known c rs = none := by
  unfold arrayAhead
  split
  · rename_i d e rs'
    rw [if_neg]
    intro hn
    simp only [namedArray, MainRec.chooses, Bool.and_eq_true, beq_iff_eq, Bool.not_eq_true'] at hn
    obtain ⟨⟨⟨⟨-, ⟨⟨hd, hnc⟩, hcnt⟩, hfull⟩, -⟩, har⟩, -⟩ := hn
    have hdc : d.cls ≠ .collection := by intro h; rw [h] at hd; simp [Cls.isData] at hd
    rw [namedWalk, ahead_data hdc] at h
    simp only at h
    have hl : lonely known ((c.val, c.usages.head?, false) :: ops) d = true := by
      simp only [lonely, hcnt, hfull, BEq.rfl, Bool.true_and, arrayPlace]
      unfold arrayAround at har
      simp only [Bool.or_eq_true, Bool.and_eq_true] at har ⊢
      rcases har with har | har
      · exact Or.inl har
      · exact Or.inr ⟨har.1, Or.inr har.2⟩
    have hs : namedStep known ((c.val, c.usages.head?, false) :: ops) d = none := by
      unfold namedStep
      cases hc : d.cls <;> rw [hc] at hd <;> simp [Cls.isData] at hd <;> simp [hnc, hl]
    rw [hs] at h
    simp at h
  · rfl

theorem walk_collN {known : Int → Bool} {ops o : List Opened} {r : MainRec} {rs : List MainRec} (hc : r.cls = .collection)
    (hs : r.strings = []) (hd : r.desigs = [])
    (h : namedWalk known 0 ((r.val, r.usages.head?, false) :: ops) rs = some o) :
    namedWalk known 0 ops (r :: rs) = some o ∧ asArrays known 0 (r :: rs) = r :: asArrays known 0 rs := by
  have ha := not_ahead h
  constructor
  · rw [namedWalk, ha]
    simp only [namedStep, hc, hs, hd, List.isEmpty_nil, Bool.and_self, if_true]
    exact h
  · rw [asArrays, ha]

theorem walk_endN {known : Int → Bool} {k : Int} {u : Option Int} {ops : List Opened} {r : MainRec} {rs : List MainRec}
    (hc : r.cls = .endCollection) :
    namedWalk known 0 ((k, u, true) :: ops) (r :: rs) = namedWalk known 0 (markOpen true ops) rs ∧
      asArrays known 0 (r :: rs) = r :: asArrays known 0 rs := by
  have ha : arrayAhead known r rs = none := ahead_data (by rw [hc]; simp) rs
  constructor
  · rw [namedWalk, ha]
    simp only [namedStep, hc]
  · rw [asArrays, ha]

theorem walk_arrayN {known : Int → Bool} {ops : List Opened} {c d e : MainRec} {rs : List MainRec}
    (h : namedArray known c d e = true) :
    namedWalk known 0 ops (c :: d :: e :: rs) = namedWalk known 0 (markOpen true ops) rs ∧
      asArrays known 0 (c :: d :: e :: rs) = arrayRecs c d e ++ asArrays known 0 rs := by
  have ha : arrayAhead known c (d :: e :: rs) = some (d, e) := by simp [arrayAhead, h]
  constructor
  · rw [namedWalk, ha]; rfl
  · rw [asArrays, ha]; rfl

/-! ## Open collections -/

/-- The same collections; those known to have something inside do. -/
def OpenLE : List Opened → List Opened → Prop
  | [], [] => True
  | (k, u, a) :: p, (k', u', b) :: q => k = k' ∧ u = u' ∧ (a = true → b = true) ∧ OpenLE p q
  | _, _ => False

theorem openLE_mark {p q : List Opened} (h : OpenLE p q) {a b : Bool} (hab : a = true → b = true) :
    OpenLE (markOpen a p) (markOpen b q) := by
  cases p with
  | nil => cases q with
    | nil => trivial
    | cons y q => exact absurd h (fun h => h)
  | cons x p => cases q with
    | nil => exact absurd h (fun h => h)
    | cons y q =>
      obtain ⟨k, u, c⟩ := x; obtain ⟨k', u', d⟩ := y
      refine ⟨h.1, h.2.1, ?_, h.2.2.2⟩
      intro hh
      simp only [Bool.or_eq_true] at hh ⊢
      rcases hh with hh | hh
      · exact Or.inl (h.2.2.1 hh)
      · exact Or.inr (hab hh)

theorem markOpen_false (p : List Opened) : markOpen false p = p := by
  cases p with
  | nil => rfl
  | cons x p => obtain ⟨k, u, a⟩ := x; simp [markOpen]

theorem openLE_place {p q : List Opened} (h : OpenLE p q) (known : Int → Bool) (f : Int) :
    arrayPlace known p f = arrayPlace known q f := by
  cases p with
  | nil => cases q with
    | nil => rfl
    | cons y q => exact absurd h (fun h => h)
  | cons x p => cases q with
    | nil => exact absurd h (fun h => h)
    | cons y q =>
      obtain ⟨k, u, c⟩ := x; obtain ⟨k', u', d⟩ := y
      obtain ⟨rfl, rfl, -⟩ := h
      rfl

/-! ## Records of values -/

/-- The record of a value that reads back by itself. -/
theorem recOf_fits {known : Int → Bool} {id : Int} {v : Value} {r : MainRec} (hr : RecOf id v r) (hm : v.Made)
    (hc : constFlag v.flags = false) (hw : wrapped v = false) {ops ops' : List Opened} (hle : OpenLE ops ops')
    (hv : valueNamed known ops v = true) : DataFits known ops' r ∧ hasFields r = true ∧ 0 < r.g .reportCount := by
  obtain ⟨r1, r2, r3, r4, r5, r6, r7⟩ := hr
  have hb : bitSet v.flags.toInt 0 = false := hc
  unfold valueNamed at hv
  rw [hb, Bool.false_or, Bool.and_eq_true] at hv
  obtain ⟨hcnt, hv⟩ := hv
  have hcnt : 0 < v.count := by simpa using hcnt
  have hconst : r.isConst = false := by
    rw [bitSet_zero] at hb
    unfold MainRec.isConst; rw [r2]; exact hb
  have hidx : ∀ x : Int, (indices x).length ≤ 1 := by intro x; unfold indices; split <;> simp
  have huni : r.uniform = true := by
    unfold MainRec.uniform; rw [r4, r5]; simp [hidx]
  have hlmin : r.g .logMin = v.logicalMin.getD 0 := r7 .logMin (by simp [fieldTags])
  have hlmax : r.g .logMax = v.logicalMax.getD 0 := r7 .logMax (by simp [fieldTags])
  refine ⟨?_, ?_, by rw [r6]; exact hcnt⟩
  · unfold DataFits dataOK lonely
    rw [hconst, Bool.false_or, Bool.false_or, r2, r6, ← openLE_place hle]
    by_cases he : arrayUsages v.namedArray = []
    · rw [he] at hv
      simp only [List.isEmpty_nil, if_true] at hv
      have hus : r.usages = (usageOf v.usage).toList := by rw [r3]; simp [fieldUsages, he]
      have hlen : r.usages.length ≤ 1 := by rw [hus]; cases usageOf v.usage <;> simp
      cases hfull : r.full with
      | false => simp [huni, hlen]
      | true =>
        have hfull' : ((usageOf v.usage).toList.length : Int) = v.logicalMax.getD 0 - v.logicalMin.getD 0 + 1 := by
          unfold MainRec.full at hfull; rw [hus, hlmin, hlmax] at hfull; simpa using hfull
        simp only [ne_eq, hfull', not_true_eq_false, decide_false, Bool.false_or, Bool.and_eq_true] at hv
        obtain ⟨h1, h2⟩ := hv
        have h1 : v.flags.toInt ≠ 0 := by simpa using h1
        rw [Bool.and_true, h2]
        simp [huni, hlen, h1]
    · have hee : (arrayUsages v.namedArray).isEmpty = false := by simpa using he
      rw [hee] at hv
      obtain ⟨named, hn, f1, -⟩ := hm.facts
      have hus := NamedArray.truth_eq hn
      have hnt : named = true := by rw [hus]; simpa using he
      have hnou : usageOf v.usage = none := by
        simp only [wrapped, hc, Bool.not_false, Bool.true_and, hee, Option.isSome_eq_false_iff,
          Option.isNone_iff_eq_none] at hw
        exact hw
      rw [hnou] at hv
      simp only [Bool.false_eq_true, if_false, Bool.and_eq_true, decide_eq_true_eq] at hv
      obtain ⟨⟨hu, hx⟩, hk⟩ := hv
      obtain ⟨hfl, lo, h1, h2⟩ := f1 hnt
      have hg : usageGiven v.usage = false := by rw [usageOf_given, hnou]; rfl
      rw [hg] at hfl
      simp only [Bool.false_eq_true, if_false] at hfl
      have huse : r.usages = arrayUsages v.namedArray := by rw [r3]; simp [fieldUsages, he]
      have hfull : r.full = true := by
        unfold MainRec.full; rw [huse, hlmin, hlmax, h1, h2]; simp; omega
      have hphys : physOf v = (0, 0) := by simp [physOf, he]
      have hp1 : r.g .physMin = 0 := by rw [r7 .physMin (by simp [fieldTags])]; simp [fieldOf, hphys]
      have hp2 : r.g .physMax = 0 := by rw [r7 .physMax (by simp [fieldTags])]; simp [fieldOf, hphys]
      have hunit : r.g .unit = 0 := by rw [r7 .unit (by simp [fieldTags])]; exact hu
      have hexp : r.g .unitExp = 0 := by rw [r7 .unitExp (by simp [fieldTags])]; exact hx
      rw [hfull, hfl, Bool.and_true, hk]
      simp [huni, hunit, hexp, MainRec.attrs, hp1, hp2, huse, he]
  · unfold hasFields
    rw [r6]; simp [hcnt]

/-- The records of a named array with a usage. -/
theorem wrapped_recs (h : Host) (hcl : Clean h) (v : Value) (hw : wrapped v = true) (X : List SItem) :
    ∃ a b c h' u, recs .atUsage h (valKeys v ++ X) = a :: b :: c :: recs .atUsage h' X ∧
      usageOf v.usage = some u ∧ a.cls = .collection ∧ a.val = 2 ∧ a.usages = [u] ∧
      RecOf (h.g .reportID) v b ∧ c.cls = .endCollection ∧ Clean h' ∧ h'.g .reportID = h.g .reportID ∧ c.usages = [] := by
  have hw' := hw
  simp only [wrapped, Bool.and_eq_true, Bool.not_eq_true', Option.isSome_iff_exists] at hw'
  obtain ⟨⟨hc, hne⟩, u, hu⟩ := hw'
  have hne' : arrayUsages v.namedArray ≠ [] := by simpa using hne
  have hph : physOf v = (0, 0) := by simp [physOf, hne']
  obtain ⟨g, stack, usages, strings, desigs⟩ := h
  obtain ⟨h1, h2, h3, h4⟩ := hcl
  simp only at h1 h2 h3 h4
  subst h1 h2 h3
  have e : valKeys v = [(.usage, u), (.physMin, (physOf v).1), (.physMax, (physOf v).2), (.collection, 2)] ++
      ((arrayUsages v.namedArray).map (fun u => (Cls.usage, u)) ++ (ck (attrTail v) ++
        [(.reportCount, v.count), (.reportSize, v.size), (v.way.cls, v.flags.toInt), (.endCollection, 0)])) := by
    unfold valKeys fieldKeys
    rw [ck_attrTail]
    simp [hc, hw, hu]
  rw [e, List.append_assoc, List.append_assoc, List.append_assoc, recs_append]
  simp only [after_cons, after_nil, Host.step, recs_cons, recs_nil, List.append_nil]
  rw [recs_append, recs_no_main _ _ ((arrayUsages v.namedArray).map (fun u => (Cls.usage, u))) (by
    intro i hi; obtain ⟨u, -, rfl⟩ := List.mem_map.1 hi; simp [Cls.kind])]
  rw [usages_after _ _ _ (by simpa using h4), recs_append, recs_no_main _ _ (ck (attrTail v)) (by
    intro i hi
    rw [ck_attrTail] at hi
    simp only [List.mem_append, List.mem_cons, List.not_mem_nil, or_false] at hi
    rcases hi with ((rfl | rfl | rfl | rfl) | hi) | hi
    all_goals first | (simp [Cls.kind]; done) | (rw [(mem_unless hi).1]; simp [Cls.kind]))]
  rw [attrTail_after .atUsage _ v (arrayUsages v.namedArray) (physOf v).1 (physOf v).2 rfl rfl rfl
    (by simp) (by simp)]
  simp only [List.cons_append, List.nil_append, recs_cons, way_kind]
  refine ⟨_, _, _, _, u, rfl, hu, rfl, rfl, ?_, ⟨rfl, rfl, ?_, ?_, ?_, ?_, ?_⟩, rfl, ?_, ?_, ?_⟩
  · simp [Host.main, Decl.values, Decl.one, PageRule.declare, PageRule.consume, h4, full, upTo_self]
  · show (Decl.mk ((arrayUsages v.namedArray).map (fun u => (u, u))) none none).values _ = _
    simp only [Decl.values, List.flatMap_map, PageRule.consume, upTo_self, List.flatMap_singleton', fieldUsages, hne', if_false]
  · exact indices_values _
  · exact indices_values _
  · simp [Host.main, Host.step]
  · intro c hcm
    simp only [fieldTags, List.mem_cons, List.not_mem_nil, or_false] at hcm
    rcases hcm with rfl | rfl | rfl | rfl | rfl | rfl | rfl | rfl <;>
      simp [Host.main, Host.step, attrHost, fieldOf]
  · simp only [way_step]
    exact ⟨rfl, rfl, rfl, by simpa [Host.step, attrHost] using h4⟩
  · simp only [way_step]; simp [Host.step, attrHost]
  · simp only [way_step]; rfl

/-- A named array with a usage is read as what the descriptor says. -/
theorem wrapped_events {known : Int → Bool} {id : Int} {v : Value} {a b c : MainRec} {u : Int} (hm : v.Made)
    (hw : wrapped v = true) (hu : usageOf v.usage = some u) (ha : a.cls = .collection) (hav : a.val = 2)
    (hau : a.usages = [u]) (hb : RecOf id v b) (hc : c.cls = .endCollection) {ops : List Opened}
    (hv : valueNamed known ops v = true) :
    namedArray known a b c = true ∧ (arrayRecs a b c).flatMap MainRec.events = valueEvents id v ∧
      0 < b.g .reportCount := by
  obtain ⟨r1, r2, r3, r4, r5, r6, r7⟩ := hb
  have hw' := hw
  simp only [wrapped, Bool.and_eq_true, Bool.not_eq_true'] at hw'
  obtain ⟨⟨hcf, hne⟩, -⟩ := hw'
  have he : arrayUsages v.namedArray ≠ [] := by simpa using hne
  have hbit : bitSet v.flags.toInt 0 = false := hcf
  unfold valueNamed at hv
  rw [hbit, hne, hu] at hv
  simp only [Bool.false_or, Bool.false_eq_true, if_false, Bool.and_eq_true, decide_eq_true_eq, beq_iff_eq] at hv
  obtain ⟨-, ⟨hun, hex⟩, hcnt, hkn⟩ := hv
  obtain ⟨named, hn, f1, -⟩ := hm.facts
  have hus := NamedArray.truth_eq hn
  have hnt : named = true := by rw [hus]; simpa using he
  obtain ⟨hfl, lo, h1, h2⟩ := f1 hnt
  have hg : usageGiven v.usage = true := by rw [usageOf_given, hu]; rfl
  rw [hg] at hfl
  simp only [if_true] at hfl
  have huse : b.usages = arrayUsages v.namedArray := by rw [r3]; simp [fieldUsages, he]
  have hlmin : b.g .logMin = v.logicalMin.getD 0 := r7 .logMin (by simp [fieldTags])
  have hlmax : b.g .logMax = v.logicalMax.getD 0 := r7 .logMax (by simp [fieldTags])
  have hsz : b.g .reportSize = v.size := r7 .reportSize (by simp [fieldTags])
  have hid : b.g .reportID = id := r7 .reportID (by simp [fieldTags])
  have hfull : b.full = true := by
    unfold MainRec.full; rw [huse, hlmin, hlmax, h1, h2]; simp; omega
  have hd : b.cls.isData = true := by rw [r1]; exact way_data _
  have hval : b.val = 2 := by rw [r2, hfl]
  refine ⟨?_, ?_, by rw [r6, hcnt]; decide⟩
  · simp [namedArray, MainRec.chooses, arrayAround, ha, hav, hau, hd, hc, hfull, r6, hcnt, hkn, huse, he, hval, MainRec.isConst]
  · have hat : b.arrayField.attrs = arrayAttrs v (arrayUsages v.namedArray).length := by
      simp only [MainRec.attrs, MainRec.arrayField, arrayAttrs, attrsOf]
      simp [hlmin, hlmax, hsz, hun, hex, h1, h2]
      omega
    have hwhat : b.arrayField.what 0 = (arrayUsages v.namedArray).map (fun x => selectorOf v (some x)) := by
      have hnv : b.arrayField.isVar = false := by simp [MainRec.isVar, MainRec.arrayField]
      have hsel : ∀ (x : Int) j, (pick ((indices x).take 1) j).getD 0 = x := by
        intro x j
        unfold indices
        split
        · rename_i h0; simp [pick, h0]
        · cases j <;> simp [pick]
      simp only [MainRec.what, hnv, Bool.false_eq_true, if_false]
      apply List.ext_getElem
      · simp [MainRec.arrayField, huse]
      · intro j g1 g2
        have hj : j < (arrayUsages v.namedArray).length := by simpa using g2
        have h5 : pick (arrayUsages v.namedArray) j = some (arrayUsages v.namedArray)[j] := by simp [pick, hj]
        simp only [List.getElem_map, List.getElem_range, MainRec.selector]
        simp only [MainRec.arrayField, huse, h5, selectorOf, r4, r5, hsel]
    have hev : b.arrayField.events = [.control v.way.cls 0 id b.arrayField.attrs (b.arrayField.what 0)] := by
      have hc1 : (b.arrayField.g .reportCount).toNat = 1 := by simp [MainRec.arrayField, r6, hcnt]
      have hidd : b.arrayField.g .reportID = id := by simp [MainRec.arrayField, hid]
      have hcon : b.arrayField.isConst = false := by simp [MainRec.isConst, MainRec.arrayField]
      have hcl : b.arrayField.cls = v.way.cls := r1
      have hv0 : b.arrayField.val = 0 := rfl
      cases hwy : v.way <;> rw [hwy] at hcl <;> simp only [Way.cls] at hcl <;>
        simp [MainRec.events, hcl, hcon, hc1, hidd, hv0, Way.cls]
    have hrec : arrayRecs a b c = [{ a with val := 2, strings := [], desigs := [] }, b.arrayField, c] := by
      simp [arrayRecs, hau]
    rw [hrec]
    simp only [List.flatMap_cons, List.flatMap_nil, List.append_nil, hev]
    rw [valueEvents_eq]
    cases hl : arrayUsages v.namedArray with
    | nil => exact absurd hl he
    | cons x l =>
      simp only
      rw [hu, ← hl, hat, hwhat, hcnt]
      simp [MainRec.events, ha, hc, MainRec.selector, hau, pick]

/-! ## Reading a tree's items -/

/-- What a leaf describes without its padding. -/
def ownMeaning (id : Int) : Leaf → List Event
  | .value v => valueEvents id v
  | _ => []

/-- What the items of tokens describe once named arrays are read as such. -/
def namedTree (c : Count) (last lastNZ : Int) : List Tok → List Event
  | [] => []
  | .report i :: r => namedTree c i (if i = 0 then lastNZ else i) r
  | .endReport :: r => namedTree c last lastNZ r
  | .enter k u :: r => .enter k.toInt ⟨u.map PyVal.toInt, 0, 0⟩ :: namedTree c last lastNZ r
  | .leave :: r => .leave :: namedTree c last lastNZ r
  | .leaf l :: r => (List.replicate (padBefore (c l.way last) l).toNat (.padBit l.way.cls lastNZ) ++
      ownMeaning lastNZ l) ++ namedTree (c.add last l) last lastNZ r

theorem pad_named {known : Int → Bool} {h : Host} (hcl : Clean h) (w : Way) (p : Int) (hp0 : 0 ≤ p) (X : List SItem)
    {ops ops' : List Opened} (hle : OpenLE ops ops') :
    ∃ h' ops'', Clean h' ∧ h'.g .reportID = h.g .reportID ∧ OpenLE (markOpen (p != 0) ops) ops'' ∧
      OpenLE ops ops'' ∧
      namedWalk known 0 ops' (recs .atUsage h (padKeys w p ++ X)) = namedWalk known 0 ops'' (recs .atUsage h' X) ∧
      (asArrays known 0 (recs .atUsage h (padKeys w p ++ X))).flatMap MainRec.events =
        List.replicate p.toNat (.padBit w.cls (h.g .reportID)) ++
          (asArrays known 0 (recs .atUsage h' X)).flatMap MainRec.events ∧
      ((∀ r ∈ recs .atUsage h' X, CountOK r) → ∀ r ∈ recs .atUsage h (padKeys w p ++ X), CountOK r) := by
  have hev := (pad_events .atUsage h hcl w p hp0).1
  unfold padKeys
  by_cases hp : p = 0
  · rw [if_pos hp]
    refine ⟨h, ops', hcl, rfl, ?_, hle, rfl, by simp [hp], fun h => h⟩
    rw [hp]; simp only [bne_self_eq_false, markOpen_false]; exact hle
  · rw [if_neg hp]
    rw [if_neg hp] at hev
    let K : List SItem := [(.reportCount, 1), (.reportSize, p), (w.cls, 3)]
    let r := (h.after .atUsage [(.reportCount, 1), (.reportSize, p)]).main .atUsage (w.cls, 3)
    have hrK : recs .atUsage h K = [r] := by
      simp only [K]
      rw [recs_cons, recs_cons, recs_cons, if_neg (by simp [Cls.kind]), if_neg (by simp [Cls.kind]), if_pos (way_kind w)]
      rfl
    have hr : recs .atUsage h (K ++ X) = r :: recs .atUsage (h.after .atUsage K) X := by
      rw [recs_append, hrK]; rfl
    have hre : r.events = List.replicate p.toNat (.padBit w.cls (h.g .reportID)) := by
      have : eventsFrom .atUsage h K = _ := hev
      unfold eventsFrom at this
      rw [hrK] at this
      simpa using this
    have hr1 : r.cls.isData = true := way_data w
    have hr2 : r.isConst = true := by simp [r, MainRec.isConst, Host.main]
    obtain ⟨w1, w2⟩ := walk_dataN (known := known) (ops := ops') hr1 (const_fits hr2) (recs .atUsage (h.after .atUsage K) X)
    have hhf : hasFields r = true := (const_ok none r hr2).2
    rw [hhf] at w1
    refine ⟨h.after .atUsage K, markOpen true ops', ?_, ?_, openLE_mark hle (by simp), ?_, ?_, ?_, ?_⟩
    · simp only [K, after_cons, after_nil, way_step]
      exact ⟨rfl, rfl, rfl, by simpa [Host.step] using hcl.2.2.2⟩
    · simp only [K, after_cons, after_nil, way_step]; simp [Host.step]
    · have := openLE_mark hle (a := false) (b := true) (by simp)
      rwa [markOpen_false] at this
    · show namedWalk known 0 ops' (recs .atUsage h (K ++ X)) = _
      rw [hr, w1]
    · show (asArrays known 0 (recs .atUsage h (K ++ X))).flatMap MainRec.events = _
      rw [hr, w2, List.flatMap_cons, hre]
    · intro hX a ha
      have ha : a ∈ recs .atUsage h (K ++ X) := ha
      rw [hr] at ha
      rcases List.mem_cons.1 ha with rfl | ha
      · exact fun _ => Or.inr hr2
      · exact hX a ha

/-- The events of a value without a collection of its own. -/
theorem plain_value_events {h : Host} (hcl : Clean h) {v : Value} (hm : v.Made) (hw : wrapped v = false) :
    (recs .atUsage h (valKeys v)).flatMap MainRec.events = valueEvents (h.g .reportID) v := by
  obtain ⟨named, hn, f1, -⟩ := hm.facts
  have hus := NamedArray.truth_eq hn
  have hnu : named = true → usageGiven v.usage = false := by
    intro hnt
    cases hg : usageGiven v.usage with
    | false => rfl
    | true =>
      exfalso
      have hfl := (f1 hnt).1
      rw [hg] at hfl
      simp only [if_true] at hfl
      have hc : constFlag v.flags = false := by
        unfold constFlag; rw [hfl]; decide
      have hne : (arrayUsages v.namedArray).isEmpty = false := by rw [hnt] at hus; simpa using hus.symm
      rw [usageOf_given] at hg
      simp [wrapped, hc, hne, hg] at hw
  have hno : (named && !constFlag v.flags && usageGiven v.usage) = false := by
    cases named with
    | false => rfl
    | true => rw [hnu rfl]; simp
  have hk := valueCalls_keys [] v named hn
  rw [hno] at hk
  simp only [Bool.false_eq_true, if_false, List.append_nil] at hk
  have := (value_events .atUsage [] v hm named hn hnu h hcl).1
  rw [hk] at this
  exact this

theorem tree_named (known : Int → Bool) (ts : List Tok) (c : Count) (last : Int) (h : Host) (ops ops' : List Opened)
    (hcl : Clean h) (hle : OpenLE ops ops') (hr : namedReadable known ops ts = true)
    (hkind : ∀ k u, Tok.enter k u ∈ ts → 0 ≤ k.toInt ∧ u.isSome = true)
    (hm : ∀ v, Tok.leaf (.value v) ∈ ts → v.Made) (hs : Sane c last ts) :
    namedWalk known 0 ops' (recs .atUsage h (treeKeys c last ts)) = some [] ∧
      (asArrays known 0 (recs .atUsage h (treeKeys c last ts))).flatMap MainRec.events =
        namedTree c last (h.g .reportID) ts ∧
      ∀ r ∈ recs .atUsage h (treeKeys c last ts), CountOK r := by
  induction ts generalizing c last h ops ops' with
  | nil =>
    refine ⟨?_, by simp [treeKeys, asArrays, namedTree], by simp [treeKeys]⟩
    simp only [namedReadable, List.isEmpty_iff] at hr
    subst hr
    cases ops' with
    | nil => rfl
    | cons y q => exact absurd hle (fun h => h)
  | cons t ts ih =>
    have ih := fun c last h ops ops' hcl hle hr hs => ih c last h ops ops' hcl hle hr
      (fun k u h => hkind k u (by simp [h])) (fun v hv => hm v (by simp [hv])) hs
    cases t with
    | report i =>
      rw [treeKeys, recs_append, namedTree]
      by_cases hi : i = 0
      · simp only [hi, if_true, recs_nil, List.nil_append]
        subst hi
        exact ih c 0 h ops ops' hcl hle hr hs
      · simp only [hi, if_false]
        rw [recs_no_main _ _ _ (by simp [Cls.kind]), List.nil_append]
        have := ih c i (h.after .atUsage [(.reportID, i)]) ops ops'
          ⟨hcl.1, hcl.2.1, hcl.2.2.1, by simpa [Host.step] using hcl.2.2.2⟩ hle hr hs
        simpa [Host.step] using this
    | endReport => rw [namedTree]; exact ih c last h ops ops' hcl hle hr hs
    | enter k u =>
      obtain ⟨hk0, hu⟩ := hkind k u (List.mem_cons_self ..)
      obtain ⟨u, rfl⟩ := Option.isSome_iff_exists.1 hu
      rw [treeKeys, wrapKind_nonneg hk0, recs_cons, if_neg (by simp [Cls.kind]),
        recs_cons, if_pos (by simp [Cls.kind]), namedTree]
      simp only [List.nil_append, List.singleton_append, Option.map_some, Option.getD_some]
      obtain ⟨c1, c2, c3, c4⟩ := hcl
      generalize hrec : (h.step .atUsage (.usage, u.toInt)).main .atUsage (.collection, k.toInt) = r
      have r1 : r.cls = .collection := by rw [← hrec]; rfl
      have r2 : r.val = k.toInt := by rw [← hrec]; rfl
      have r3 : r.strings = [] := by rw [← hrec]; simp [Host.main, Host.step, c2, Decl.values]
      have r4 : r.desigs = [] := by rw [← hrec]; simp [Host.main, Host.step, c3, Decl.values]
      have r5 : r.usages = [u.toInt] := by
        rw [← hrec]
        simp [Host.main, Host.step, c1, c4, Decl.one, Decl.values, PageRule.declare, PageRule.consume, upTo_self, full]
      have r6 : r.events = [.enter k.toInt ⟨some u.toInt, 0, 0⟩] := by
        simp [MainRec.events, r1, r2, MainRec.selector, r3, r4, r5, pick]
      obtain ⟨h1, h2, h3⟩ := ih c last
        ((h.step .atUsage (.usage, u.toInt)).step .atUsage (.collection, k.toInt))
        ((k.toInt, some u.toInt, false) :: ops) ((k.toInt, some u.toInt, false) :: ops') ⟨rfl, rfl, rfl, c4⟩
        ⟨rfl, rfl, by simp, hle⟩ hr hs
      obtain ⟨w1, w2⟩ := walk_collN (ops := ops') r1 r3 r4 (by rw [r2, r5]; exact h1)
      refine ⟨w1, ?_, ?_⟩
      · rw [w2, List.flatMap_cons, r6, h2]; rfl
      · intro a ha
        rcases List.mem_cons.1 ha with rfl | ha
        · intro hd; rw [r1] at hd; simp [Cls.isData] at hd
        · exact h3 a ha
    | leave =>
      rw [treeKeys, recs_cons, if_pos (by simp [Cls.kind]), namedTree]
      simp only [List.singleton_append]
      rw [namedReadable.eq_def] at hr
      simp only at hr
      split at hr
      · rename_i k u o
        cases ops' with
        | nil => exact absurd hle (fun h => h)
        | cons y q =>
          obtain ⟨k', u', b⟩ := y
          have hb : b = true := hle.2.2.1 rfl
          subst hb
          obtain ⟨h1, h2, h3⟩ := ih c last (h.step .atUsage (.endCollection, 0)) (markOpen true o) (markOpen true q)
            ⟨rfl, rfl, rfl, hcl.2.2.2⟩ (openLE_mark hle.2.2.2 (fun h => h)) hr hs
          obtain ⟨w1, w2⟩ := walk_endN (known := known) (k := k') (u := u') (ops := q)
            (r := h.main .atUsage (.endCollection, 0)) (rs := recs .atUsage (h.step .atUsage (.endCollection, 0))
              (treeKeys c last ts)) rfl
          refine ⟨by rw [w1]; exact h1, ?_, ?_⟩
          · rw [w2, List.flatMap_cons, h2]; rfl
          · intro a ha
            rcases List.mem_cons.1 ha with rfl | ha
            · intro hd; simp [Host.main, Cls.isData] at hd
            · exact h3 a ha
      · simp at hr
    | leaf l =>
      obtain ⟨s1, s2, s3⟩ := hs
      rw [treeKeys, leafKeys, List.append_assoc, namedTree]
      obtain ⟨h', ops'', hcl', hid', hle1, hle2, hwalk, hev, hcount⟩ := pad_named (known := known) hcl l.way
        (padBefore (c l.way last) l) s1 (ownKeys l ++ treeKeys (c.add last l) last ts) hle
      rw [hwalk, hev, List.append_assoc, List.append_cancel_left_eq, ← hid']
      refine And.imp_right (And.imp_right hcount) ?_
      cases l with
      | align w b => exact ih _ last h' ops ops'' hcl' hle2 hr s3
      | padding w s => exact ih _ last h' _ ops'' hcl' hle1 hr s3
      | value v =>
        simp only [ownKeys]
        rw [namedReadable, Bool.and_eq_true] at hr
        obtain ⟨hv, hr⟩ := hr
        have hmade := hm v (by simp)
        have hmark : ∀ b, b = true → OpenLE (markOpen true ops) (markOpen b ops'') := fun b hb =>
          openLE_mark hle2 (fun _ => hb)
        by_cases hw : wrapped v = true
        · obtain ⟨a, b, e, h2, u, q1, q2, q3, q4, q5, q6, q7, q8, q9, -⟩ := wrapped_recs h' hcl' v hw
            (treeKeys (c.add last (.value v)) last ts)
          obtain ⟨n1, n2, n3⟩ := wrapped_events (known := known) hmade hw q2 q3 q4 q5 q6 q7 hv
          obtain ⟨w1, w2⟩ := walk_arrayN (ops := ops'') (rs := recs .atUsage h2 (treeKeys (c.add last (.value v)) last ts)) n1
          obtain ⟨i1, i2, i3⟩ := ih (c.add last (.value v)) last h2 (markOpen true ops) (markOpen true ops'') q8
            (hmark _ rfl) hr s3
          rw [q1]
          refine ⟨by rw [w1]; exact i1, ?_, ?_⟩
          · rw [w2, List.flatMap_append, n2, i2, q9]; rfl
          · intro r hrr
            simp only [List.mem_cons] at hrr
            rcases hrr with rfl | rfl | rfl | hrr
            · intro hd; rw [q3] at hd; simp [Cls.isData] at hd
            · exact fun _ => Or.inl n3
            · intro hd; rw [q7] at hd; simp [Cls.isData] at hd
            · exact i3 r hrr
        · have hw : wrapped v = false := by simpa using hw
          have hve := plain_value_events hcl' hmade hw
          have key : ∃ r, recs .atUsage h' (valKeys v) = [r] ∧ r.cls.isData = true ∧ DataFits known ops'' r ∧
              hasFields r = true ∧ CountOK r ∧ Clean (h'.after .atUsage (valKeys v)) ∧
              (h'.after .atUsage (valKeys v)).g .reportID = h'.g .reportID := by
            by_cases hc : constFlag v.flags = true
            · have hk : valKeys v = [(.reportCount, v.count), (.reportSize, v.size), (v.way.cls, v.flags.toInt)] := by
                simp [valKeys, hc]
              have hodd : v.flags.toInt % 2 = 1 := by
                unfold constFlag at hc; rw [bitSet_zero] at hc; simpa using hc
              rw [hk, recs_cons, recs_cons, recs_cons, if_neg (by simp [Cls.kind]),
                if_neg (by simp [Cls.kind]), if_pos (way_kind _)]
              simp only [recs_nil, List.nil_append, List.append_nil]
              refine ⟨_, rfl, way_data v.way, ?_, ?_, ?_, ?_, ?_⟩
              · exact const_fits (by simp [MainRec.isConst, Host.main, hodd])
              · exact (const_ok none _ (by simp [MainRec.isConst, Host.main, hodd])).2
              · exact fun _ => Or.inr (by simp [MainRec.isConst, Host.main, hodd])
              · simp only [after_cons, after_nil, way_step]
                exact ⟨rfl, rfl, rfl, by simpa [Host.step] using hcl'.2.2.2⟩
              · simp only [after_cons, after_nil, way_step]; simp [Host.step]
            · have hc' : constFlag v.flags = false := by simpa using hc
              obtain ⟨r, hr0, hrec, g1, g2⟩ := plain_rec h' hcl' v hc' hw
              obtain ⟨d1, d2, d3⟩ := recOf_fits hrec hmade hc' hw hle2 hv
              exact ⟨r, hr0, by rw [hrec.1]; exact way_data _, d1, d2, fun _ => Or.inl d3, g1, g2⟩
          obtain ⟨r, hr0, d0, d1, d2, d3, g1, g2⟩ := key
          rw [hr0] at hve
          obtain ⟨w1, w2⟩ := walk_dataN (ops := ops'') d0 d1 (recs .atUsage (h'.after .atUsage (valKeys v))
            (treeKeys (c.add last (.value v)) last ts))
          obtain ⟨i1, i2, i3⟩ := ih (c.add last (.value v)) last _ (markOpen true ops) (markOpen (hasFields r) ops'')
            g1 (hmark _ d2) hr s3
          rw [recs_append, hr0, List.singleton_append]
          refine ⟨by rw [w1]; exact i1, ?_, ?_⟩
          · rw [w2, List.flatMap_cons, i2, g2]
            simp only [List.flatMap_cons, List.flatMap_nil, List.append_nil] at hve
            rw [hve]; rfl
          · intro a ha
            rcases List.mem_cons.1 ha with rfl | ha
            · exact d3
            · exact i3 a ha

/-- The layout of fields that fit. -/
theorem namedTree_place {A : Nat} (ts : List Tok) (ids : List Int) (c : Count) (last lastNZ : Int) (off : Layout)
    (hr : ∀ t ∈ leafIds ids last lastNZ ts, t.1 = t.2.1 ∧ t.1 = t.2.2)
    (hf : ∀ l, Tok.leaf l ∈ ts → LeafFit A l) (hs : Sane c last ts)
    (hc : ∀ w i, (A : Int) ∣ (off w i : Int) - c w i) :
    namedTree c last lastNZ ts = place off (inScope ids ts) := by
  induction ts generalizing ids c last lastNZ off with
  | nil => rfl
  | cons t ts ih =>
    have hf' : ∀ l, Tok.leaf l ∈ ts → LeafFit A l := fun l hl => hf l (by simp [hl])
    cases t with
    | report i => exact ih _ _ _ _ _ hr hf' hs hc
    | endReport => exact ih _ _ _ _ _ hr hf' hs hc
    | enter k u => rw [namedTree, inScope, place, ih _ _ _ _ _ hr hf' hs hc]
    | leave => rw [namedTree, inScope, place, ih _ _ _ _ _ hr hf' hs hc]
    | leaf l =>
      simp only [leafIds, List.mem_cons, forall_eq_or_imp] at hr
      obtain ⟨⟨r1, r2⟩, hr⟩ := hr
      obtain ⟨s1, s2, s3⟩ := hs
      have hfl := hf l (by simp)
      have hpad : padBefore (c l.way last) l = (room (off l.way last) l).1 := by
        have hm : ∀ a : Int, (a > 1 → a ∣ (A : Int)) →
            (if a > 1 then (-(c l.way last)) % a else 0) = (missing a (off l.way last) : Int) := by
          intro a ha
          by_cases h1 : a > 1
          · rw [if_pos h1, ← neg_emod _ _ h1]
            exact pad_missing h1 (Int.dvd_trans (ha h1) (hc l.way last))
          · rw [if_neg h1, missing_one h1]; rfl
        cases l with
        | value v => exact hm v.alignment hfl.1
        | align w b => exact hm b hfl
        | padding w s => simp only [padBefore, room]; exact (Int.toNat_of_nonneg s1).symm
      rw [namedTree, inScope, place]
      have hid : ids.headD 0 = lastNZ := r2
      rw [show lastNZ = last from by rw [← r2, r1]] at hid ⊢
      rw [hid]
      have htail : namedTree (c.add last l) last last ts = place (off.add last l) (inScope ids ts) := by
        refine ih ids _ _ _ _ (by rw [show lastNZ = last from by rw [← r2, r1]] at hr; exact hr) hf' s3 ?_
        intro w i
        simp only [Count.add, Layout.add]
        by_cases hwi : w = l.way ∧ i = last
        · obtain ⟨rfl, rfl⟩ := hwi
          simp only [and_self, if_true]
          rw [hpad]
          have h2 : (A : Int) ∣ ((room (off l.way i) l).2 : Int) - ownBits l := by
            cases l with
            | value v =>
              obtain ⟨hs0, hc0⟩ := s2 v rfl
              simp only [room, ownBits]
              rw [show (((v.size.toNat * v.count.toNat : Nat) : Int) - v.size) = v.size * (v.count - 1) by
                rw [Int.natCast_mul, Int.toNat_of_nonneg hs0, Int.toNat_of_nonneg hc0, Int.mul_sub]
                omega]
              exact hfl.2
            | align w b => simp [room, ownBits]
            | padding w s => simp [room, ownBits]
          have := Int.dvd_add (hc l.way i) h2
          rw [show ((off l.way i + (room (off l.way i) l).1 + (room (off l.way i) l).2 : Nat) : Int) -
              (c l.way i + ((room (off l.way i) l).1 : Int) + ownBits l) =
              (off l.way i : Int) - c l.way i + (((room (off l.way i) l).2 : Int) - ownBits l) by push_cast; omega]
          exact this
        · rw [if_neg hwi, if_neg hwi]; exact hc w i
      rw [htail]
      congr 1
      rw [leafEvents_eq, hpad]
      cases l <;> rfl

end Extractor
end Hrdc
