import Verif.Proofs.Extract5
import Verif.Proofs.OptTree2
/-!
# Compiled trees can be read back
-/
namespace Hrdc
open Spec Streamer
namespace Extractor

/-! ## Streams without pages -/

theorem recs_noPage (xs : List SItem) (h : Host) (hp : h.g .usagePage = 0)
    (hx : ∀ i ∈ xs, i.1 ≠ .usagePage ∧ i.1 ≠ .push ∧ i.1 ≠ .pop) :
    recs .atMain h xs = recs .atUsage h xs := by
  induction xs generalizing h with
  | nil => rfl
  | cons i xs ih =>
    have hstep : h.step .atMain i = h.step .atUsage i := by
      obtain ⟨c, v⟩ := i
      cases c <;> simp [Host.step, hp, declare_zero]
    have hmain : h.main .atMain i = h.main .atUsage i := by
      have : PageRule.consume .atMain 0 = PageRule.consume .atUsage 0 := by
        funext v; exact full_zero v
      simp [Host.main, hp, this]
    rw [recs_cons, recs_cons, hstep, hmain, ih _ ?_ (fun i hi => hx i (by simp [hi]))]
    have := hx i (by simp)
    obtain ⟨c, v⟩ := i
    cases c <;> simp at this <;> simpa [Host.step] using hp

theorem oneRange_single (c : Cls × Cls × Cls) (xs : List SItem) (s : Bool)
    (hx : ∀ i ∈ xs, i.1 ≠ c.2.1 ∧ i.1 ≠ c.2.2) : oneRange c s none none xs = true := by
  induction xs generalizing s with
  | nil => rfl
  | cons i xs ih =>
    have ih := fun s => ih s (fun i hi => hx i (by simp [hi]))
    obtain ⟨h1, h2⟩ := hx i (by simp)
    rw [oneRange]
    split
    · exact ih _
    · simp [h1, h2, ih]

/-! ## Open collections -/

/-- The same collections; those known to have something inside do. -/
def FlagsLE : List (Int × Bool) → List (Int × Bool) → Prop
  | [], [] => True
  | (k, a) :: p, (k', b) :: q => k = k' ∧ (a = true → b = true) ∧ FlagsLE p q
  | _, _ => False

theorem flagsLE_head {p q : List (Int × Bool)} (h : FlagsLE p q) : p.head?.map (·.1) = q.head?.map (·.1) := by
  cases p with
  | nil => cases q with
    | nil => rfl
    | cons y q => exact absurd h (fun h => h)
  | cons x p => cases q with
    | nil => exact absurd h (fun h => h)
    | cons y q => obtain ⟨k, a⟩ := x; obtain ⟨k', b⟩ := y; simp [h.1]

theorem flagsLE_mark {p q : List (Int × Bool)} (h : FlagsLE p q) {a b : Bool} (hab : a = true → b = true) :
    FlagsLE (markFull a p) (markFull b q) := by
  cases p with
  | nil => cases q with
    | nil => trivial
    | cons y q => exact absurd h (fun h => h)
  | cons x p => cases q with
    | nil => exact absurd h (fun h => h)
    | cons y q =>
      obtain ⟨k, c⟩ := x; obtain ⟨k', d⟩ := y
      refine ⟨h.1, ?_, h.2.2⟩
      intro hh
      simp only [Bool.or_eq_true] at hh ⊢
      rcases hh with hh | hh
      · exact Or.inl (h.2.1 hh)
      · exact Or.inr (hab hh)

theorem markFull_false (p : List (Int × Bool)) : markFull false p = p := by
  cases p with
  | nil => rfl
  | cons x p => obtain ⟨k, a⟩ := x; simp [markFull]

/-- What the main items of a compiled stream have in common. -/
def CountOK (r : MainRec) : Prop := r.cls.isData = true → 0 < r.g .reportCount ∨ r.isConst = true

theorem walk_cons (ops : List (Int × Bool)) (r : MainRec) (rs : List MainRec) :
    walk ops (r :: rs) = match walkStep ops r with | none => none | some o => walk o rs := rfl

theorem walkStep_data (ops : List (Int × Bool)) (r : MainRec) (hd : r.cls.isData = true)
    (hok : dataOK (ops.head?.map (·.1)) r = true) : walkStep ops r = some (markFull (hasFields r) ops) := by
  unfold walkStep
  cases hc : r.cls <;> rw [hc] at hd <;> simp [Cls.isData] at hd <;> simp only [hok, if_true]

theorem const_ok (k : Option Int) (r : MainRec) (h : r.isConst = true) : dataOK k r = true ∧ hasFields r = true := by
  simp [dataOK, hasFields, h]

theorem recOf_ok {id : Int} {v : Value} {r : MainRec} (hr : RecOf id v r) (hm : v.Made)
    (hc : constFlag v.flags = false) (hw : wrapped v = false) (k : Option Int)
    (hv : valueReadable k v = true) : dataOK k r = true ∧ hasFields r = true ∧ 0 < r.g .reportCount := by
  obtain ⟨r1, r2, r3, r4, r5, r6, r7⟩ := hr
  have hb : bitSet v.flags.toInt 0 = false := hc
  unfold valueReadable at hv
  rw [hb, Bool.false_or, Bool.and_eq_true] at hv
  obtain ⟨hcnt, hv⟩ := hv
  have hcnt : 0 < v.count := by simpa using hcnt
  have hconst : r.isConst = false := by
    rw [bitSet_zero] at hb
    unfold MainRec.isConst; rw [r2]; exact hb
  have hidx : ∀ x : Int, (indices x).length ≤ 1 := by intro x; unfold indices; split <;> simp
  have huni : r.uniform = true := by
    unfold MainRec.uniform; rw [r4, r5]; simp [hidx]
  have hlmin : r.g .logMin = v.logicalMin.getD 0 := r7 .logMin (by simp [fieldTags])
  have hlmax : r.g .logMax = v.logicalMax.getD 0 := r7 .logMax (by simp [fieldTags])
  refine ⟨?_, ?_, by rw [r6]; exact hcnt⟩
  · unfold dataOK
    rw [hconst, Bool.false_or]
    by_cases he : arrayUsages v.namedArray = []
    · rw [he] at hv
      simp only [List.isEmpty_nil, if_true, decide_eq_true_eq] at hv
      have hus : r.usages = (usageOf v.usage).toList := by rw [r3]; simp [fieldUsages, he]
      have hfull : r.full = false := by
        unfold MainRec.full; rw [hus, hlmin, hlmax]; simpa using hv
      have hlen : r.usages.length ≤ 1 := by rw [hus]; cases usageOf v.usage <;> simp
      simp [hfull, huni, hlen]
    · have hee : (arrayUsages v.namedArray).isEmpty = false := by simpa using he
      rw [hee] at hv
      simp only [Bool.false_eq_true, if_false, Bool.and_eq_true, decide_eq_true_eq] at hv
      obtain ⟨⟨hu, hx⟩, hk⟩ := hv
      obtain ⟨named, hn, f1, -⟩ := hm.facts
      have hus := NamedArray.truth_eq hn
      have hnt : named = true := by rw [hus]; simpa using he
      have hnou : usageOf v.usage = none := by
        simp only [wrapped, hc, Bool.not_false, Bool.true_and, hee, Option.isSome_eq_false_iff,
          Option.isNone_iff_eq_none] at hw
        exact hw
      obtain ⟨hfl, lo, h1, h2⟩ := f1 hnt
      have hg : usageGiven v.usage = false := by rw [usageOf_given, hnou]; rfl
      rw [hg] at hfl
      simp only [Bool.false_eq_true, if_false] at hfl
      have huse : r.usages = arrayUsages v.namedArray := by rw [r3]; simp [fieldUsages, he]
      have hfull : r.full = true := by
        unfold MainRec.full; rw [huse, hlmin, hlmax, h1, h2]; simp; omega
      have hval : r.val = 0 := by rw [r2, hfl]
      have hphys : physOf v = (0, 0) := by simp [physOf, he]
      have hp1 : r.g .physMin = 0 := by rw [r7 .physMin (by simp [fieldTags])]; simp [fieldOf, hphys]
      have hp2 : r.g .physMax = 0 := by rw [r7 .physMax (by simp [fieldTags])]; simp [fieldOf, hphys]
      have hunit : r.g .unit = 0 := by rw [r7 .unit (by simp [fieldTags])]; exact hu
      have hexp : r.g .unitExp = 0 := by rw [r7 .unitExp (by simp [fieldTags])]; exact hx
      simp only [hfull, hval, huni, hunit, hexp, MainRec.attrs, hp1, hp2, huse, hee, r6]
      simp only [Bool.or_eq_true, bne_iff_ne, ne_eq, Bool.and_eq_true] at hk
      rcases hk with hk | hk
      · simp [hk]
      · simp [hk]
  · unfold hasFields
    rw [r6]; simp [hcnt]

theorem pad_walk {h : Host} (hcl : Clean h) (w : Way) (p : Int) (X : List SItem)
    {ops ops' : List (Int × Bool)} (hle : FlagsLE ops ops') :
    ∃ h' ops'', Clean h' ∧ h'.g .reportID = h.g .reportID ∧ FlagsLE (markFull (p != 0) ops) ops'' ∧
      FlagsLE ops ops'' ∧
      walk ops' (recs .atUsage h (padKeys w p ++ X)) = walk ops'' (recs .atUsage h' X) ∧
      ((∀ r ∈ recs .atUsage h' X, CountOK r) → ∀ r ∈ recs .atUsage h (padKeys w p ++ X), CountOK r) := by
  unfold padKeys
  by_cases hp : p = 0
  · rw [if_pos hp]
    refine ⟨h, ops', hcl, rfl, ?_, hle, rfl, fun h => h⟩
    rw [hp]; simp only [bne_self_eq_false, markFull_false]; exact hle
  · rw [if_neg hp]
    obtain ⟨r, h', hr, h1, h2, h3, h4⟩ := const_rec h hcl w 1 p 3 (by decide) X
    have hr1 : r.cls.isData = true := by
      have hh : recs .atUsage h ([(.reportCount, 1), (.reportSize, p), (w.cls, 3)] ++ X) = _ := hr
      rw [recs_append, recs_cons, recs_cons, recs_cons, if_neg (by simp [Cls.kind]), if_neg (by simp [Cls.kind]),
        if_pos (way_kind w)] at hh
      simp only [recs_nil, List.nil_append, List.append_nil, List.singleton_append, List.cons.injEq] at hh
      rw [← hh.1]; exact way_data w
    refine ⟨h', markFull true ops', h1, h2, flagsLE_mark hle (by simp), ?_, ?_, ?_⟩
    · have := flagsLE_mark hle (a := false) (b := true) (by simp)
      rwa [markFull_false] at this
    · rw [hr, walk_cons, walkStep_data _ r hr1 (const_ok _ r h3).1, (const_ok none r h3).2]
    · intro hX a ha
      rw [hr] at ha
      rcases List.mem_cons.1 ha with rfl | ha
      · exact fun _ => Or.inr h3
      · exact hX a ha

theorem tree_walk (ts : List Tok) (c : Count) (last : Int) (h : Host) (ops ops' : List (Int × Bool))
    (hcl : Clean h) (hle : FlagsLE ops ops') (hr : readable ops ts = true)
    (hkind : ∀ k u, Tok.enter k u ∈ ts → 0 ≤ k.toInt)
    (hm : ∀ v, Tok.leaf (.value v) ∈ ts → v.Made ∧ (arrayUsages v.namedArray ≠ [] → usageOf v.usage = none)) :
    walk ops' (recs .atUsage h (treeKeys c last ts)) = some [] ∧
      ∀ r ∈ recs .atUsage h (treeKeys c last ts), CountOK r := by
  induction ts generalizing c last h ops ops' with
  | nil =>
    refine ⟨?_, by simp [treeKeys]⟩
    simp only [readable, List.isEmpty_iff] at hr
    subst hr
    cases ops' with
    | nil => rfl
    | cons y q => exact absurd hle (fun h => h)
  | cons t ts ih =>
    have hm' : ∀ v, Tok.leaf (.value v) ∈ ts → v.Made ∧
        (arrayUsages v.namedArray ≠ [] → usageOf v.usage = none) := fun v hv => hm v (by simp [hv])
    have ih := fun c last h ops ops' hcl hle hr => ih c last h ops ops' hcl hle hr
      (fun k u h => hkind k u (by simp [h])) hm'
    cases t with
    | report i =>
      rw [treeKeys, recs_append]
      by_cases hi : i = 0
      · simp only [hi, if_true, recs_nil, List.nil_append]
        exact ih c 0 h ops ops' hcl hle hr
      · simp only [hi, if_false]
        rw [recs_no_main _ _ _ (by simp [Cls.kind]), List.nil_append]
        exact ih c i _ ops ops' ⟨hcl.1, hcl.2.1, hcl.2.2.1, by simpa [Host.step] using hcl.2.2.2⟩ hle hr
    | endReport => exact ih c last h ops ops' hcl hle hr
    | enter k u =>
      rw [treeKeys, wrapKind_nonneg (hkind k u (List.mem_cons_self ..)), recs_cons, if_neg (by simp [Cls.kind]),
        recs_cons, if_pos (by simp [Cls.kind])]
      simp only [List.nil_append, List.singleton_append]
      have hstep : walkStep ops' ((h.step .atUsage (.usage, (u.map PyVal.toInt).getD 0)).main .atUsage
          (.collection, k.toInt)) = some ((k.toInt, false) :: ops') := by
        unfold walkStep
        simp [Host.main, Host.step, hcl.2.1, hcl.2.2.1, Decl.values]
      rw [walk_cons, hstep]
      obtain ⟨h1, h2⟩ := ih c last
        ((h.step .atUsage (.usage, (u.map PyVal.toInt).getD 0)).step .atUsage (.collection, k.toInt))
        ((k.toInt, false) :: ops) ((k.toInt, false) :: ops') ⟨rfl, rfl, rfl, hcl.2.2.2⟩ ⟨rfl, by simp, hle⟩ hr
      refine ⟨h1, ?_⟩
      intro r hrr
      rcases List.mem_cons.1 hrr with rfl | hrr
      · intro hd; simp [Host.main, Cls.isData] at hd
      · exact h2 r hrr
    | leave =>
      rw [treeKeys, recs_cons, if_pos (by simp [Cls.kind])]
      simp only [List.singleton_append]
      rw [readable.eq_def] at hr
      simp only at hr
      split at hr
      · rename_i k o
        cases ops' with
        | nil => exact absurd hle (fun h => h)
        | cons y q =>
          obtain ⟨k', b⟩ := y
          have hb : b = true := hle.2.1 rfl
          subst hb
          have hstep : walkStep ((k', true) :: q) (h.main .atUsage (.endCollection, 0)) =
              some (markFull true q) := rfl
          rw [walk_cons, hstep]
          obtain ⟨h1, h2⟩ := ih c last (h.step .atUsage (.endCollection, 0)) (markFull true o) (markFull true q)
            ⟨rfl, rfl, rfl, hcl.2.2.2⟩ (flagsLE_mark hle.2.2 (fun h => h)) hr
          refine ⟨h1, ?_⟩
          intro r hrr
          rcases List.mem_cons.1 hrr with rfl | hrr
          · intro hd; simp [Host.main, Cls.isData] at hd
          · exact h2 r hrr
      · simp at hr
    | leaf l =>
      rw [treeKeys, leafKeys, List.append_assoc]
      obtain ⟨h', ops'', hcl', hid', hle1, hle2, hwalk, hcount⟩ := pad_walk hcl l.way (padBefore (c l.way last) l)
        (ownKeys l ++ treeKeys (c.add last l) last ts) hle
      rw [hwalk]
      refine And.imp_right hcount ?_
      cases l with
      | align w b => exact ih _ last h' ops ops'' hcl' hle2 hr
      | padding w s => exact ih _ last h' _ ops'' hcl' hle1 hr
      | value v =>
        simp only [ownKeys]
        rw [readable, Bool.and_eq_true] at hr
        obtain ⟨hv, hr⟩ := hr
        obtain ⟨hmade, hnu⟩ := hm v (by simp)
        have hmark : ∀ b, b = true → FlagsLE (markFull true ops) (markFull b ops'') := fun b hb =>
          flagsLE_mark hle2 (fun _ => hb)
        by_cases hc : constFlag v.flags = true
        · have hk : valKeys v = [(.reportCount, v.count), (.reportSize, v.size), (v.way.cls, v.flags.toInt)] := by
            simp [valKeys, hc]
          have hodd : v.flags.toInt % 2 = 1 := by
            unfold constFlag at hc; rw [bitSet_zero] at hc; simpa using hc
          rw [hk, recs_append, recs_cons, recs_cons, recs_cons, if_neg (by simp [Cls.kind]),
            if_neg (by simp [Cls.kind]), if_pos (way_kind _)]
          simp only [recs_nil, List.nil_append, List.append_nil, List.singleton_append]
          rw [walk_cons]
          generalize hrec : Host.main _ _ (v.way.cls, v.flags.toInt) = r
          have hr1 : r.cls.isData = true := by rw [← hrec]; exact way_data v.way
          have hr2 : r.isConst = true := by rw [← hrec]; simp [MainRec.isConst, Host.main, hodd]
          rw [walkStep_data _ r hr1 (const_ok _ r hr2).1]
          obtain ⟨h1, h2⟩ := ih (c.add last (.value v)) last
            (h'.after .atUsage [(.reportCount, v.count), (.reportSize, v.size), (v.way.cls, v.flags.toInt)])
            (markFull true ops) (markFull (hasFields r) ops'')
            (by simp only [after_cons, after_nil, way_step]
                exact ⟨rfl, rfl, rfl, by simpa [Host.step] using hcl'.2.2.2⟩)
            (hmark _ (const_ok none r hr2).2) hr
          refine ⟨h1, ?_⟩
          intro a ha
          rcases List.mem_cons.1 ha with rfl | ha
          · exact fun _ => Or.inr hr2
          · exact h2 a ha
        · have hc' : constFlag v.flags = false := by simpa using hc
          have hw : wrapped v = false := by
            unfold wrapped
            by_cases he : arrayUsages v.namedArray = []
            · simp [he]
            · simp [hnu he]
          obtain ⟨r, hr0, hrec, g1, g2⟩ := plain_rec h' hcl' v hc' hw
          rw [recs_append, hr0, List.singleton_append, walk_cons]
          obtain ⟨d1, d2, d3⟩ := recOf_ok hrec hmade hc' hw (ops''.head?.map (·.1))
            (by rw [← flagsLE_head hle2]; exact hv)
          rw [walkStep_data _ r (by rw [hrec.1]; exact way_data _) d1]
          obtain ⟨h1, h2⟩ := ih (c.add last (.value v)) last _ (markFull true ops) (markFull (hasFields r) ops'')
            g1 (hmark _ d2) hr
          refine ⟨h1, ?_⟩
          intro a ha
          rcases List.mem_cons.1 ha with rfl | ha
          · exact fun _ => Or.inl d3
          · exact h2 a ha

/-! ## The last main item -/

theorem walk_last (rs : List MainRec) (ops ops' : List (Int × Bool)) (hw : walk ops rs = some ops') (r : MainRec)
    (hl : rs.getLast? = some r) (hc : r.cls = .collection) : ops' ≠ [] := by
  induction rs generalizing ops with
  | nil => simp at hl
  | cons a rs ih =>
    rw [walk_cons] at hw
    cases hs : walkStep ops a with
    | none => rw [hs] at hw; simp at hw
    | some o =>
      rw [hs] at hw
      simp only at hw
      cases rs with
      | nil =>
        simp at hl; subst hl
        simp only [walk, Option.some.injEq] at hw
        subst hw
        unfold walkStep at hs
        rw [hc] at hs
        simp only at hs
        split at hs
        · simp at hs; rw [← hs]; simp
        · simp at hs
      | cons b rs => exact ih o hw (by simpa using hl)

theorem trailing_last (rule : PageRule) (xs : List SItem) (h : Host) (b : Bool) (hk : trailingK b xs = true) :
    (recs rule h xs = [] ∧ b = true) ∨
      ∃ r, (recs rule h xs).getLast? = some r ∧ r.cls.isData = false ∧ r.cls.kind = .main := by
  induction xs generalizing h b with
  | nil => exact Or.inl ⟨rfl, hk⟩
  | cons i xs ih =>
    rw [trailingK] at hk
    rw [recs_cons]
    by_cases hm : i.1.kind = .main
    · rw [if_pos hm] at hk ⊢
      rcases ih (h.step rule i) _ hk with ⟨h1, h2⟩ | ⟨r, h1, h2⟩
      · refine Or.inr ⟨h.main rule i, by rw [h1]; simp, ?_⟩
        simp only [Host.main]
        exact ⟨by simpa using h2, hm⟩
      · refine Or.inr ⟨r, ?_, h2⟩
        simp only [List.singleton_append]
        cases hx : recs rule (h.step rule i) xs with
        | nil => rw [hx] at h1; simp at h1
        | cons a l => rw [hx] at h1; simpa using h1
    · rw [if_neg hm] at hk ⊢
      simp only [List.nil_append]
      exact ih _ _ hk

/-- Compiled trees that are readable can be decompiled. -/
theorem tree_extractable {reg : Registry} {n : Node} {items : List Item} (h : compile reg n = .ok items)
    (hk : ∀ k u, Tok.enter k u ∈ tokens n → 0 ≤ k.toInt)
    (hm : ∀ v, Tok.leaf (.value v) ∈ tokens n → v.Made ∧
      (arrayUsages v.namedArray ≠ [] → usageOf v.usage = none))
    (hr : readable [] (tokens n) = true) (he : endsClosed false (tokens n) = true) :
    Extractable (keys items) ∧ ∀ r ∈ recs .atMain {} (keys items), CountOK r := by
  have hkeys := compile_keys h
  have hplain : ∀ k ∈ keys items, Plain ((tokens n).flatMap tokUsages) k := by
    rw [hkeys]
    exact treeKeys_plain _ _ _ _ (fun t ht u hu => List.mem_flatMap.2 ⟨t, ht, hu⟩)
  have hno : ∀ c ∈ [Cls.usagePage, .push, .pop, .usageMin, .usageMax, .strMin, .strMax, .desigMin, .desigMax],
      ∀ i ∈ keys items, i.1 ≠ c := by
    intro c hc i hi he
    have := hplain i hi
    simp only [List.mem_cons, List.not_mem_nil, or_false] at hc
    rcases hc with rfl | rfl | rfl | rfl | rfl | rfl | rfl | rfl | rfl <;> simp [Plain, he] at this
  have hrecs : recs .atMain {} (keys items) = recs .atUsage {} (keys items) :=
    recs_noPage _ _ rfl (fun i hi => ⟨hno .usagePage (by simp) i hi, hno .push (by simp) i hi,
      hno .pop (by simp) i hi⟩)
  obtain ⟨hw, hco⟩ := tree_walk (tokens n) (fun _ _ => 0) 0 {} [] [] ⟨rfl, rfl, rfl, rfl⟩ trivial hr hk hm
  rw [← hkeys] at hw hco
  rw [hrecs]
  refine ⟨⟨fun i hi => ⟨hno .push (by simp) i hi, hno .pop (by simp) i hi⟩, ?_, ?_, ?_, by rw [hrecs]; exact hw, ?_⟩,
    hco⟩
  · exact oneRange_single _ _ _ (fun i hi => ⟨hno .usageMin (by simp) i hi, hno .usageMax (by simp) i hi⟩)
  · exact oneRange_single _ _ _ (fun i hi => ⟨hno .strMin (by simp) i hi, hno .strMax (by simp) i hi⟩)
  · exact oneRange_single _ _ _ (fun i hi => ⟨hno .desigMin (by simp) i hi, hno .desigMax (by simp) i hi⟩)
  · rw [hrecs]
    have htr : trailingK false (keys items) = true := by
      rw [hkeys]; exact tree_trailing (tokens n) _ 0 false he
    rcases trailing_last .atUsage (keys items) {} false htr with ⟨-, hb⟩ | ⟨r, hl, hd, hkind⟩
    · simp at hb
    · unfold endsClosedRec
      rw [hl]
      simp only [beq_iff_eq]
      cases hc : r.cls <;> rw [hc] at hd hkind <;> simp [Cls.isData] at hd <;> simp [Cls.kind] at hkind
      exact absurd rfl (walk_last _ _ _ hw r hl hc)

/-! ## Alignment of a tree -/

theorem missing_aligned (m b : Int) (off : Nat) (hb : b > 1) (hm : m ∣ b) :
    ((off + missing b off : Nat) : Int) % m = 0 := by
  unfold missing
  rw [if_pos hb]
  have h1 : 0 ≤ (-(off : Int)) % b := Int.emod_nonneg _ (by omega)
  rw [Int.natCast_add, Int.toNat_of_nonneg h1]
  apply Int.emod_eq_zero_of_dvd
  apply Int.dvd_trans hm
  have h2 := Int.emod_add_mul_ediv (-(off : Int)) b
  refine ⟨-(-(off : Int) / b), ?_⟩
  rw [Int.mul_neg]; omega

theorem aligned_pads (off : Cls → Int → Nat) (w : Cls) (id : Int) (n : Nat) :
    alignedFrom off (List.replicate n (.padBit w id)) = true := by
  induction n generalizing off with
  | zero => rfl
  | succ n ih => rw [List.replicate_succ, alignedFrom, ih]; rfl

theorem aligned_controls (w : Cls) (f id : Int) (a : Attrs) (what : List Selector) (n : Nat)
    (hs : 0 ≤ a.size) (hn : n ≤ 1 ∨ a.size ≤ 1 ∨ min 8 a.size ∣ a.size) (off : Cls → Int → Nat)
    (ho : a.size > 1 → (off w id : Int) % min 8 a.size = 0) :
    alignedFrom off (List.replicate n (.control w f id a what)) = true := by
  induction n generalizing off with
  | zero => rfl
  | succ n ih =>
    rw [List.replicate_succ, alignedFrom, Bool.and_eq_true]
    refine ⟨by simp only [Event.aligned, decide_eq_true_eq]; exact ho, ?_⟩
    cases n with
    | zero => rfl
    | succ n =>
      have hn' : a.size ≤ 1 ∨ min 8 a.size ∣ a.size := by
        rcases hn with h | h | h
        · omega
        · exact Or.inl h
        · exact Or.inr h
      refine ih (Or.inr hn') _ ?_
      intro h1
      have h2 : min 8 a.size ∣ a.size := by
        rcases hn' with h | h
        · omega
        · exact h
      have h3 := Int.dvd_of_emod_eq_zero (ho h1)
      apply Int.emod_eq_zero_of_dvd
      simp only [Event.bits, and_self, if_true, Int.natCast_add]
      rw [Int.toNat_of_nonneg hs]
      exact Int.dvd_add h3 h2

theorem place_aligned (ps : List Piece) (off : Layout) (off' : Cls → Int → Nat)
    (ho : ∀ (w : Way) i, off' w.cls i = off w i)
    (hp : ∀ id v, Piece.leaf id (.value v) ∈ ps → 0 ≤ v.size ∧ selfAligned v = true ∧
      (arrayUsages v.namedArray ≠ [] → usageOf v.usage = none)) :
    alignedFrom off' (place off ps) = true := by
  induction ps generalizing off off' with
  | nil => rfl
  | cons p ps ih =>
    have ih := fun off off' ho => ih off off' ho (fun id v h => hp id v (by simp [h]))
    cases p with
    | enter k u =>
      rw [place, alignedFrom, Event.aligned.eq_def]
      exact ih _ _ (by intro w i; simp [Event.bits, ho])
    | leave =>
      rw [place, alignedFrom, Event.aligned.eq_def]
      exact ih _ _ (by intro w i; simp [Event.bits, ho])
    | leaf id l =>
      rw [place, alignedFrom_append, Bool.and_eq_true, leafEvents_eq, alignedFrom_append, Bool.and_eq_true]
      have hpads : ∀ w' i, reportBits w' i (List.replicate (room (off l.way id) l).1 (.padBit l.way.cls id)) =
          if l.way.cls = w' ∧ id = i then (room (off l.way id) l).1 else 0 := by
        intro w' i
        simp only [reportBits, List.map_replicate, sum_replicate, Event.bits]
        split <;> simp
      have hlayout : ∀ (own : List Event), (∀ w' i, reportBits w' i own =
          if l.way.cls = w' ∧ id = i then (room (off l.way id) l).2 else 0) →
          ∀ (w : Way) i, off' w.cls i + reportBits w.cls i
            (List.replicate (room (off l.way id) l).1 (.padBit l.way.cls id) ++ own) = off.add id l w i := by
        intro own hown w i
        rw [reportBits_append, hpads, hown, ho]
        unfold Layout.add
        by_cases hh : w = l.way ∧ i = id
        · obtain ⟨rfl, rfl⟩ := hh
          simp; omega
        · have hno : ¬ (l.way.cls = w.cls ∧ id = i) := fun ⟨x, y⟩ => hh ⟨(way_cls_inj x).symm, y.symm⟩
          simp only [hno, hh, if_false]; omega
      cases l with
      | align w b => exact ⟨⟨aligned_pads _ _ _ _, rfl⟩, ih _ _ (hlayout [] (by simp [reportBits, room]))⟩
      | padding w s => exact ⟨⟨aligned_pads _ _ _ _, rfl⟩, ih _ _ (hlayout [] (by simp [reportBits, room]))⟩
      | value v =>
        obtain ⟨hsz, hself, hnu⟩ := hp id v (by simp)
        have hval : (∃ n, valueEvents id v = List.replicate n (.padBit v.way.cls id) ∧
              n = v.size.toNat * v.count.toNat) ∨
            (bitSet v.flags.toInt 0 = false ∨ arrayUsages v.namedArray ≠ []) ∧ ∃ f a what, a.size = v.size ∧
              valueEvents id v = List.replicate v.count.toNat (.control v.way.cls f id a what) := by
          rw [valueEvents_eq]
          split
          · cases hb : bitSet v.flags.toInt 0 with
            | true => exact Or.inl ⟨_, rfl, rfl⟩
            | false => exact Or.inr ⟨Or.inl rfl, _, _, _, rfl, rfl⟩
          · rename_i hne
            rw [hnu hne]
            exact Or.inr ⟨Or.inr hne, 0, _, _, rfl, rfl⟩
        have hb : ∀ w' i, reportBits w' i (valueEvents id v) =
            if (Leaf.value v).way.cls = w' ∧ id = i then (room (off (Leaf.value v).way id) (.value v)).2 else 0 := by
          intro w' i
          rcases hval with ⟨n, e, hn⟩ | ⟨-, f, a, what, hs, e⟩
          · rw [e, hn]
            simp only [reportBits, List.map_replicate, sum_replicate, Event.bits, Leaf.way, room]
            by_cases hh : v.way.cls = w' ∧ id = i <;> simp [hh]
          · rw [e]
            simp only [reportBits, List.map_replicate, sum_replicate, Event.bits, Leaf.way, room, hs]
            by_cases hh : v.way.cls = w' ∧ id = i <;> simp [hh, Nat.mul_comm]
        refine ⟨⟨aligned_pads _ _ _ _, ?_⟩, ih _ _ (hlayout _ hb)⟩
        show alignedFrom _ (valueEvents id v) = true
        rcases hval with ⟨n, e, -⟩ | ⟨hnc, f, a, what, hs, e⟩
        · rw [e]; exact aligned_pads _ _ _ _
        · rw [e]
          by_cases hone : v.size ≤ 1
          · exact aligned_controls _ _ _ _ _ _ (by omega) (Or.inr (Or.inl (by omega))) _ (by omega)
          · simp only [selfAligned, Bool.or_eq_true, Bool.and_eq_true, decide_eq_true_eq, hone, or_false,
              List.isEmpty_iff] at hself
            have hself' : ¬ (bitSet v.flags.toInt 0 = true ∧ arrayUsages v.namedArray = []) := by
              rintro ⟨x, y⟩
              rcases hnc with z | z
              · rw [x] at z; simp at z
              · exact z y
            rcases hself with hself | hself
            · exact absurd hself hself'
            obtain ⟨⟨h1, h2⟩, h3⟩ := hself
            refine aligned_controls _ _ _ _ _ _ (by omega) ?_ _ ?_
            · rw [hs]
              rcases h3 with h3 | h3
              · left; omega
              · exact Or.inr (Or.inr h3)
            · intro _
              rw [hs, hpads, ho]
              simp only [Leaf.way, and_self, if_true, room]
              exact missing_aligned _ _ _ h1 h2

end Extractor
end Hrdc
