import Verif.Proofs.OptExtract3
import Verif.Props.Compile3
import Verif.Props.Streams
import Verif.Props.Commands
/-!
# C41: compiling with optimization and decompiling
-/
namespace Hrdc
open Spec Optimizer Extractor Streamer MR

theorem tree_data (ts : List Tok) : ∀ (c : Count) (last : Int) (h : Host), Clean h →
    (∀ v, Tok.leaf (.value v) ∈ ts → arrayUsages v.namedArray ≠ [] → usageOf v.usage = none) →
    ∀ r ∈ recs .atUsage h (treeKeys c last ts), r.cls.isData = true → r.isConst = true ∨
      ∃ id v, Tok.leaf (.value v) ∈ ts ∧ constFlag v.flags = false ∧ RecOf id v r := by
  induction ts with
  | nil => intro c last h _ _ r hr; simp [treeKeys] at hr
  | cons t ts ih =>
    intro c last h hcl hm r hr hd
    have ih : ∀ (c : Count) (last : Int) (h : Host), Clean h → r ∈ recs .atUsage h (treeKeys c last ts) →
        r.isConst = true ∨ ∃ id v, Tok.leaf (.value v) ∈ t :: ts ∧ constFlag v.flags = false ∧ RecOf id v r := by
      intro c last h hcl hr
      rcases ih c last h hcl (fun v hv => hm v (List.mem_cons_of_mem _ hv)) r hr hd with h | ⟨id, v, a, b⟩
      · exact Or.inl h
      · exact Or.inr ⟨id, v, List.mem_cons_of_mem _ a, b⟩
    cases t with
    | report i =>
      rw [treeKeys, recs_append] at hr
      by_cases hi : i = 0
      · simp only [hi, if_true, recs_nil, List.nil_append] at hr
        exact ih c 0 h hcl hr
      · simp only [hi, if_false] at hr
        rw [recs_no_main _ _ _ (by simp [Cls.kind]), List.nil_append] at hr
        refine ih c i _ ?_ hr
        exact ⟨hcl.1, hcl.2.1, hcl.2.2.1, by simpa [Host.step] using hcl.2.2.2⟩
    | endReport => exact ih c last h hcl hr
    | enter k u =>
      rw [treeKeys, recs_cons, if_neg (by simp [Cls.kind]), recs_cons, if_pos (by simp [Cls.kind])] at hr
      simp only [List.nil_append, List.singleton_append] at hr
      rcases List.mem_cons.1 hr with rfl | hr
      · simp [Host.main, Cls.isData] at hd
      · refine ih _ _ _ ?_ hr
        exact ⟨rfl, rfl, rfl, hcl.2.2.2⟩
    | leave =>
      rw [treeKeys, recs_cons, if_pos (by simp [Cls.kind])] at hr
      simp only [List.singleton_append] at hr
      rcases List.mem_cons.1 hr with rfl | hr
      · simp [Host.main, Cls.isData] at hd
      · refine ih _ _ _ ?_ hr
        exact ⟨rfl, rfl, rfl, hcl.2.2.2⟩
    | leaf l =>
      rw [treeKeys, leafKeys, List.append_assoc] at hr
      have hpad : ∃ h', Clean h' ∧ (r.isConst = true ∨ r ∈ recs .atUsage h' (ownKeys l ++ treeKeys (c.add last l) last ts)) := by
        unfold padKeys at hr
        by_cases hp : padBefore (c l.way last) l = 0
        · rw [if_pos hp] at hr
          exact ⟨h, hcl, Or.inr hr⟩
        · rw [if_neg hp] at hr
          obtain ⟨q, h', e, h1, -, h3, -⟩ := const_rec h hcl l.way 1 (padBefore (c l.way last) l) 3 (by decide)
            (ownKeys l ++ treeKeys (c.add last l) last ts)
          rw [e] at hr
          rcases List.mem_cons.1 hr with rfl | hr
          · exact ⟨h', h1, Or.inl h3⟩
          · exact ⟨h', h1, Or.inr hr⟩
      obtain ⟨h', hcl', hr | hr⟩ := hpad
      · exact Or.inl hr
      · cases l with
        | align w b => exact ih _ last h' hcl' hr
        | padding w s => exact ih _ last h' hcl' hr
        | value v =>
          simp only [ownKeys] at hr
          by_cases hc : constFlag v.flags = true
          · have hk : valKeys v = [(.reportCount, v.count), (.reportSize, v.size), (v.way.cls, v.flags.toInt)] := by
              simp [valKeys, hc]
            have hodd : v.flags.toInt % 2 = 1 := by
              unfold constFlag at hc; rw [bitSet_zero] at hc; simpa using hc
            obtain ⟨q, h2, e, h1, -, h3, -⟩ := const_rec h' hcl' v.way v.count v.size v.flags.toInt hodd
              (treeKeys (c.add last (.value v)) last ts)
            rw [hk, e] at hr
            rcases List.mem_cons.1 hr with rfl | hr
            · exact Or.inl h3
            · exact ih _ last h2 h1 hr
          · have hc' : constFlag v.flags = false := by simpa using hc
            have hw : wrapped v = false := by
              unfold wrapped
              by_cases he : arrayUsages v.namedArray = []
              · simp [he]
              · simp [hm v (by simp) he]
            obtain ⟨q, hr0, hrec, g1, g2⟩ := plain_rec h' hcl' v hc' hw
            rw [recs_append, hr0, List.singleton_append] at hr
            rcases List.mem_cons.1 hr with rfl | hr
            · exact Or.inr ⟨_, v, by simp, hc', hrec⟩
            · exact ih _ last _ g1 hr

/-- Trees that survive compilation with optimization and decompilation. -/
structure OptRoundTrip (n : Node) : Prop where
  /-- they survive compilation without optimization -/
  round : RoundTrip n
  /-- optimizing keeps what they mean -/
  opt : OptTree n
  /-- no single buffered byte -/
  buffered : ∀ v, Leaf.value v ∈ leaves n → constFlag v.flags = false → v.count = 1 → v.flags.toInt / 256 % 2 ≠ 1
  /-- arrays with strings or designators have usages -/
  arrays : ∀ v, Leaf.value v ∈ leaves n → constFlag v.flags = false → bitSet v.flags.toInt 1 = false →
    usageOf v.usage = none → arrayUsages v.namedArray = [] → v.string = 0 ∧ v.designator = 0
  /-- strings and designators are 16-bit -/
  small : ∀ v, Leaf.value v ∈ leaves n → v.string < 65536 ∧ v.designator < 65536

/-- Strings and designators are small. -/
def SmallIdx (k : SItem) : Prop :=
  k.1 ∈ [Cls.strIndex, .strMin, .strMax, .desigIndex, .desigMin, .desigMax] → k.2 < 65536

theorem way_small (w : Way) (x : Int) : SmallIdx (w.cls, x) := by cases w <;> simp [SmallIdx, Way.cls]

theorem valKeys_small {v : Value} (h1 : v.string < 65536) (h2 : v.designator < 65536) : ∀ k ∈ valKeys v, SmallIdx k := by
  intro k hk
  unfold valKeys at hk
  split at hk
  · simp only [List.mem_cons, List.not_mem_nil, or_false] at hk
    rcases hk with rfl | rfl | rfl
    · simp [SmallIdx]
    · simp [SmallIdx]
    · exact way_small _ _
  · simp only [fieldKeys, List.mem_append, List.mem_map, List.mem_cons, List.not_mem_nil, or_false] at hk
    rcases hk with (((⟨u, h, rfl⟩ | rfl | rfl) | h) | ((((⟨u, h, rfl⟩ | (rfl | rfl | rfl | rfl)) | h) | h) | (rfl | rfl | rfl))) | h
    · simp [SmallIdx]
    · simp [SmallIdx]
    · simp [SmallIdx]
    · rw [(mem_when h).1]; simp [SmallIdx]
    · simp [SmallIdx]
    · simp [SmallIdx]
    · simp [SmallIdx]
    · simp [SmallIdx]
    · simp [SmallIdx]
    · obtain ⟨rfl, -⟩ := mem_unless h; exact fun _ => h2
    · obtain ⟨rfl, -⟩ := mem_unless h; exact fun _ => h1
    · simp [SmallIdx]
    · simp [SmallIdx]
    · exact way_small _ _
    · rw [(mem_when h).1]; simp [SmallIdx]

theorem treeKeys_small (ts : List Tok) (c : Count) (last : Int)
    (hu : ∀ v, Tok.leaf (.value v) ∈ ts → v.string < 65536 ∧ v.designator < 65536) :
    ∀ k ∈ treeKeys c last ts, SmallIdx k := by
  induction ts generalizing c last with
  | nil => simp [treeKeys]
  | cons t ts ih =>
    have ih := fun c last => ih c last (fun v hv => hu v (List.mem_cons_of_mem _ hv))
    intro k hk
    cases t with
    | report i =>
      rw [treeKeys, List.mem_append] at hk
      rcases hk with hk | hk
      · split at hk
        · simp at hk
        · simp at hk; subst hk; simp [SmallIdx]
      · exact ih _ _ k hk
    | endReport => exact ih _ _ k hk
    | enter kk u =>
      rw [treeKeys, List.mem_cons, List.mem_cons] at hk
      rcases hk with rfl | rfl | hk
      · simp [SmallIdx]
      · simp [SmallIdx]
      · exact ih _ _ k hk
    | leave =>
      rw [treeKeys, List.mem_cons] at hk
      rcases hk with rfl | hk
      · simp [SmallIdx]
      · exact ih _ _ k hk
    | leaf l =>
      rw [treeKeys, List.mem_append] at hk
      rcases hk with hk | hk
      · unfold leafKeys at hk
        rw [List.mem_append] at hk
        rcases hk with hk | hk
        · unfold padKeys at hk
          split at hk
          · simp at hk
          · simp only [List.mem_cons, List.not_mem_nil, or_false] at hk
            rcases hk with rfl | rfl | rfl
            · simp [SmallIdx]
            · simp [SmallIdx]
            · exact way_small _ _
        · cases l with
          | value v => exact valKeys_small (hu v (by simp)).1 (hu v (by simp)).2 k hk
          | align => simp [ownKeys] at hk
          | padding => simp [ownKeys] at hk
      · exact ih _ _ k hk

theorem rm_noR (reg : Registry) (t t' : RangeTags) (hd : ∀ c ∈ [t'.lookup, t'.min, t'.max], c ≠ t.min ∧ c ≠ t.max)
    (ys : List Item) (h : ∀ i ∈ ys, i.cls ≠ t.min ∧ i.cls ≠ t.max) :
    ∀ i ∈ (rangeMerge reg t').run ys, i.cls ≠ t.min ∧ i.cls ≠ t.max := by
  refine keeps_rm (fun i => i.cls ≠ t.min ∧ i.cls ≠ t.max) reg t' ?_ ys h
  intro i _ _ c hc
  rw [build_cls]
  exact hd c hc

theorem rm_smallIdx (reg : Registry) (t : RangeTags) (hl : RangeTags.Local t)
    (ht : t.lookup ∈ [Cls.strIndex, .strMin, .strMax, .desigIndex, .desigMin, .desigMax] ∨
      ∀ c ∈ [t.lookup, t.min, t.max], c ∉ [Cls.strIndex, .strMin, .strMax, .desigIndex, .desigMin, .desigMax])
    (ys : List Item) (h : ∀ i ∈ ys, SmallIdx i.key) : ∀ i ∈ (rangeMerge reg t).run ys, SmallIdx i.key := by
  refine keeps_rm (fun i => SmallIdx i.key) reg t ?_ ys h
  intro i hi hc c hcm hcc
  have hcol : c ≠ .collection := by
    intro e; have := hl c hcm; rw [e] at this; simp [Cls.kind] at this
  rw [build_key _ _ _ hcol] at hcc ⊢
  rcases ht with ht | ht
  · exact hi (by rw [key_fst, hc]; exact ht)
  · exact absurd hcc (ht c hcm)

theorem rm_shape_other (reg : Registry) (t t' : RangeTags)
    (hd : ∀ c ∈ [t'.lookup, t'.min, t'.max], relevant (trip t) c = false) (ys : List Item)
    (h : shape (trip t) false false false (ys.map (·.cls)) = true) :
    shape (trip t) false false false (((rangeMerge reg t').run ys).map (·.cls)) = true := by
  rw [← h]
  apply shape_other
  apply rm_view_tags
  intro k hk
  exact hd k.1 hk

theorem indices_zero : indices 0 = [] := by decide

/-- The optimized items of such a tree can be decompiled. -/
theorem optimized_extractable {reg : Registry} {n : Node} {items : List Item} (h : compile reg n = .ok items)
    (hm : TreeMade n) (hn : NoNamedCollection n) (hk : KindsOK n) (ht : OptRoundTrip n)
    (hs : pageSteady false (keys (optimize reg items)) = true) :
    Extractable (keys (optimize reg items)) ∧ ∀ r ∈ recs .atMain {} (keys (optimize reg items)), CountOK r := by
  have hvals : ∀ v, Tok.leaf (.value v) ∈ tokens n → v.Made ∧
      (arrayUsages v.namedArray ≠ [] → usageOf v.usage = none) := fun v hv =>
    ⟨hm v (mem_leaves.2 hv), hn v (mem_leaves.2 hv)⟩
  obtain ⟨hex, hco⟩ := tree_extractable h hk hvals ht.round.readable ht.round.ends
  have hkeys := compile_keys h
  have hplain : ∀ k ∈ keys items, Streamer.Plain ((tokens n).flatMap tokUsages) k := by
    rw [hkeys]
    exact treeKeys_plain _ _ _ _ (fun t ht u hu => List.mem_flatMap.2 ⟨t, ht, hu⟩)
  have hno : ∀ c ∈ [Cls.usagePage, .push, .pop, .usageMin, .usageMax, .strMin, .strMax, .desigMin, .desigMax],
      ∀ i ∈ keys items, i.1 ≠ c := by
    intro c hc i hi he
    have := hplain i hi
    simp only [List.mem_cons, List.not_mem_nil, or_false] at hc
    rcases hc with rfl | rfl | rfl | rfl | rfl | rfl | rfl | rfl | rfl <;> simp [Streamer.Plain, he] at this
  have hrecs : recs .atMain {} (keys items) = recs .atUsage {} (keys items) :=
    recs_noPage _ _ rfl (fun i hi => ⟨hno .usagePage (by simp) i hi, hno .push (by simp) i hi,
      hno .pop (by simp) i hi⟩)
  have hsmall : ∀ i ∈ items, SmallIdx i.key := fun i hi => by
    have := treeKeys_small (tokens n) (fun _ _ => 0) 0 (fun v hv => ht.small v (mem_leaves.2 hv)) i.key
    rw [← hkeys] at this
    exact this (mem_keys.2 ⟨i, hi, rfl⟩)
  have hgood : Good (recs .atUsage {} (keys items)) := by
    rw [← hrecs]; exact ⟨hex.closed, hco, hex.ends⟩
  have hjoin : ∀ r ∈ recs .atUsage {} (keys items), JoinOK r := by
    intro r hr hd
    have hcount := hgood.2.1 r hr hd
    refine ⟨hcount, fun hc => ?_⟩
    rw [hkeys] at hr
    rcases tree_data (tokens n) _ 0 {} ⟨rfl, rfl, rfl, rfl⟩ (fun v hv => (hvals v hv).2) r hr hd with hc' | ⟨id, v, hv, hcf, hrec⟩
    · rw [hc] at hc'; simp at hc'
    · obtain ⟨r1, r2, r3, r4, r5, r6, -⟩ := hrec
      have hl := mem_leaves.2 hv
      refine ⟨fun h1 => ?_, fun hvar hus => ?_⟩
      · rw [r2]; exact ht.buffered v hl hcf (by rw [← r6]; exact h1)
      · rw [r3] at hus
        have hv2 : bitSet v.flags.toInt 1 = false := by
          rw [← hvar, MainRec.isVar, r2]; rfl
        have hus2 : usageOf v.usage = none ∧ arrayUsages v.namedArray = [] := by
          unfold fieldUsages at hus
          by_cases ha : arrayUsages v.namedArray = []
          · rw [if_pos ha] at hus
            exact ⟨by simpa using hus, ha⟩
          · rw [if_neg ha] at hus
            exact absurd hus ha
        obtain ⟨e1, e2⟩ := ht.arrays v hl hcf hv2 hus2.1 hus2.2
        rw [r4, r5, e1, e2]
        exact ⟨indices_zero, indices_zero⟩
  -- the passes one by one
  have hsafe := compiled_safe h ht.opt
  obtain ⟨m, hm0, hx0⟩ := tame_full hsafe.noPushPop hsafe.full
  let R : Item → Prop := fun i => SmallIdx i.key ∧ i.cls ∉ [Cls.usageMin, .usageMax, .strMin, .strMax, .desigMin, .desigMax]
  have hR0 : ∀ i ∈ items, R i := by
    intro i hi
    refine ⟨hsmall i hi, ?_⟩
    intro hc
    refine hno i.cls ?_ i.key (mem_keys.2 ⟨i, hi, rfl⟩) rfl
    simp only [List.mem_cons, List.not_mem_nil, or_false] at hc ⊢
    grind
  rw [optimize_eq] at hs ⊢
  obtain ⟨tail, htl, he⟩ := du_eq items hsafe.noDesig0
  have t1 := tame_du m items hx0
  have R1 := keeps_du R items hR0
  have erec : recs .atUsage {} (keys items) = recs .atUsage {} (keys (designatorUniq.run items)) := by
    conv => lhs; rw [he]
    exact recs_tail _ _ _ _ htl
  have m1 := hsafe.merge
  have c1 := hsafe.closed
  have p1 := hsafe.phys
  have r1 := hsafe.trail
  rw [erec] at m1 hgood hjoin
  rw [he, keys_append] at c1
  have c1 := rangesClosed_prefix _ _ _ _ c1
  rw [he] at p1
  have p1 := physSafe_prefix _ _ _ _ p1
  rw [he, trailing_tail _ _ _ htl] at r1
  clear hkeys hplain hno hrecs hsmall hR0 erec he hx0 hex hco hsafe
  generalize designatorUniq.run items = y1 at hs t1 R1 m1 c1 p1 r1 hgood hjoin ⊢
  have g2 := mm_good reg y1 c1 (full_tame hm0 t1).1 m1 hjoin hgood
  have t2 := tame_mm m reg y1 t1
  have R2 := keeps_mm R reg (fun v => ⟨by rw [build_key _ _ _ (by decide)]; simp [SmallIdx], by rw [build_cls]; decide⟩) y1 R1
  have p2 := physSafe_mm reg y1 r1 p1
  clear t1 R1 m1 c1 p1 r1 hgood hjoin
  generalize (mainMerge reg).run y1 = y2 at hs g2 t2 R2 p2 ⊢
  have g3 := pm_good y2 (full_tame hm0 t2).1 (C21_physical_merge_meaning_partial .atUsage y2 (full_tame hm0 t2).1 p2) g2
  have t3 := tame_pm m y2 t2
  have R3 := keeps_pm R y2 R2
  clear t2 R2 p2 g2
  generalize physicalMerge.run y2 = y3 at hs g3 t3 R3 ⊢
  have g4 : Good (recs .atUsage {} (keys (globalMerge.run y3))) := by
    have := globalMerge_recs .atUsage globalInit {} y3 (fun c j hj => globalInit_ok c j hj) (full_tame hm0 t3).1
    rw [show globalMerge.run y3 = globalMerge.runFrom globalInit y3 from rfl, this]
    exact g3
  have t4 := tame_gm m y3 t3
  have R4 := keeps_gm R y3 R3
  clear t3 R3 g3
  generalize globalMerge.run y3 = y4 at hs g4 t4 R4 ⊢
  have s4 : ∀ i ∈ y4, SmallIdx i.key := fun i hi => (R4 i hi).1
  have u4 : ∀ i ∈ y4, i.cls ≠ usageTags.min ∧ i.cls ≠ usageTags.max := fun i hi => by
    have := (R4 i hi).2
    simp only [List.mem_cons, List.not_mem_nil, or_false, not_or] at this
    exact ⟨this.1, this.2.1⟩
  have d4 : ∀ i ∈ y4, i.cls ≠ desigTags.min ∧ i.cls ≠ desigTags.max := fun i hi => by
    have := (R4 i hi).2
    simp only [List.mem_cons, List.not_mem_nil, or_false, not_or] at this
    exact ⟨this.2.2.2.2.1, this.2.2.2.2.2⟩
  have n4 : ∀ i ∈ y4, i.cls ≠ strTags.min ∧ i.cls ≠ strTags.max := fun i hi => by
    have := (R4 i hi).2
    simp only [List.mem_cons, List.not_mem_nil, or_false, not_or] at this
    exact ⟨this.2.2.1, this.2.2.2.1⟩
  clear R4
  -- strings
  have g5 : Good (recs .atUsage {} (keys ((rangeMerge reg strTags).run y4))) := by
    rw [rangeMerge_run_recs (strFamily .atUsage) reg {} y4 (fun i _ => ⟨fun _ => trivial, trivial⟩) trivial ⟨rfl, rfl⟩]
    exact g4
  have t5 := tame_rm m reg _ uniform_str y4 t4
  have s5 := rm_smallIdx reg strTags local_str (Or.inl (by decide)) y4 s4
  have u5 := rm_noR reg usageTags strTags (by decide) y4 u4
  have d5 := rm_noR reg desigTags strTags (by decide) y4 d4
  have ns5 := rm_run_shape reg strTags apart_str y4 n4
  clear g4 t4 s4 u4 d4 n4
  generalize (rangeMerge reg strTags).run y4 = y5 at hs g5 t5 s5 u5 d5 ns5 ⊢
  -- designators
  have g6 : Good (recs .atUsage {} (keys ((rangeMerge reg desigTags).run y5))) := by
    rw [rangeMerge_run_recs (desigFamily .atUsage) reg {} y5 (fun i _ => ⟨fun _ => trivial, trivial⟩) trivial ⟨rfl, rfl⟩]
    exact g5
  have t6 := tame_rm m reg _ uniform_desig y5 t5
  have s6 := rm_smallIdx reg desigTags local_desig (Or.inl (by decide)) y5 s5
  have u6 := rm_noR reg usageTags desigTags (by decide) y5 u5
  have ns6 := rm_shape_other reg strTags desigTags (by decide) y5 ns5
  have ds6 := rm_run_shape reg desigTags apart_desig y5 d5
  clear g5 t5 s5 u5 d5 ns5
  generalize (rangeMerge reg desigTags).run y5 = y6 at hs g6 t6 s6 u6 ns6 ds6 ⊢
  -- usages
  have g7 : Good (recs .atUsage {} (keys ((rangeMerge reg usageTags).run y6))) := by
    rcases (full_tame hm0 t6).2 with hl | hl
    · rw [rangeMerge_run_recs (usageFamily .atUsage) reg {} y6 (fun i hi => ⟨fun h => hl i hi (by
        rcases h with h | h | h <;> rw [h] <;> rfl), trivial⟩) trivial ⟨rfl, rfl⟩]
      exact g6
    · rw [rangeMerge_run_recs (zeroFamily .atUsage) reg {} y6
        (fun i hi => ⟨fun _ => trivial, fun h => (hl i hi).2 h⟩) ⟨rfl, by simp⟩ ⟨rfl, rfl⟩]
      exact g6
  have t7 := tame_rm m reg _ uniform_usage y6 t6
  have s7 := rm_smallIdx reg usageTags local_usage (Or.inr (by decide)) y6 s6
  have ns7 := rm_shape_other reg strTags usageTags (by decide) y6 ns6
  have ds7 := rm_shape_other reg desigTags usageTags (by decide) y6 ds6
  have us7 := rm_run_shape reg usageTags apart_usage y6 u6
  clear g6 t6 s6 u6 ns6 ds6
  generalize (rangeMerge reg usageTags).run y6 = y7 at hs g7 t7 s7 ns7 ds7 us7 ⊢
  -- pages
  obtain ⟨np7, fu7⟩ := full_tame hm0 t7
  have g8 : Good (recs .atUsage {} (keys ((usagePage reg).run y7))) := by
    rw [← good_canon _ (recs_kinds _ _ _)] at g7 ⊢
    have := usagePage_out reg none {} {} y7 (fu7.imp id (fun h => ⟨h, rfl⟩)) np7 ⟨fun _ _ => rfl, rfl, rfl, rfl⟩ (by simp)
    unfold outFrom at this
    rw [show (usagePage reg).run y7 = (usagePage reg).runFrom none y7 from rfl, this]
    exact g7
  have np8 := tame_up reg y7 np7
  have hst : recs .atMain {} (keys ((usagePage reg).run y7)) = recs .atUsage {} (keys ((usagePage reg).run y7)) :=
    steady_recs _ false {} {} ⟨rfl, rfl, rfl, rfl, rfl, fun _ => rfl⟩ hs
  have hmem := up_mem reg y7 none
  have hshape : ∀ t : RangeTags, relevant (trip t) .usagePage = false →
      shape (trip t) false false false (y7.map (·.cls)) = true →
      (∀ i ∈ (usagePage reg).run y7, i.cls = t.min ∨ i.cls = t.max → i.ival < 65536) →
      oneRange (trip t) false none none (keys ((usagePage reg).run y7)) = true := by
    intro t htp hsh hsm
    rw [oneRange_shape _ _ _ _ _ _ (by simp) (by simp)]
    · rw [← shape_filter]
      have hmap : ∀ zs : List Item, (keys zs).map (·.1) = zs.map (·.cls) := by
        intro zs; simp [keys]
      rw [hmap, show (usagePage reg).run y7 = (usagePage reg).runFrom none y7 from rfl, up_shape reg _ htp y7 none, shape_filter]
      exact hsh
    · intro i hi
      obtain ⟨j, hj, rfl⟩ := mem_keys.1 hi
      exact hsm j hj
  have hidx : ∀ i ∈ (usagePage reg).run y7, usageLike i.cls = false → i.cls ≠ .usagePage → SmallIdx i.key :=
    fun i hi h1 h2 => s7 i ((hmem i hi).2 h1 h2)
  refine ⟨⟨?_, ?_, ?_, ?_, ?_, ?_⟩, ?_⟩
  · intro k hk
    obtain ⟨i, hi, rfl⟩ := mem_keys.1 hk
    exact np8 i hi
  · refine hshape usageTags (by decide) us7 ?_
    intro i hi hc
    apply (hmem i hi).1
    rcases hc with hc | hc <;> rw [hc] <;> rfl
  · refine hshape strTags (by decide) ns7 ?_
    intro i hi hc
    refine hidx i hi ?_ ?_ ?_ <;> (try rw [key_fst]) <;> rcases hc with hc | hc <;> rw [hc] <;> decide
  · refine hshape desigTags (by decide) ds7 ?_
    intro i hi hc
    refine hidx i hi ?_ ?_ ?_ <;> (try rw [key_fst]) <;> rcases hc with hc | hc <;> rw [hc] <;> decide
  · rw [hst]; exact g8.1
  · rw [hst]; exact g8.2.2
  · rw [hst]; exact g8.2.1

theorem optimized_reads {reg : Registry} (reg' : Registry) {n : Node} {items : List Item}
    (h : compile reg n = .ok items) (hm : TreeMade n) (hn : NoNamedCollection n) (hk : KindsOK n)
    (hr : ReportsLast n) (a : Nat) (hf : CountsFit a n) (ht : OptRoundTrip n)
    (hs : pageSteady false (keys (optimize reg items)) = true) (xs : List Item) (hx : ∀ i ∈ xs, i.Made)
    (hxs : keys xs = keys (optimize reg items)) :
    ∃ t, extract reg' xs = .ok t ∧ treeMeaning t = treeMeaning n := by
  obtain ⟨hex, hco⟩ := optimized_extractable h hm hn hk ht hs
  have h30 := C30_optimized_steady_partial reg 0 100 n items h hm hn hk hr a hf ht.opt hs
  rw [← hxs] at hex hco
  rw [← show optimize reg items = (new reg 0 100 Pass.sink).run items from rfl, ← hxs] at h30
  obtain ⟨t, h1, -, h2, h3, -⟩ := extract_ok reg' xs hx hex
    (fun c => 0 < c) (by decide) (by
      intro r hr hd hc _
      rcases hco r hr hd with hc' | hc'
      · exact hc'
      · rw [hc] at hc'; simp at hc')
  refine ⟨t, h1, ?_⟩
  rw [h30] at h2
  rw [tree_bare (C := fun c => 0 < c) (fun _ h => h) h3, h2]
  rw [h2]
  refine place_aligned _ _ _ (fun _ _ => rfl) ?_
  intro id v hv
  rw [pieces_eq] at hv
  have hv' := scope_leaf _ _ _ _ hv
  exact ⟨sane_sizes _ _ _ (compile_exact .atUsage h).2 v hv', ht.round.aligned v (mem_leaves.2 hv'),
    hn v (mem_leaves.2 hv')⟩

/-- **C41 (partial).** The same with optimization: what the optimizer makes of the compiled descriptor decompiles to a
descriptor of the same meaning.  Beyond the conditions without optimization: those of C30, no page changes between a
usage and its main item (`C41_optimized_breaks`), no single buffered byte (`C41_optimized_buffered_breaks`).  Arrays
with a string or designator and no usage, and indices beyond 16 bits, are left out here, see `C41_bytes_iff`. -/
theorem C41_optimized_partial (reg reg' : Registry) (n : Node) (items : List Item)
    (h : compile reg n = .ok items) (hm : TreeMade n) (hn : NoNamedCollection n) (hk : KindsOK n)
    (hr : ReportsLast n) (a : Nat) (hf : CountsFit a n) (ht : OptRoundTrip n)
    (hs : pageSteady false (keys (optimize reg items)) = true) :
    ∃ t, extract reg' (optimize reg items) = .ok t ∧ treeMeaning t = treeMeaning n :=
  optimized_reads reg' h hm hn hk hr a hf ht hs _ (optimize_made reg items (compile_made h)) rfl

/-- **C41 (partial).** The bytes written by the compiler with its default optimization, parsed and decompiled, give a
descriptor of the same meaning. -/
theorem C41_optimized_bytes_partial (reg reg' : Registry) (n : Node) (b : List UInt8)
    (h : Compiler.main reg .binary true n = .ok (.bytes b)) (hm : TreeMade n) (hn : NoNamedCollection n)
    (hk : KindsOK n) (hr : ReportsLast n) (a : Nat) (hf : CountsFit a n) (ht : OptRoundTrip n)
    (hs : ∀ ks, readAll b = some ks → pageSteady false ks = true) :
    (Parser.blobParse reg' b).2 = none ∧
      ∃ t, extract reg' (Parser.blobParse reg' b).1 = .ok t ∧ treeMeaning t = treeMeaning n := by
  unfold Compiler.main at h
  split at h
  · simp at h
  · rename_i items hi
    simp only [if_true, Formatter.render] at h
    cases hb : Formatter.binary (Optimizer.optimize reg items) with
    | error e => rw [hb] at h; simp [Except.map] at h
    | ok b' =>
      rw [hb] at h
      simp [Except.map] at h
      subst h
      have hmade := optimize_made reg items (compile_made hi)
      obtain ⟨e1, e2⟩ := C07_stream_roundtrip reg' _ hmade b' hb
      refine ⟨e1, optimized_reads reg' hi hm hn hk hr a hf ht (hs _ (readAll_binary hmade hb)) _
        (parsed_items reg' b').1 e2⟩

theorem optRoundTrip_iff (n : Node) : OptRoundTrip n ↔ RoundTrip n ∧ OptTree n ∧
    (leaves n).all (fun l => match l with
      | .value v => (constFlag v.flags || ((v.count != 1 || v.flags.toInt / 256 % 2 != 1) &&
          (bitSet v.flags.toInt 1 || (usageOf v.usage).isSome || arrayUsages v.namedArray != [] ||
            (v.string == 0 && v.designator == 0)))) && decide (v.string < 65536 ∧ v.designator < 65536)
      | _ => true) = true := by
  rw [List.all_eq_true]
  constructor
  · intro h
    refine ⟨h.round, h.opt, ?_⟩
    intro l hl
    cases l with
    | value v =>
      have h1 := h.buffered v hl
      have h2 := h.arrays v hl
      have h3 := h.small v hl
      cases hc : constFlag v.flags <;> cases hb : bitSet v.flags.toInt 1 <;> cases hu : usageOf v.usage <;>
        simp_all <;> grind
    | align w b => rfl
    | padding w s => rfl
  · rintro ⟨a, b, c⟩
    refine ⟨a, b, ?_, ?_, ?_⟩ <;> intro v hv <;> have := c _ hv <;>
      simp only [Bool.and_eq_true, Bool.or_eq_true, decide_eq_true_eq, bne_iff_ne, ne_eq, beq_iff_eq] at this
    · intro hc h1
      simp [hc, h1] at this
      exact this.1.1
    · intro hc hb hu ha
      simp [hc, hb, hu, ha] at this
      exact this.1.2
    · exact this.2

instance (n : Node) : Decidable (OptRoundTrip n) := decidable_of_iff _ (optRoundTrip_iff n).symm

/-- Buttons, axes and keys of two reports: items are merged, ranges and pages made, and all reads back. -/
example : OptRoundTrip sampleTree ∧ ∃ b, Compiler.main [] .binary true sampleTree = .ok (.bytes b) ∧
    (readAll b).any (pageSteady false) = true := by
  refine ⟨by decide +kernel, ?_⟩
  have h : (match Compiler.main [] .binary true sampleTree with
    | .ok (.bytes b) => (readAll b).any (pageSteady false) | _ => false) = true := by decide +kernel
  revert h
  cases Compiler.main [] .binary true sampleTree with
  | error e => simp
  | ok d =>
    cases d with
    | bytes b => exact fun h => ⟨b, rfl, h⟩
    | _ => simp

/-- Two buffered bytes with usages become one item, in which the second usage is lost. -/
theorem C41_optimized_buffered_breaks : RoundTripBreaks (optimize []) (app [
    .value (mk { axis 0x10030 with flags := .int 0x102 }), .value (mk { axis 0x10031 with flags := .int 0x102 })]) = true ∧
    RoundTrip (app [.value (mk { axis 0x10030 with flags := .int 0x102 }), .value (mk { axis 0x10031 with flags := .int 0x102 })]) ∧
    OptTree (app [.value (mk { axis 0x10030 with flags := .int 0x102 }), .value (mk { axis 0x10031 with flags := .int 0x102 })]) := by
  decide +kernel

end Hrdc
