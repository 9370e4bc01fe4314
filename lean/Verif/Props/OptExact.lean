import Verif.Props.Merging
import Verif.Props.Bounds
import Verif.Props.Desigs
import Verif.Props.Compile3
/-!
# C25, C30: exactly when the optimizer keeps the meaning
-/
namespace Hrdc
open Spec Optimizer Streamer

/-- Merging keeps the meaning of every group. -/
def GroupsKept (xs : List SItem) : Prop :=
  (∀ g ∈ (runs {} {} xs).1, joined (total g) g = g.flatMap MainRec.events) ∧
  (runs {} {} xs).2.close = (runs {} {} xs).2.group.flatMap MainRec.events

/-- Every field has the physical bounds it had. -/
def BoundsKept (xs : List SItem) : Prop :=
  ∀ p ∈ physKept .atUsage {} 0 0 (fun _ => none) xs, p.1.bounded p.2.1 p.2.2

/-! ## Events without their physical bounds -/

/-- An event without physical bounds. -/
def noPhys : Event → Event
  | .control w f i a s => .control w f i { a with physMin := 0, physMax := 0 } s
  | e => e

/-- The attributes of a control are `a`. -/
def hasAttrs (a : Attrs) : Event → Prop
  | .control _ _ _ b _ => b = a
  | _ => True

theorem noPhys_inj {a : Attrs} {e f : Event} (he : hasAttrs a e) (hf : hasAttrs a f) (h : noPhys e = noPhys f) : e = f := by
  cases e <;> cases f <;> simp_all [noPhys, hasAttrs]

theorem map_noPhys_inj {a : Attrs} {l m : List Event} (hl : ∀ e ∈ l, hasAttrs a e) (hm : ∀ e ∈ m, hasAttrs a e)
    (h : l.map noPhys = m.map noPhys) : l = m := by
  induction l generalizing m with
  | nil => cases m <;> simp_all
  | cons e l ih =>
    cases m with
    | nil => simp at h
    | cons f m =>
      simp only [List.map_cons, List.cons.injEq] at h
      rw [noPhys_inj (hl e (by simp)) (hm f (by simp)) h.1,
        ih (fun e he => hl e (by simp [he])) (fun e he => hm e (by simp [he])) h.2]

theorem withPhys_noPhys (r : MainRec) (lo hi : Int) : (r.withPhys lo hi).events.map noPhys = r.events.map noPhys := by
  have hat : ({ (r.withPhys lo hi).attrs with physMin := 0, physMax := 0 } : Attrs) = { r.attrs with physMin := 0, physMax := 0 } := by
    simp [MainRec.withPhys, MainRec.attrs]
  have hw : (r.withPhys lo hi).what = r.what := rfl
  have hsel : (r.withPhys lo hi).selector = r.selector := rfl
  have hk : (r.withPhys lo hi).isConst = r.isConst := rfl
  have h1 : (r.withPhys lo hi).g .reportSize = r.g .reportSize := by simp [MainRec.withPhys]
  have h2 : (r.withPhys lo hi).g .reportCount = r.g .reportCount := by simp [MainRec.withPhys]
  have h3 : (r.withPhys lo hi).g .reportID = r.g .reportID := by simp [MainRec.withPhys]
  have hc : (r.withPhys lo hi).cls = r.cls := rfl
  have hv : (r.withPhys lo hi).val = r.val := rfl
  unfold MainRec.events
  rw [hk, h1, h2, h3, hc, hv, hw, hsel]
  cases r.cls <;> try rfl
  all_goals
    simp only []
    split
    · rfl
    · simp only [List.map_map]
      apply List.map_congr_left
      intro k _
      simp only [Function.comp, noPhys, hat]

theorem pm_noPhys (xs : List Item) (hp : NoPushPop xs) :
    (meaning .atUsage (keys (physicalMerge.run xs))).map noPhys = (meaning .atUsage (keys xs)).map noPhys := by
  obtain ⟨h1, h2⟩ := C21_exact .atUsage xs hp
  unfold meaning eventsFrom
  rw [h1, h2]
  generalize physKept .atUsage {} 0 0 (fun _ => none) (keys xs) = l
  induction l with
  | nil => rfl
  | cons p l ih =>
    simp only [List.map_cons, List.flatMap_cons, List.map_append]
    rw [withPhys_noPhys, ih]

theorem events_attrs (r : MainRec) : ∀ e ∈ r.events, hasAttrs r.attrs e := by
  intro e he
  unfold MainRec.events at he
  split at he
  · simp at he; subst he; trivial
  · simp at he; subst he; trivial
  · split at he
    · rw [List.eq_of_mem_replicate he]; trivial
    · obtain ⟨k, -, rfl⟩ := List.mem_map.1 he; rfl
  · split at he
    · rw [List.eq_of_mem_replicate he]; trivial
    · obtain ⟨k, -, rfl⟩ := List.mem_map.1 he; rfl
  · split at he
    · rw [List.eq_of_mem_replicate he]; trivial
    · obtain ⟨k, -, rfl⟩ := List.mem_map.1 he; rfl
  · simp at he

theorem members_attrs {h : Host} {g : List MainRec} (hm : Members h g) :
    ∃ a, (∀ e ∈ g.flatMap MainRec.events, hasAttrs a e) ∧ (∀ n, ∀ e ∈ joined n g, hasAttrs a e) ∧
      ∀ n, ∀ e ∈ (g.drop 1).flatMap (plainRec n), hasAttrs a e := by
  obtain ⟨c, v, hd, hg⟩ := hm
  have hat : ∀ r ∈ g, r.attrs = (h.main .atUsage (c, v)).attrs := by
    intro r hr
    have h4 := (hg r hr).2.2.2
    have e := fun t ht => (h4 t ht)
    unfold MainRec.attrs Host.main
    rw [e .reportSize (by simp [groupTags]), e .logMin (by simp [groupTags]), e .logMax (by simp [groupTags]),
      e .physMin (by simp [groupTags]), e .physMax (by simp [groupTags]), e .unit (by simp [groupTags]),
      e .unitExp (by simp [groupTags])]
  refine ⟨(h.main .atUsage (c, v)).attrs, ?_, ?_, ?_⟩
  · intro e he
    obtain ⟨r, hr, he⟩ := List.mem_flatMap.1 he
    rw [← hat r hr]
    exact events_attrs r e he
  · intro n e he
    cases g with
    | nil => simp [joined] at he
    | cons a t =>
      rw [← hat a (by simp)]
      have := events_attrs _ e he
      exact this
  · intro n e he
    obtain ⟨r, hr, he⟩ := List.mem_flatMap.1 he
    rw [← hat r (List.mem_of_mem_drop hr)]
    have := events_attrs _ e he
    exact this

/-- Removing physical bounds does not make up for what merging does. -/
theorem merge_apart (reg : Registry) (xs : List Item) (hp : NoPushPop xs) (hn : CountsPos xs)
    (hcl : rangesClosed .atUsage {} (keys xs) = true)
    (h : meaning .atUsage (keys (physicalMerge.run ((mainMerge reg).run xs))) = meaning .atUsage (keys xs)) :
    meaning .atUsage (keys ((mainMerge reg).run xs)) = meaning .atUsage (keys xs) := by
  have hp2 : NoPushPop ((mainMerge reg).run xs) := (tame_any _).1 (tame_mm .any reg xs ((tame_any xs).2 hp))
  have he := pm_noPhys _ hp2
  rw [h] at he
  rw [C20_iff reg xs hp hn hcl]
  rw [mm_run_exact reg xs hcl hp, mergedEvents] at he
  have hm := runs_events (keys xs) {} {}
  simp only [List.flatMap_nil, List.nil_append] at hm
  rw [meaning, hm, List.map_append, List.map_append, List.map_flatMap (l := (runs {} {} (keys xs)).1),
    List.map_flatMap (l := (runs {} {} (keys xs)).1)] at he
  obtain ⟨m1, h', m2⟩ := runs_members xs {} {} hp hn (by decide) ⟨.input, 0, rfl, by simp⟩
  have hlen := runs_len xs hp hn
  rw [flatMap_eq_iff _ _ _ _ _ (fun g hg => by rw [List.length_map, List.length_map]; exact (hlen g hg).symm)] at he
  obtain ⟨e1, e2⟩ := he
  refine ⟨?_, ?_⟩
  · intro g hg
    rcases m1 g hg with ⟨h', hm⟩ | ⟨r, rfl⟩
    · obtain ⟨a, a1, a2, -⟩ := members_attrs hm
      exact map_noPhys_inj (a2 _) a1 (e1 g hg).symm
    · rw [joined_single]; simp
  · obtain ⟨a, a1, a2, a3⟩ := members_attrs m2
    refine map_noPhys_inj (a := a) ?_ a1 e2.symm
    intro e he
    unfold Pend.close at he
    rcases List.mem_append.1 he with he | he
    · exact a2 _ e he
    · exact a3 _ e he

theorem closed_drop {xs ys : List Item} (hd : DropDesig xs ys) : ∀ (a b : Host), a.g = b.g → a.stack = b.stack →
    a.usages = b.usages → a.strings = b.strings → a.desigs.lo = b.desigs.lo → a.desigs.hi = b.desigs.hi →
    rangesClosed .atUsage a (keys xs) = true → rangesClosed .atUsage b (keys ys) = true := by
  induction hd with
  | nil => intros; rfl
  | keep x _ ih =>
    rintro ⟨g, st, us, ss, ⟨dr, dl, dh⟩⟩ ⟨g', st', us', ss', ⟨dr', dl', dh'⟩⟩ h1 h2 h3 h4 h5 h6 hc
    simp only at h1 h2 h3 h4 h5 h6
    subst h1 h2 h3 h4 h5 h6
    rw [keys_cons, rangesClosed, Bool.and_eq_true] at hc ⊢
    refine ⟨?_, ih _ _ ?_ ?_ ?_ ?_ ?_ ?_ hc.2⟩
    · exact hc.1
    all_goals
      obtain ⟨c, v⟩ := x
      cases c <;> simp only [Host.step, Item.key, Decl.one, Decl.setLo, Decl.setHi] <;> first | rfl | (cases st <;> rfl) | (cases dl <;> rfl) | (cases dh <;> rfl)
  | drop x hx _ ih =>
    intro a b h1 h2 h3 h4 h5 h6 hc
    rw [keys_cons, rangesClosed, Bool.and_eq_true] at hc
    have hx' : x.cls = .desigIndex := by simp [isDesig0] at hx; exact hx.1
    have hs : a.step .atUsage x.key = { a with desigs := a.desigs.one x.ival } := by
      simp [Host.step, hx']
    rw [hs] at hc
    exact ih { a with desigs := a.desigs.one x.ival } b h1 h2 h3 h4 h5 h6 hc.2

/-- Removing designators keeps those of the main items: the condition of `C24_iff`. -/
def DesigsKept (xs : List SItem) : Prop := ∀ p ∈ desigKept .atUsage {} {} {} [] xs, p.1.sameDesigs p.2

theorem desigsKept_alone (xs : List Item) (h : desigAlone false false xs = true) : DesigsKept (keys xs) :=
  (C24_iff .atUsage xs).1 (C24_designator_uniq_meaning_partial .atUsage xs h)

/-- C25.  Exactly when the optimizer keeps the meaning of a stream without Push/Pop, with complete usages, closed
ranges, and whose designators are kept by the pass that removes some when it is selected: merging must keep each group, and every field must
keep its physical bounds.  Whatever passes are selected. -/
theorem C25_iff (reg : Registry) (min max : Int) (xs : List Item) (hp : NoPushPop xs) (hf : FullUsages xs)
    (hd : min < 70 ∧ 70 < max → DesigsKept (keys xs)) (hcl : rangesClosed .atUsage {} (keys xs) = true) (hn : CountsPos xs) :
    meaning .atUsage (keys ((new reg min max Pass.sink).run xs)) = meaning .atUsage (keys xs) ↔
      (min < 60 ∧ 60 < max → GroupsKept (keys (stage reg min max .designatorUniq xs))) ∧
      (min < 50 ∧ 50 < max →
        BoundsKept (keys (stage reg min max .mainMerge (stage reg min max .designatorUniq xs)))) := by
  obtain ⟨m, hm, hx⟩ := tame_full hp hf
  have h1 : ∃ ys, stage reg min max .designatorUniq xs = ys ∧ (∀ i ∈ ys, Tame m i) ∧ CountsPos ys ∧
      rangesClosed .atUsage {} (keys ys) = true ∧ meaning .atUsage (keys ys) = meaning .atUsage (keys xs) := by
    unfold stage
    split
    · next hs =>
      refine ⟨_, rfl, tame_du m xs hx, ?_, ?_, (C24_iff .atUsage xs).2 (hd hs)⟩
      · exact keeps_du (fun i => i.cls = .reportCount → 0 ≤ i.ival) xs hn
      · obtain ⟨tail, -, hdd⟩ := designatorUniq_drops {} xs (by simp) (by simp)
        have := closed_drop hdd {} {} rfl rfl rfl rfl rfl rfl (by simpa using hcl)
        rw [keys_append] at this
        exact rangesClosed_prefix _ _ _ _ this
    · exact ⟨_, rfl, hx, hn, hcl, rfl⟩
  obtain ⟨y1, e1, t1, n1, c1, q1⟩ := h1
  have np1 := (full_tame hm t1).1
  have hrest : meaning .atUsage (keys ((new reg min max Pass.sink).run xs)) =
      meaning .atUsage (keys (stage reg min max .physicalMerge (stage reg min max .mainMerge y1))) := by
    generalize hz : stage reg min max .physicalMerge (stage reg min max .mainMerge y1) = z
    have tz : ∀ i ∈ z, Tame m i := by
      rw [← hz]
      have := stage_pres reg min max .mainMerge (fun ys => ∀ i ∈ ys, Tame m i) (fun ys hy => tame_mm m reg ys hy) t1
      exact stage_pres reg min max .physicalMerge (fun ys => ∀ i ∈ ys, Tame m i) (fun ys hy => tame_pm m ys hy) this
    let Q : List Item → Prop := fun ys => (∀ i ∈ ys, Tame m i) ∧
      meaning .atUsage (keys ys) = meaning .atUsage (keys z)
    have h3 : Q z := ⟨tz, rfl⟩
    have h4 := stage_pres reg min max .globalMerge Q (fun ys hy => ⟨tame_gm m ys hy.1,
      (C18_global_merge_meaning_partial .atUsage ys (full_tame hm hy.1).1).trans hy.2⟩) h3
    have h5 := stage_pres reg min max .stringMerge Q (fun ys hy =>
      ⟨tame_rm m reg _ uniform_str ys hy.1,
        (C22_string_merge_meaning reg .atUsage ys).trans hy.2⟩) h4
    have h6 := stage_pres reg min max .designatorMerge Q (fun ys hy =>
      ⟨tame_rm m reg _ uniform_desig ys hy.1,
        (C22_designator_merge_meaning reg .atUsage ys).trans hy.2⟩) h5
    have h7 := stage_pres reg min max .usageMerge Q (fun ys hy =>
      ⟨tame_rm m reg _ uniform_usage ys hy.1,
        (C22_usage_merge_meaning_partial reg .atUsage ys (full_tame hm hy.1).2).trans hy.2⟩) h6
    rw [new_run, e1, hz]
    unfold stage at h7 ⊢
    split
    · have ht := full_tame hm h7.1
      exact (C23_usage_page_meaning_partial reg _ ht.2 ht.1).trans h7.2
    · exact h7.2
  rw [hrest, ← q1, e1]
  have hmm : precedence .mainMerge = 60 := rfl
  have hpm : precedence .physicalMerge = 50 := rfl
  unfold stage
  rw [hmm, hpm]
  have np2 : NoPushPop ((mainMerge reg).run y1) := (full_tame hm (tame_mm m reg y1 t1)).1
  by_cases s1 : min < 60 ∧ 60 < max
  · by_cases s2 : min < 50 ∧ 50 < max
    · simp only [if_pos s1, if_pos s2]
      show meaning .atUsage (keys (physicalMerge.run ((mainMerge reg).run y1))) = _ ↔ (_ → _) ∧ (_ → BoundsKept (keys ((mainMerge reg).run y1)))
      have hG := C20_iff reg y1 np1 n1 c1
      have hB := C21_iff .atUsage ((mainMerge reg).run y1) np2
      constructor
      · intro h
        have h0 := merge_apart reg y1 np1 n1 c1 h
        exact ⟨fun _ => hG.1 h0, fun _ => hB.1 (h.trans h0.symm)⟩
      · rintro ⟨a, b⟩
        exact (hB.2 (b s2)).trans (hG.2 (a s1))
    · simp only [if_pos s1, if_neg s2]
      exact (C20_iff reg y1 np1 n1 c1).trans ⟨fun h => ⟨fun _ => h, fun h2 => absurd h2 s2⟩, fun h => h.1 s1⟩
  · by_cases s2 : min < 50 ∧ 50 < max
    · simp only [if_neg s1, if_pos s2]
      exact (C21_iff .atUsage y1 np1).trans ⟨fun h => ⟨fun h1 => absurd h1 s1, fun _ => h⟩, fun h => h.2 s2⟩
    · simp only [if_neg s1, if_neg s2]
      exact ⟨fun _ => ⟨fun h1 => absurd h1 s1, fun h2 => absurd h2 s2⟩, fun _ => trivial⟩

/-! ## Local items at the end -/

theorem runs_tail (xs : List SItem) (tail : List SItem) (ht : ∀ k ∈ tail, k.1.kind = .loc) (h : Host) (s : Pend) :
    runs h s (xs ++ tail) = runs h s xs := by
  induction xs generalizing h s with
  | nil =>
    show runs h s tail = ([], s)
    induction tail generalizing h s with
    | nil => rfl
    | cons k t ih =>
      have hk := ht k (by simp)
      rw [runs]
      obtain ⟨c, v⟩ := k
      simp only at hk
      have h1 : c.isData = false := by cases c <;> simp_all [Cls.isData, Cls.kind]
      have h2 : c ∉ groupTags := by cases c <;> simp_all [groupTags, Cls.kind]
      have h3 : c ≠ .reportCount := by intro e; subst e; simp [Cls.kind] at hk
      simp only [h1, hk, h2, h3, false_and, if_false, Bool.false_eq_true, reduceCtorEq]
      exact ih (fun k hk => ht k (by simp [hk])) _ _
  | cons x xs ih =>
    rw [List.cons_append, runs, runs]
    simp only [ih]

theorem mm_tail (reg : Registry) (xs tail : List Item) (ht : ∀ i ∈ tail, i.cls.kind = .loc) (p : MMState) :
    (mainMerge reg).runFrom p (xs ++ tail) = (mainMerge reg).runFrom p xs ++ tail := by
  induction xs generalizing p with
  | nil =>
    rw [List.nil_append]
    induction tail generalizing p with
    | nil => simp
    | cons x t ih =>
      have hx := ht x (by simp)
      have hw : ¬ (watched x.cls = true ∧ p.props x.cls ≠ x.ival) := by
        cases hc : x.cls <;> rw [hc] at hx <;> simp [Cls.kind, watched] at hx ⊢
      rw [Pass.runFrom_cons, mm_step_quiet reg p x (by rw [hx]; simp) hw (by intro hc; rw [hc] at hx; simp [Cls.kind] at hx), List.nil_append, ih (fun i hi => ht i (by simp [hi]))]
      simp [Pass.runFrom_nil, MMState.push]
  | cons x xs ih =>
    rw [List.cons_append, Pass.runFrom_cons, Pass.runFrom_cons, ih, List.append_assoc]

theorem physKept_tail (rule : PageRule) (xs : List SItem) (tail : List SItem) (ht : ∀ k ∈ tail, k.1.kind = .loc)
    (h : Host) (lo hi : Int) (s : Cls → Option Int) :
    physKept rule h lo hi s (xs ++ tail) = physKept rule h lo hi s xs := by
  induction xs generalizing h lo hi s with
  | nil =>
    show physKept rule h lo hi s tail = []
    induction tail generalizing h lo hi s with
    | nil => rfl
    | cons k t ih =>
      have hk := ht k (by simp)
      rw [physKept, if_neg (by rw [hk]; simp)]
      have := fun h lo hi s => ih (fun k hk => ht k (by simp [hk])) h lo hi s
      split <;> rw [this]
  | cons x xs ih =>
    rw [List.cons_append, physKept, physKept]
    simp only [ih]

/-- What `GroupsKept` and `BoundsKept` say does not depend on local items at the end. -/
theorem kept_du (reg : Registry) (xs : List Item) (h0 : ∀ i ∈ xs, isDesig0 i = false) :
    (GroupsKept (keys (designatorUniq.run xs)) ↔ GroupsKept (keys xs)) ∧
    (BoundsKept (keys ((mainMerge reg).run (designatorUniq.run xs))) ↔ BoundsKept (keys ((mainMerge reg).run xs))) := by
  obtain ⟨tail, ht, he⟩ := du_eq xs h0
  have htk : ∀ k ∈ keys tail, k.1.kind = .loc := by
    intro k hk
    obtain ⟨j, hj, rfl⟩ := mem_keys.1 hk
    exact ht j hj
  constructor
  · unfold GroupsKept
    conv => rhs; rw [he, keys_append, runs_tail _ _ htk]
  · unfold BoundsKept
    have : (mainMerge reg).run xs = (mainMerge reg).run (designatorUniq.run xs) ++ tail := by
      conv => lhs; rw [he]
      exact mm_tail reg _ tail ht _
    rw [this, keys_append, physKept_tail _ _ _ htk]

/-- **C30.** Exactly when optimizing a compiled descriptor keeps its meaning: merging must keep each group of items, and
every field must keep its physical bounds. -/
theorem C30_iff (reg : Registry) (n : Node) (items : List Item) (h : compile reg n = .ok items) :
    meaning .atUsage (keys (optimize reg items)) = meaning .atUsage (keys items) ↔
      GroupsKept (keys items) ∧ BoundsKept (keys ((mainMerge reg).run items)) := by
  obtain ⟨b1, b2, b3, b4⟩ := compiled_base h
  have hn : CountsPos items := fun i hi hc => made_count (compile_made h i hi) hc
  obtain ⟨k1, k2⟩ := kept_du reg items b3
  have := C25_iff reg 0 100 items b1 b2 (fun _ => desigsKept_alone items (desigAlone_of_none items b3 false)) b4 hn
  refine this.trans ?_
  have s1 : stage reg 0 100 .designatorUniq items = designatorUniq.run items := by
    simp [stage, precedence, pass]
  have s2 : ∀ ys, stage reg 0 100 .mainMerge ys = (mainMerge reg).run ys := by
    intro ys; simp [stage, precedence, pass]
  rw [s1, s2, k1, k2]
  simp

/-- **C30.** Likewise with the meaning of the tree, for the trees of C29. -/
theorem C30_tree_iff (reg : Registry) (n : Node) (items : List Item) (h : compile reg n = .ok items)
    (hm : TreeMade n) (hn : NoNamedCollection n) (hk : KindsOK n) (hr : ReportsLast n) (a : Nat) (hf : CountsFit a n) :
    meaning .atUsage (keys (optimize reg items)) = treeMeaning n ↔
      GroupsKept (keys items) ∧ BoundsKept (keys ((mainMerge reg).run items)) := by
  rw [← C29_compile_meaning_partial reg .atUsage n items h hm hn hk hr a hf]
  exact C30_iff reg n items h

/-- **C31.** The optimized bytes decode to items that have the meaning of the tree exactly under the same conditions. -/
theorem C31_optimized_iff (reg : Registry) (n : Node) (b : List UInt8)
    (h : Compiler.main reg .binary true n = .ok (.bytes b)) (hm : TreeMade n)
    (hn : NoNamedCollection n) (hk : KindsOK n) (hr : ReportsLast n) (a : Nat) (hf : CountsFit a n) :
    ∃ items ks, compile reg n = .ok items ∧ readAll b = some ks ∧
      (meaning .atUsage ks = treeMeaning n ↔ GroupsKept (keys items) ∧ BoundsKept (keys ((mainMerge reg).run items))) := by
  unfold Compiler.main at h
  split at h
  · simp at h
  · rename_i items hi
    simp only [if_true, Formatter.render] at h
    cases hb : Formatter.binary (Optimizer.optimize reg items) with
    | error e => rw [hb] at h; simp [Except.map] at h
    | ok b' =>
      rw [hb] at h
      simp [Except.map] at h
      subst h
      exact ⟨items, _, hi, readAll_binary (optimize_made reg items (compile_made hi)) hb,
        C30_tree_iff reg n items hi hm hn hk hr a hf⟩

/-- **C25.** `converter -O` from bytes to bytes: exactly when the meaning is kept, for descriptors that use no Push/Pop,
only complete usages and closed ranges, and whose designators are kept. -/
theorem C25_converter_iff (reg : Registry) (uni : Parser.Uni) (b b' : List UInt8) (l : List Item)
    (hl : Parser.blobParse reg b = (l, none))
    (hc : Converter.optimized .binary .binary reg uni (.bytes b) = .ok (.bytes b'))
    (hp : NoPushPop l) (hf : FullUsages l) (hd : DesigsKept (keys l)) (hcl : rangesClosed .atUsage {} (keys l) = true) :
    ∃ ks', readAll b = some (keys l) ∧ readAll b' = some ks' ∧
      (meaning .atUsage ks' = meaning .atUsage (keys l) ↔
        GroupsKept (keys (designatorUniq.run l)) ∧ BoundsKept (keys ((mainMerge reg).run (designatorUniq.run l)))) := by
  have hr := ((C08_parse_iff_hid reg b (l.map Item.key)).mp (by rw [hl]; simp)).1
  have hm := (parsed_encodable reg b l hl).1
  simp only [Converter.optimized, Formatter.deliver, hl, Formatter.render] at hc
  cases hb : Formatter.binary (optimize reg l) with
  | error e => rw [hb] at hc; simp [Except.map] at hc
  | ok b2 =>
    rw [hb] at hc
    simp [Except.map] at hc
    subst hc
    refine ⟨_, hr, readAll_binary (optimize_made reg l hm) hb, ?_⟩
    have s1 : stage reg 0 100 .designatorUniq l = designatorUniq.run l := by
      simp [stage, precedence, pass]
    have s2 : ∀ ys, stage reg 0 100 .mainMerge ys = (mainMerge reg).run ys := by
      intro ys; simp [stage, precedence, pass]
    have := C25_iff reg 0 100 l hp hf (fun _ => hd) hcl (fun i hi hc => made_count (hm i hi) hc)
    rw [s1, s2] at this
    exact this.trans ⟨fun h => ⟨h.1 (by decide), h.2 (by decide)⟩, fun h => ⟨fun _ => h.1, fun _ => h.2⟩⟩

instance (xs : List SItem) : Decidable (GroupsKept xs) := by unfold GroupsKept; infer_instance
instance (r : MainRec) (lo hi : Int) : Decidable (r.bounded lo hi) := by unfold MainRec.bounded; infer_instance
instance (xs : List SItem) : Decidable (BoundsKept xs) := by unfold BoundsKept; infer_instance

/-- Which of the two conditions the items of a descriptor meet. -/
def verdict (n : Node) : Option (Bool × Bool) :=
  match compile [] n with
  | .ok items => some (decide (GroupsKept (keys items)), decide (BoundsKept (keys ((mainMerge []).run items))))
  | .error _ => none

/-- Two buttons and two axes; arrays in a row; strings in a row; bounds that come back. -/
example : verdict (app [.value (mk (button 1)), .value (mk (button 2)), .value (mk (axis 0x10030)), .value (mk (axis 0x10031))])
      = some (true, true) ∧
    verdict (app [.value (mk keyArray), .value (mk keyArray)]) = some (false, true) ∧
    verdict (app [.value (mk (button 1)), .value (mk { button 2 with string := 5 })]) = some (false, true) ∧
    verdict (app [.value (mk { axis 0x10030 with physicalMin := some (-5), physicalMax := some 5 }),
      .value (mk { axis 0x10031 with logicalMin := some 0, logicalMax := some 0 })]) = some (true, false) := by
  decide +kernel

/-- The bytes of `optBytes` meet the conditions of `C25_converter_iff`, and are kept. -/
example : (Parser.blobParse [] optBytes).2 = none ∧ NoPushPop (Parser.blobParse [] optBytes).1 ∧
    FullUsages (Parser.blobParse [] optBytes).1 ∧ desigAlone false false (Parser.blobParse [] optBytes).1 = true ∧
    rangesClosed .atUsage {} (keys (Parser.blobParse [] optBytes).1) = true ∧
    GroupsKept (keys (designatorUniq.run (Parser.blobParse [] optBytes).1)) ∧
    BoundsKept (keys ((mainMerge []).run (designatorUniq.run (Parser.blobParse [] optBytes).1))) := by
  decide +kernel

end Hrdc
