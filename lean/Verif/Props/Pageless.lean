import Verif.Proofs.Pageless
import Verif.Proofs.Read
/-!
# What the optimizer does to 16-bit usages
-/
namespace Hrdc
open Spec Optimizer

theorem meaning_tail (rule : PageRule) (xs tail : List SItem) (ht : ∀ k ∈ tail, k.1.kind = .loc) :
    meaning rule (xs ++ tail) = meaning rule xs := by
  have : ∀ h : Host, eventsFrom rule h (xs ++ tail) = eventsFrom rule h xs := by
    induction xs with
    | nil =>
      show ∀ h : Host, eventsFrom rule h tail = []
      induction tail with
      | nil => intro h; rfl
      | cons k t ih =>
        intro h
        rw [eventsFrom_cons, if_neg (by rw [ht k (by simp)]; simp), ih (fun k hk => ht k (by simp [hk]))]
        rfl
    | cons x xs ih =>
      intro h
      rw [List.cons_append, eventsFrom_cons, eventsFrom_cons, ih]
  exact this {}

/-- **C25.** What the optimizer makes of streams that use 16-bit usages on any pages, for hosts that complete a usage
where it stands: their UsagePage items stop to count.  It gives the meaning the stream has without them exactly when
merging keeps each group and every field keeps its physical bounds. -/
theorem C25_unpaged_iff (reg : Registry) (xs : List Item) (hp : NoPushPop xs)
    (hu : ∀ i ∈ xs, usageLike i.cls = true → 0 ≤ i.ival) (hd : ∀ i ∈ xs, isDesig0 i = false)
    (hcl : rangesClosed .atUsage {} (keys xs) = true) (hn : CountsPos xs) :
    meaning .atUsage (keys (optimize reg xs)) = meaning .atUsage (unpaged (keys xs)) ↔
      GroupsKept (unpaged (keys xs)) ∧ BoundsKept (keys ((mainMerge reg).run (unpage xs))) := by
  obtain ⟨tail, ht, he⟩ := du_eq xs hd
  generalize hy : designatorUniq.run xs = y at he
  have hmem : ∀ i ∈ y, i ∈ xs := by intro i hi; rw [he]; simp [hi]
  have htu : ∀ i ∈ unpage tail, i.cls.kind = .loc := fun i hi => ht i (mem_unpage.1 hi).1
  have htk : ∀ k ∈ keys (unpage tail), k.1.kind = .loc := by
    intro k hk
    obtain ⟨j, hj, rfl⟩ := mem_keys.1 hk
    exact htu j hj
  have hpw : NoPushPop (unpage y) := fun i hi => hp i (hmem i (mem_unpage.1 hi).1)
  have hpl : PagelessUsages (unpage y) := fun i hi =>
    ⟨hu i (hmem i (mem_unpage.1 hi).1), fun h => absurd h (mem_unpage.1 hi).2⟩
  have hcn : CountsPos (unpage y) := fun i hi => hn i (hmem i (mem_unpage.1 hi).1)
  have hkp : ∀ {zs : List Item}, NoPushPop zs → ∀ k ∈ keys zs, k.1 ≠ .push ∧ k.1 ≠ .pop := by
    intro zs hz k hk
    obtain ⟨j, hj, rfl⟩ := mem_keys.1 hk
    exact hz j hj
  have hcl' : rangesClosed .atUsage {} (keys (unpage y)) = true := by
    rw [keys_unpage, ← closed_unpaged _ (hkp (fun i hi => hp i (hmem i hi))) {} {} rfl rfl rfl rfl rfl]
    rw [he, keys_append] at hcl
    exact rangesClosed_prefix _ _ _ _ hcl
  -- the passes between the first and the last
  have key := C25_iff reg 15 65 (unpage y) hpw (Or.inr hpl) (fun h => absurd h (by decide)) hcl' hcn
  have hmid : (new reg 15 65 Pass.sink).run (unpage y) = unpage ((rangeMerge reg usageTags).run
      ((rangeMerge reg desigTags).run ((rangeMerge reg strTags).run (globalMerge.run (physicalMerge.run
      ((mainMerge reg).run y)))))) := by
    rw [new_run]
    simp only [stage, precedence, pass, show (15 : Int) < 20 ∧ (20 : Int) < 65 by decide,
      show (15 : Int) < 30 ∧ (30 : Int) < 65 by decide, show (15 : Int) < 35 ∧ (35 : Int) < 65 by decide,
      show (15 : Int) < 40 ∧ (40 : Int) < 65 by decide, show (15 : Int) < 50 ∧ (50 : Int) < 65 by decide,
      show (15 : Int) < 60 ∧ (60 : Int) < 65 by decide, show ¬ ((15 : Int) < 70 ∧ (70 : Int) < 65) by decide,
      show ¬ ((15 : Int) < 10 ∧ (10 : Int) < 65) by decide, if_true, if_false, and_self]
    rw [unpage_mm, unpage_pm, unpage_gm, unpage_rm _ _ (by decide), unpage_rm _ _ (by decide), unpage_rm _ _ (by decide)]
  generalize hz : (rangeMerge reg usageTags).run ((rangeMerge reg desigTags).run ((rangeMerge reg strTags).run
    (globalMerge.run (physicalMerge.run ((mainMerge reg).run y))))) = z at hmid
  have hzp : ∀ i ∈ z, Tame .any i := by
    rw [← hz]
    have : ∀ i ∈ y, Tame .any i := (tame_any y).2 (fun i hi => hp i (hmem i hi))
    exact tame_rm _ reg _ uniform_usage _ (tame_rm _ reg _ uniform_desig _ (tame_rm _ reg _ uniform_str _
      (tame_gm _ _ (tame_pm _ _ (tame_mm _ reg _ this)))))
  have hzu : ∀ i ∈ z, usageLike i.cls = true → 0 ≤ i.ival := by
    intro i hi hul
    have ht0 : ∀ i ∈ unpage z, Tame .zero i := by
      rw [← hz, ← unpage_rm reg _ (by decide), ← unpage_rm reg _ (by decide), ← unpage_rm reg _ (by decide), ← unpage_gm,
        ← unpage_pm, ← unpage_mm]
      exact tame_rm _ reg _ uniform_usage _ (tame_rm _ reg _ uniform_desig _ (tame_rm _ reg _ uniform_str _
        (tame_gm _ _ (tame_pm _ _ (tame_mm _ reg _ ((tame_zero _).2 ⟨hpw, hpl⟩))))))
    have hne : i.cls ≠ .usagePage := by intro e; rw [e] at hul; simp [usageLike] at hul
    exact (((tame_zero _).1 ht0).2 i (mem_unpage.2 ⟨hi, hne⟩)).1 hul
  have hO : meaning .atUsage (keys (optimize reg xs)) = meaning .atUsage (keys ((new reg 15 65 Pass.sink).run (unpage y))) := by
    rw [optimize_eq, hy, hz, hmid, keys_unpage]
    have h1 : meaning .atUsage (keys ((usagePage reg).run z)) =
        (splitKept .atUsage {} 0 {} (keys z)).flatMap (fun p => (p.1.withUsages p.2).events) :=
      usagePage_split reg .atUsage z hzu ((tame_any z).1 hzp) none {} {} 0 {} ⟨fun _ _ => rfl, rfl, rfl, rfl, rfl⟩ (by simp)
    rw [h1]
    refine split_unpaged (keys z) ?_ (hkp ((tame_any z).1 hzp)) {} {} 0 {} ⟨fun _ _ => rfl, rfl, rfl, rfl, rfl⟩
    intro k hk hul
    obtain ⟨j, hj, rfl⟩ := mem_keys.1 hk
    exact hzu j hj hul
  have hxs : unpage xs = unpage y ++ unpage tail := by rw [he, unpage_append]
  have hM : meaning .atUsage (unpaged (keys xs)) = meaning .atUsage (keys (unpage y)) := by
    rw [← keys_unpage, hxs, keys_append, meaning_tail _ _ _ htk]
  have hG : GroupsKept (unpaged (keys xs)) ↔ GroupsKept (keys (unpage y)) := by
    unfold GroupsKept
    rw [← keys_unpage, hxs, keys_append, runs_tail _ _ htk]
  have hB : BoundsKept (keys ((mainMerge reg).run (unpage xs))) ↔ BoundsKept (keys ((mainMerge reg).run (unpage y))) := by
    unfold BoundsKept
    have : (mainMerge reg).run (unpage xs) = (mainMerge reg).run (unpage y) ++ unpage tail := by
      rw [hxs]; exact mm_tail reg _ _ htu _
    rw [this, keys_append, physKept_tail _ _ _ htk]
  have s1 : ∀ ys, stage reg 15 65 .designatorUniq ys = ys := by intro ys; simp [stage, precedence]
  have s2 : ∀ ys, stage reg 15 65 .mainMerge ys = (mainMerge reg).run ys := by intro ys; simp [stage, precedence, pass]
  rw [s1, s2] at key
  rw [hO, hM, hG, hB, key]
  exact ⟨fun h => ⟨h.1 (by decide), h.2 (by decide)⟩, fun h => ⟨fun _ => h.1, fun _ => h.2⟩⟩

/-- **C25.** Hence, where groups and bounds are kept, the optimizer keeps the meaning exactly of those streams that mean
the same without their UsagePage items. -/
theorem C25_short_iff (reg : Registry) (xs : List Item) (hp : NoPushPop xs)
    (hu : ∀ i ∈ xs, usageLike i.cls = true → 0 ≤ i.ival) (hd : ∀ i ∈ xs, isDesig0 i = false)
    (hcl : rangesClosed .atUsage {} (keys xs) = true) (hn : CountsPos xs)
    (hg : GroupsKept (unpaged (keys xs))) (hb : BoundsKept (keys ((mainMerge reg).run (unpage xs)))) :
    meaning .atUsage (keys (optimize reg xs)) = meaning .atUsage (keys xs) ↔
      meaning .atUsage (unpaged (keys xs)) = meaning .atUsage (keys xs) := by
  rw [(C25_unpaged_iff reg xs hp hu hd hcl hn).2 ⟨hg, hb⟩]

/-- **C25.** Likewise for `converter -O` from bytes to bytes. -/
theorem C25_short_converter_iff (reg : Registry) (uni : Parser.Uni) (b b' : List UInt8) (l : List Item)
    (hl : Parser.blobParse reg b = (l, none))
    (hc : Converter.optimized .binary .binary reg uni (.bytes b) = .ok (.bytes b'))
    (hp : NoPushPop l) (hd : ∀ i ∈ l, isDesig0 i = false) (hcl : rangesClosed .atUsage {} (keys l) = true)
    (hg : GroupsKept (unpaged (keys l))) (hb : BoundsKept (keys ((mainMerge reg).run (unpage l)))) :
    ∃ ks', readAll b = some (keys l) ∧ readAll b' = some ks' ∧
      meaning .atUsage ks' = meaning .atUsage (unpaged (keys l)) ∧
      (meaning .atUsage ks' = meaning .atUsage (keys l) ↔ meaning .atUsage (unpaged (keys l)) = meaning .atUsage (keys l)) := by
  have hr := ((C08_parse_iff_hid reg b (l.map Item.key)).mp (by rw [hl]; simp)).1
  have hm := (parsed_encodable reg b l hl).1
  have hu : ∀ i ∈ l, usageLike i.cls = true → 0 ≤ i.ival := by
    intro i hi hul
    rcases (hm i hi).nonneg with h | h
    · cases hc : i.cls <;> rw [hc] at hul h <;> simp [usageLike] at hul <;> simp [Cls.signed] at h
    · exact h
  have hn : CountsPos l := fun i hi hc => made_count (hm i hi) hc
  simp only [Converter.optimized, Formatter.deliver, hl, Formatter.render] at hc
  cases hb2 : Formatter.binary (optimize reg l) with
  | error e => rw [hb2] at hc; simp [Except.map] at hc
  | ok b2 =>
    rw [hb2] at hc
    simp [Except.map] at hc
    subst hc
    exact ⟨_, hr, readAll_binary (optimize_made reg l hm) hb2, (C25_unpaged_iff reg l hp hu hd hcl hn).2 ⟨hg, hb⟩,
      C25_short_iff reg l hp hu hd hcl hn hg hb⟩

/-- A mouse of two buttons and two axes, as found in the field. -/
def fieldMouse : List UInt8 :=
  [0x05, 1, 0x09, 2, 0xa1, 1, 0x09, 1, 0xa1, 0, 0x05, 9, 0x19, 1, 0x29, 2, 0x15, 0, 0x25, 1, 0x75, 1, 0x95, 2, 0x81, 2,
   0x75, 6, 0x95, 1, 0x81, 3, 0x05, 1, 0x09, 0x30, 0x09, 0x31, 0x15, 0x81, 0x25, 0x7f, 0x75, 8, 0x95, 2, 0x81, 6, 0xc0, 0xc0]

/-- It meets the conditions, and says something else without its pages: `converter -O` breaks it. -/
example : (Parser.blobParse [] fieldMouse).2 = none ∧ NoPushPop (Parser.blobParse [] fieldMouse).1 ∧
    (∀ i ∈ (Parser.blobParse [] fieldMouse).1, isDesig0 i = false) ∧
    rangesClosed .atUsage {} (keys (Parser.blobParse [] fieldMouse).1) = true ∧
    GroupsKept (unpaged (keys (Parser.blobParse [] fieldMouse).1)) ∧
    BoundsKept (keys ((mainMerge []).run (unpage (Parser.blobParse [] fieldMouse).1))) ∧
    meaning .atUsage (unpaged (keys (Parser.blobParse [] fieldMouse).1)) ≠ meaning .atUsage (keys (Parser.blobParse [] fieldMouse).1) := by
  decide +kernel

end Hrdc
