import Verif.Proofs.RangeMerge
import Verif.Props.Passes
/-!
# C22, C23, C24: ranges, usage pages, designators
-/
namespace Hrdc
open Spec

/-! ## C22 -/

/-- C22, strings.  Merging string indices into ranges leaves the meaning of every stream unchanged. -/
theorem C22_string_merge_meaning (reg : Registry) (rule : PageRule) (xs : List Item) :
    meaning rule (keys ((Optimizer.rangeMerge reg Optimizer.strTags).run xs))
      = meaning rule (keys xs) := by
  unfold meaning eventsFrom
  rw [rangeMerge_run_recs (strFamily rule) reg {} xs (fun i _ => ⟨fun _ => trivial, trivial⟩) trivial ⟨rfl, rfl⟩]

/-- C22, designators.  Merging designator indices into ranges leaves the meaning of every stream
unchanged. -/
theorem C22_designator_merge_meaning (reg : Registry) (rule : PageRule) (xs : List Item) :
    meaning rule (keys ((Optimizer.rangeMerge reg Optimizer.desigTags).run xs))
      = meaning rule (keys xs) := by
  unfold meaning eventsFrom
  rw [rangeMerge_run_recs (desigFamily rule) reg {} xs (fun i _ => ⟨fun _ => trivial, trivial⟩) trivial ⟨rfl, rfl⟩]

/-- Every usage, usage minimum and usage maximum is 32-bit. -/
def LongUsages (xs : List Item) : Prop :=
  ∀ i ∈ xs, Optimizer.usageLike i.cls = true → 65536 ≤ i.ival

instance (xs : List Item) : Decidable (LongUsages xs) := by unfold LongUsages; infer_instance

/-- The stream never leaves usage page 0. -/
def PagelessUsages (xs : List Item) : Prop :=
  ∀ i ∈ xs, (Optimizer.usageLike i.cls = true → 0 ≤ i.ival) ∧ (i.cls = .usagePage → i.ival = 0)

instance (xs : List Item) : Decidable (PagelessUsages xs) := by
  unfold PagelessUsages; infer_instance

/-- Usages that are complete as they stand: all are 32-bit, or no other page than 0 is selected. -/
def FullUsages (xs : List Item) : Prop := LongUsages xs ∨ PagelessUsages xs

instance (xs : List Item) : Decidable (FullUsages xs) := by unfold FullUsages; infer_instance

/-- C22, usages.  Merging usages into ranges leaves the meaning of every stream of complete usages
unchanged, for both page rules.  Left out: 16-bit usages on pages other than 0, where
`C22_usage_page_change_breaks` applies. -/
theorem C22_usage_merge_meaning_partial (reg : Registry) (rule : PageRule) (xs : List Item)
    (hl : FullUsages xs) :
    meaning rule (keys ((Optimizer.rangeMerge reg Optimizer.usageTags).run xs))
      = meaning rule (keys xs) := by
  unfold meaning eventsFrom
  rcases hl with hl | hl
  · rw [rangeMerge_run_recs (usageFamily rule) reg {} xs (fun i hi => ⟨fun h => hl i hi (by
      rcases h with h | h | h <;> rw [h] <;> rfl), trivial⟩) trivial ⟨rfl, rfl⟩]
  · rw [rangeMerge_run_recs (zeroFamily rule) reg {} xs
      (fun i hi => ⟨fun _ => trivial, fun h => (hl i hi).2 h⟩) ⟨rfl, by simp⟩ ⟨rfl, rfl⟩]

/-- Short usages with no page selected. -/
example : FullUsages [⟨.usage, .int 1⟩, ⟨.usage, .int 2⟩, ⟨.usage, .int 3⟩,
      ⟨.reportCount, .int 3⟩, ⟨.input, .int 2⟩] ∧
    ¬ LongUsages [⟨.usage, .int 1⟩, ⟨.usage, .int 2⟩, ⟨.usage, .int 3⟩,
      ⟨.reportCount, .int 3⟩, ⟨.input, .int 2⟩] := by decide +kernel

/-- A stream whose usages, strings and designators all merge. -/
example : LongUsages [⟨.usage, .int 0x90001⟩, ⟨.usage, .int 0x90002⟩, ⟨.usage, .int 0x90003⟩,
      ⟨.reportCount, .int 3⟩, ⟨.input, .int 2⟩] ∧
    keys ((Optimizer.rangeMerge [] Optimizer.usageTags).run [⟨.usage, .int 0x90001⟩,
      ⟨.usage, .int 0x90002⟩, ⟨.usage, .int 0x90003⟩, ⟨.reportCount, .int 3⟩, ⟨.input, .int 2⟩])
      = [(.reportCount, 3), (.usageMin, 0x90001), (.usageMax, 0x90003), (.input, 2)] := by
  decide +kernel

/-- With 16-bit usages, merging moves usages past a later UsagePage item: Usage 1 and 2 of page 9
end up on page 1 for a host that completes usages where they are declared. -/
theorem C22_usage_page_change_breaks :
    meaning .atUsage (keys ((Optimizer.rangeMerge [] Optimizer.usageTags).run
        [⟨.usagePage, .int 9⟩, ⟨.usage, .int 1⟩, ⟨.usage, .int 2⟩, ⟨.usagePage, .int 1⟩,
         ⟨.reportCount, .int 2⟩, ⟨.input, .int 2⟩]))
      ≠ meaning .atUsage (keys [⟨.usagePage, .int 9⟩, ⟨.usage, .int 1⟩, ⟨.usage, .int 2⟩,
         ⟨.usagePage, .int 1⟩, ⟨.reportCount, .int 2⟩, ⟨.input, .int 2⟩]) := by
  decide +kernel

/-! ## C23 -/

/-- Host states that agree on everything but the usage page. -/
def SamePageless (a b : Host) : Prop :=
  (∀ c, c ≠ .usagePage → a.g c = b.g c) ∧ a.usages = b.usages ∧ a.strings = b.strings ∧
    a.desigs = b.desigs

theorem attrs_congr {a b : MainRec}
    (h : ∀ c, c ≠ .usagePage → c ≠ .reportCount → a.g c = b.g c) : a.attrs = b.attrs := by
  simp [MainRec.attrs, h .reportSize, h .logMin, h .logMax, h .physMin, h .physMax, h .unit,
    h .unitExp]

/-- What a main item describes does not depend on the usage page once usages are complete. -/
theorem events_pageless {a b : MainRec} (hc : a.cls = b.cls) (hv : a.val = b.val)
    (hg : ∀ c, c ≠ .usagePage → a.g c = b.g c) (hu : a.usages = b.usages)
    (hs : a.strings = b.strings) (hd : a.desigs = b.desigs) : a.events = b.events := by
  have hat : a.attrs = b.attrs := attrs_congr (fun c h _ => hg c h)
  have hsel : a.selector = b.selector := by funext n; simp [MainRec.selector, hu, hs, hd]
  simp only [MainRec.events, hc, hv, hg .reportSize (by decide), hg .reportCount (by decide),
    hg .reportID (by decide), hat, MainRec.isConst, MainRec.what, MainRec.isVar, hsel, hu]
  cases b.cls <;> rfl

theorem step_other_pageless (rule : PageRule) {a b : Host} (h : SamePageless a b) (x : Item)
    (hu : Optimizer.usageLike x.cls = false) (h1 : x.cls ≠ .push) (h2 : x.cls ≠ .pop) :
    SamePageless (a.step rule x.key) (b.step rule x.key) := by
  obtain ⟨hg, hu', hs, hd⟩ := h
  obtain ⟨c, v⟩ := x
  cases c <;> simp_all [Optimizer.usageLike, SamePageless, Host.step, Item.key] <;>
    (intro c hc; split <;> simp_all)

theorem long_split (v : Int) (h : 0 ≤ v) : 0 ≤ v / 65536 ∧
    full (v / 65536) (v % 65536) = v := by
  refine ⟨by omega, ?_⟩
  unfold full
  rw [if_pos (by omega)]
  omega

theorem usagePage_events (reg : Registry) (page : Option Int) (a b : Host) (xs : List Item)
    (hl : LongUsages xs ∨ (PagelessUsages xs ∧ a.g .usagePage = 0)) (hp : NoPushPop xs)
    (hab : SamePageless a b) (hpage : ∀ p, page = some p → b.g .usagePage = p) :
    eventsFrom .atUsage b (keys ((Optimizer.usagePage reg).runFrom page xs))
      = eventsFrom .atUsage a (keys xs) := by
  induction xs generalizing page a b with
  | nil => rfl
  | cons x xs ih =>
    rw [NoPushPop.cons] at hp
    have hl' : LongUsages xs ∨ (PagelessUsages xs ∧ (a.step .atUsage x.key).g .usagePage = 0) := by
      rcases hl with hl | hl
      · exact Or.inl (fun i hi => hl i (by simp [hi]))
      · refine Or.inr ⟨fun i hi => hl.1 i (by simp [hi]), ?_⟩
        have h2 := (hl.1 x (by simp)).2
        obtain ⟨c, v⟩ := x
        cases c <;> simp_all [Host.step, Item.key]
    rw [Pass.runFrom_cons]
    by_cases hu : Optimizer.usageLike x.cls = true
    · have hv : 0 ≤ x.ival ∧ PageRule.atUsage.declare (a.g .usagePage) x.ival = x.ival := by
        rcases hl with hl | hl
        · have := hl x (by simp) hu
          exact ⟨by omega, declare_long _ _ _ this⟩
        · exact ⟨(hl.1 x (by simp)).1 hu, by rw [hl.2]; exact declare_zero _ _⟩
      obtain ⟨hv, hdecl⟩ := hv
      obtain ⟨hq, hfull⟩ := long_split x.ival hv
      have hcol : x.cls ≠ .collection := by intro h; rw [h] at hu; simp [Optimizer.usageLike] at hu
      have hnm : x.cls.kind ≠ .main := by
        cases hx : x.cls <;> rw [hx] at hu <;> simp [Optimizer.usageLike] at hu <;> simp [Cls.kind]
      have hsp : (Usage.split (Usage.lookup reg x.val)).1.toInt = x.ival / 65536 := by
        rw [split_fst, lookup_value]; rfl
      have hsu : (Usage.split (Usage.lookup reg x.val)).2.toInt = x.ival % 65536 := by
        rw [split_snd, lookup_value]; rfl
      have hstep : (Optimizer.usagePage reg).step page x
        = (some (x.ival / 65536),
           (if page = some (x.ival / 65536) then []
            else [Optimizer.build reg .usagePage (Usage.split (Usage.lookup reg x.val)).1])
            ++ [Optimizer.build reg x.cls (Usage.split (Usage.lookup reg x.val)).2]) := by
        simp [hu, hsp]
      rw [hstep]
      -- state after the page item, if any
      have hpage' : ∃ b', SamePageless a b' ∧ b'.g .usagePage = x.ival / 65536 ∧ ∀ ys,
          eventsFrom .atUsage b (keys ((if page = some (x.ival / 65536) then []
            else [Optimizer.build reg .usagePage (Usage.split (Usage.lookup reg x.val)).1])) ++ ys)
          = eventsFrom .atUsage b' ys := by
        by_cases hpg : page = some (x.ival / 65536)
        · refine ⟨b, hab, hpage _ hpg, fun ys => ?_⟩
          rw [if_pos hpg]; rfl
        · refine ⟨{ b with g := fun c => if c = .usagePage then x.ival / 65536 else b.g c },
            ?_, by simp, fun ys => ?_⟩
          · refine ⟨fun c hc => ?_, hab.2⟩
            simp only [hc, if_false]; exact hab.1 c hc
          · rw [if_neg hpg]
            simp only [keys_cons, keys_nil, List.cons_append, List.nil_append]
            rw [eventsFrom_cons_of_not_main _ _ _ _ (by simp [build_cls, Cls.kind]),
              build_key _ _ _ (by decide), hsp]
            rfl
      obtain ⟨b', hb1, hb2, hb3⟩ := hpage'
      simp only [List.append_assoc, keys_append]
      rw [hb3]
      simp only [keys_cons, keys_nil, List.cons_append, List.nil_append]
      rw [eventsFrom_cons_of_not_main _ _ _ _ (by simp [build_cls, hnm]),
        eventsFrom_cons_of_not_main _ _ _ _ (by simpa using hnm), build_key _ _ _ hcol, hsu]
      apply ih _ _ _ hl' hp.2
      · obtain ⟨hg, hu', hs, hd⟩ := hb1
        have hlong : PageRule.atUsage.declare (a.g .usagePage) x.ival = x.ival := hdecl
        have hshort : PageRule.atUsage.declare (b'.g .usagePage) (x.ival % 65536) = x.ival := by
          rw [hb2]; exact hfull
        obtain ⟨c, v⟩ := x
        cases c <;> simp [Optimizer.usageLike] at hu <;>
          simp_all [SamePageless, Host.step, Item.key]
      · intro p hp; cases hp
        obtain ⟨c, v⟩ := x
        cases c <;> simp [Optimizer.usageLike] at hu <;> simp_all [Host.step]
    · have hu' : Optimizer.usageLike x.cls = false := by simpa using hu
      have hout : ∃ page', (Optimizer.usagePage reg).step page x = (page', [x]) ∧
          ((x.cls = .usagePage ∧ page' = some x.ival) ∨ (x.cls ≠ .usagePage ∧ page' = page)) := by
        by_cases hup : x.cls = .usagePage
        · exact ⟨some x.ival, by simp [hup, Optimizer.usageLike], Or.inl ⟨hup, rfl⟩⟩
        · exact ⟨page, by simp [hu', hup], Or.inr ⟨hup, rfl⟩⟩
      obtain ⟨page', hst, hpg⟩ := hout
      rw [hst]
      have hab' := step_other_pageless .atUsage hab x hu' hp.1.1 hp.1.2
      have hpage' : ∀ p, page' = some p → (b.step .atUsage x.key).g .usagePage = p := by
        intro p hp'
        rcases hpg with ⟨hc, rfl⟩ | ⟨hc, rfl⟩
        · cases hp'
          obtain ⟨c, v⟩ := x
          simp only at hc
          subst hc
          simp [Host.step, Item.key]
        · rw [← hpage p hp']
          obtain ⟨c, v⟩ := x
          cases c <;> simp_all [Host.step, Item.key]
      simp only [List.cons_append, List.nil_append, keys_cons]
      rw [eventsFrom_cons, eventsFrom_cons, ih _ _ _ hl' hp.2 hab' hpage']
      congr 1
      split
      · obtain ⟨hg, hu'', hs, hd⟩ := hab
        apply events_pageless (a := b.main .atUsage x.key) (b := a.main .atUsage x.key) rfl rfl
        · intro c hc; exact (hg c hc).symm
        · simp only [Host.main, hu'']; rfl
        · simp only [Host.main, hs]
        · simp only [Host.main, hd]
      · rfl

/-- C23, hosts that complete a usage where it is declared.  Splitting complete usages into
UsagePage and 16-bit usage leaves the meaning unchanged. -/
theorem C23_usage_page_meaning_partial (reg : Registry) (xs : List Item) (hl : FullUsages xs)
    (hp : NoPushPop xs) :
    meaning .atUsage (keys ((Optimizer.usagePage reg).run xs)) = meaning .atUsage (keys xs) :=
  usagePage_events reg none {} {} xs (hl.imp id (fun h => ⟨h, rfl⟩)) hp ⟨fun _ _ => rfl, rfl, rfl, rfl⟩ (by simp)

example : LongUsages [⟨.usage, .int 0x10030⟩, ⟨.usage, .int 0xc0238⟩, ⟨.input, .int 2⟩] ∧
    NoPushPop [⟨.usage, .int 0x10030⟩, ⟨.usage, .int 0xc0238⟩, ⟨.input, .int 2⟩] ∧
    keys ((Optimizer.usagePage []).run
        [⟨.usage, .int 0x10030⟩, ⟨.usage, .int 0xc0238⟩, ⟨.input, .int 2⟩])
      = [(.usagePage, 1), (.usage, 0x30), (.usagePage, 0xc), (.usage, 0x238), (.input, 2)] := by
  decide +kernel

/-- Left out by `C23_usage_page_meaning_partial`, and false: a 16-bit usage is given page 0. -/
theorem C23_short_usage_breaks :
    keys ((Optimizer.usagePage []).run [⟨.usagePage, .int 1⟩, ⟨.usage, .int 6⟩,
        ⟨.collection, .int 1⟩]) = [(.usagePage, 1), (.usagePage, 0), (.usage, 6), (.collection, 1)] ∧
    meaning .atUsage (keys ((Optimizer.usagePage []).run [⟨.usagePage, .int 1⟩, ⟨.usage, .int 6⟩,
        ⟨.collection, .int 1⟩]))
      ≠ meaning .atUsage (keys [⟨.usagePage, .int 1⟩, ⟨.usage, .int 6⟩, ⟨.collection, .int 1⟩]) := by
  decide +kernel

/-- Left out by `C23_usage_page_meaning_partial`, and false: two usages of different pages in front
of one main item, read by a host that completes usages at the main item (as hrdc's own decompiler
does). -/
theorem C23_two_pages_break :
    meaning .atMain (keys ((Optimizer.usagePage []).run [⟨.usage, .int 0x10030⟩,
        ⟨.usage, .int 0xc0238⟩, ⟨.reportCount, .int 2⟩, ⟨.input, .int 2⟩]))
      ≠ meaning .atMain (keys [⟨.usage, .int 0x10030⟩, ⟨.usage, .int 0xc0238⟩,
        ⟨.reportCount, .int 2⟩, ⟨.input, .int 2⟩]) := by
  decide +kernel

/-- All usages in front of a main item lie on one page, and no UsagePage item stands between them
and the main item; `cur` is the page of the usages met since the last main item. -/
def onePage (cur : Option Int) : List Item → Bool
  | [] => true
  | i :: r =>
    if i.cls.kind = .main then onePage none r
    else if Optimizer.usageLike i.cls then
      (cur == none || cur == some (i.ival / 65536)) && onePage (some (i.ival / 65536)) r
    else if i.cls = .usagePage then (cur == none) && onePage cur r
    else onePage cur r

/-- A declaration with a function applied to every bound. -/
def Spec.Decl.mapD (f : Int → Int) (d : Decl) : Decl :=
  ⟨d.ranges.map (fun r => (f r.1, f r.2)), d.lo.map f, d.hi.map f⟩

/-- Every bound of a declaration satisfies `P`. -/
def Spec.Decl.All (P : Int → Prop) (d : Decl) : Prop :=
  (∀ r ∈ d.ranges, P r.1 ∧ P r.2) ∧ (∀ v, d.lo = some v → P v) ∧ (∀ v, d.hi = some v → P v)

theorem Decl.all_one {P : Int → Prop} {d : Decl} (h : d.All P) {v : Int} (hv : P v) :
    (d.one v).All P := by
  refine ⟨?_, h.2⟩
  intro r hr
  simp only [Decl.one, List.mem_append, List.mem_singleton] at hr
  rcases hr with hr | rfl
  · exact h.1 r hr
  · exact ⟨hv, hv⟩

theorem Decl.all_setLo {P : Int → Prop} {d : Decl} (h : d.All P) {v : Int} (hv : P v) :
    (d.setLo v).All P := by
  unfold Decl.setLo
  split
  · next hi hhi =>
    refine ⟨?_, by simp, by simp⟩
    intro r hr
    simp only [List.mem_append, List.mem_singleton] at hr
    rcases hr with hr | rfl
    · exact h.1 r hr
    · exact ⟨hv, h.2.2 _ hhi⟩
  · next hhi => exact ⟨h.1, by intro w hw; cases hw; exact hv, h.2.2⟩

theorem Decl.all_setHi {P : Int → Prop} {d : Decl} (h : d.All P) {v : Int} (hv : P v) :
    (d.setHi v).All P := by
  unfold Decl.setHi
  split
  · next lo hlo =>
    refine ⟨?_, by simp, by simp⟩
    intro r hr
    simp only [List.mem_append, List.mem_singleton] at hr
    rcases hr with hr | rfl
    · exact h.1 r hr
    · exact ⟨h.2.1 _ hlo, hv⟩
  · next hhi => exact ⟨h.1, h.2.1, by intro w hw; cases hw; exact hv⟩

theorem Decl.mapD_one (f : Int → Int) (d : Decl) (v : Int) :
    (d.one v).mapD f = (d.mapD f).one (f v) := by simp [Decl.mapD, Decl.one]
theorem Decl.mapD_setLo (f : Int → Int) (d : Decl) (v : Int) :
    (d.setLo v).mapD f = (d.mapD f).setLo (f v) := by
  obtain ⟨r, lo, hi⟩ := d
  cases hi <;> simp [Decl.mapD, Decl.setLo]
theorem Decl.mapD_setHi (f : Int → Int) (d : Decl) (v : Int) :
    (d.setHi v).mapD f = (d.mapD f).setHi (f v) := by
  obtain ⟨r, lo, hi⟩ := d
  cases lo <;> simp [Decl.mapD, Decl.setHi]

theorem Decl.values_congr {f g : Int → Int} {d : Decl} (h : ∀ r ∈ d.ranges, f r.1 = g r.1 ∧ f r.2 = g r.2) :
    d.values f = d.values g := by
  unfold Decl.values
  rw [List.flatMap_def, List.flatMap_def]
  congr 1
  apply List.map_congr_left
  intro r hr
  rw [(h r hr).1, (h r hr).2]

theorem Decl.mapD_values (f g : Int → Int) (d : Decl) :
    (d.mapD f).values g = d.values (fun v => g (f v)) := by
  simp [Decl.values, Decl.mapD, List.flatMap_map]

/-- Host states before and after usage page splitting, for hosts completing at the main item. -/
def AtMainRel (cur : Option Int) (a b : Host) : Prop :=
  (∀ c, c ≠ .usagePage → a.g c = b.g c) ∧ a.strings = b.strings ∧ a.desigs = b.desigs ∧
  match cur with
  | none => a.usages = {} ∧ b.usages = {}
  | some p => b.g .usagePage = p ∧ b.usages = a.usages.mapD (· % 65536) ∧
      a.usages.All (fun v => (65536 ≤ v ∨ (a.g .usagePage = 0 ∧ 0 ≤ v)) ∧ v / 65536 = p)

theorem atMain_usages {cur : Option Int} {a b : Host} (h : AtMainRel cur a b) :
    a.usages.values (PageRule.atMain.consume (a.g .usagePage))
      = b.usages.values (PageRule.atMain.consume (b.g .usagePage)) := by
  obtain ⟨-, -, -, h⟩ := h
  cases cur with
  | none => simp only at h; rw [h.1, h.2]; rfl
  | some p =>
    simp only at h
    rw [h.2.1, Decl.mapD_values, h.1]
    have e : ∀ v : Int, (65536 ≤ v ∨ (a.g .usagePage = 0 ∧ 0 ≤ v)) ∧ v / 65536 = p →
        PageRule.atMain.consume (a.g .usagePage) v = PageRule.atMain.consume p (v % 65536) := by
      rintro v ⟨hv | hv, hp⟩
      · simp only [PageRule.consume, full]
        rw [if_neg (by omega), if_pos (by omega)]
        omega
      · rw [hv.1, consume_zero]
        simp only [PageRule.consume, full, id]
        rw [if_pos (by omega)]
        omega
    exact Decl.values_congr (fun r hr => ⟨e _ (h.2.2.1 r hr).1, e _ (h.2.2.1 r hr).2⟩)

theorem step_other_atMain {cur : Option Int} {a b : Host} (h : AtMainRel cur a b) (x : Item)
    (hu : Optimizer.usageLike x.cls = false) (h1 : x.cls ≠ .push) (h2 : x.cls ≠ .pop)
    (hm : x.cls.kind ≠ .main) (hup : x.cls = .usagePage → cur = none) :
    AtMainRel cur (a.step .atMain x.key) (b.step .atMain x.key) := by
  obtain ⟨hg, hs, hd, hr⟩ := h
  cases cur with
  | none =>
    obtain ⟨c, v⟩ := x
    cases c <;> simp_all [Optimizer.usageLike, AtMainRel, Host.step, Item.key, Cls.kind] <;>
      (intro c hc; split <;> simp_all)
  | some p =>
    obtain ⟨c, v⟩ := x
    cases c <;> simp_all [Optimizer.usageLike, AtMainRel, Host.step, Item.key, Cls.kind] <;>
      (intro c hc; split <;> simp_all)

theorem step_main_atMain {cur : Option Int} {a b : Host} (h : AtMainRel cur a b) (x : Item)
    (hm : x.cls.kind = .main) :
    AtMainRel none (a.step .atMain x.key) (b.step .atMain x.key) := by
  obtain ⟨hg, hs, hd, hr⟩ := h
  obtain ⟨c, v⟩ := x
  cases c <;> simp_all [Optimizer.usageLike, AtMainRel, Host.step, Item.key, Cls.kind]

theorem usagePage_events_atMain (reg : Registry) (page cur : Option Int) (a b : Host)
    (xs : List Item) (hl : LongUsages xs ∨ (PagelessUsages xs ∧ a.g .usagePage = 0))
    (hp : NoPushPop xs) (ho : onePage cur xs = true)
    (hab : AtMainRel cur a b) (hpage : ∀ p, page = some p → b.g .usagePage = p) :
    eventsFrom .atMain b (keys ((Optimizer.usagePage reg).runFrom page xs))
      = eventsFrom .atMain a (keys xs) := by
  induction xs generalizing page cur a b with
  | nil => rfl
  | cons x xs ih =>
    rw [NoPushPop.cons] at hp
    have hl' : LongUsages xs ∨ (PagelessUsages xs ∧ (a.step .atMain x.key).g .usagePage = 0) := by
      rcases hl with hl | hl
      · exact Or.inl (fun i hi => hl i (by simp [hi]))
      · refine Or.inr ⟨fun i hi => hl.1 i (by simp [hi]), ?_⟩
        have h2 := (hl.1 x (by simp)).2
        obtain ⟨c, v⟩ := x
        cases c <;> simp_all [Host.step, Item.key]
    rw [Pass.runFrom_cons]
    by_cases hu : Optimizer.usageLike x.cls = true
    · have hv : 65536 ≤ x.ival ∨ (a.g .usagePage = 0 ∧ 0 ≤ x.ival) := by
        rcases hl with hl | hl
        · exact Or.inl (hl x (by simp) hu)
        · exact Or.inr ⟨hl.2, (hl.1 x (by simp)).1 hu⟩
      have hcol : x.cls ≠ .collection := by intro h; rw [h] at hu; simp [Optimizer.usageLike] at hu
      have hnm : x.cls.kind ≠ .main := by
        cases hx : x.cls <;> rw [hx] at hu <;> simp [Optimizer.usageLike] at hu <;> simp [Cls.kind]
      have hsp : (Usage.split (Usage.lookup reg x.val)).1.toInt = x.ival / 65536 := by
        rw [split_fst, lookup_value]; rfl
      have hsu : (Usage.split (Usage.lookup reg x.val)).2.toInt = x.ival % 65536 := by
        rw [split_snd, lookup_value]; rfl
      have hstep : (Optimizer.usagePage reg).step page x
        = (some (x.ival / 65536),
           (if page = some (x.ival / 65536) then []
            else [Optimizer.build reg .usagePage (Usage.split (Usage.lookup reg x.val)).1])
            ++ [Optimizer.build reg x.cls (Usage.split (Usage.lookup reg x.val)).2]) := by
        simp [hu, hsp]
      simp only [onePage, hnm, if_false, hu, if_true, Bool.and_eq_true, Bool.or_eq_true,
        beq_iff_eq] at ho
      obtain ⟨hcur, ho'⟩ := ho
      rw [hstep]
      have hpage' : ∃ b' : Host, b'.g .usagePage = x.ival / 65536 ∧
          (∀ c, c ≠ .usagePage → a.g c = b'.g c) ∧ b'.usages = b.usages ∧
          b'.strings = b.strings ∧ b'.desigs = b.desigs ∧ ∀ ys,
          eventsFrom .atMain b (keys ((if page = some (x.ival / 65536) then []
            else [Optimizer.build reg .usagePage (Usage.split (Usage.lookup reg x.val)).1])) ++ ys)
          = eventsFrom .atMain b' ys := by
        by_cases hpg : page = some (x.ival / 65536)
        · refine ⟨b, hpage _ hpg, hab.1, rfl, rfl, rfl, fun ys => ?_⟩
          rw [if_pos hpg]; rfl
        · refine ⟨{ b with g := fun c => if c = .usagePage then x.ival / 65536 else b.g c },
            by simp, ?_, rfl, rfl, rfl, fun ys => ?_⟩
          · intro c hc
            simp only [hc, if_false]; exact hab.1 c hc
          · rw [if_neg hpg]
            simp only [keys_cons, keys_nil, List.cons_append, List.nil_append]
            rw [eventsFrom_cons_of_not_main _ _ _ _ (by simp [build_cls, Cls.kind]),
              build_key _ _ _ (by decide), hsp]
            rfl
      obtain ⟨b', hb0, hb1, hb2, hb3, hb4, hb5⟩ := hpage'
      simp only [List.append_assoc, keys_append]
      rw [hb5]
      simp only [keys_cons, keys_nil, List.cons_append, List.nil_append]
      rw [eventsFrom_cons_of_not_main _ _ _ _ (by simp [build_cls, hnm]),
        eventsFrom_cons_of_not_main _ _ _ _ (by simpa using hnm), build_key _ _ _ hcol, hsu]
      have husages : b'.usages = a.usages.mapD (· % 65536) ∧
          a.usages.All (fun v => (65536 ≤ v ∨ (a.g .usagePage = 0 ∧ 0 ≤ v)) ∧
            v / 65536 = x.ival / 65536) := by
        rw [hb2]
        obtain ⟨-, -, -, hr⟩ := hab
        rcases hcur with rfl | rfl
        · simp only at hr
          rw [hr.1, hr.2]
          exact ⟨rfl, by simp [Decl.All]⟩
        · simp only at hr
          exact ⟨hr.2.1, hr.2.2⟩
      obtain ⟨hg, hs, hd, -⟩ := hab
      apply ih _ (some (x.ival / 65536)) _ _ hl' hp.2 ho'
      · have hP : (fun v => (65536 ≤ v ∨ (a.g .usagePage = 0 ∧ 0 ≤ v)) ∧
            v / 65536 = x.ival / 65536) x.ival := ⟨hv, rfl⟩
        have e1 := Decl.all_one husages.2 hP
        have e2 := Decl.all_setLo husages.2 hP
        have e3 := Decl.all_setHi husages.2 hP
        obtain ⟨c, v⟩ := x
        cases c <;> simp [Optimizer.usageLike] at hu <;>
          simp_all [AtMainRel, Host.step, Item.key, PageRule.declare, Decl.mapD_one,
            Decl.mapD_setLo, Decl.mapD_setHi]
      · intro p hp; cases hp
        obtain ⟨c, v⟩ := x
        cases c <;> simp [Optimizer.usageLike] at hu <;> simp_all [Host.step]
    · have hu' : Optimizer.usageLike x.cls = false := by simpa using hu
      have hout : ∃ page', (Optimizer.usagePage reg).step page x = (page', [x]) ∧
          ((x.cls = .usagePage ∧ page' = some x.ival) ∨ (x.cls ≠ .usagePage ∧ page' = page)) := by
        by_cases hup : x.cls = .usagePage
        · exact ⟨some x.ival, by simp [hup, Optimizer.usageLike], Or.inl ⟨hup, rfl⟩⟩
        · exact ⟨page, by simp [hu', hup], Or.inr ⟨hup, rfl⟩⟩
      obtain ⟨page', hst, hpg⟩ := hout
      rw [hst]
      have hpage' : ∀ p, page' = some p → (b.step .atMain x.key).g .usagePage = p := by
        intro p hp'
        rcases hpg with ⟨hc, rfl⟩ | ⟨hc, rfl⟩
        · cases hp'
          obtain ⟨c, v⟩ := x
          simp only at hc
          subst hc
          simp [Host.step, Item.key]
        · rw [← hpage p hp']
          obtain ⟨c, v⟩ := x
          cases c <;> simp_all [Host.step, Item.key]
      simp only [List.cons_append, List.nil_append, keys_cons]
      rw [eventsFrom_cons, eventsFrom_cons]
      by_cases hm : x.cls.kind = .main
      · simp only [onePage, hm, if_true] at ho
        rw [ih _ none _ _ hl' hp.2 ho (step_main_atMain hab x hm) hpage']
        congr 1
        simp only [key_fst, hm, if_true]
        apply events_pageless (a := b.main .atMain x.key) (b := a.main .atMain x.key) rfl rfl
        · intro c hc; exact (hab.1 c hc).symm
        · exact (atMain_usages hab).symm
        · simp only [Host.main, hab.2.1]
        · simp only [Host.main, hab.2.2.1]
      · simp only [key_fst, hm, if_false, List.nil_append]
        have ho' : onePage cur xs = true ∧ (x.cls = .usagePage → cur = none) := by
          simp only [onePage, hm, if_false, hu', Bool.false_eq_true] at ho
          split at ho
          · simp at ho; exact ⟨ho.2, fun _ => ho.1⟩
          · next h => exact ⟨ho, fun h' => absurd h' h⟩
        exact ih _ cur _ _ hl' hp.2 ho'.1
          (step_other_atMain hab x hu' hp.1.1 hp.1.2 hm ho'.2) hpage'

/-- C23, hosts that complete usages at the main item: the meaning is kept when the usages of each
main item lie on one page. -/
theorem C23_usage_page_meaning_atMain_partial (reg : Registry) (xs : List Item)
    (hl : FullUsages xs) (hp : NoPushPop xs) (ho : onePage none xs = true) :
    meaning .atMain (keys ((Optimizer.usagePage reg).run xs)) = meaning .atMain (keys xs) :=
  usagePage_events_atMain reg none none {} {} xs (hl.imp id (fun h => ⟨h, rfl⟩)) hp ho ⟨fun _ _ => rfl, rfl, rfl, rfl, rfl⟩
    (by simp)

example : onePage none [⟨.usage, .int 0x10030⟩, ⟨.usage, .int 0x10031⟩, ⟨.input, .int 2⟩,
    ⟨.usage, .int 0xc0238⟩, ⟨.input, .int 2⟩] = true := by decide +kernel

/-- Left out by `C23_usage_page_meaning_partial`, and false: the page is not written again after Pop has
taken it back. -/
theorem C23_push_pop_breaks :
    let xs : List Item :=
      [⟨.reportSize, .int 8⟩, ⟨.reportCount, .int 1⟩, ⟨.push, .int 0⟩, ⟨.usage, .int 0x10030⟩, ⟨.input, .int 2⟩,
       ⟨.pop, .int 0⟩, ⟨.usage, .int 0x10031⟩, ⟨.input, .int 2⟩]
    ∀ rule, meaning rule (keys ((Optimizer.usagePage []).run xs)) ≠ meaning rule (keys xs) := by
  intro xs rule
  cases rule <;> decide +kernel

end Hrdc
