import Verif.Spec.Stacked
import Verif.Props.Pages
import Verif.Props.Bounds
/-!
# C21 and C23 for every stream, with Push and Pop
-/
namespace Hrdc
open Spec Optimizer

/-! ## Usages split into pages and identifiers -/

/-- Saved globals that agree but for the page. -/
def PagedStack : List (Cls → Int) → List (Cls → Int) → List Int → Prop
  | [], [], [] => True
  | a :: as, b :: bs, p :: ps => (∀ c, c ≠ .usagePage → b c = a c) ∧ b .usagePage = p ∧ PagedStack as bs ps
  | _, _, _ => False

/-- Host states of the stream as given and as split. -/
structure PagedHosts (a b : Host) (page : Int) (saved : List Int) (d : Decl) : Prop where
  g : ∀ c, c ≠ .usagePage → b.g c = a.g c
  page : b.g .usagePage = page
  usages : b.usages = d
  strings : b.strings = a.strings
  desigs : b.desigs = a.desigs
  stack : PagedStack a.stack b.stack saved

theorem pagedHosts_other (rule : PageRule) {a b : Host} {page : Int} {saved : List Int} {d : Decl}
    (H : PagedHosts a b page saved d) (x : SItem) (hu : usageLike x.1 = false) (h1 : x.1 ≠ .push) (h2 : x.1 ≠ .pop) :
    PagedHosts (a.step rule x) (b.step rule x) (if x.1 = .usagePage then x.2 else page) saved
      (if x.1.kind = .main then {} else d) := by
  obtain ⟨ga, sa, ua, ta, da⟩ := a
  obtain ⟨gb, sb, ub, tb, db⟩ := b
  obtain ⟨e1, e2, e3, e4, e5, e6⟩ := H
  simp only at e1 e2 e3 e4 e5 e6
  subst e2 e3 e4 e5
  obtain ⟨c, v⟩ := x
  cases c <;> simp [usageLike] at hu h1 h2 <;> constructor <;> simp [Host.step, Cls.kind] <;>
    first | exact e1 | exact e6 | (intro c hc; split <;> first | rfl | exact e1 c hc) | skip

theorem pagedHosts_push (rule : PageRule) {a b : Host} {page : Int} {saved : List Int} {d : Decl}
    (H : PagedHosts a b page saved d) (v : Int) :
    PagedHosts (a.step rule (.push, v)) (b.step rule (.push, v)) page (page :: saved) d :=
  ⟨H.g, H.page, H.usages, H.strings, H.desigs, H.g, H.page, H.stack⟩

theorem pagedHosts_pop (rule : PageRule) {a b : Host} {page : Int} {saved : List Int} {d : Decl}
    (H : PagedHosts a b page saved d) (v : Int) :
    PagedHosts (a.step rule (.pop, v)) (b.step rule (.pop, v)) (saved.headD page) saved.tail d := by
  obtain ⟨ga, sa, ua, ta, da⟩ := a
  obtain ⟨gb, sb, ub, tb, db⟩ := b
  obtain ⟨e1, e2, e3, e4, e5, e6⟩ := H
  simp only at e1 e2 e3 e4 e5 e6
  match sa, sb, saved, e6 with
  | [], [], [], _ => exact ⟨e1, e2, e3, e4, e5, trivial⟩
  | x :: sa, y :: sb, p :: ps, h => exact ⟨h.1, h.2.1, e3, e4, e5, h.2.2⟩

theorem usagePage_all (reg : Registry) (rule : PageRule) (xs : List Item)
    (page : Option Int) (a b : Host) (p : Int) (saved : List Int) (d : Decl) (H : PagedHosts a b p saved d) :
    eventsFrom rule b (keys ((usagePage reg).runFrom page xs)) =
      (splitAll rule a page p saved d (keys xs)).flatMap (fun p => (p.1.withUsages p.2).events) := by
  induction xs generalizing page a b p saved d with
  | nil => rfl
  | cons x xs ih =>
    rw [Pass.runFrom_cons, keys_cons, splitAll]
    by_cases hu : usageLike x.cls = true
    · have hcol : x.cls ≠ .collection := by intro h; rw [h] at hu; simp [usageLike] at hu
      have hnm : x.cls.kind ≠ .main := by
        cases hx : x.cls <;> rw [hx] at hu <;> simp [usageLike] at hu <;> simp [Cls.kind]
      have hsp : (Usage.split (Usage.lookup reg x.val)).1.toInt = x.ival / 65536 := by
        rw [split_fst, lookup_value]; rfl
      have hsu : (Usage.split (Usage.lookup reg x.val)).2.toInt = x.ival % 65536 := by
        rw [split_snd, lookup_value]; rfl
      have hstep : (usagePage reg).step page x
        = (some (x.ival / 65536),
           (if page = some (x.ival / 65536) then []
            else [build reg .usagePage (Usage.split (Usage.lookup reg x.val)).1])
            ++ [build reg x.cls (Usage.split (Usage.lookup reg x.val)).2]) := by
        simp [hu, hsp]
      rw [hstep]
      have hpage' : ∃ b', PagedHosts a b' (if page = some (x.ival / 65536) then p else x.ival / 65536) saved d ∧ ∀ ys,
          eventsFrom rule b (keys ((if page = some (x.ival / 65536) then []
            else [build reg .usagePage (Usage.split (Usage.lookup reg x.val)).1])) ++ ys)
          = eventsFrom rule b' ys := by
        by_cases hpg : page = some (x.ival / 65536)
        · refine ⟨b, by rw [if_pos hpg]; exact H, fun ys => ?_⟩
          rw [if_pos hpg]; rfl
        · refine ⟨{ b with g := fun c => if c = .usagePage then x.ival / 65536 else b.g c }, ?_, fun ys => ?_⟩
          · rw [if_neg hpg]
            refine ⟨fun c hc => ?_, by simp, H.usages, H.strings, H.desigs, H.stack⟩
            simp only [hc, if_false]; exact H.g c hc
          · rw [if_neg hpg]
            simp only [keys_cons, keys_nil, List.cons_append, List.nil_append]
            rw [eventsFrom_cons_of_not_main _ _ _ _ (by simp [build_cls, Cls.kind]),
              build_key _ _ _ (by decide), hsp]
            rfl
      obtain ⟨b', hb1, hb3⟩ := hpage'
      simp only [List.append_assoc, keys_append]
      rw [hb3]
      simp only [keys_cons, keys_nil, List.cons_append, List.nil_append]
      rw [eventsFrom_cons_of_not_main _ _ _ _ (by simp [build_cls, hnm]), build_key _ _ _ hcol, hsu]
      have hk2 : x.key.2 = x.ival := by
        obtain ⟨c, v⟩ := x
        cases c <;> simp [usageLike] at hu <;> rfl
      rw [hk2]
      generalize (if page = some (x.ival / 65536) then p else x.ival / 65536) = q at hb1 ⊢
      obtain ⟨e1, e2, e3, e4, e5, e6⟩ := hb1
      obtain ⟨c, v⟩ := x
      cases c <;> simp [usageLike] at hu
      · rw [if_pos (show (Item.key ⟨.usage, v⟩).1 = .usage from rfl)]
        refine ih _ _ _ _ _ _ ⟨e1, e2, ?_, e4, e5, e6⟩
        simp only [Host.step, e2, e3]
      · rw [if_neg (show ¬ (Item.key ⟨.usageMin, v⟩).1 = .usage by simp [Item.key]), if_pos (show (Item.key ⟨.usageMin, v⟩).1 = .usageMin from rfl)]
        refine ih _ _ _ _ _ _ ⟨e1, e2, ?_, e4, e5, e6⟩
        simp only [Host.step, e2, e3]
      · rw [if_neg (show ¬ (Item.key ⟨.usageMax, v⟩).1 = .usage by simp [Item.key]), if_neg (show ¬ (Item.key ⟨.usageMax, v⟩).1 = .usageMin by simp [Item.key]),
          if_pos (show (Item.key ⟨.usageMax, v⟩).1 = .usageMax from rfl)]
        refine ih _ _ _ _ _ _ ⟨e1, e2, ?_, e4, e5, e6⟩
        simp only [Host.step, e2, e3]
    · have hu' : usageLike x.cls = false := by simpa using hu
      have n1 : ¬ x.key.1 = .usage := by intro e; rw [show x.cls = .usage from e] at hu'; simp [usageLike] at hu'
      have n2 : ¬ x.key.1 = .usageMin := by intro e; rw [show x.cls = .usageMin from e] at hu'; simp [usageLike] at hu'
      have n3 : ¬ x.key.1 = .usageMax := by intro e; rw [show x.cls = .usageMax from e] at hu'; simp [usageLike] at hu'
      rw [if_neg n1, if_neg n2, if_neg n3]
      have hout : (usagePage reg).step page x = (if x.cls = .usagePage then some x.ival else page, [x]) := by
        by_cases hup : x.cls = .usagePage
        · simp [hup, usageLike]
        · simp [hu', hup]
      rw [hout]
      simp only [List.cons_append, List.nil_append, keys_cons]
      by_cases hpu : x.key.1 = .push
      · have hne : ¬ x.key.1 = .usagePage := by rw [hpu]; decide
        have hne' : ¬ x.cls = .usagePage := hne
        rw [if_neg hne, if_pos hpu, if_neg hne', eventsFrom_cons_of_not_main _ _ _ _ (by rw [hpu]; decide)]
        refine ih _ _ _ _ _ _ ?_
        have := pagedHosts_push rule H x.key.2
        rw [← hpu] at this
        exact this
      by_cases hpo : x.key.1 = .pop
      · have hne : ¬ x.key.1 = .usagePage := by rw [hpo]; decide
        have hne' : ¬ x.cls = .usagePage := hne
        rw [if_neg hne, if_neg hpu, if_pos hpo, if_neg hne', eventsFrom_cons_of_not_main _ _ _ _ (by rw [hpo]; decide)]
        have := pagedHosts_pop rule H x.key.2
        rw [← hpo] at this
        exact ih page _ _ _ _ _ this
      have H' := pagedHosts_other rule H x.key hu' hpu hpo
      have IH := ih (if x.cls = .usagePage then some x.ival else page) _ _ _ _ _ H'
      rw [eventsFrom_cons, IH]
      by_cases hup : x.key.1 = .usagePage
      · have hnm : ¬ x.key.1.kind = .main := by rw [hup]; decide
        have hup' : x.cls = .usagePage := hup
        have hk2 : x.key.2 = x.ival := by
          obtain ⟨c, v⟩ := x
          simp only [Item.key] at hup; subst hup; rfl
        rw [if_pos hup, if_pos hup, if_neg hnm, if_neg hnm, List.nil_append, if_pos hup', hk2]
      · have hup' : ¬ x.cls = .usagePage := hup
        rw [if_neg hup, if_neg hup, if_neg hup', if_neg hpu, if_neg hpo]
        by_cases hm : x.key.1.kind = .main
        · rw [if_pos hm, if_pos hm, if_pos hm, List.flatMap_cons]
          congr 1
          apply events_pageless (a := b.main rule x.key)
          · rfl
          · rfl
          · intro c hc; exact H.g c hc
          · simp only [Host.main, MainRec.withUsages, H.usages, H.page]
          · simp only [Host.main, MainRec.withUsages, H.strings]
          · simp only [Host.main, MainRec.withUsages, H.desigs]
        · rw [if_neg hm, if_neg hm, if_neg hm, List.nil_append]

theorem splitAll_recs (rule : PageRule) (xs : List SItem) : ∀ (h : Host) (last : Option Int) (page : Int)
    (saved : List Int) (d : Decl), (splitAll rule h last page saved d xs).map (·.1) = recs rule h xs := by
  induction xs with
  | nil => intros; rfl
  | cons x xs ih =>
    intro h last page saved d
    rw [splitAll, recs]
    split
    · next h1 => rw [ih, h1]; rfl
    split
    · next h1 => rw [ih, h1]; rfl
    split
    · next h1 => rw [ih, h1]; rfl
    split
    · next h1 => rw [ih, h1]; rfl
    split
    · next h1 => rw [ih, h1]; rfl
    split
    · next h1 => rw [ih, h1]; rfl
    split
    · simp [ih]
    · simp [ih]

/-- **C23.** What splitting makes of any stream, Push and Pop included, for both sorts of hosts: the same main items, with
the usages of `splitAll`. -/
theorem C23_exact_all (reg : Registry) (rule : PageRule) (xs : List Item) :
    meaning rule (keys ((usagePage reg).run xs)) =
      (splitAll rule {} none 0 [] {} (keys xs)).flatMap (fun p => (p.1.withUsages p.2).events) ∧
    recs rule {} (keys xs) = (splitAll rule {} none 0 [] {} (keys xs)).map (·.1) :=
  ⟨usagePage_all reg rule xs none {} {} 0 [] {} ⟨fun _ _ => rfl, rfl, rfl, rfl, rfl, trivial⟩,
    (splitAll_recs rule _ _ _ _ _ _).symm⟩

/-- **C23.** For any stream, Push and Pop included, and both sorts of hosts: the meaning is kept exactly when every usage
that is read is the same. -/
theorem C23_iff_all (reg : Registry) (rule : PageRule) (xs : List Item) :
    meaning rule (keys ((usagePage reg).run xs)) = meaning rule (keys xs) ↔
      ∀ p ∈ splitAll rule {} none 0 [] {} (keys xs), p.1.sameUsages p.2 := by
  obtain ⟨h1, h2⟩ := C23_exact_all reg rule xs
  rw [h1, ← withUsages_all]
  unfold meaning eventsFrom
  rw [h2, List.flatMap_map]

/-- A page brought back by Pop is not noticed: the usage after it is written without the page it needs. -/
def poppedPage : List Item :=
  [⟨.usage, .int 0x10030⟩, ⟨.push, .int 0⟩, ⟨.usage, .int 0x90001⟩, ⟨.pop, .int 0⟩, ⟨.usage, .int 0x90002⟩, ⟨.input, .int 2⟩]

example : (splitAll .atUsage {} none 0 [] {} (keys poppedPage)).map (fun p => (p.1.usages, p.2))
    = [([0x10030, 0x90001, 0x90002], [0x10030, 0x90001, 0x10002])] := by decide +kernel

/-! ## Physical bounds removed -/

/-- Saved globals that agree but for the physical bounds. -/
def PhysStack : List (Cls → Int) → List (Cls → Int) → List (Int × Int) → Prop
  | [], [], [] => True
  | a :: as, b :: bs, p :: ps =>
    (∀ c, c ≠ .physMin → c ≠ .physMax → b c = a c) ∧ (b .physMin, b .physMax) = p ∧ PhysStack as bs ps
  | _, _, _ => False

/-- Host states of the stream as given and as written, with the physical bounds of the latter. -/
structure PhysHosts (a b : Host) (p : PhysState) : Prop where
  g : ∀ c, c ≠ .physMin → c ≠ .physMax → b.g c = a.g c
  lo : b.g .physMin = p.lo
  hi : b.g .physMax = p.hi
  usages : b.usages = a.usages
  strings : b.strings = a.strings
  desigs : b.desigs = a.desigs
  stack : PhysStack a.stack b.stack p.saved

theorem physHosts_step (rule : PageRule) {a b : Host} {p : PhysState} (H : PhysHosts a b p) (x : SItem) :
    PhysHosts (a.step rule x) (b.step rule x) (p.step x) := by
  obtain ⟨ga, sa, ua, ta, da⟩ := a
  obtain ⟨gb, sb, ub, tb, db⟩ := b
  obtain ⟨lo, hi, saved⟩ := p
  obtain ⟨e1, e2, e3, e4, e5, e6, e7⟩ := H
  simp only at e1 e2 e3 e4 e5 e6 e7
  have hup := e1 .usagePage (by decide) (by decide)
  subst e2 e3 e4 e5 e6
  obtain ⟨c, v⟩ := x
  cases c with
  | push => exact ⟨e1, rfl, rfl, rfl, rfl, rfl, e1, rfl, e7⟩
  | pop =>
    match sa, sb, saved, e7 with
    | [], [], [], _ => exact ⟨e1, rfl, rfl, rfl, rfl, rfl, trivial⟩
    | x :: sa, y :: sb, p :: ps, h =>
      obtain ⟨h1, h2, h3⟩ := h
      subst h2
      exact ⟨h1, rfl, rfl, rfl, rfl, rfl, h3⟩
  | _ =>
    constructor <;> simp [Host.step, PhysState.step, hup] <;>
      first
      | exact e1
      | exact e7
      | (intro c h1 h2; split <;> first | rfl | exact e1 c h1 h2)

theorem physHosts_skip (rule : PageRule) {a b : Host} {p : PhysState} (H : PhysHosts a b p) (x : SItem)
    (hx : x.1 = .physMin ∨ x.1 = .physMax) : PhysHosts (a.step rule x) b p := by
  obtain ⟨c, v⟩ := x
  have hc : ∀ c', c' = Cls.physMin ∨ c' = Cls.physMax → c = c' →
      PhysHosts (a.step rule (c, v)) b p := by
    intro c' h1 h2
    subst h2
    rcases h1 with h | h <;> subst h <;>
      exact ⟨fun c h1 h2 => by simp [Host.step, h1, h2]; exact H.g c h1 h2, H.lo, H.hi, H.usages, H.strings, H.desigs, H.stack⟩
  exact hc c hx rfl

theorem physHosts_main (rule : PageRule) {a b : Host} {p : PhysState} (H : PhysHosts a b p) (i : SItem) :
    b.main rule i = (a.main rule i).withPhys p.lo p.hi := by
  have := main_withPhys rule (a := a) (b := b)
    ⟨fun c h1 h2 => (H.g c h1 h2).symm, H.usages.symm, H.strings.symm, H.desigs.symm⟩ i
  rw [this, H.lo, H.hi]

theorem recs_mainless (rule : PageRule) (xs : List Item) (hx : ∀ i ∈ xs, i.cls.kind ≠ .main) (h : Host)
    (ys : List SItem) : recs rule h (keys xs ++ ys) = recs rule (h.after rule (keys xs)) ys := by
  induction xs generalizing h with
  | nil => rfl
  | cons x xs ih =>
    have := hx x (by simp)
    rw [keys_cons, List.cons_append, recs, after_cons, ih (fun i hi => hx i (by simp [hi]))]
    simp [this]

theorem notPhys_iff (i : Item) : notPhys i = false ↔ i.key.1 = .physMin ∨ i.key.1 = .physMax := by
  obtain ⟨c, v⟩ := i
  cases c <;> simp [notPhys, Item.key, Cls.kind]

theorem physicalMerge_all (rule : PageRule) (xs : List Item) (pend : List Item) (ch : Cls → Int) (s : Cls → Option Int)
    (a b : Host) (keep drop : PhysState) (hq : ∀ i ∈ pend, i.cls.kind ≠ .main)
    (hk : PhysHosts a (b.after rule (keys pend)) keep)
    (hd : PhysHosts a (b.after rule (keys (pend.filter notPhys))) drop) (hs : ∀ c, ch c = (s c).getD 0) :
    recs rule b (keys (physicalMerge.runFrom ⟨ch, pend⟩ xs))
      = (physAll rule a keep drop s (keys xs)).map (fun p => p.1.withPhys p.2.1 p.2.2) := by
  induction xs generalizing pend ch s a b keep drop with
  | nil =>
    rw [Pass.runFrom_nil]
    show recs rule b (keys pend) = _
    have := recs_mainless rule pend hq b []
    rw [List.append_nil] at this
    rw [this]
    rfl
  | cons x xs ih =>
    rw [Pass.runFrom_cons, keys_cons, physAll]
    by_cases hm : x.cls.kind = .main
    · have hmk : x.key.1.kind = .main := hm
      rw [if_pos hmk]
      simp only [hm, if_true, hs]
      have step : ∀ (out : List Item) (p : PhysState), (∀ i ∈ out, i.cls.kind ≠ .main) →
          PhysHosts a (b.after rule (keys out)) p →
          recs rule b (keys ((out ++ [x]) ++ physicalMerge.runFrom {} xs)) =
          ((a.main rule x.key, p.lo, p.hi) :: physAll rule (a.step rule x.key) p p (fun _ => none) (keys xs)).map
              (fun p => p.1.withPhys p.2.1 p.2.2) := by
        intro out p hqo hpe
        rw [keys_append, keys_append, List.append_assoc, recs_mainless rule out hqo, keys_cons]
        show recs rule _ (x.key :: _) = _
        rw [recs, if_pos hmk, physHosts_main rule hpe]
        have hp : p.step x.key = p := by
          obtain ⟨c, v⟩ := x
          cases c <;> first | rfl | simp [Cls.kind] at hm
        have h2 := physHosts_step rule hpe x.key
        rw [hp] at h2
        have := ih [] (fun _ => 0) (fun _ => none) _ _ p p (by simp) h2 h2 (fun _ => rfl)
        rw [List.map_cons, ← this]
        rfl
      by_cases hdrop : (s .physMin).getD 0 = (s .logMin).getD 0 ∧ (s .physMax).getD 0 = (s .logMax).getD 0
      · rw [if_pos hdrop, if_pos hdrop]
        exact step _ _ (fun i hi => hq i (List.mem_filter.1 hi).1) hd
      · rw [if_neg hdrop, if_neg hdrop]
        exact step _ _ hq hk
    · have hmk : ¬ x.key.1.kind = .main := hm
      rw [if_neg hmk]
      simp only [hm, if_false, List.nil_append]
      apply ih
      · intro i hi
        rcases List.mem_append.1 hi with hi | hi
        · exact hq i hi
        · simp at hi; subst hi; exact hm
      · rw [keys_append, after_append]
        exact physHosts_step rule hk x.key
      · rw [List.filter_append]
        by_cases hn : notPhys x = true
        · have hnn : ¬ (x.key.1 = .physMin ∨ x.key.1 = .physMax) := by
            intro h; rw [(notPhys_iff x).2 h] at hn; cases hn
          rw [PhysState.skip, if_neg hnn, List.filter_cons_of_pos hn, keys_append, after_append]
          exact physHosts_step rule hd x.key
        · have hnn := (notPhys_iff x).1 (by simpa using hn)
          rw [PhysState.skip, if_pos hnn, List.filter_cons_of_neg hn, List.filter_nil, List.append_nil]
          exact physHosts_skip rule hd x.key hnn
      · intro c
        by_cases hr : x.key.1 ∈ [Cls.logMin, .logMax, .physMin, .physMax]
        · have hr' := (rangeTag_iff x.cls).2 hr
          have hv : x.key.2 = x.ival := by
            obtain ⟨c, v⟩ := x
            cases c <;> simp [Item.key] at hr <;> rfl
          rw [if_pos hr, if_pos hr']
          simp only [hv]
          show (if c = x.cls then _ else _) = (if c = x.cls then _ else _ : Option Int).getD 0
          split
          · rfl
          · exact hs c
        · have hr' : ¬ (x.cls.kind = .global ∧ rangeTag x.cls = true) := fun h => hr ((rangeTag_iff x.cls).1 h)
          rw [if_neg hr, if_neg hr']
          exact hs c

theorem physAll_recs (rule : PageRule) (xs : List SItem) : ∀ (h : Host) (keep drop : PhysState) (s : Cls → Option Int),
    (physAll rule h keep drop s xs).map (·.1) = recs rule h xs := by
  induction xs with
  | nil => intros; rfl
  | cons x xs ih =>
    intro h keep drop s
    rw [physAll, recs]
    by_cases hm : x.1.kind = .main
    · simp only [hm, if_true, List.map_cons, ih]; rfl
    · simp only [hm, if_false, ih]; rfl

/-- **C21.** What the pass makes of any stream, Push and Pop included: the same main items with the same indices, values
and globals but for the physical bounds, which are those of `physAll`. -/
theorem C21_exact_all (rule : PageRule) (xs : List Item) :
    recs rule {} (keys (physicalMerge.run xs)) =
      (physAll rule {} {} {} (fun _ => none) (keys xs)).map (fun p => p.1.withPhys p.2.1 p.2.2) ∧
    recs rule {} (keys xs) = (physAll rule {} {} {} (fun _ => none) (keys xs)).map (·.1) :=
  ⟨physicalMerge_all rule xs [] (fun _ => 0) (fun _ => none) {} {} {} {} (by simp)
    ⟨fun _ _ _ => rfl, rfl, rfl, rfl, rfl, rfl, trivial⟩ ⟨fun _ _ _ => rfl, rfl, rfl, rfl, rfl, rfl, trivial⟩ (fun _ => rfl),
   (physAll_recs rule _ _ _ _ _).symm⟩

/-- **C21.** For any stream, Push and Pop included: the meaning is kept exactly when every field has the bounds it had. -/
theorem C21_iff_all (rule : PageRule) (xs : List Item) :
    meaning rule (keys (physicalMerge.run xs)) = meaning rule (keys xs) ↔
      ∀ p ∈ physAll rule {} {} {} (fun _ => none) (keys xs), p.1.bounded p.2.1 p.2.2 := by
  obtain ⟨h1, h2⟩ := C21_exact_all rule xs
  unfold meaning eventsFrom
  rw [h1, h2]
  generalize physAll rule {} {} {} (fun _ => none) (keys xs) = l
  induction l with
  | nil => simp
  | cons p l ih =>
    simp only [List.map_cons, List.flatMap_cons, List.forall_mem_cons]
    rw [← ih, ← withPhys_events]
    constructor
    · intro h
      exact List.append_inj h (withPhys_len _ _ _)
    · rintro ⟨e1, e2⟩
      rw [e1, e2]

/-- Bounds set between Push and Pop: those of the second field are kept within, those of the third are brought back. -/
def poppedBounds : List Item :=
  [⟨.reportSize, .int 8⟩, ⟨.reportCount, .int 1⟩,
   ⟨.logMin, .int 0⟩, ⟨.logMax, .int 7⟩, ⟨.physMin, .int 0⟩, ⟨.physMax, .int 70⟩, ⟨.input, .int 2⟩,
   ⟨.push, .int 0⟩, ⟨.physMin, .int (-9)⟩, ⟨.physMax, .int 9⟩, ⟨.input, .int 2⟩, ⟨.pop, .int 0⟩, ⟨.input, .int 2⟩]

example : (physAll .atUsage {} {} {} (fun _ => none) (keys poppedBounds)).map (·.2) = [(0, 70), (-9, 9), (0, 70)] := by
  decide +kernel

/-- Bounds equal to the logical ones, set after others and saved by Push: removed, so Pop brings back the others. -/
def poppedOthers : List Item :=
  [⟨.reportSize, .int 8⟩, ⟨.reportCount, .int 1⟩, ⟨.physMin, .int 0⟩, ⟨.physMax, .int 70⟩, ⟨.input, .int 2⟩,
   ⟨.logMin, .int 0⟩, ⟨.logMax, .int 7⟩, ⟨.physMin, .int 0⟩, ⟨.physMax, .int 7⟩, ⟨.push, .int 0⟩, ⟨.input, .int 2⟩,
   ⟨.physMax, .int 5⟩, ⟨.input, .int 2⟩, ⟨.pop, .int 0⟩, ⟨.input, .int 2⟩]

example : (physAll .atUsage {} {} {} (fun _ => none) (keys poppedOthers)).map (·.2)
    = [(0, 70), (0, 70), (0, 5), (0, 70)] := by decide +kernel

end Hrdc
