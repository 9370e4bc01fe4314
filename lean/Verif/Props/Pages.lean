import Verif.Props.Ranges
/-!
# C23: what splitting usages into pages and identifiers does, exactly
-/
namespace Hrdc
open Spec Optimizer

theorem withUsages_all (l : List (MainRec × List Int)) :
    l.flatMap (fun p => (p.1.withUsages p.2).events) = l.flatMap (fun p => p.1.events) ↔ ∀ p ∈ l, p.1.sameUsages p.2 := by
  induction l with
  | nil => simp
  | cons p l ih =>
    simp only [List.flatMap_cons, List.forall_mem_cons]
    rw [← ih, ← withUsages_events]
    constructor
    · intro h
      exact List.append_inj h (withUsages_len _ _)
    · rintro ⟨e1, e2⟩
      rw [e1, e2]

/-- Host states of the stream as given and as split. -/
structure SplitHosts (a b : Host) (page : Int) (d : Decl) : Prop where
  g : ∀ c, c ≠ .usagePage → b.g c = a.g c
  page : b.g .usagePage = page
  usages : b.usages = d
  strings : b.strings = a.strings
  desigs : b.desigs = a.desigs

theorem splitHosts_other (rule : PageRule) {a b : Host} {page : Int} {d : Decl} (H : SplitHosts a b page d) (x : SItem)
    (hu : usageLike x.1 = false) (h1 : x.1 ≠ .push) (h2 : x.1 ≠ .pop) :
    SplitHosts (a.step rule x) (b.step rule x) (if x.1 = .usagePage then x.2 else page)
      (if x.1.kind = .main then {} else d) := by
  obtain ⟨ga, sa, ua, ta, da⟩ := a
  obtain ⟨gb, sb, ub, tb, db⟩ := b
  obtain ⟨e1, e2, e3, e4, e5⟩ := H
  simp only at e1 e2 e3 e4 e5
  subst e2 e3 e4 e5
  obtain ⟨c, v⟩ := x
  cases c <;> simp [usageLike] at hu h1 h2 <;> constructor <;> simp [Host.step, Cls.kind] <;>
    first | exact e1 | (intro c hc; split <;> first | rfl | exact e1 c hc) | skip

theorem usagePage_split (reg : Registry) (rule : PageRule) (xs : List Item) (hv : ∀ i ∈ xs, usageLike i.cls = true → 0 ≤ i.ival)
    (hp : NoPushPop xs) (page : Option Int) (a b : Host) (p : Int) (d : Decl) (H : SplitHosts a b p d)
    (hpage : ∀ q, page = some q → p = q) :
    eventsFrom rule b (keys ((usagePage reg).runFrom page xs)) =
      (splitKept rule a p d (keys xs)).flatMap (fun p => (p.1.withUsages p.2).events) := by
  induction xs generalizing page a b p d with
  | nil => rfl
  | cons x xs ih =>
    rw [NoPushPop.cons] at hp
    have ih' := ih (fun i hi => hv i (by simp [hi])) hp.2
    rw [Pass.runFrom_cons, keys_cons, splitKept]
    by_cases hu : usageLike x.cls = true
    · have hcol : x.cls ≠ .collection := by intro h; rw [h] at hu; simp [usageLike] at hu
      have hnm : x.cls.kind ≠ .main := by
        cases hx : x.cls <;> rw [hx] at hu <;> simp [usageLike] at hu <;> simp [Cls.kind]
      have hsp : (Usage.split (Usage.lookup reg x.val)).1.toInt = x.ival / 65536 := by
        rw [split_fst, lookup_value]; rfl
      have hsu : (Usage.split (Usage.lookup reg x.val)).2.toInt = x.ival % 65536 := by
        rw [split_snd, lookup_value]; rfl
      have hstep : (usagePage reg).step page x
        = (some (x.ival / 65536),
           (if page = some (x.ival / 65536) then []
            else [build reg .usagePage (Usage.split (Usage.lookup reg x.val)).1])
            ++ [build reg x.cls (Usage.split (Usage.lookup reg x.val)).2]) := by
        simp [hu, hsp]
      rw [hstep]
      have hpage' : ∃ b', SplitHosts a b' (x.ival / 65536) d ∧ ∀ ys,
          eventsFrom rule b (keys ((if page = some (x.ival / 65536) then []
            else [build reg .usagePage (Usage.split (Usage.lookup reg x.val)).1])) ++ ys)
          = eventsFrom rule b' ys := by
        by_cases hpg : page = some (x.ival / 65536)
        · refine ⟨b, by rw [← hpage _ hpg]; exact H, fun ys => ?_⟩
          rw [if_pos hpg]; rfl
        · refine ⟨{ b with g := fun c => if c = .usagePage then x.ival / 65536 else b.g c }, ?_, fun ys => ?_⟩
          · refine ⟨fun c hc => ?_, by simp, H.usages, H.strings, H.desigs⟩
            simp only [hc, if_false]; exact H.g c hc
          · rw [if_neg hpg]
            simp only [keys_cons, keys_nil, List.cons_append, List.nil_append]
            rw [eventsFrom_cons_of_not_main _ _ _ _ (by simp [build_cls, Cls.kind]),
              build_key _ _ _ (by decide), hsp]
            rfl
      obtain ⟨b', hb1, hb3⟩ := hpage'
      simp only [List.append_assoc, keys_append]
      rw [hb3]
      simp only [keys_cons, keys_nil, List.cons_append, List.nil_append]
      rw [eventsFrom_cons_of_not_main _ _ _ _ (by simp [build_cls, hnm]), build_key _ _ _ hcol, hsu]
      obtain ⟨e1, e2, e3, e4, e5⟩ := hb1
      obtain ⟨c, v⟩ := x
      cases c <;> simp [usageLike] at hu
      · rw [if_pos (show (Item.key ⟨.usage, v⟩).1 = .usage from rfl)]
        refine ih' _ _ _ _ _ ⟨?_, ?_, ?_, ?_, ?_⟩ (fun q hq => by simpa using hq)
        · exact e1
        · exact e2
        · simp only [Host.step, e2, e3]; rfl
        · exact e4
        · exact e5
      · rw [if_neg (show ¬ (Item.key ⟨.usageMin, v⟩).1 = .usage by simp [Item.key]), if_pos (show (Item.key ⟨.usageMin, v⟩).1 = .usageMin from rfl)]
        refine ih' _ _ _ _ _ ⟨?_, ?_, ?_, ?_, ?_⟩ (fun q hq => by simpa using hq)
        · exact e1
        · exact e2
        · simp only [Host.step, e2, e3]; rfl
        · exact e4
        · exact e5
      · rw [if_neg (show ¬ (Item.key ⟨.usageMax, v⟩).1 = .usage by simp [Item.key]), if_neg (show ¬ (Item.key ⟨.usageMax, v⟩).1 = .usageMin by simp [Item.key]),
          if_pos (show (Item.key ⟨.usageMax, v⟩).1 = .usageMax from rfl)]
        refine ih' _ _ _ _ _ ⟨?_, ?_, ?_, ?_, ?_⟩ (fun q hq => by simpa using hq)
        · exact e1
        · exact e2
        · simp only [Host.step, e2, e3]; rfl
        · exact e4
        · exact e5
    · have hu' : usageLike x.cls = false := by simpa using hu
      have n1 : ¬ x.key.1 = .usage := by intro e; rw [show x.cls = .usage from e] at hu'; simp [usageLike] at hu'
      have n2 : ¬ x.key.1 = .usageMin := by intro e; rw [show x.cls = .usageMin from e] at hu'; simp [usageLike] at hu'
      have n3 : ¬ x.key.1 = .usageMax := by intro e; rw [show x.cls = .usageMax from e] at hu'; simp [usageLike] at hu'
      rw [if_neg n1, if_neg n2, if_neg n3]
      have hout : (usagePage reg).step page x = (if x.cls = .usagePage then some x.ival else page, [x]) := by
        by_cases hup : x.cls = .usagePage
        · simp [hup, usageLike]
        · simp [hu', hup]
      rw [hout]
      simp only [List.cons_append, List.nil_append, keys_cons]
      have H' := splitHosts_other rule H x.key hu' hp.1.1 hp.1.2
      have IH := ih' (if x.cls = .usagePage then some x.ival else page) _ _ _ _ H' (by
        intro q hq
        by_cases hup : x.cls = .usagePage
        · rw [if_pos hup] at hq
          rw [if_pos (show x.key.1 = .usagePage from hup)]
          simpa using hq
        · rw [if_neg hup] at hq
          rw [if_neg (show ¬ x.key.1 = .usagePage from hup)]
          exact hpage q hq)
      rw [eventsFrom_cons, IH]
      by_cases hup : x.key.1 = .usagePage
      · have hnm : ¬ x.key.1.kind = .main := by rw [hup]; decide
        rw [if_pos hup, if_pos hup, if_neg hnm, if_neg hnm, List.nil_append]
      · rw [if_neg hup, if_neg hup]
        by_cases hm : x.key.1.kind = .main
        · rw [if_pos hm, if_pos hm, if_pos hm, List.flatMap_cons]
          congr 1
          apply events_pageless (a := b.main rule x.key)
          · rfl
          · rfl
          · intro c hc; exact H.g c hc
          · simp only [Host.main, MainRec.withUsages, H.usages, H.page]
          · simp only [Host.main, MainRec.withUsages, H.strings]
          · simp only [Host.main, MainRec.withUsages, H.desigs]
        · rw [if_neg hm, if_neg hm, if_neg hm, List.nil_append]

theorem splitKept_recs (rule : PageRule) (xs : List SItem) : ∀ (h : Host) (page : Int) (d : Decl),
    (splitKept rule h page d xs).map (·.1) = recs rule h xs := by
  induction xs with
  | nil => intros; rfl
  | cons x xs ih =>
    intro h page d
    rw [splitKept, recs]
    split
    · next h1 => rw [ih, h1]; rfl
    split
    · next h1 => rw [ih, h1]; rfl
    split
    · next h1 => rw [ih, h1]; rfl
    split
    · next h1 => rw [ih, h1]; rfl
    split
    · simp [ih]
    · simp [ih]

/-- **C23.** What splitting makes of any stream without Push and Pop, for both sorts of hosts: the same main items, with
the usages of `splitKept`. -/
theorem C23_exact (reg : Registry) (rule : PageRule) (xs : List Item) (hm : ∀ i ∈ xs, i.Made) (hp : NoPushPop xs) :
    meaning rule (keys ((usagePage reg).run xs)) =
      (splitKept rule {} 0 {} (keys xs)).flatMap (fun p => (p.1.withUsages p.2).events) ∧
    recs rule {} (keys xs) = (splitKept rule {} 0 {} (keys xs)).map (·.1) := by
  refine ⟨?_, (splitKept_recs rule _ _ _ _).symm⟩
  refine usagePage_split reg rule xs (fun i hi hu => ?_) hp none {} {} 0 {} ⟨fun _ _ => rfl, rfl, rfl, rfl, rfl⟩ (by simp)
  rcases (hm i hi).nonneg with h | h
  · cases hc : i.cls <;> rw [hc] at hu h <;> simp [usageLike] at hu <;> simp [Cls.signed] at h
  · exact h

/-- **C23.** For any stream without Push and Pop and both sorts of hosts: the meaning is kept exactly when every usage
that is read is the same. -/
theorem C23_iff (reg : Registry) (rule : PageRule) (xs : List Item) (hm : ∀ i ∈ xs, i.Made) (hp : NoPushPop xs) :
    meaning rule (keys ((usagePage reg).run xs)) = meaning rule (keys xs) ↔
      ∀ p ∈ splitKept rule {} 0 {} (keys xs), p.1.sameUsages p.2 := by
  obtain ⟨h1, h2⟩ := C23_exact reg rule xs hm hp
  rw [h1, ← withUsages_all]
  unfold meaning eventsFrom
  rw [h2, List.flatMap_map]

example : (splitKept .atMain {} 0 {} (keys [⟨.usage, .int 0x10030⟩, ⟨.usage, .int 0x10031⟩, ⟨.input, .int 2⟩,
      ⟨.usagePage, .int 9⟩, ⟨.usage, .int 1⟩, ⟨.input, .int 2⟩])).map (fun p => (p.1.usages, p.2))
    = [([0x10030, 0x10031], [0x10030, 0x10031]), ([0x90001], [1])] := by decide +kernel

end Hrdc
