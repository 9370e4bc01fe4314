import Verif.Proofs.MergeExact
import Verif.Props.Passes5
/-!
# C20: what merging main items does, exactly
-/
namespace Hrdc
open Spec Optimizer

theorem runs_events (xs : List SItem) : ∀ (h : Host) (s : Pend),
    s.group.flatMap MainRec.events ++ eventsFrom .atUsage h xs =
      (runs h s xs).1.flatMap (fun g => g.flatMap MainRec.events) ++ (runs h s xs).2.group.flatMap MainRec.events := by
  induction xs with
  | nil => intro h s; simp [runs, eventsFrom_nil]
  | cons x xs ih =>
    intro h s
    rw [runs]
    by_cases hd : x.1.isData = true
    · rw [eventsFrom_cons_main _ _ _ _ (isData_kind hd)]
      simp only [hd, if_true]
      have e : ∀ t : Pend, (t.add (h.main .atUsage x)).group.flatMap MainRec.events =
          t.group.flatMap MainRec.events ++ (h.main .atUsage x).events := by
        intro t; simp [Pend.add]
      have hfl : ∀ t : Pend, t.flush.group = [] := fun _ => rfl
      by_cases hf : s.fits (h.main .atUsage x) = true
      · simp only [hf, if_true, List.nil_append]
        split
        · rw [← ih, e]; simp
        · rw [List.flatMap_cons, List.append_assoc, ← ih, e, hfl]; simp
      · have hf' : s.fits (h.main .atUsage x) = false := by simpa using hf
        simp only [hf', Bool.false_eq_true, if_false]
        split
        · rw [List.flatMap_append, List.append_assoc, ← ih, e, hfl]; simp
        · have := ih (h.step .atUsage x) (s.flush.add (h.main .atUsage x)).flush
          rw [hfl] at this
          have e' := e s.flush
          rw [hfl] at e'
          simp only [List.flatMap_append, List.flatMap_cons, List.flatMap_nil, List.append_nil, List.nil_append, List.append_assoc] at *
          rw [← this, e']
    · have hd' : x.1.isData = false := by simpa using hd
      simp only [hd', Bool.false_eq_true, if_false]
      split
      · next hm =>
        rw [eventsFrom_cons_main _ _ _ _ hm]
        have := ih (h.step .atUsage x) s.flush
        rw [show s.flush.group = [] from rfl] at this
        simp only [List.flatMap_cons, List.flatMap_nil, List.append_nil, List.nil_append, List.append_assoc] at *
        rw [← this]
      · next hm =>
        rw [show eventsFrom .atUsage h (x :: xs) = eventsFrom .atUsage (h.step .atUsage x) xs by
          simp [eventsFrom, recs, hm]]
        split
        · have := ih (h.step .atUsage x) s.flush
          rw [show s.flush.group = [] from rfl] at this
          simp only [List.flatMap_cons, List.flatMap_nil, List.nil_append, List.append_assoc] at *
          rw [← this]
        · split
          · exact ih _ { s with after := some x.2 }
          · exact ih _ s

/-- Members of an open group: data items, alike but for their report counts and indices. -/
def Members (h : Host) (g : List MainRec) : Prop :=
  ∃ c v, Cls.isData c = true ∧ ∀ r ∈ g, r.cls = c ∧ r.val = v ∧ 0 ≤ r.g .reportCount ∧ ∀ t ∈ groupTags, r.g t = h.g t

theorem totalRec_cons (a : MainRec) (g : List MainRec) : total (a :: g) = a.g .reportCount + total g := rfl

theorem members_len {h : Host} {g : List MainRec} (hm : Members h g) :
    (joined (total g) g).length = (g.flatMap MainRec.events).length := by
  obtain ⟨c, v, hc, hg⟩ := hm
  have hev : ∀ r : MainRec, r.cls = c → r.events.length =
      (if r.isConst then (r.g .reportSize).toNat * (r.g .reportCount).toNat else (r.g .reportCount).toNat) := by
    intro r hr
    have : r.cls = .input ∨ r.cls = .output ∨ r.cls = .feature := by
      rw [hr]
      cases c <;> simp_all [Cls.isData]
    rcases this with h | h | h <;> simp only [MainRec.events, h] <;> split <;> simp
  have key : ∀ l : List MainRec, (∀ r ∈ l, r ∈ g) → 0 ≤ total l ∧ (l.flatMap MainRec.events).length =
      (if v % 2 == 1 then (h.g .reportSize).toNat * (total l).toNat else (total l).toNat) := by
    intro l hl
    induction l with
    | nil => simp [total]
    | cons a l ih =>
      obtain ⟨i1, i2⟩ := ih fun r hr => hl r (by simp [hr])
      obtain ⟨h1, h2, h3, h4⟩ := hg a (hl a (by simp))
      rw [totalRec_cons]
      refine ⟨by omega, ?_⟩
      rw [List.flatMap_cons, List.length_append, i2, hev a h1, h4 .reportSize (by simp [groupTags]), MainRec.isConst, h2,
        Int.toNat_add h3 i1]
      split
      · rw [Nat.mul_add]
      · rfl
  rw [(key g fun _ h => h).2]
  cases g with
  | nil => simp [joined, total]
  | cons a t =>
    obtain ⟨h1, h2, -, h4⟩ := hg a (by simp)
    rw [joined, hev]
    case cons.a => exact h1
    simp only [MainRec.isConst, h2, if_true]
    have : (Cls.reportSize = Cls.reportCount) = False := by simp
    simp only [this, if_false, h4 .reportSize (by simp [groupTags])]

/-- Nonnegative report counts. -/
abbrev CountsPos (xs : List Item) : Prop := ∀ i ∈ xs, i.cls = .reportCount → 0 ≤ i.ival

/-- The groups of a stream are of data items that are alike, or of one item. -/
theorem runs_members (xs : List Item) : ∀ (h : Host) (s : Pend), NoPushPop xs → CountsPos xs → 0 ≤ h.g .reportCount →
    Members h s.group → (∀ g ∈ (runs h s (keys xs)).1, (∃ h', Members h' g) ∨ ∃ r, g = [r]) ∧
      ∃ h', Members h' (runs h s (keys xs)).2.group := by
  induction xs with
  | nil => intro h s _ _ _ hm; exact ⟨by simp [runs, keys_nil], h, hm⟩
  | cons x xs ih =>
    intro h s hpp hcp hn hm
    rw [NoPushPop.cons] at hpp
    obtain ⟨⟨hp1, hp2⟩, hpp⟩ := hpp
    have hcp' : CountsPos xs := fun i hi => hcp i (by simp [hi])
    have hempty : ∀ h : Host, Members h [] := fun h => ⟨.input, 0, rfl, by simp⟩
    have hflush : ∀ (h : Host) (t : Pend), Members h t.flush.group := fun h _ => hempty h
    rw [keys_cons, runs]
    by_cases hd : x.cls.isData = true
    · have hstep : h.step .atUsage x.key = h.cleared := step_data .atUsage h x hd
      have hn' : 0 ≤ (h.step .atUsage x.key).g .reportCount := by rw [hstep]; exact hn
      have hadd : ∀ t : Pend, Members h t.group → t.fits (h.main .atUsage x.key) = true →
          Members (h.step .atUsage x.key) (t.add (h.main .atUsage x.key)).group := by
        intro t ht hf
        rw [hstep]
        have hself : (h.main .atUsage x.key).cls = x.cls ∧ (h.main .atUsage x.key).val = x.ival ∧
          0 ≤ (h.main .atUsage x.key).g .reportCount ∧ ∀ t ∈ groupTags, (h.main .atUsage x.key).g t = h.cleared.g t :=
          ⟨rfl, rfl, hn, fun _ _ => rfl⟩
        obtain ⟨c, v, hc, hg⟩ := ht
        have hclr : ∀ r ∈ t.group, ∀ c' ∈ groupTags, r.g c' = h.cleared.g c' := fun r hr c' hc' => (hg r hr).2.2.2 c' hc'
        cases htg : t.group with
        | nil => exact ⟨x.cls, x.ival, hd, by intro r hr; simp [Pend.add, htg] at hr; subst hr; exact hself⟩
        | cons a l =>
          rw [htg] at hg hclr
          simp only [Pend.fits, htg, Bool.and_eq_true, beq_iff_eq] at hf
          obtain ⟨a1, a2, -, -⟩ := hg a (by simp)
          refine ⟨c, v, hc, ?_⟩
          intro r hr
          simp only [Pend.add, htg, List.mem_append, List.mem_singleton] at hr
          rcases hr with hr | hr
          · exact ⟨(hg r hr).1, (hg r hr).2.1, (hg r hr).2.2.1, hclr r hr⟩
          · subst hr
            exact ⟨hf.1.symm.trans a1, hf.2.symm.trans a2, hself.2.2⟩
      simp only [key_fst, hd, if_true]
      have hffit : s.flush.fits (h.main .atUsage x.key) = true := rfl
      have hM : Members (h.step .atUsage x.key)
          ((if s.fits (h.main .atUsage x.key) = true then s else s.flush).add (h.main .atUsage x.key)).group := by
        split
        · next hf => exact hadd s hm hf
        · exact hadd s.flush (hflush h s) hffit
      have hD : ∀ g ∈ (if s.fits (h.main .atUsage x.key) = true then [] else [s.group]),
          (∃ h', Members h' g) ∨ ∃ r, g = [r] := by
        intro g hg
        split at hg
        · simp at hg
        · simp at hg; subst hg; exact Or.inl ⟨h, hm⟩
      split
      · obtain ⟨i1, i2⟩ := ih _ _ hpp hcp' hn' hM
        refine ⟨?_, i2⟩
        intro g hg
        rcases List.mem_append.1 hg with hg | hg
        · exact hD g hg
        · exact i1 g hg
      · obtain ⟨i1, i2⟩ := ih _ ((if s.fits (h.main .atUsage x.key) = true then s else s.flush).add (h.main .atUsage x.key)).flush hpp hcp' hn' (hflush _ _)
        refine ⟨?_, i2⟩
        intro g hg
        rcases List.mem_append.1 hg with hg | hg
        · exact hD g hg
        · rcases List.mem_cons.1 hg with hg | hg
          · subst hg; exact Or.inl ⟨_, hM⟩
          · exact i1 g hg
    · have hd' : x.cls.isData = false := by simpa using hd
      have hdk : ¬ x.key.1.isData = true := by simp [hd']
      rw [if_neg hdk]
      have hn' : 0 ≤ (h.step .atUsage x.key).g .reportCount := by
        by_cases hg : x.cls.kind = .global
        · rw [step_global _ _ _ hg hp1 hp2]
          by_cases hc : x.cls = .reportCount
          · simp only [hc]; exact hcp x (by simp) hc
          · simp only [if_neg (fun e => hc (Eq.symm e))]; exact hn
        · rw [step_local_g _ _ _ hg]; exact hn
      by_cases hk : x.key.1.kind = .main
      · rw [if_pos hk]
        obtain ⟨i1, i2⟩ := ih _ s.flush hpp hcp' hn' (hflush _ _)
        refine ⟨?_, i2⟩
        intro g hg
        rcases List.mem_cons.1 hg with hg | hg
        · subst hg; exact Or.inl ⟨_, hm⟩
        · rcases List.mem_cons.1 hg with hg | hg
          · subst hg; exact Or.inr ⟨_, rfl⟩
          · exact i1 g hg
      · rw [if_neg hk]
        by_cases hw : x.key.1 ∈ groupTags ∧ h.g x.key.1 ≠ x.key.2
        · rw [if_pos hw]
          obtain ⟨i1, i2⟩ := ih _ s.flush hpp hcp' hn' (hflush _ _)
          refine ⟨?_, i2⟩
          intro g hg
          rcases List.mem_cons.1 hg with hg | hg
          · subst hg; exact Or.inl ⟨_, hm⟩
          · exact i1 g hg
        · rw [if_neg hw]
          have hm' : Members (h.step .atUsage x.key) s.group := by
            obtain ⟨c, v, hc, hg⟩ := hm
            refine ⟨c, v, hc, fun r hr => ⟨(hg r hr).1, (hg r hr).2.1, (hg r hr).2.2.1, ?_⟩⟩
            intro t ht
            rw [(hg r hr).2.2.2 t ht]
            by_cases hgl : x.cls.kind = .global
            · rw [step_global _ _ _ hgl hp1 hp2]
              by_cases hc : t = x.cls
              · subst hc
                simp only [if_true]
                by_cases he : h.g x.cls = x.ival
                · exact he
                · exact absurd ⟨ht, he⟩ hw
              · simp [hc]
            · rw [step_local_g _ _ _ hgl]
          by_cases hc : x.key.1 = .reportCount
          · rw [if_pos hc]
            exact ih _ { s with after := some x.key.2 } hpp hcp' hn' hm'
          · rw [if_neg hc]
            exact ih _ s hpp hcp' hn' hm'

theorem runs_len (xs : List Item) (hp : NoPushPop xs) (hn : CountsPos xs) : ∀ g ∈ (runs {} {} (keys xs)).1,
    (joined (total g) g).length = (g.flatMap MainRec.events).length := by
  intro g hg
  rcases (runs_members xs {} {} hp hn (by decide) ⟨.input, 0, rfl, by simp⟩).1 g hg with ⟨h, hm⟩ | ⟨r, rfl⟩
  · exact members_len hm
  · rw [joined_single]; simp

theorem flatMap_eq_iff {α β : Type} (f g : α → List β) (u v : List β) (l : List α)
    (hl : ∀ a ∈ l, (f a).length = (g a).length) :
    l.flatMap f ++ u = l.flatMap g ++ v ↔ (∀ a ∈ l, f a = g a) ∧ u = v := by
  induction l with
  | nil => simp
  | cons a l ih =>
    rw [List.flatMap_cons, List.flatMap_cons, List.append_assoc, List.append_assoc]
    constructor
    · intro h
      obtain ⟨h1, h2⟩ := List.append_inj h (hl a (by simp))
      obtain ⟨h3, h4⟩ := (ih fun b hb => hl b (by simp [hb])).1 h2
      exact ⟨List.forall_mem_cons.2 ⟨h1, h3⟩, h4⟩
    · rintro ⟨h1, h2⟩
      rw [h1 a (by simp), (ih fun b hb => hl b (by simp [hb])).2 ⟨fun b hb => h1 b (by simp [hb]), h2⟩]

/-- C20.  What merging makes of any stream without Push/Pop and with no range left open at a data item: every group
that is written becomes one item with all its fields and all its indices, and the one still open at the end stays
apart, with the indices all on its first item and a report count of before. -/
theorem C20_exact (reg : Registry) (xs : List Item) (hp : NoPushPop xs)
    (hcl : rangesClosed .atUsage {} (keys xs) = true) :
    meaning .atUsage (keys ((mainMerge reg).run xs)) = mergedEvents {} {} (keys xs) :=
  mm_run_exact reg xs hcl hp

/-- C20.  Merging keeps the meaning exactly when each group by itself does. -/
theorem C20_iff (reg : Registry) (xs : List Item) (hp : NoPushPop xs) (hn : CountsPos xs)
    (hcl : rangesClosed .atUsage {} (keys xs) = true) :
    meaning .atUsage (keys ((mainMerge reg).run xs)) = meaning .atUsage (keys xs) ↔
      (∀ g ∈ (runs {} {} (keys xs)).1, joined (total g) g = g.flatMap MainRec.events) ∧
      (runs {} {} (keys xs)).2.close = (runs {} {} (keys xs)).2.group.flatMap MainRec.events := by
  have h := runs_events (keys xs) {} {}
  simp only [List.flatMap_nil, List.nil_append] at h
  rw [mm_run_exact reg xs hcl hp, meaning, h, mergedEvents]
  exact flatMap_eq_iff _ _ _ _ _ (runs_len xs hp hn)

/-- Two buttons, two one-element arrays with choices of their own, and an item left open at the end: the buttons stay
as they were, the arrays do not, the last item does. -/
def groupSample : List Item :=
  [⟨.logMin, .int 0⟩, ⟨.logMax, .int 1⟩, ⟨.reportSize, .int 1⟩, ⟨.reportCount, .int 1⟩,
   ⟨.usage, .int 0x90001⟩, ⟨.input, .int 2⟩, ⟨.usage, .int 0x90002⟩, ⟨.input, .int 2⟩,
   ⟨.usage, .int 0x90003⟩, ⟨.input, .int 0⟩, ⟨.usage, .int 0x90004⟩, ⟨.input, .int 0⟩,
   ⟨.endCollection, .int 0⟩, ⟨.reportCount, .int 3⟩, ⟨.output, .int 2⟩]

example : NoPushPop groupSample ∧ rangesClosed .atUsage {} (keys groupSample) = true ∧
    (∀ i ∈ groupSample, i.cls = .reportCount → 0 ≤ i.ival) ∧
    ((runs {} {} (keys groupSample)).1.map fun g => (g.length, total g, decide (joined (total g) g = g.flatMap MainRec.events)))
      = [(0, 0, true), (0, 0, true), (2, 2, true), (2, 2, false), (1, 1, true), (1, 3, true)] ∧
    (runs {} {} (keys groupSample)).2.close = [] := by decide +kernel

/-- The same streams with the arrays left out keep their meaning, by `C20_iff`. -/
example : meaning .atUsage (keys ((mainMerge []).run (groupSample.take 8 ++ groupSample.drop 12))) =
    meaning .atUsage (keys (groupSample.take 8 ++ groupSample.drop 12)) :=
  (C20_iff [] _ (by decide) (by decide +kernel) (by decide +kernel)).2 (by decide +kernel)

/-- Constant items: how many there are and how they are put together makes no difference. -/
theorem C20_constant (h : Host) (g : List MainRec) (hm : Members h g) (hc : ∀ r ∈ g, r.isConst = true) :
    joined (total g) g = g.flatMap MainRec.events := by
  have hlen := members_len hm
  obtain ⟨c, v, hd, hg⟩ := hm
  have hev : ∀ r : MainRec, r.cls = c → r.isConst = true → r.g .reportID = h.g .reportID →
      ∀ e ∈ r.events, e = Event.padBit c (h.g .reportID) := by
    intro r hr hrc hid e he
    have : r.cls = .input ∨ r.cls = .output ∨ r.cls = .feature := by
      rw [hr]
      cases c <;> simp_all [Cls.isData]
    rcases this with h1 | h1 | h1 <;> simp only [MainRec.events, h1, hrc, if_true] at he <;>
      rw [List.eq_of_mem_replicate he, hid, ← hr, h1]
  have hall : ∀ e ∈ g.flatMap MainRec.events, e = Event.padBit c (h.g .reportID) := by
    intro e he
    obtain ⟨r, hr, he⟩ := List.mem_flatMap.1 he
    exact hev r (hg r hr).1 (hc r hr) ((hg r hr).2.2.2 _ (by simp [groupTags])) e he
  have hall2 : ∀ e ∈ joined (total g) g, e = Event.padBit c (h.g .reportID) := by
    intro e he
    cases g with
    | nil => simp [joined] at he
    | cons a t =>
      refine hev _ ?_ ?_ ?_ e he
      · exact (hg a (by simp)).1
      · exact hc a (by simp)
      · exact (hg a (by simp)).2.2.2 _ (by simp [groupTags])
  rw [List.eq_replicate_of_mem hall, List.eq_replicate_of_mem hall2, hlen]

end Hrdc
