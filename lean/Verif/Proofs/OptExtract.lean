import Verif.Proofs.MergeRecs
import Verif.Props.OptExact
import Verif.Props.Extract2
import Verif.Props.Pages
/-!
# Optimized streams can be decompiled
-/
namespace Hrdc
open Spec Optimizer MR Extractor

/-! ## Groups of main items -/

theorem runs_recs (xs : List SItem) : ∀ (h : Host) (s : Pend),
    s.group ++ recs .atUsage h xs = (runs h s xs).1.flatten ++ (runs h s xs).2.group := by
  induction xs with
  | nil => intro h s; simp [runs, recs_nil]
  | cons x xs ih =>
    intro h s
    rw [runs]
    have hfl : ∀ t : Pend, t.flush.group = [] := fun _ => rfl
    have e : ∀ (t : Pend) (r : MainRec), (t.add r).group = t.group ++ [r] := fun _ _ => rfl
    by_cases hd : x.1.isData = true
    · rw [recs_cons, if_pos (isData_kind hd)]
      simp only [hd, if_true]
      by_cases hf : s.fits (h.main .atUsage x) = true
      · simp only [hf, if_true, List.nil_append]
        split
        · rw [← ih, e]; simp
        · rw [List.flatten_cons, List.append_assoc, ← ih, e, hfl]; simp
      · have hf' : s.fits (h.main .atUsage x) = false := by simpa using hf
        simp only [hf', Bool.false_eq_true, if_false]
        split
        · rw [List.flatten_append, List.append_assoc, ← ih, e, hfl]; simp
        · have := ih (h.step .atUsage x) (s.flush.add (h.main .atUsage x)).flush
          rw [hfl, List.nil_append] at this
          simp only [List.flatten_append, List.flatten_cons, List.flatten_nil, List.append_nil, List.append_assoc]
          rw [← this, e, hfl, List.nil_append]
    · have hd' : x.1.isData = false := by simpa using hd
      simp only [hd', Bool.false_eq_true, if_false]
      split
      · next hm =>
        have := ih (h.step .atUsage x) s.flush
        rw [hfl, List.nil_append] at this
        rw [recs_cons, if_pos hm, List.flatten_cons, List.flatten_cons, List.append_assoc, List.append_assoc, ← this]
      · next hm =>
        rw [recs_cons, if_neg hm, List.nil_append]
        split
        · have := ih (h.step .atUsage x) s.flush
          rw [hfl, List.nil_append] at this
          rw [List.flatten_cons, List.append_assoc, ← this]
        · split
          · exact ih _ { s with after := some x.2 }
          · exact ih _ s

/-- Any two neighbours are mergeable. -/
def Run (g : List MainRec) : Prop := ∀ p q a b, g = p ++ a :: b :: q → Mergeable a b

theorem run_nil : Run [] := by intro p q a b h; simp at h
theorem run_one (r : MainRec) : Run [r] := by
  intro p q a b h
  have := congrArg List.length h
  simp at this
  omega

/-- The open group: alike, each a single field, with the globals in force. -/
def Waiting (h : Host) (g : List MainRec) : Prop :=
  ∃ c v, Cls.isData c = true ∧ ∀ r ∈ g, r.cls = c ∧ r.val = v ∧ r.g .reportCount = 1 ∧ ∀ t ∈ groupTags, r.g t = h.g t

theorem waiting_nil (h : Host) : Waiting h [] := ⟨.input, 0, rfl, by simp⟩

theorem waiting_add {h : Host} {s : Pend} {x : SItem} (hw : Waiting h s.group) (hd : x.1.isData = true)
    (hf : s.fits (h.main .atUsage x) = true) :
    Run (s.group ++ [h.main .atUsage x]) ∧
      ((h.main .atUsage x).g .reportCount = 1 → Waiting h (s.group ++ [h.main .atUsage x])) := by
  obtain ⟨c, v, hc, hg⟩ := hw
  have hx : s.group ≠ [] → x.1 = c ∧ x.2 = v := by
    intro hne
    unfold Pend.fits at hf
    cases hs : s.group with
    | nil => exact absurd hs hne
    | cons a t =>
      rw [hs] at hf
      have ha := hg a (by simp [hs])
      simp only [Host.main, Bool.and_eq_true, beq_iff_eq] at hf
      exact ⟨hf.1 ▸ ha.1, hf.2 ▸ ha.2.1⟩
  constructor
  · intro p q a b hab
    have ha : a ∈ s.group := by
      have : s.group = p ++ a :: (b :: q).dropLast := by
        have := congrArg List.dropLast hab
        rw [List.dropLast_concat] at this
        rw [this, List.dropLast_append_of_ne_nil (by simp), List.dropLast_cons_of_ne_nil (by simp)]
      rw [this]; simp
    obtain ⟨a1, a2, a3, a4⟩ := hg a ha
    have hne : s.group ≠ [] := by intro e; rw [e] at ha; simp at ha
    have hb : b ∈ s.group ++ [h.main .atUsage x] := by rw [hab]; simp
    have hbb : b.cls = c ∧ b.val = v ∧ ∀ t ∈ groupTags, b.g t = h.g t := by
      rcases List.mem_append.1 hb with hb | hb
      · have := hg b hb; exact ⟨this.1, this.2.1, this.2.2.2⟩
      · simp only [List.mem_singleton] at hb
        subst hb
        exact ⟨(hx hne).1, (hx hne).2, fun _ _ => rfl⟩
    exact ⟨by rw [a1]; exact hc, by rw [hbb.1, a1], by rw [hbb.2.1, a2],
      fun t ht => by rw [hbb.2.2 t ht, a4 t ht], a3⟩
  · intro h1
    by_cases hne : s.group = []
    · refine ⟨x.1, x.2, hd, ?_⟩
      rw [hne]
      intro r hr
      simp only [List.nil_append, List.mem_singleton] at hr
      subst hr
      exact ⟨rfl, rfl, h1, fun _ _ => rfl⟩
    · refine ⟨c, v, hc, ?_⟩
      intro r hr
      rcases List.mem_append.1 hr with hr | hr
      · exact hg r hr
      · simp only [List.mem_singleton] at hr
        subst hr
        exact ⟨(hx hne).1, (hx hne).2, h1, fun _ _ => rfl⟩

theorem waiting_run {h : Host} {g : List MainRec} (hw : Waiting h g) : Run g := by
  obtain ⟨c, v, hc, hg⟩ := hw
  intro p q a b e
  have ha := hg a (by rw [e]; simp)
  have hb := hg b (by rw [e]; simp)
  exact ⟨by rw [ha.1]; exact hc, by rw [hb.1, ha.1], by rw [hb.2.1, ha.2.1],
    fun t ht => by rw [hb.2.2.2 t ht, ha.2.2.2 t ht], ha.2.2.1⟩

theorem runs_run (xs : List Item) : ∀ (h : Host) (s : Pend), NoPushPop xs → Waiting h s.group →
    (∀ g ∈ (runs h s (keys xs)).1, Run g) ∧ ∃ h', Waiting h' (runs h s (keys xs)).2.group := by
  induction xs with
  | nil => intro h s _ hw; exact ⟨by simp [runs, keys_nil], h, hw⟩
  | cons x xs ih =>
    intro h s hpp hw
    rw [NoPushPop.cons] at hpp
    obtain ⟨⟨hp1, hp2⟩, hpp⟩ := hpp
    have hflush : ∀ (h : Host) (t : Pend), Waiting h t.flush.group := fun h _ => waiting_nil h
    rw [keys_cons, runs]
    by_cases hd : x.cls.isData = true
    · have hstep : h.step .atUsage x.key = h.cleared := step_data .atUsage h x hd
      have hd2 : x.key.1.isData = true := hd
      have main : ∀ t : Pend, Waiting h t.group → t.fits (h.main .atUsage x.key) = true →
          Run (t.add (h.main .atUsage x.key)).group ∧ ((h.main .atUsage x.key).g .reportCount = 1 →
            Waiting (h.step .atUsage x.key) (t.add (h.main .atUsage x.key)).group) := by
        intro t ht hf
        obtain ⟨a, b⟩ := waiting_add ht hd2 hf
        refine ⟨a, fun h1 => ?_⟩
        rw [hstep]
        exact b h1
      simp only [hd2, if_true]
      by_cases hf : s.fits (h.main .atUsage x.key) = true
      · obtain ⟨a, b⟩ := main s hw hf
        simp only [hf, if_true, List.nil_append]
        split
        · next h1 => exact ih _ _ hpp (b h1)
        · obtain ⟨c, d⟩ := ih (h.step .atUsage x.key) (s.add (h.main .atUsage x.key)).flush hpp (hflush _ _)
          exact ⟨fun g hg => by 
            rcases List.mem_cons.1 hg with rfl | hg
            · exact a
            · exact c g hg, d⟩
      · have hf' : s.fits (h.main .atUsage x.key) = false := by simpa using hf
        obtain ⟨a, b⟩ := main s.flush (hflush _ _) rfl
        simp only [hf', Bool.false_eq_true, if_false]
        split
        · next h1 =>
          obtain ⟨c, d⟩ := ih _ _ hpp (b h1)
          exact ⟨fun g hg => by
            rcases List.mem_append.1 hg with hg | hg
            · simp at hg; subst hg; exact waiting_run hw
            · exact c g hg, d⟩
        · obtain ⟨c, d⟩ := ih (h.step .atUsage x.key) (s.flush.add (h.main .atUsage x.key)).flush hpp (hflush _ _)
          exact ⟨fun g hg => by
            rcases List.mem_append.1 hg with hg | hg
            · simp at hg; subst hg; exact waiting_run hw
            · rcases List.mem_cons.1 hg with rfl | hg
              · exact a
              · exact c g hg, d⟩
    · have hd' : x.key.1.isData = false := by simpa using hd
      simp only [hd', Bool.false_eq_true, if_false]
      split
      · obtain ⟨c, d⟩ := ih (h.step .atUsage x.key) s.flush hpp (hflush _ _)
        exact ⟨fun g hg => by
          rcases List.mem_cons.1 hg with rfl | hg
          · exact waiting_run hw
          · rcases List.mem_cons.1 hg with rfl | hg
            · exact run_one _
            · exact c g hg, d⟩
      · next hm =>
        split
        · obtain ⟨c, d⟩ := ih (h.step .atUsage x.key) s.flush hpp (hflush _ _)
          exact ⟨fun g hg => by
            rcases List.mem_cons.1 hg with rfl | hg
            · exact waiting_run hw
            · exact c g hg, d⟩
        · next hw' =>
          have hkeep : Waiting (h.step .atUsage x.key) s.group := by
            obtain ⟨c, v, hc, hg⟩ := hw
            refine ⟨c, v, hc, fun r hr => ?_⟩
            obtain ⟨a1, a2, a3, a4⟩ := hg r hr
            refine ⟨a1, a2, a3, fun t ht => ?_⟩
            rw [a4 t ht]
            by_cases hgl : x.cls.kind = .global
            · rw [step_global _ _ _ hgl hp1 hp2]
              by_cases hcx : t = x.cls
              · subst hcx
                simp only [if_true]
                by_cases he : h.g x.cls = x.ival
                · exact he
                · exact absurd ⟨ht, he⟩ hw'
              · simp [hcx]
            · rw [step_local_g _ _ _ hgl]
          split
          · exact ih _ { s with after := some x.key.2 } hpp hkeep
          · exact ih _ s hpp hkeep

/-! ## Reading the merged main items -/

theorem walk_append (a b : List MainRec) : ∀ ops, walk ops (a ++ b) = (walk ops a).bind fun o => walk o b := by
  induction a with
  | nil => intro ops; rfl
  | cons r a ih =>
    intro ops
    rw [List.cons_append, walk_cons, walk_cons]
    cases walkStep ops r with
    | none => rfl
    | some o => exact ih o

theorem canon_g {r : MainRec} (hd : r.cls.isData = true) {c : Cls} (hc : c ∈ groupTags ∨ c = .reportCount) :
    (canon r).g c = r.g c := by
  simp only [canon, hd, true_and]
  rw [if_pos hc]

theorem canon_data {r : MainRec} (hd : r.cls.isData = true) :
    (canon r).attrs = r.attrs ∧ (canon r).full = r.full ∧ (canon r).g .reportCount = r.g .reportCount ∧
      (canon r).g .unit = r.g .unit ∧ (canon r).g .unitExp = r.g .unitExp ∧ (canon r).g .logMin = r.g .logMin ∧
      (canon r).g .logMax = r.g .logMax := by
  have h := fun c hc => canon_g (r := r) hd (c := c) hc
  have e1 := h .logMin (by simp [groupTags])
  have e2 := h .logMax (by simp [groupTags])
  have e3 := h .physMin (by simp [groupTags])
  have e4 := h .physMax (by simp [groupTags])
  have e5 := h .unit (by simp [groupTags])
  have e6 := h .unitExp (by simp [groupTags])
  have e7 := h .reportSize (by simp [groupTags])
  refine ⟨?_, ?_, h _ (by simp), e5, e6, e1, e2⟩
  · simp only [MainRec.attrs, e1, e2, e3, e4, e5, e6, e7]
  · simp only [MainRec.full, e1, e2]; rfl

theorem dataOK_canon (k : Option Int) {r : MainRec} (hd : r.cls.isData = true) :
    dataOK k (canon r) = dataOK k r ∧ hasFields (canon r) = hasFields r := by
  obtain ⟨h1, h2, h3, h4, h5, h6, h7⟩ := canon_data hd
  unfold dataOK hasFields
  rw [h1, h2, h3, h4, h5, h6, h7]
  exact ⟨rfl, rfl⟩

theorem walkStep_canon (ops : List (Int × Bool)) (r : MainRec) (hk : r.cls.kind = .main) : walkStep ops (canon r) = walkStep ops r := by
  have hc : (canon r).cls = r.cls := rfl
  have hv : (canon r).val = r.val := rfl
  have hs : (canon r).strings = r.strings := rfl
  have hg : (canon r).desigs = r.desigs := rfl
  by_cases hd : r.cls.isData = true
  · obtain ⟨h1, h2⟩ := dataOK_canon (ops.head?.map (·.1)) hd
    unfold walkStep
    rw [h1, h2, hc, hs, hg, hv]
  · unfold walkStep
    rw [hc, hs, hg, hv]
    cases h : r.cls <;> rw [h] at hd hk <;> simp [Cls.isData] at hd <;> simp [Cls.kind] at hk
    all_goals rfl

/-- What main items must be like to be read once they are merged: data items have fields, none is a single
buffered byte, and indices of arrays go with usages. -/
def JoinOK (r : MainRec) : Prop :=
  r.cls.isData = true → (0 < r.g .reportCount ∨ r.isConst = true) ∧
    (r.isConst = false → (r.g .reportCount = 1 → r.val / 256 % 2 ≠ 1) ∧ (r.isVar = false → r.usages = [] → r.strings = [] ∧ r.desigs = []))

theorem joinOK_fields {r : MainRec} (h : JoinOK r) (hd : r.cls.isData = true) : hasFields r = true := by
  unfold hasFields
  rcases (h hd).1 with h | h <;> simp [h]

theorem walk_data (g : List MainRec) : ∀ (ops o : List (Int × Bool)), (∀ r ∈ g, r.cls.isData = true ∧ JoinOK r) → g ≠ [] →
    walk ops g = some o → (∀ r ∈ g, dataOK (ops.head?.map (·.1)) r = true) ∧ o = markFull true ops := by
  induction g with
  | nil => intro _ _ _ h; exact absurd rfl h
  | cons r g ih =>
    intro ops o hg _ hw
    have hr := hg r (by simp)
    rw [walk_cons] at hw
    by_cases hok : dataOK (ops.head?.map (·.1)) r = true
    · rw [walkStep_data ops r hr.1 hok, joinOK_fields hr.2 hr.1] at hw
      by_cases hne : g = []
      · subst hne
        simp only [walk, Option.some.injEq] at hw
        exact ⟨by simpa using hok, hw.symm⟩
      · obtain ⟨h1, h2⟩ := ih (markFull true ops) o (fun q hq => hg q (by simp [hq])) hne hw
        have hh : (markFull true ops).head?.map (·.1) = ops.head?.map (·.1) := by
          cases ops with
          | nil => rfl
          | cons x ops => rfl
        have hmm : markFull true (markFull true ops) = markFull true ops := by
          cases ops with
          | nil => rfl
          | cons x ops => obtain ⟨k, b⟩ := x; simp [markFull]
        rw [hh] at h1
        rw [hmm] at h2
        refine ⟨?_, h2⟩
        intro q hq
        rcases List.mem_cons.1 hq with rfl | hq
        · exact hok
        · exact h1 q hq
    · unfold walkStep at hw
      have hd := hr.1
      cases hc : r.cls <;> rw [hc] at hd <;> simp [Cls.isData] at hd <;>
        simp [hc, hok] at hw

theorem run_tail {a b : MainRec} {t : List MainRec} (h : Run (a :: b :: t)) : Mergeable a b ∧ Run (b :: t) :=
  ⟨h [] t a b rfl, fun p q c d e => h (a :: p) q c d (by rw [e]; rfl)⟩

theorem run_alike3 (t : List MainRec) : ∀ (a : MainRec), Run (a :: t) → (t ≠ [] → a.cls.isData = true) ∧ ∀ r ∈ a :: t,
    r.cls = a.cls ∧ r.val = a.val ∧ ∀ c ∈ groupTags, r.g c = a.g c := by
  induction t with
  | nil => intro a _; exact ⟨fun h => absurd rfl h, by simp⟩
  | cons b t ih =>
    intro a h
    obtain ⟨h1, h2⟩ := run_tail h
    obtain ⟨-, h3⟩ := ih b h2
    refine ⟨fun _ => h1.1, ?_⟩
    intro r hr
    rcases List.mem_cons.1 hr with rfl | hr
    · exact ⟨rfl, rfl, fun _ _ => rfl⟩
    · obtain ⟨r1, r2, r3⟩ := h3 r hr
      exact ⟨r1.trans h1.2.1, r2.trans h1.2.2.1, fun c hc => (r3 c hc).trans (h1.2.2.2.1 c hc)⟩

theorem run_usages (t : List MainRec) : ∀ (a b : MainRec), Run (a :: b :: t) → mergeSafe (a :: b :: t) = true →
    a.isConst = false → a.isVar = false → ∀ r ∈ a :: b :: t, r.usages = [] := by
  induction t with
  | nil =>
    intro a b h hs hc hv
    have h1 := (run_tail h).1
    simp only [mergeSafe, Bool.and_true, decide_eq_true_eq] at hs
    rcases (hs h1).2 with h | h | h
    · rw [hc] at h; simp at h
    · rw [hv] at h; simp at h
    · simp [h]
  | cons d t ih =>
    intro a b h hs hc hv
    obtain ⟨h1, h2⟩ := run_tail h
    rw [mergeSafe, Bool.and_eq_true, decide_eq_true_eq] at hs
    have hab : a.usages = [] ∧ b.usages = [] := by
      rcases (hs.1 h1).2 with h | h | h
      · rw [hc] at h; simp at h
      · rw [hv] at h; simp at h
      · exact ⟨h.2.1, h.2.2⟩
    have hv2 : b.val = a.val := h1.2.2.1
    have := ih b d h2 hs.2 (by rw [← hc]; simp [MainRec.isConst, hv2]) (by rw [← hv]; simp [MainRec.isVar, hv2])
    intro r hr
    rcases List.mem_cons.1 hr with rfl | hr
    · exact hab.1
    · exact this r hr

theorem total_pos (g : List MainRec) (h : ∀ r ∈ g, 0 < r.g .reportCount) : (g.length : Int) ≤ total g := by
  induction g with
  | nil => simp [total]
  | cons r g ih =>
    have h1 := h r (by simp)
    have h2 := ih fun q hq => h q (by simp [hq])
    rw [totalRec_cons]
    simp only [List.length_cons]
    omega

/-- A group is read as well as its members. -/
theorem group_walk {g : List MainRec} {ops o : List (Int × Bool)} (hr : Run g) (hs : mergeSafe g = true)
    (hk : ∀ r ∈ g, r.cls.kind = .main) (hj : ∀ r ∈ g, JoinOK r) (hw : walk ops g = some o) : walk ops (joinedR (total g) g) = some o := by
  cases g with
  | nil => exact hw
  | cons a t =>
    cases t with
    | nil =>
      rw [MR.joined_single, walk_cons, walkStep_canon _ _ (hk a (by simp))]
      rw [walk_cons] at hw
      exact hw
    | cons b t =>
      obtain ⟨hd, hal⟩ := run_alike3 (b :: t) a hr
      have hd := hd (by simp)
      have hdata : ∀ r ∈ a :: b :: t, r.cls.isData = true ∧ JoinOK r :=
        fun r hr => ⟨by rw [(hal r hr).1]; exact hd, hj r hr⟩
      obtain ⟨hok, ho⟩ := walk_data _ _ _ hdata (by simp) hw
      have ha := hok a (by simp)
      rw [joinedR, walk_cons]
      generalize hjj : ({ a with
        g := fun c => if c = Cls.reportCount then total (a :: b :: t) else a.g c
        usages := (a :: b :: t).flatMap (·.usages)
        strings := (a :: b :: t).flatMap (·.strings)
        desigs := (a :: b :: t).flatMap (·.desigs) } : MainRec) = j
      have jc : j.cls = a.cls := by rw [← hjj]
      rw [walkStep_canon _ _ (by rw [jc]; exact isData_kind hd)]
      have jv : j.val = a.val := by rw [← hjj]
      have jconst : j.isConst = a.isConst := by simp [MainRec.isConst, jv]
      have jvar : j.isVar = a.isVar := by simp [MainRec.isVar, jv]
      have jn : j.g .reportCount = total (a :: b :: t) := by rw [← hjj]; simp
      have jg : ∀ c, c ≠ .reportCount → j.g c = a.g c := by intro c hc; rw [← hjj]; simp [hc]
      suffices h : dataOK (ops.head?.map (·.1)) j = true ∧ hasFields j = true by
        rw [walkStep_data ops j (by rw [jc]; exact hd) h.1, h.2, ho]
        rfl
      by_cases hcst : a.isConst = true
      · exact const_ok _ j (by rw [jconst]; exact hcst)
      · have hcst : a.isConst = false := by simpa using hcst
        have hcr : ∀ r ∈ a :: b :: t, r.isConst = false := fun r hr => by
          rw [← hcst]; simp [MainRec.isConst, (hal r hr).2.1]
        have hpos : ∀ r ∈ a :: b :: t, 0 < r.g .reportCount := by
          intro r hr
          rcases ((hdata r hr).2 (hdata r hr).1).1 with h | h
          · exact h
          · rw [hcr r hr] at h; simp at h
        have htot := total_pos _ hpos
        simp only [List.length_cons] at htot
        have hone : (j.g .reportCount == 1) = false := by
          rw [jn]; simp only [beq_eq_false_iff_ne]; omega
        obtain ⟨hbuf, -⟩ := ((hj a (by simp)) hd).2 hcst
        refine ⟨?_, by unfold hasFields; rw [jn]; simp only [Bool.or_eq_true, decide_eq_true_eq]; exact Or.inl (Or.inr (by omega))⟩
        have hbuf := hbuf (run_tail hr).1.2.2.2.2
        have hbuf2 : (a.val / 256 % 2 == 1) = false := by simpa using hbuf
        by_cases hv : a.isVar = true
        · have hz : a.val ≠ 0 := by
            intro h0; simp [MainRec.isVar, h0] at hv
          unfold dataOK
          rw [jconst, hcst, hone, jv, hbuf2, jvar, hv]
          simp [hz]
        · have hv : a.isVar = false := by simpa using hv
          have hus := run_usages t a b hr hs hcst hv
          have hidx : ∀ r ∈ a :: b :: t, r.strings = [] ∧ r.desigs = [] := by
            intro r hr
            have hvr : r.isVar = false := by rw [← hv]; simp [MainRec.isVar, (hal r hr).2.1]
            exact (((hdata r hr).2 (hdata r hr).1).2 (hcr r hr)).2 hvr (hus r hr)
          have ju : j.usages = [] := by
            rw [← hjj]
            simp only [List.flatMap_eq_nil_iff]
            exact hus
          have js : j.strings = [] := by
            rw [← hjj]
            simp only [List.flatMap_eq_nil_iff]
            exact fun r hr => (hidx r hr).1
          have jd : j.desigs = [] := by
            rw [← hjj]
            simp only [List.flatMap_eq_nil_iff]
            exact fun r hr => (hidx r hr).2
          have jfull : j.full = a.full := by
            unfold MainRec.full
            rw [ju, hus a (by simp), jg _ (by simp), jg _ (by simp)]
          have hnf : (decide (a.val = 0) && a.full) = false := by
            by_cases h : (decide (a.val = 0) && a.full) = true
            · exfalso
              unfold dataOK at ha
              rw [hcst, h] at ha
              simp [hus a (by simp)] at ha
            · simpa using h
          unfold dataOK
          rw [jconst, hcst, hone, jv, jfull, hnf, hbuf2, ju]
          simp [MainRec.uniform, js, jd]

theorem mergeSafe_parts (a b : List MainRec) (h : mergeSafe (a ++ b) = true) : mergeSafe a = true ∧ mergeSafe b = true := by
  induction a with
  | nil => exact ⟨rfl, h⟩
  | cons x a ih =>
    cases a with
    | nil =>
      refine ⟨rfl, ?_⟩
      cases b with
      | nil => rfl
      | cons y b =>
        rw [List.singleton_append, mergeSafe, Bool.and_eq_true] at h
        exact h.2
    | cons y a =>
      rw [List.cons_append, List.cons_append, mergeSafe, Bool.and_eq_true] at h
      obtain ⟨h1, h2⟩ := ih (by rw [List.cons_append]; exact h.2)
      exact ⟨by rw [mergeSafe, Bool.and_eq_true]; exact ⟨h.1, h1⟩, h2⟩

theorem groups_walk (gs : List (List MainRec)) : ∀ (ops o : List (Int × Bool)), (∀ g ∈ gs, Run g) →
    mergeSafe gs.flatten = true → (∀ r ∈ gs.flatten, r.cls.kind = .main) → (∀ r ∈ gs.flatten, JoinOK r) → walk ops gs.flatten = some o →
    walk ops (gs.flatMap fun g => joinedR (total g) g) = some o := by
  induction gs with
  | nil => intro ops o _ _ _ _ h; exact h
  | cons g gs ih =>
    intro ops o hr hs hk hj hw
    rw [List.flatten_cons] at hs hk hj hw
    rw [List.flatMap_cons, walk_append]
    rw [walk_append] at hw
    obtain ⟨s1, s2⟩ := mergeSafe_parts _ _ hs
    cases h1 : walk ops g with
    | none => rw [h1] at hw; simp at hw
    | some o1 =>
      rw [h1] at hw
      rw [group_walk (hr g (by simp)) s1 (fun r hr => hk r (by simp [hr])) (fun r hr => hj r (by simp [hr])) h1]
      exact ih o1 o (fun q hq => hr q (by simp [hq])) s2 (fun r hr => hk r (List.mem_append.2 (Or.inr hr))) (fun r hr => hj r (List.mem_append.2 (Or.inr hr))) hw

end Hrdc
