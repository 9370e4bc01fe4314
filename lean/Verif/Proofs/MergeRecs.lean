import Verif.Proofs.MergeExact
/-!
# The main items `MainMerge` writes
-/
namespace Hrdc.MR
open Spec Optimizer

/-- A main item with the globals that matter to it. -/
def canon (r : MainRec) : MainRec :=
  { r with g := fun c => if r.cls.isData = true ∧ (c ∈ groupTags ∨ c = .reportCount) then r.g c else 0 }

/-- The main items of a stream, with the globals that matter to them. -/
def outFrom (rule : PageRule) (h : Host) (xs : List SItem) : List MainRec := (recs rule h xs).map canon

/-- One data item for a group. -/
def joinedR (n : Int) : List MainRec → List MainRec
  | [] => []
  | r :: g => [canon { r with
      g := fun c => if c = .reportCount then n else r.g c
      usages := (r :: g).flatMap (·.usages)
      strings := (r :: g).flatMap (·.strings)
      desigs := (r :: g).flatMap (·.desigs) }]

/-- A data item without indices. -/
def plainR (n : Int) (r : MainRec) : List MainRec :=
  [canon { r with g := fun c => if c = .reportCount then n else r.g c, usages := [], strings := [], desigs := [] }]

/-- The open group at the end. -/
def closeR (s : Pend) : List MainRec :=
  joinedR (s.before.getD s.written) s.group ++ (s.group.drop 1).flatMap (plainR (s.before.getD s.written))

/-- Main items after merging. -/
def mergedRecs (h : Host) (s : Pend) (xs : List SItem) : List MainRec :=
  (runs h s xs).1.flatMap (fun g => joinedR (total g) g) ++ closeR (runs h s xs).2

theorem canon_congr {a b : MainRec} (hd : a.cls.isData = true) (hc : a.cls = b.cls) (hv : a.val = b.val)
    (hg : ∀ c ∈ fieldTags, a.g c = b.g c) (hn : a.g .reportCount = b.g .reportCount)
    (hu : a.usages = b.usages) (hs : a.strings = b.strings) (hdg : a.desigs = b.desigs) : [canon a] = [canon b] := by
  obtain ⟨c, v, g, u, s, d⟩ := a
  obtain ⟨c', v', g', u', s', d'⟩ := b
  simp only at hc hv hu hs hdg hg hn hd
  subst hc hv hu hs hdg
  simp only [canon, List.cons.injEq, MainRec.mk.injEq, true_and, and_true]
  funext c
  by_cases h : c ∈ groupTags
  · simp [h, hg c h]
  · by_cases h2 : c = .reportCount
    · subst h2; simp [hn]
    · simp [h, h2]

theorem outFrom_append (rule : PageRule) (h : Host) (xs ys : List SItem) :
    outFrom rule h (xs ++ ys) = outFrom rule h xs ++ outFrom rule (h.after rule xs) ys := by
  simp [outFrom, recs_append]

theorem outFrom_nil (rule : PageRule) (h : Host) : outFrom rule h [] = [] := rfl

theorem outFrom_cons (rule : PageRule) (h : Host) (i : SItem) (xs : List SItem) :
    outFrom rule h (i :: xs) =
      (if i.1.kind = .main then [canon (h.main rule i)] else []) ++ outFrom rule (h.step rule i) xs := by
  unfold outFrom
  rw [recs_cons]
  split <;> simp

theorem outFrom_cons_of_not_main (rule : PageRule) (h : Host) (i : SItem) (xs : List SItem)
    (hi : i.1.kind ≠ .main) : outFrom rule h (i :: xs) = outFrom rule (h.step rule i) xs := by
  rw [outFrom_cons, if_neg hi]; rfl

theorem outFrom_cons_main (rule : PageRule) (h : Host) (i : SItem) (xs : List SItem)
    (hi : i.1.kind = .main) : outFrom rule h (i :: xs) = [canon (h.main rule i)] ++ outFrom rule (h.step rule i) xs := by
  rw [outFrom_cons, if_pos hi]

theorem outFrom_no_main (rule : PageRule) (h : Host) (xs : List SItem)
    (hx : ∀ i ∈ xs, i.1.kind ≠ .main) : outFrom rule h xs = [] := by
  simp [outFrom, recs_no_main rule h xs hx]

theorem outFrom_rc_cons (rule : PageRule) (h : Host) (n : Int) (xs : List SItem) :
    outFrom rule h ((.reportCount, n) :: xs) = outFrom rule (h.setRC n) xs := by
  rw [outFrom_cons_of_not_main _ _ _ _ (by simp [Cls.kind]), step_rc]

theorem setRC_main_canon (rule : PageRule) (h : Host) (n : Int) (i : Item) (hd : i.cls.isData = false) :
    [canon ((h.setRC n).main rule i.key)] = [canon (h.main rule i.key)] := by
  obtain ⟨c, v⟩ := i
  cases c <;> first
    | (simp [Cls.isData] at hd; done)
    | (simp only [canon, Host.main, Item.key, Cls.isData, Bool.false_eq_true, false_and, if_false]; rfl)

theorem setRC_out (rule : PageRule) (l : List Item) (hl : ∀ i ∈ l, Passive i)
    (hc : ∀ i ∈ l, i.cls ≠ .reportCount) (h : Host) (n : Int) :
    outFrom rule (h.setRC n) (keys l) = outFrom rule h (keys l) := by
  induction l generalizing h with
  | nil => rfl
  | cons x l ih =>
    have hx := hl x (by simp)
    rw [keys_cons, outFrom_cons, outFrom_cons, setRC_step rule h n x hx.2.1 hx.2.2 (hc x (by simp)),
      ih (fun i hi => hl i (by simp [hi])) (fun i hi => hc i (by simp [hi])), setRC_main_canon rule h n x hx.1]

theorem filter_out (rule : PageRule) (l : List Item) (hl : ∀ i ∈ l, Passive i) (h : Host) :
    outFrom rule h (keys (l.filter Optimizer.notCount)) = outFrom rule h (keys l) := by
  induction l generalizing h with
  | nil => rfl
  | cons x l ih =>
    have hl' : ∀ i ∈ l, Passive i := fun i hi => hl i (by simp [hi])
    by_cases hn : Optimizer.notCount x = true
    · rw [List.filter_cons_of_pos hn, keys_cons, keys_cons, outFrom_cons, outFrom_cons, ih hl']
    · rw [List.filter_cons_of_neg hn]
      have hx : x.cls = .reportCount := by
        by_cases hc : x.cls = .reportCount
        · exact hc
        · exact absurd ((notCount_iff x).2 hc) hn
      have hk : x.key = (.reportCount, x.ival) := by simp [Item.key, hx]
      rw [keys_cons, outFrom_cons_of_not_main _ _ _ _ (by rw [hk]; simp [Cls.kind]), hk, step_rc,
        ← ih hl' (h.setRC x.ival),
        setRC_out rule _ (fun i hi => hl' i (mem_filter_notCount hi).1) (fun i hi => (mem_filter_notCount hi).2)]

/-- The main item that is written for a group. -/
theorem joinedR_eq {H : Host} {g : List MainRec} (hg : Grp H g) {r : MainRec} (hr : r ∈ g) (n : Int) (hne : g ≠ []) :
    [canon ((H.setRC n).main .atUsage (r.cls, r.val))] = joinedR n g := by
  cases g with
  | nil => exact absurd rfl hne
  | cons a t =>
    have hs := hg.same r hr a (by simp)
    have hd := hg.data r hr
    unfold joinedR
    apply canon_congr
    · exact hd
    · exact hs.1
    · exact hs.2
    · intro c hc
      have hcc : c ≠ .reportCount := by intro h; subst h; simp [fieldTags] at hc
      show (H.setRC n).g c = if c = .reportCount then n else a.g c
      rw [setRC_g _ _ _ hcc, if_neg hcc, hg.fields a (by simp) c hc]
    · show (H.setRC n).g .reportCount = _
      rw [setRC_rc]; simp
    · exact hg.usages
    · exact hg.strings
    · exact hg.desigs

theorem plainR_events {H : Host} {g : List MainRec} (hg : Grp H g) {r q : MainRec} (hr : r ∈ g) (hq : q ∈ g) (n : Int) :
    [canon ((H.cleared.setRC n).main .atUsage (r.cls, r.val))] = plainR n q := by
  have hs := hg.same r hr q hq
  unfold plainR
  apply canon_congr
  · exact hg.data r hr
  · exact hs.1
  · exact hs.2
  · intro c hc
    have hcc : c ≠ .reportCount := by intro h; subst h; simp [fieldTags] at hc
    show (H.cleared.setRC n).g c = if c = .reportCount then n else q.g c
    rw [setRC_g _ _ _ hcc, if_neg hcc, hg.fields q hq c hc]; rfl
  · show (H.cleared.setRC n).g .reportCount = _
    rw [setRC_rc]; simp
  · rfl
  · rfl
  · rfl

theorem flush_core (reg : Registry) {h : Host} {p : MMState} {T : Host} {s : Pend} (hc : Core h p T s) :
    Rel (h.after .atUsage (keys (p.flush reg).2)) (p.flush reg).1 T s.flush ∧
    outFrom .atUsage h (keys (p.flush reg).2) =
      outFrom .atUsage h (keys (p.before.filter notCount)) ++ joinedR (total s.group) s.group := by
  have hbc : ∀ (H : Host) n, H.cleared.setRC n = (H.setRC n).cleared := fun _ _ => rfl
  have haf : ∀ i ∈ p.after.filter notCount, Passive i := fun i hi => hc.after i (mem_filter_notCount hi).1
  have haf' : ∀ i ∈ p.after.filter notCount, i.cls ≠ .reportCount := fun i hi => (mem_filter_notCount hi).2
  have hbn : (MMState.host h p).g .reportCount = h.g .reportCount := by
    have := after_count (p.before.filter notCount) (fun i hi => hc.before i (mem_filter_notCount hi).1) h
    have e : lastRC (p.before.filter notCount) = none := by
      unfold lastRC
      rw [show ((p.before.filter notCount).filter fun i => i.cls == .reportCount) = [] from by
        rw [List.filter_eq_nil_iff]
        intro i hi
        simpa using (mem_filter_notCount hi).2]
      rfl
    have : h.after .atUsage (keys (p.before.filter notCount)) = _ := this
    show (h.after .atUsage (keys (p.before.filter notCount))).g .reportCount = _
    rw [this, e, setRC_rc]; rfl
  rw [flush_keys]
  by_cases hg : s.group = []
  · have hm : p.mains = [] := by have := hc.mains; rw [hg] at this; exact mains_nil this
    have hmid : MMState.mid p = [] := by unfold MMState.mid; rw [hm]
    rw [hmid, List.append_nil]
    refine ⟨⟨⟨hc.after, by simp [MMState.flush], hc.props, ?_, by simp [MMState.flush, Pend.flush], rfl, ?_, ?_,
      fun h => absurd rfl h⟩, by simp [MMState.flush], hc.ca, fun h => absurd rfl h⟩, by simp [hg, joinedR]⟩
    · have := hc.host
      rw [if_pos hg] at this
      simp only [Pend.flush, if_true]
      exact this
    · simp only [Pend.flush, hg, List.isEmpty_nil, if_true, hc.written]
      exact hbn.symm
    · rfl
  · obtain ⟨m, ms, r, t, h1, h2, h3⟩ := mains_cons hc.mains hg
    have hgr := hc.grp hg
    have hmid : MMState.mid p = [(.reportCount, p.beforeCount), (r.cls, r.val)] := by
      unfold MMState.mid; rw [h1]; simp only [h3]
    have hrg : r ∈ s.group := by simp [h2]
    have hrm : (r.cls, r.val).1.kind = .main := isData_kind (hgr.data r hrg)
    have hst : ∀ K : Host, K.step .atUsage (r.cls, r.val) = K.cleared := by
      intro K
      rw [← h3]
      exact step_data .atUsage K m (by rw [← key_fst, h3]; exact hgr.data r hrg)
    have hH : h.after .atUsage (keys (p.before.filter notCount) ++ MMState.mid p)
        = (MMState.host h p).cleared.setRC p.beforeCount := by
      rw [hmid, after_append]
      simp only [after_cons, after_nil, step_rc]
      rw [hst]; rfl
    refine ⟨⟨⟨hc.after, by simp [MMState.flush], hc.props, ?_, by simp [MMState.flush, Pend.flush], rfl, ?_, ?_,
      fun h => absurd rfl h⟩, by simp [MMState.flush], hc.ca, fun h => absurd rfl h⟩, ?_⟩
    · have := hc.host
      rw [if_neg hg] at this
      simp only [Pend.flush, if_true]
      rw [hH]
      show T = ((Host.after .atUsage _ (keys (p.after.filter notCount))).after .atUsage (keys ([].filter notCount))).setRC p.afterCount
      rw [setRC_after .atUsage _ haf haf']
      simp only [List.filter_nil, keys_nil, after_nil, setRC_setRC]
      exact this
    · rw [hH, setRC_rc]
      have : s.group.isEmpty = false := by rw [h2]; rfl
      simp only [Pend.flush, this, hc.count]
      rfl
    · rfl
    · rw [outFrom_append, hmid, outFrom_rc_cons, outFrom_cons_main _ _ _ _ hrm, outFrom_nil, List.append_nil,
        joinedR_eq hgr hrg _ hg, hc.count]

theorem take_out {h : Host} {p : MMState} {T : Host} {s : Pend} (hc : Rel h p T s) (x : Item) :
    outFrom .atUsage h (keys ((MMState.take p x).before.filter notCount)) =
      outFrom .atUsage h (keys (p.before.filter notCount)) := by
  have hbf : (MMState.take p x).before.filter notCount = p.before.filter notCount ++ p.after.filter notCount := by
    show (p.before ++ p.after).filter notCount = _
    rw [List.filter_append]
  have haf0 : ∀ k ∈ keys (p.after.filter notCount), k.1.kind ≠ .main := by
    intro k hk; obtain ⟨j, hj, rfl⟩ := mem_keys.1 hk; exact hc.nomain j (mem_filter_notCount hj).1
  rw [hbf, keys_append, outFrom_append, outFrom_no_main _ _ _ haf0, List.append_nil]

theorem merged_data_one {T : Host} {s : Pend} {x : SItem} {xs : List SItem} (hd : x.1.isData = true)
    (h1 : T.g .reportCount = 1) : mergedRecs T s (x :: xs) =
      (if s.fits (T.main .atUsage x) then [] else joinedR (total s.group) s.group) ++
      mergedRecs (T.step .atUsage x) ((if s.fits (T.main .atUsage x) then s else s.flush).add (T.main .atUsage x)) xs := by
  have hc : (T.main .atUsage x).g .reportCount = 1 := h1
  unfold mergedRecs
  rw [runs]
  simp only [hd, if_true, hc]
  split <;> simp

theorem merged_data_more {T : Host} {s : Pend} {x : SItem} {xs : List SItem} (hd : x.1.isData = true)
    (h1 : T.g .reportCount ≠ 1) : mergedRecs T s (x :: xs) =
      (if s.fits (T.main .atUsage x) then [] else joinedR (total s.group) s.group) ++
      (joinedR (total ((if s.fits (T.main .atUsage x) then s else s.flush).add (T.main .atUsage x)).group)
        ((if s.fits (T.main .atUsage x) then s else s.flush).add (T.main .atUsage x)).group ++
      mergedRecs (T.step .atUsage x) ((if s.fits (T.main .atUsage x) then s else s.flush).add (T.main .atUsage x)).flush xs) := by
  have hc : ¬ (T.main .atUsage x).g .reportCount = 1 := h1
  unfold mergedRecs
  rw [runs]
  simp only [hd, if_true, hc, if_false]
  split <;> simp

theorem joined_single (r : MainRec) : joinedR (total [r]) [r] = [canon r] := by
  have : (fun c => if c = Cls.reportCount then total [r] else r.g c) = r.g := by
    funext c
    by_cases hc : c = .reportCount
    · subst hc; simp [total]
    · simp [hc]
  simp [joinedR, this]

theorem merged_main {T : Host} {s : Pend} {x : SItem} {xs : List SItem} (hd : x.1.isData = false)
    (hm : x.1.kind = .main) : mergedRecs T s (x :: xs) =
      joinedR (total s.group) s.group ++ ([canon (T.main .atUsage x)] ++ mergedRecs (T.step .atUsage x) s.flush xs) := by
  unfold mergedRecs
  rw [runs]
  simp [hd, hm, joined_single]

theorem merged_change {T : Host} {s : Pend} {x : SItem} {xs : List SItem} (hd : x.1.isData = false)
    (hm : x.1.kind ≠ .main) (hw : x.1 ∈ fieldTags ∧ T.g x.1 ≠ x.2) : mergedRecs T s (x :: xs) =
      joinedR (total s.group) s.group ++ mergedRecs (T.step .atUsage x) s.flush xs := by
  unfold mergedRecs
  rw [runs]
  rw [← fieldTags_eq] at hw
  simp [hd, hm, hw]

theorem merged_rc {T : Host} {s : Pend} {x : SItem} {xs : List SItem} (hc : x.1 = .reportCount) :
    mergedRecs T s (x :: xs) = mergedRecs (T.step .atUsage x) { s with after := some x.2 } xs := by
  unfold mergedRecs
  rw [runs]
  simp [hc, Cls.isData, Cls.kind, groupTags]

theorem merged_quiet {T : Host} {s : Pend} {x : SItem} {xs : List SItem} (hd : x.1.isData = false)
    (hm : x.1.kind ≠ .main) (hw : ¬ (x.1 ∈ fieldTags ∧ T.g x.1 ≠ x.2)) (hc : x.1 ≠ .reportCount) :
    mergedRecs T s (x :: xs) = mergedRecs (T.step .atUsage x) s xs := by
  unfold mergedRecs
  rw [runs]
  rw [← fieldTags_eq] at hw
  simp only [hd, hm, hc, if_false, if_neg hw, Bool.false_eq_true]

/-- The last group. -/
theorem close_events {h : Host} {p : MMState} {T : Host} {s : Pend} (hc : Rel h p T s) :
    outFrom .atUsage h (keys (p.before ++ p.mains ++ p.after)) =
      outFrom .atUsage h (keys (p.before.filter notCount)) ++ closeR s := by
  have haf0 : ∀ k ∈ keys p.after, k.1.kind ≠ .main := by
    intro k hk; obtain ⟨j, hj, rfl⟩ := mem_keys.1 hk; exact hc.nomain j hj
  rw [keys_append, keys_append, outFrom_append, outFrom_append, outFrom_no_main _ _ _ haf0, List.append_nil,
    filter_out .atUsage p.before hc.before, after_count p.before hc.before, ← hc.cb, ← hc.written, hc.mains]
  congr 1
  unfold closeR
  generalize s.before.getD s.written = n
  by_cases hg : s.group = []
  · simp [hg, joinedR, outFrom_nil]
  · have hgr := hc.grp hg
    generalize hH : h.after .atUsage (keys (p.before.filter notCount)) = H at hgr
    rw [show MMState.host h p = H from hH] at hgr
    clear hH
    generalize s.group = g at *
    obtain ⟨a, t, rfl⟩ : ∃ a t, g = a :: t := by
      cases g with
      | nil => exact absurd rfl hg
      | cons a t => exact ⟨a, t, rfl⟩
    have hst : ∀ (r : MainRec) (K : Host), r ∈ a :: t → K.step .atUsage (r.cls, r.val) = K.cleared := by
      intro r K hr
      exact step_data .atUsage K ⟨r.cls, .int r.val⟩ (hgr.data r hr)
    have hrest : ∀ l : List MainRec, (∀ r ∈ l, r ∈ a :: t) →
        outFrom .atUsage (H.cleared.setRC n) (l.map fun r => (r.cls, r.val)) = l.flatMap (plainR n) := by
      intro l hl
      induction l with
      | nil => rfl
      | cons r l ih =>
        have hr := hl r (by simp)
        rw [List.map_cons, outFrom_cons_main _ _ _ _ (isData_kind (hgr.data r hr)), plainR_events hgr hr hr, List.flatMap_cons,
          hst r _ hr]
        congr 1
        exact ih fun q hq => hl q (by simp [hq])
    rw [List.map_cons, outFrom_cons_main _ _ _ _ (isData_kind (hgr.data a (by simp))), joinedR_eq hgr (by simp) n hg,
      hst a _ (by simp)]
    congr 1
    exact hrest t fun q hq => by simp [hq]

theorem mm_recs (reg : Registry) (xs : List Item) : ∀ (h : Host) (p : MMState) (T : Host) (s : Pend), Rel h p T s →
    rangesClosed .atUsage T (keys xs) = true → NoPushPop xs →
    outFrom .atUsage h (keys ((mainMerge reg).runFrom p xs)) =
      outFrom .atUsage h (keys (p.before.filter notCount)) ++ mergedRecs T s (keys xs) := by
  induction xs with
  | nil =>
    intro h p T s hc _ _
    rw [Pass.runFrom_nil]
    show outFrom .atUsage h (keys (p.before ++ p.mains ++ p.after)) = _
    rw [close_events hc]
    simp [mergedRecs, runs]
  | cons x xs ih =>
    intro h p T s hc hcl hpp
    rw [NoPushPop.cons] at hpp
    obtain ⟨⟨hp1, hp2⟩, hpp⟩ := hpp
    rw [keys_cons] at hcl
    have hcl2 : rangesClosed .atUsage (T.step .atUsage x.key) (keys xs) = true := by
      simp only [rangesClosed, Bool.and_eq_true] at hcl; exact hcl.2
    -- flushing
    have useFlush : ∀ (h : Host) (q : MMState) (T : Host) (s : Pend), Core h q T s → rangesClosed .atUsage T (keys xs) = true →
        outFrom .atUsage h (keys ((q.flush reg).2 ++ (mainMerge reg).runFrom (q.flush reg).1 xs)) =
          outFrom .atUsage h (keys (q.before.filter notCount)) ++ (joinedR (total s.group) s.group ++
          (outFrom .atUsage (h.after .atUsage (keys (q.flush reg).2)) (keys (q.after.filter notCount)) ++
            mergedRecs T s.flush (keys xs))) := by
      intro h q T s hq hcl
      obtain ⟨f1, f2⟩ := flush_core reg hq
      rw [keys_append, outFrom_append, ih _ _ _ _ f1 hcl hpp, f2, List.append_assoc]
      rfl
    have nomain : ∀ (h : Host) (l : List Item), (∀ i ∈ l, i.cls.kind ≠ .main) →
        outFrom .atUsage h (keys (l.filter notCount)) = [] := by
      intro h l hl
      apply outFrom_no_main
      intro k hk
      obtain ⟨j, hj, rfl⟩ := mem_keys.1 hk
      exact hl j (mem_filter_notCount hj).1
    rw [Pass.runFrom_cons, keys_cons]
    by_cases hm : x.cls.kind = .main
    · by_cases hd : x.cls.isData = true
      · -- data item
        have hclT : T.usages.closed = true ∧ T.strings.closed = true ∧ T.desigs.closed = true := by
          simp only [rangesClosed, key_fst, hd, Bool.not_true, Bool.false_or, Bool.and_eq_true] at hcl
          exact ⟨hcl.1.1.1, hcl.1.1.2, hcl.1.2⟩
        -- the item joins a group
        have join : ∀ (h : Host) (q : MMState) (s : Pend), Rel h q T s → s.fits (T.main .atUsage x.key) = true →
            outFrom .atUsage h (keys (if q.afterCount ≠ 1 then
              ((MMState.take q x).flush reg).2 ++ (mainMerge reg).runFrom ((MMState.take q x).flush reg).1 xs
              else (mainMerge reg).runFrom (MMState.take q x) xs)) =
            outFrom .atUsage h (keys (q.before.filter notCount)) ++ mergedRecs T s (x.key :: keys xs) := by
          intro h q s hq hf
          obtain ⟨t1, -⟩ := take_rel hq x hd hf hclT
          have t2 := take_out (h := h) hq x
          have hrc : T.g .reportCount = q.afterCount := by rw [hq.host, setRC_rc]
          by_cases h1 : q.afterCount = 1
          · rw [if_neg (by simp [h1]), ih _ _ _ _ t1 hcl2 hpp, t2, merged_data_one (by simpa using hd) (by rw [hrc, h1])]
            simp [hf]
          · rw [if_pos h1, useFlush _ _ _ _ t1.toCore hcl2, t2, merged_data_more (by simpa using hd) (by rw [hrc]; exact h1),
              nomain _ (MMState.take q x).after (by simp [MMState.take])]
            simp [hf]
        obtain ⟨q, o, hq, hs⟩ := mm_step_data reg p x hd
        rw [hs]
        have hsplit : (if q.afterCount ≠ 1 then
              (((MMState.take q x).flush reg).1, o ++ ((MMState.take q x).flush reg).2)
              else (MMState.take q x, o)).2 ++ (mainMerge reg).runFrom (if q.afterCount ≠ 1 then
              (((MMState.take q x).flush reg).1, o ++ ((MMState.take q x).flush reg).2)
              else (MMState.take q x, o)).1 xs = o ++ (if q.afterCount ≠ 1 then
              ((MMState.take q x).flush reg).2 ++ (mainMerge reg).runFrom ((MMState.take q x).flush reg).1 xs
              else (mainMerge reg).runFrom (MMState.take q x) xs) := by
          split <;> simp
        rw [hsplit]
        -- does the item fit?
        have hfit : ∀ m ms, p.mains = m :: ms → s.fits (T.main .atUsage x.key) = x.pyEq m := by
          intro m ms hpm
          have hmn := hc.mains
          rw [hpm, keys_cons] at hmn
          unfold Pend.fits
          cases hsg : s.group with
          | nil => rw [hsg] at hmn; simp at hmn
          | cons a t =>
            rw [hsg, List.map_cons, List.cons.injEq] at hmn
            have h1 : m.cls = a.cls := congrArg Prod.fst hmn.1
            have h2 : m.ival = a.val := congrArg Prod.snd hmn.1
            have := C52_item_eq.1 x m
            rw [Bool.eq_iff_iff]
            simp only [Host.main, key_fst, Bool.and_eq_true, beq_iff_eq]
            rw [this, h1, h2]
            exact ⟨fun h => ⟨h.1.symm, h.2.symm⟩, fun h => ⟨h.1.symm, h.2.symm⟩⟩
        rcases hq with ⟨rfl, rfl, he⟩ | ⟨rfl, rfl, m, ms, hpm, he⟩
        · rw [List.nil_append]
          apply join h q s hc
          cases hqm : q.mains with
          | nil =>
            have hmn := hc.mains
            rw [hqm] at hmn
            unfold Pend.fits
            cases hsg : s.group with
            | nil => rfl
            | cons a t => rw [hsg] at hmn; simp at hmn
          | cons m ms => rw [hfit m ms hqm]; exact he m ms hqm
        · obtain ⟨f1, f2⟩ := flush_core reg hc.toCore
          have hnf : s.fits (T.main .atUsage x.key) = false := by rw [hfit m ms hpm, he]
          rw [keys_append, outFrom_append, f2, join _ _ _ f1 rfl]
          have hft : s.flush.fits (T.main .atUsage x.key) = true := rfl
          have h0 : outFrom .atUsage (h.after .atUsage (keys (p.flush reg).2))
              (keys ((p.flush reg).1.before.filter notCount)) = [] := nomain _ _ hc.nomain
          rw [h0, List.nil_append, List.append_assoc]
          congr 1
          by_cases h1 : T.g .reportCount = 1
          · rw [merged_data_one (by simpa using hd) h1, merged_data_one (by simpa using hd) h1, hnf, hft]
            simp [joinedR]
          · rw [merged_data_more (by simpa using hd) h1, merged_data_more (by simpa using hd) h1, hnf, hft]
            simp [joinedR]
      · -- collection or end of collection
        have hd' : x.cls.isData = false := by simpa using hd
        have hpas : Passive x := ⟨hd', hp1, hp2⟩
        have hnc : x.cls ≠ .reportCount := by intro hc; rw [hc] at hm; exact absurd hm (by decide)
        obtain ⟨props, hs, hprops⟩ := mm_step_flush reg p x (Or.inl ⟨hm, hd'⟩)
        have hcore := push_core hc.toCore x hpas hnc props (by
          intro c hcc
          rw [step_local_g _ _ _ (by rw [hm]; decide), hprops c, if_neg (by rw [hm]; simp)]
          exact hc.props c hcc)
        rw [hs, useFlush _ _ _ _ hcore hcl2, merged_main (by simpa using hd') (by simpa using hm)]
        show outFrom .atUsage h (keys (p.before.filter notCount)) ++ _ = _
        congr 2
        show _ ++ _ = _ ++ _
        congr 1
        obtain ⟨f1, -⟩ := flush_core reg hc.toCore
        have hT := f1.host
        have hf : (p.after ++ [x]).filter notCount = p.after.filter notCount ++ [x] := by
          rw [List.filter_append]; simp [(notCount_iff x).2 hnc]
        show outFrom .atUsage (h.after .atUsage (keys (p.flush reg).2)) (keys ((p.after ++ [x]).filter notCount)) = _
        rw [hf, keys_append, outFrom_append, nomain _ _ hc.nomain, List.nil_append, keys_cons, keys_nil,
          outFrom_cons_main _ _ _ _ (by simpa using hm), outFrom_nil, List.append_nil]
        have : T = ((h.after .atUsage (keys (p.flush reg).2)).after .atUsage (keys (p.after.filter notCount))).setRC
            p.afterCount := hT
        rw [this, setRC_main_canon .atUsage _ _ x hd']
    · -- local or global item
      have hd' : x.cls.isData = false := by
        cases hdd : x.cls.isData with
        | false => rfl
        | true => exact absurd (isData_kind hdd) hm
      have hpas : Passive x := ⟨hd', hp1, hp2⟩
      by_cases hrc : x.cls = .reportCount
      · rw [mm_step_rc reg p x hrc, List.nil_append, ih _ _ _ _ (push_rc hc x hrc) hcl2 hpp,
          merged_rc (by simpa using hrc)]
        rfl
      · by_cases hw : x.cls ∈ fieldTags ∧ T.g x.cls ≠ x.ival
        · have hwt := (watched_iff x.cls).2 hw.1
          have hgl : x.cls.kind = .global := by
            have hh1 := hwt
            cases hc : x.cls <;> rw [hc] at hh1 <;> simp [watched] at hh1 <;> rfl
          obtain ⟨props, hs, hprops⟩ := mm_step_flush reg p x (Or.inr ⟨hgl, hwt, by rw [hc.props _ hw.1]; exact hw.2⟩)
          have hcore := push_core hc.toCore x hpas hrc props (by
            intro c hcc
            rw [step_global _ _ _ hgl hp1 hp2, hprops c]
            by_cases hcx : c = x.cls
            · simp [hcx, hgl]
            · simp only [hcx, and_false, if_false]
              exact hc.props c hcc)
          rw [hs, useFlush _ _ _ _ hcore hcl2, merged_change (by simpa using hd') (by simpa using hm) (by simpa [Item.key] using hw)]
          show outFrom .atUsage h (keys (p.before.filter notCount)) ++ (_ ++ (outFrom .atUsage _ (keys ((p.after ++ [x]).filter notCount)) ++ _)) = _
          rw [nomain _ (p.after ++ [x]) (by
            intro i hi
            rcases List.mem_append.1 hi with hi | hi
            · exact hc.nomain i hi
            · simp at hi; subst hi; exact hm), List.nil_append]
        · have hw' : ¬ (watched x.cls = true ∧ p.props x.cls ≠ x.ival) := by
            intro hh
            have h1 := (watched_iff _).1 hh.1
            exact hw ⟨h1, by rw [← hc.props _ h1]; exact hh.2⟩
          have hgc : ∀ c ∈ fieldTags, (T.step .atUsage x.key).g c = T.g c := by
            intro c hcc
            by_cases hg : x.cls.kind = .global
            · rw [step_global _ _ _ hg hp1 hp2]
              by_cases hcx : c = x.cls
              · subst hcx
                simp only [if_true]
                by_cases he : T.g x.cls = x.ival
                · exact he.symm
                · exact absurd ⟨hcc, he⟩ hw
              · simp [hcx]
            · rw [step_local_g _ _ _ hg]
          have hcore := push_core hc.toCore x hpas hrc p.props (by
            intro c hcc; rw [hgc c hcc]; exact hc.props c hcc)
          have hrel : Rel h (MMState.push p x) (T.step .atUsage x.key) s := by
            refine ⟨hcore, ?_, hc.cb, ?_⟩
            · intro i hi
              rcases List.mem_append.1 hi with hi | hi
              · exact hc.nomain i hi
              · simp at hi; subst hi; exact hm
            · intro hg c hcc; rw [hgc c hcc]; exact hc.fieldsT hg c hcc
          rw [mm_step_quiet reg p x hm hw' hrc, List.nil_append, ih _ _ _ _ hrel hcl2 hpp,
            merged_quiet (by simpa using hd') (by simpa using hm) (by simpa [Item.key] using hw) (by simpa using hrc)]
          rfl

/-- Meaning of the output. -/
theorem mm_run_recs (reg : Registry) (xs : List Item) (hcl : rangesClosed .atUsage {} (keys xs) = true)
    (hpp : NoPushPop xs) :
    (recs .atUsage {} (keys ((mainMerge reg).run xs))).map canon = mergedRecs {} {} (keys xs) := by
  have h0 : Rel ({} : Host) {} {} {} := by
    refine ⟨⟨by simp, by simp, fun _ _ => rfl, ?_, rfl, rfl, rfl, rfl, fun h => absurd rfl h⟩, by simp, rfl, fun h => absurd rfl h⟩
    exact (setRC_self {} 0 rfl).symm
  have := mm_recs reg xs {} {} {} {} h0 hcl hpp
  simpa [outFrom, Pass.run] using this

end Hrdc.MR
