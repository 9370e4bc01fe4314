import Verif.Proofs.MainMerge2
import Verif.Spec.Merge
/-!
# `MainMerge` does exactly what `Spec/Merge` says
-/
namespace Hrdc
open Spec Optimizer

/-- The last report count of a list. -/
def lastRC (l : List Item) : Option Int := ((l.filter fun i => i.cls == .reportCount).getLast?).map Item.ival

theorem lastRC_append (a b : List Item) : lastRC (a ++ b) = (lastRC b).or (lastRC a) := by
  unfold lastRC
  rw [List.filter_append, List.getLast?_append]
  cases (b.filter fun i => i.cls == .reportCount).getLast? <;> simp

theorem lastRC_one (x : Item) : lastRC [x] = if x.cls = .reportCount then some x.ival else none := by
  unfold lastRC
  by_cases h : x.cls = .reportCount <;> simp [h]

theorem after_count (l : List Item) (hl : ∀ i ∈ l, Passive i) (h : Host) :
    h.after .atUsage (keys l) =
      (h.after .atUsage (keys (l.filter notCount))).setRC ((lastRC l).getD (h.g .reportCount)) := by
  induction l generalizing h with
  | nil => exact (setRC_self h _ rfl).symm
  | cons x l ih =>
    have hx := hl x (by simp)
    have hl' : ∀ i ∈ l, Passive i := fun i hi => hl i (by simp [hi])
    have hL : lastRC (x :: l) = (lastRC l).or (lastRC [x]) := by rw [← lastRC_append]; rfl
    rw [keys_cons, after_cons, ih hl', hL, lastRC_one]
    by_cases hc : x.cls = .reportCount
    · have hk : x.key = (.reportCount, x.ival) := by simp [Item.key, hc]
      have hf : notCount x = false := by
        cases hn : notCount x with
        | false => rfl
        | true => exact absurd hc ((notCount_iff x).1 hn)
      rw [List.filter_cons, if_neg (by simp [hf]), hk, step_rc,
        setRC_after .atUsage _ (fun i hi => hl' i (mem_filter_notCount hi).1) (fun i hi => (mem_filter_notCount hi).2),
        setRC_setRC, setRC_rc, if_pos hc]
      cases lastRC l <;> rfl
    · rw [List.filter_cons, if_pos ((notCount_iff x).2 hc), keys_cons, after_cons, if_neg hc]
      have hg : (h.step .atUsage x.key).g .reportCount = h.g .reportCount := by
        obtain ⟨c, v⟩ := x
        cases c <;> first
          | rfl
          | (exact absurd rfl hx.2.1)
          | (exact absurd rfl hx.2.2)
          | (exact absurd rfl hc)
      rw [hg]
      cases lastRC l <;> rfl

/-- A group with what is in force where it is written. -/
structure Grp (H : Host) (g : List MainRec) : Prop where
  data : ∀ r ∈ g, r.cls.isData = true
  same : ∀ r ∈ g, ∀ q ∈ g, r.cls = q.cls ∧ r.val = q.val
  fields : ∀ r ∈ g, ∀ c ∈ fieldTags, r.g c = H.g c
  usages : H.usages.values id = g.flatMap (·.usages)
  strings : H.strings.values id = g.flatMap (·.strings)
  desigs : H.desigs.values id = g.flatMap (·.desigs)
  closed : H.usages.closed = true ∧ H.strings.closed = true ∧ H.desigs.closed = true

/-- The host after the items waiting before the main items. -/
abbrev MMState.host (h : Host) (p : MMState) : Host := h.after .atUsage (keys (p.before.filter notCount))

/-- State of the pass against the state of the specification; `T` is the host at this point of the stream. -/
structure Core (h : Host) (p : MMState) (T : Host) (s : Pend) : Prop where
  before : ∀ i ∈ p.before, Passive i
  after : ∀ i ∈ p.after, Passive i
  props : ∀ c ∈ fieldTags, p.props c = T.g c
  host : T = ((if s.group = [] then MMState.host h p else (MMState.host h p).cleared).after .atUsage
    (keys (p.after.filter notCount))).setRC p.afterCount
  mains : keys p.mains = s.group.map fun r => (r.cls, r.val)
  count : p.beforeCount = total s.group
  written : s.written = h.g .reportCount
  ca : s.after = lastRC p.after
  grp : s.group ≠ [] → Grp (MMState.host h p) s.group

/-- Between two items. -/
structure Rel (h : Host) (p : MMState) (T : Host) (s : Pend) : Prop extends Core h p T s where
  nomain : ∀ i ∈ p.after, i.cls.kind ≠ .main
  cb : s.before = lastRC p.before
  fieldsT : s.group ≠ [] → ∀ c ∈ fieldTags, (MMState.host h p).g c = T.g c

theorem push_core {h : Host} {p : MMState} {T : Host} {s : Pend} (hc : Core h p T s) (x : Item) (hx : Passive x)
    (hn : x.cls ≠ .reportCount) (props : Cls → Int)
    (hp : ∀ c ∈ fieldTags, props c = (T.step .atUsage x.key).g c) :
    Core h { MMState.push p x with props := props } (T.step .atUsage x.key) s := by
  refine ⟨hc.before, ?_, hp, ?_, hc.mains, hc.count, hc.written, ?_, hc.grp⟩
  · intro i hi
    rcases List.mem_append.1 hi with hi | hi
    · exact hc.after i hi
    · simp at hi; subst hi; exact hx
  · have hf : (p.after ++ [x]).filter notCount = p.after.filter notCount ++ [x] := by
      rw [List.filter_append]; simp [(notCount_iff x).2 hn]
    refine (congrArg (fun t => Host.step .atUsage t x.key) hc.host).trans ?_
    show Host.step .atUsage _ x.key = (Host.after .atUsage _ (keys ((p.after ++ [x]).filter notCount))).setRC p.afterCount
    rw [hf, keys_append, after_append, setRC_step .atUsage _ _ x hx.2.1 hx.2.2 hn]
    rfl
  · show s.after = lastRC (p.after ++ [x])
    rw [lastRC_append, lastRC_one, if_neg hn, hc.ca]; rfl

theorem push_rc {h : Host} {p : MMState} {T : Host} {s : Pend} (hc : Rel h p T s) (x : Item) (hx : x.cls = .reportCount) :
    Rel h (MMState.pushRC p x) (T.step .atUsage x.key) { s with after := some x.ival } := by
  have hk : x.key = (.reportCount, x.ival) := by simp [Item.key, hx]
  have hgc : ∀ c ∈ fieldTags, (T.step .atUsage x.key).g c = T.g c := by
    intro c hc
    rw [hk, step_rc, setRC_g]
    intro hcc; subst hcc; simp [fieldTags] at hc
  have hf : notCount x = false := by
    cases hn : notCount x with
    | false => rfl
    | true => exact absurd hx ((notCount_iff x).1 hn)
  refine ⟨⟨hc.before, ?_, ?_, ?_, hc.mains, hc.count, hc.written, ?_, hc.grp⟩, ?_, hc.cb, ?_⟩
  · intro i hi
    rcases List.mem_append.1 hi with hi | hi
    · exact hc.after i hi
    · simp at hi; subst hi; exact ⟨by simp [hx, Cls.isData], by simp [hx], by simp [hx]⟩
  · intro c hcc; rw [hgc c hcc]; exact hc.props c hcc
  · show _ = (Host.after .atUsage _ (keys ((p.after ++ [x]).filter notCount))).setRC x.ival
    have hff : (p.after ++ [x]).filter notCount = p.after.filter notCount := by simp [List.filter_append, hf]
    refine (congrArg (fun t => Host.step .atUsage t x.key) hc.host).trans ?_
    rw [hff, hk]
    show Host.setRC _ _ = _
    rw [setRC_setRC]
    rfl
  · show some x.ival = lastRC (p.after ++ [x])
    rw [lastRC_append, lastRC_one, if_pos hx]; rfl
  · intro i hi
    rcases List.mem_append.1 hi with hi | hi
    · exact hc.nomain i hi
    · simp at hi; subst hi; simp [hx, Cls.kind]
  · intro hg c hcc; rw [hgc c hcc]; exact hc.fieldsT hg c hcc

theorem events_congr {a b : MainRec} (hd : a.cls.isData = true) (hc : a.cls = b.cls) (hv : a.val = b.val)
    (hg : ∀ c ∈ fieldTags, a.g c = b.g c) (hn : a.g .reportCount = b.g .reportCount)
    (hu : a.usages = b.usages) (hs : a.strings = b.strings) (hdg : a.desigs = b.desigs) : a.events = b.events := by
  have hsel : a.selector = b.selector := by
    funext k; simp [MainRec.selector, hu, hs, hdg]
  have hw : ∀ k, a.what k = b.what k := by
    intro k
    simp [MainRec.what, MainRec.isVar, hsel, hv, hu]
  rw [events_data hd, events_data (hc ▸ hd), attrs_congr' hg, hn, hg .reportSize (by simp [fieldTags]),
    hg .reportID (by simp [fieldTags]), hc, hv]
  simp only [hw, MainRec.isConst, hv]
  rfl

/-- The main item that is written for a group. -/
theorem joined_events {H : Host} {g : List MainRec} (hg : Grp H g) {r : MainRec} (hr : r ∈ g) (n : Int) (hne : g ≠ []) :
    ((H.setRC n).main .atUsage (r.cls, r.val)).events = joined n g := by
  cases g with
  | nil => exact absurd rfl hne
  | cons a t =>
    have hs := hg.same r hr a (by simp)
    have hd := hg.data r hr
    unfold joined
    apply events_congr
    · exact hd
    · exact hs.1
    · exact hs.2
    · intro c hc
      have hcc : c ≠ .reportCount := by intro h; subst h; simp [fieldTags] at hc
      show (H.setRC n).g c = if c = .reportCount then n else a.g c
      rw [setRC_g _ _ _ hcc, if_neg hcc, hg.fields a (by simp) c hc]
    · show (H.setRC n).g .reportCount = _
      rw [setRC_rc]; simp
    · exact hg.usages
    · exact hg.strings
    · exact hg.desigs

theorem plainRec_events {H : Host} {g : List MainRec} (hg : Grp H g) {r q : MainRec} (hr : r ∈ g) (hq : q ∈ g) (n : Int) :
    ((H.cleared.setRC n).main .atUsage (r.cls, r.val)).events = plainRec n q := by
  have hs := hg.same r hr q hq
  unfold plainRec
  apply events_congr
  · exact hg.data r hr
  · exact hs.1
  · exact hs.2
  · intro c hc
    have hcc : c ≠ .reportCount := by intro h; subst h; simp [fieldTags] at hc
    show (H.cleared.setRC n).g c = if c = .reportCount then n else q.g c
    rw [setRC_g _ _ _ hcc, if_neg hcc, hg.fields q hq c hc]; rfl
  · show (H.cleared.setRC n).g .reportCount = _
    rw [setRC_rc]; simp
  · rfl
  · rfl
  · rfl

theorem mains_cons {p : MMState} {g : List MainRec} (hm : keys p.mains = g.map fun r => (r.cls, r.val)) (hg : g ≠ []) :
    ∃ m ms r t, p.mains = m :: ms ∧ g = r :: t ∧ m.key = (r.cls, r.val) := by
  cases g with
  | nil => exact absurd rfl hg
  | cons r t =>
    cases hp : p.mains with
    | nil => rw [hp] at hm; simp at hm
    | cons m ms =>
      rw [hp, keys_cons, List.map_cons, List.cons.injEq] at hm
      exact ⟨m, ms, r, t, rfl, rfl, hm.1⟩

theorem mains_nil {p : MMState} (hm : keys p.mains = ([] : List MainRec).map fun r => (r.cls, r.val)) : p.mains = [] := by
  cases hp : p.mains with
  | nil => rfl
  | cons m ms => rw [hp] at hm; simp at hm

theorem flush_core (reg : Registry) {h : Host} {p : MMState} {T : Host} {s : Pend} (hc : Core h p T s) :
    Rel (h.after .atUsage (keys (p.flush reg).2)) (p.flush reg).1 T s.flush ∧
    eventsFrom .atUsage h (keys (p.flush reg).2) =
      eventsFrom .atUsage h (keys (p.before.filter notCount)) ++ joined (total s.group) s.group := by
  have hbc : ∀ (H : Host) n, H.cleared.setRC n = (H.setRC n).cleared := fun _ _ => rfl
  have haf : ∀ i ∈ p.after.filter notCount, Passive i := fun i hi => hc.after i (mem_filter_notCount hi).1
  have haf' : ∀ i ∈ p.after.filter notCount, i.cls ≠ .reportCount := fun i hi => (mem_filter_notCount hi).2
  have hbn : (MMState.host h p).g .reportCount = h.g .reportCount := by
    have := after_count (p.before.filter notCount) (fun i hi => hc.before i (mem_filter_notCount hi).1) h
    have e : lastRC (p.before.filter notCount) = none := by
      unfold lastRC
      rw [show ((p.before.filter notCount).filter fun i => i.cls == .reportCount) = [] from by
        rw [List.filter_eq_nil_iff]
        intro i hi
        simpa using (mem_filter_notCount hi).2]
      rfl
    have : h.after .atUsage (keys (p.before.filter notCount)) = _ := this
    show (h.after .atUsage (keys (p.before.filter notCount))).g .reportCount = _
    rw [this, e, setRC_rc]; rfl
  rw [flush_keys]
  by_cases hg : s.group = []
  · have hm : p.mains = [] := by have := hc.mains; rw [hg] at this; exact mains_nil this
    have hmid : MMState.mid p = [] := by unfold MMState.mid; rw [hm]
    rw [hmid, List.append_nil]
    refine ⟨⟨⟨hc.after, by simp [MMState.flush], hc.props, ?_, by simp [MMState.flush, Pend.flush], rfl, ?_, ?_,
      fun h => absurd rfl h⟩, by simp [MMState.flush], hc.ca, fun h => absurd rfl h⟩, by simp [hg, joined]⟩
    · have := hc.host
      rw [if_pos hg] at this
      simp only [Pend.flush, if_true]
      exact this
    · simp only [Pend.flush, hg, List.isEmpty_nil, if_true, hc.written]
      exact hbn.symm
    · rfl
  · obtain ⟨m, ms, r, t, h1, h2, h3⟩ := mains_cons hc.mains hg
    have hgr := hc.grp hg
    have hmid : MMState.mid p = [(.reportCount, p.beforeCount), (r.cls, r.val)] := by
      unfold MMState.mid; rw [h1]; simp only [h3]
    have hrg : r ∈ s.group := by simp [h2]
    have hrm : (r.cls, r.val).1.kind = .main := isData_kind (hgr.data r hrg)
    have hst : ∀ K : Host, K.step .atUsage (r.cls, r.val) = K.cleared := by
      intro K
      rw [← h3]
      exact step_data .atUsage K m (by rw [← key_fst, h3]; exact hgr.data r hrg)
    have hH : h.after .atUsage (keys (p.before.filter notCount) ++ MMState.mid p)
        = (MMState.host h p).cleared.setRC p.beforeCount := by
      rw [hmid, after_append]
      simp only [after_cons, after_nil, step_rc]
      rw [hst]; rfl
    refine ⟨⟨⟨hc.after, by simp [MMState.flush], hc.props, ?_, by simp [MMState.flush, Pend.flush], rfl, ?_, ?_,
      fun h => absurd rfl h⟩, by simp [MMState.flush], hc.ca, fun h => absurd rfl h⟩, ?_⟩
    · have := hc.host
      rw [if_neg hg] at this
      simp only [Pend.flush, if_true]
      rw [hH]
      show T = ((Host.after .atUsage _ (keys (p.after.filter notCount))).after .atUsage (keys ([].filter notCount))).setRC p.afterCount
      rw [setRC_after .atUsage _ haf haf']
      simp only [List.filter_nil, keys_nil, after_nil, setRC_setRC]
      exact this
    · rw [hH, setRC_rc]
      have : s.group.isEmpty = false := by rw [h2]; rfl
      simp only [Pend.flush, this, hc.count]
      rfl
    · rfl
    · rw [eventsFrom_append, hmid, eventsFrom_rc_cons, eventsFrom_cons_main _ _ _ _ hrm, eventsFrom_nil, List.append_nil,
        joined_events hgr hrg _ hg, hc.count]

theorem take_rel {h : Host} {p : MMState} {T : Host} {s : Pend} (hc : Rel h p T s) (x : Item) (hd : x.cls.isData = true)
    (hf : s.fits (T.main .atUsage x.key) = true)
    (hcl : T.usages.closed = true ∧ T.strings.closed = true ∧ T.desigs.closed = true) :
    Rel h (MMState.take p x) (T.step .atUsage x.key) (s.add (T.main .atUsage x.key)) ∧
    eventsFrom .atUsage h (keys ((MMState.take p x).before.filter notCount)) =
      eventsFrom .atUsage h (keys (p.before.filter notCount)) := by
  have haf : ∀ i ∈ p.after.filter notCount, i.cls.kind ≠ .main ∧ i.cls ≠ .push ∧ i.cls ≠ .pop :=
    fun i hi => ⟨hc.nomain i (mem_filter_notCount hi).1, (hc.after i (mem_filter_notCount hi).1).2⟩
  have haf0 : ∀ k ∈ keys (p.after.filter notCount), k.1.kind ≠ .main := by
    intro k hk; obtain ⟨j, hj, rfl⟩ := mem_keys.1 hk; exact (haf j hj).1
  have hbf : (MMState.take p x).before.filter notCount = p.before.filter notCount ++ p.after.filter notCount := by
    show (p.before ++ p.after).filter notCount = _
    rw [List.filter_append]
  have hev : eventsFrom .atUsage h (keys ((MMState.take p x).before.filter notCount)) =
      eventsFrom .atUsage h (keys (p.before.filter notCount)) := by
    rw [hbf, keys_append, eventsFrom_append, eventsFrom_no_main _ _ _ haf0, List.append_nil]
  refine ⟨?_, hev⟩
  have hpas : ∀ i ∈ (MMState.take p x).before, Passive i := by
    intro i hi
    rcases List.mem_append.1 hi with hi | hi
    · exact hc.before i hi
    · exact hc.after i hi
  have hTg : ∀ c, (T.step .atUsage x.key).g c = T.g c := fun c => by
    rw [step_local_g _ _ _ (by rw [isData_kind hd]; decide)]
  have hrc : T.g .reportCount = p.afterCount := by rw [hc.host, setRC_rc]
  -- the host before the main items
  have key : MMState.host h (MMState.take p x) = if s.group = [] then (MMState.host h (MMState.take p x)) else
      ((MMState.host h p).cleared.after .atUsage (keys (p.after.filter notCount))).behind
        (MMState.host h p).usages (MMState.host h p).strings (MMState.host h p).desigs := by
    split
    · rfl
    · next hg =>
      have hgr := hc.grp hg
      rw [← behind_after .atUsage _ _ _ _ haf, behind_cleared _ hgr.closed.1 hgr.closed.2.1 hgr.closed.2.2]
      show h.after .atUsage (keys ((MMState.take p x).before.filter notCount)) = _
      rw [hbf, keys_append, after_append]
  have hcore : Grp (MMState.host h (MMState.take p x)) (s.group ++ [T.main .atUsage x.key]) ∧
      (∀ c ∈ fieldTags, (MMState.host h (MMState.take p x)).g c = T.g c) ∧
      (MMState.host h (MMState.take p x)).cleared.setRC p.afterCount = T.cleared := by
    by_cases hg : s.group = []
    · have hT := hc.host
      rw [if_pos hg] at hT
      have hE : MMState.host h (MMState.take p x) = (MMState.host h p).after .atUsage (keys (p.after.filter notCount)) := by
        show h.after .atUsage (keys ((MMState.take p x).before.filter notCount)) = _
        rw [hbf, keys_append, after_append]
      rw [hE]
      generalize (MMState.host h p).after .atUsage (keys (p.after.filter notCount)) = E at hT
      have hgE : ∀ c ∈ fieldTags, E.g c = T.g c := by
        intro c hcc
        rw [hT, setRC_g]
        intro h; subst h; simp [fieldTags] at hcc
      have hu : T.usages = E.usages ∧ T.strings = E.strings ∧ T.desigs = E.desigs := by rw [hT]; exact ⟨rfl, rfl, rfl⟩
      refine ⟨⟨?_, ?_, ?_, ?_, ?_, ?_, ?_⟩, hgE, ?_⟩
      · simp [hg, Host.main, hd]
      · simp [hg]
      · simp only [hg, List.nil_append, List.mem_singleton, forall_eq]
        intro c hcc; exact (hgE c hcc).symm
      · simp only [hg, List.nil_append, List.flatMap_cons, List.flatMap_nil, List.append_nil]
        show _ = T.usages.values _
        rw [hu.1]; rfl
      · simp only [hg, List.nil_append, List.flatMap_cons, List.flatMap_nil, List.append_nil]
        show _ = T.strings.values _
        rw [hu.2.1]
      · simp only [hg, List.nil_append, List.flatMap_cons, List.flatMap_nil, List.append_nil]
        show _ = T.desigs.values _
        rw [hu.2.2]
      · rw [← hu.1, ← hu.2.1, ← hu.2.2]; exact hcl
      · rw [hT]; rfl
    · have hgr := hc.grp hg
      have hfT := hc.fieldsT hg
      have hT := hc.host
      rw [if_neg hg] at hT key
      rw [key]
      generalize hB : (MMState.host h p).cleared.after .atUsage (keys (p.after.filter notCount)) = B at *
      have hgB : ∀ c ∈ fieldTags, B.g c = T.g c := by
        intro c hcc
        rw [hT, setRC_g]
        intro h; subst h; simp [fieldTags] at hcc
      obtain ⟨a, t, hat⟩ : ∃ a t, s.group = a :: t := by
        cases hs : s.group with
        | nil => exact absurd hs hg
        | cons a t => exact ⟨a, t, rfl⟩
      have hfit : a.cls = x.cls ∧ a.val = x.ival := by
        unfold Pend.fits at hf
        rw [hat] at hf
        simpa [Host.main] using hf
      have hsame : ∀ r ∈ s.group ++ [T.main .atUsage x.key], r.cls = a.cls ∧ r.val = a.val := by
        intro r hr
        rcases List.mem_append.1 hr with hr | hr
        · exact hgr.same r hr a (by simp [hat])
        · simp only [List.mem_singleton] at hr; subst hr; exact ⟨hfit.1.symm, hfit.2.symm⟩
      have hu : T.usages = B.usages ∧ T.strings = B.strings ∧ T.desigs = B.desigs := by rw [hT]; exact ⟨rfl, rfl, rfl⟩
      refine ⟨⟨?_, ?_, ?_, ?_, ?_, ?_, ?_⟩, fun c hcc => hgB c hcc, ?_⟩
      · intro r hr; rw [(hsame r hr).1, hfit.1]; exact hd
      · intro r hr q hq
        exact ⟨(hsame r hr).1.trans (hsame q hq).1.symm, (hsame r hr).2.trans (hsame q hq).2.symm⟩
      · intro r hr c hcc
        show r.g c = B.g c
        rw [hgB c hcc]
        rcases List.mem_append.1 hr with hr | hr
        · rw [hgr.fields r hr c hcc, hfT c hcc]
        · simp only [List.mem_singleton] at hr; subst hr; rfl
      · show (Decl.join _ B.usages).values id = _
        rw [values_join, hgr.usages, List.flatMap_append, ← hu.1]
        simp [Host.main]; rfl
      · show (Decl.join _ B.strings).values id = _
        rw [values_join, hgr.strings, List.flatMap_append, ← hu.2.1]
        simp [Host.main]
      · show (Decl.join _ B.desigs).values id = _
        rw [values_join, hgr.desigs, List.flatMap_append, ← hu.2.2]
        simp [Host.main]
      · rw [hu.1, hu.2.1, hu.2.2] at hcl; exact hcl
      · rw [hT]; rfl
  refine ⟨⟨hpas, by simp [MMState.take], ?_, ?_, ?_, ?_, hc.written, rfl, fun _ => hcore.1⟩, by simp [MMState.take], ?_, ?_⟩
  · intro c hcc; rw [hTg]; exact hc.props c hcc
  · have : ¬ (s.add (T.main .atUsage x.key)).group = [] := by simp [Pend.add]
    rw [if_neg this, step_data .atUsage _ x hd]
    exact hcore.2.2.symm
  · show keys (p.mains ++ [x]) = (s.group ++ [T.main .atUsage x.key]).map _
    rw [keys_append, hc.mains, List.map_append]; rfl
  · show p.beforeCount + p.afterCount = total (s.group ++ [_])
    rw [hc.count, ← hrc]
    simp [total, Host.main]
  · show s.after.or s.before = lastRC (p.before ++ p.after)
    rw [lastRC_append, hc.ca, hc.cb]
  · intro _ c hcc; rw [hTg]; exact hcore.2.1 c hcc

theorem fieldTags_eq : groupTags = fieldTags := rfl

theorem merged_data_one {T : Host} {s : Pend} {x : SItem} {xs : List SItem} (hd : x.1.isData = true)
    (h1 : T.g .reportCount = 1) : mergedEvents T s (x :: xs) =
      (if s.fits (T.main .atUsage x) then [] else joined (total s.group) s.group) ++
      mergedEvents (T.step .atUsage x) ((if s.fits (T.main .atUsage x) then s else s.flush).add (T.main .atUsage x)) xs := by
  have hc : (T.main .atUsage x).g .reportCount = 1 := h1
  unfold mergedEvents
  rw [runs]
  simp only [hd, if_true, hc]
  split <;> simp

theorem merged_data_more {T : Host} {s : Pend} {x : SItem} {xs : List SItem} (hd : x.1.isData = true)
    (h1 : T.g .reportCount ≠ 1) : mergedEvents T s (x :: xs) =
      (if s.fits (T.main .atUsage x) then [] else joined (total s.group) s.group) ++
      (joined (total ((if s.fits (T.main .atUsage x) then s else s.flush).add (T.main .atUsage x)).group)
        ((if s.fits (T.main .atUsage x) then s else s.flush).add (T.main .atUsage x)).group ++
      mergedEvents (T.step .atUsage x) ((if s.fits (T.main .atUsage x) then s else s.flush).add (T.main .atUsage x)).flush xs) := by
  have hc : ¬ (T.main .atUsage x).g .reportCount = 1 := h1
  unfold mergedEvents
  rw [runs]
  simp only [hd, if_true, hc, if_false]
  split <;> simp

theorem joined_single (r : MainRec) : joined (total [r]) [r] = r.events := by
  have : (fun c => if c = Cls.reportCount then total [r] else r.g c) = r.g := by
    funext c
    by_cases hc : c = .reportCount
    · subst hc; simp [total]
    · simp [hc]
  simp [joined, this]

theorem merged_main {T : Host} {s : Pend} {x : SItem} {xs : List SItem} (hd : x.1.isData = false)
    (hm : x.1.kind = .main) : mergedEvents T s (x :: xs) =
      joined (total s.group) s.group ++ ((T.main .atUsage x).events ++ mergedEvents (T.step .atUsage x) s.flush xs) := by
  unfold mergedEvents
  rw [runs]
  simp [hd, hm, joined_single]

theorem merged_change {T : Host} {s : Pend} {x : SItem} {xs : List SItem} (hd : x.1.isData = false)
    (hm : x.1.kind ≠ .main) (hw : x.1 ∈ fieldTags ∧ T.g x.1 ≠ x.2) : mergedEvents T s (x :: xs) =
      joined (total s.group) s.group ++ mergedEvents (T.step .atUsage x) s.flush xs := by
  unfold mergedEvents
  rw [runs]
  rw [← fieldTags_eq] at hw
  simp [hd, hm, hw]

theorem merged_rc {T : Host} {s : Pend} {x : SItem} {xs : List SItem} (hc : x.1 = .reportCount) :
    mergedEvents T s (x :: xs) = mergedEvents (T.step .atUsage x) { s with after := some x.2 } xs := by
  unfold mergedEvents
  rw [runs]
  simp [hc, Cls.isData, Cls.kind, groupTags]

theorem merged_quiet {T : Host} {s : Pend} {x : SItem} {xs : List SItem} (hd : x.1.isData = false)
    (hm : x.1.kind ≠ .main) (hw : ¬ (x.1 ∈ fieldTags ∧ T.g x.1 ≠ x.2)) (hc : x.1 ≠ .reportCount) :
    mergedEvents T s (x :: xs) = mergedEvents (T.step .atUsage x) s xs := by
  unfold mergedEvents
  rw [runs]
  rw [← fieldTags_eq] at hw
  simp only [hd, hm, hc, if_false, if_neg hw, Bool.false_eq_true]

/-- The last group. -/
theorem close_events {h : Host} {p : MMState} {T : Host} {s : Pend} (hc : Rel h p T s) :
    eventsFrom .atUsage h (keys (p.before ++ p.mains ++ p.after)) =
      eventsFrom .atUsage h (keys (p.before.filter notCount)) ++ s.close := by
  have haf0 : ∀ k ∈ keys p.after, k.1.kind ≠ .main := by
    intro k hk; obtain ⟨j, hj, rfl⟩ := mem_keys.1 hk; exact hc.nomain j hj
  rw [keys_append, keys_append, eventsFrom_append, eventsFrom_append, eventsFrom_no_main _ _ _ haf0, List.append_nil,
    filter_events .atUsage p.before hc.before, after_count p.before hc.before, ← hc.cb, ← hc.written, hc.mains]
  congr 1
  unfold Pend.close
  generalize s.before.getD s.written = n
  by_cases hg : s.group = []
  · simp [hg, joined]
  · have hgr := hc.grp hg
    generalize hH : h.after .atUsage (keys (p.before.filter notCount)) = H at hgr
    rw [show MMState.host h p = H from hH] at hgr
    clear hH
    generalize s.group = g at *
    obtain ⟨a, t, rfl⟩ : ∃ a t, g = a :: t := by
      cases g with
      | nil => exact absurd rfl hg
      | cons a t => exact ⟨a, t, rfl⟩
    have hst : ∀ (r : MainRec) (K : Host), r ∈ a :: t → K.step .atUsage (r.cls, r.val) = K.cleared := by
      intro r K hr
      exact step_data .atUsage K ⟨r.cls, .int r.val⟩ (hgr.data r hr)
    have hrest : ∀ l : List MainRec, (∀ r ∈ l, r ∈ a :: t) →
        eventsFrom .atUsage (H.cleared.setRC n) (l.map fun r => (r.cls, r.val)) = l.flatMap (plainRec n) := by
      intro l hl
      induction l with
      | nil => rfl
      | cons r l ih =>
        have hr := hl r (by simp)
        rw [List.map_cons, eventsFrom_cons_main _ _ _ _ (isData_kind (hgr.data r hr)), plainRec_events hgr hr hr, List.flatMap_cons,
          hst r _ hr]
        congr 1
        exact ih fun q hq => hl q (by simp [hq])
    rw [List.map_cons, eventsFrom_cons_main _ _ _ _ (isData_kind (hgr.data a (by simp))), joined_events hgr (by simp) n hg,
      hst a _ (by simp)]
    congr 1
    exact hrest t fun q hq => by simp [hq]

theorem mm_exact (reg : Registry) (xs : List Item) : ∀ (h : Host) (p : MMState) (T : Host) (s : Pend), Rel h p T s →
    rangesClosed .atUsage T (keys xs) = true → NoPushPop xs →
    eventsFrom .atUsage h (keys ((mainMerge reg).runFrom p xs)) =
      eventsFrom .atUsage h (keys (p.before.filter notCount)) ++ mergedEvents T s (keys xs) := by
  induction xs with
  | nil =>
    intro h p T s hc _ _
    rw [Pass.runFrom_nil]
    show eventsFrom .atUsage h (keys (p.before ++ p.mains ++ p.after)) = _
    rw [close_events hc]
    simp [mergedEvents, runs]
  | cons x xs ih =>
    intro h p T s hc hcl hpp
    rw [NoPushPop.cons] at hpp
    obtain ⟨⟨hp1, hp2⟩, hpp⟩ := hpp
    rw [keys_cons] at hcl
    have hcl2 : rangesClosed .atUsage (T.step .atUsage x.key) (keys xs) = true := by
      simp only [rangesClosed, Bool.and_eq_true] at hcl; exact hcl.2
    -- flushing
    have useFlush : ∀ (h : Host) (q : MMState) (T : Host) (s : Pend), Core h q T s → rangesClosed .atUsage T (keys xs) = true →
        eventsFrom .atUsage h (keys ((q.flush reg).2 ++ (mainMerge reg).runFrom (q.flush reg).1 xs)) =
          eventsFrom .atUsage h (keys (q.before.filter notCount)) ++ (joined (total s.group) s.group ++
          (eventsFrom .atUsage (h.after .atUsage (keys (q.flush reg).2)) (keys (q.after.filter notCount)) ++
            mergedEvents T s.flush (keys xs))) := by
      intro h q T s hq hcl
      obtain ⟨f1, f2⟩ := flush_core reg hq
      rw [keys_append, eventsFrom_append, ih _ _ _ _ f1 hcl hpp, f2, List.append_assoc]
      rfl
    have nomain : ∀ (h : Host) (l : List Item), (∀ i ∈ l, i.cls.kind ≠ .main) →
        eventsFrom .atUsage h (keys (l.filter notCount)) = [] := by
      intro h l hl
      apply eventsFrom_no_main
      intro k hk
      obtain ⟨j, hj, rfl⟩ := mem_keys.1 hk
      exact hl j (mem_filter_notCount hj).1
    rw [Pass.runFrom_cons, keys_cons]
    by_cases hm : x.cls.kind = .main
    · by_cases hd : x.cls.isData = true
      · -- data item
        have hclT : T.usages.closed = true ∧ T.strings.closed = true ∧ T.desigs.closed = true := by
          simp only [rangesClosed, key_fst, hd, Bool.not_true, Bool.false_or, Bool.and_eq_true] at hcl
          exact ⟨hcl.1.1.1, hcl.1.1.2, hcl.1.2⟩
        -- the item joins a group
        have join : ∀ (h : Host) (q : MMState) (s : Pend), Rel h q T s → s.fits (T.main .atUsage x.key) = true →
            eventsFrom .atUsage h (keys (if q.afterCount ≠ 1 then
              ((MMState.take q x).flush reg).2 ++ (mainMerge reg).runFrom ((MMState.take q x).flush reg).1 xs
              else (mainMerge reg).runFrom (MMState.take q x) xs)) =
            eventsFrom .atUsage h (keys (q.before.filter notCount)) ++ mergedEvents T s (x.key :: keys xs) := by
          intro h q s hq hf
          obtain ⟨t1, t2⟩ := take_rel hq x hd hf hclT
          have hrc : T.g .reportCount = q.afterCount := by rw [hq.host, setRC_rc]
          by_cases h1 : q.afterCount = 1
          · rw [if_neg (by simp [h1]), ih _ _ _ _ t1 hcl2 hpp, t2, merged_data_one (by simpa using hd) (by rw [hrc, h1])]
            simp [hf]
          · rw [if_pos h1, useFlush _ _ _ _ t1.toCore hcl2, t2, merged_data_more (by simpa using hd) (by rw [hrc]; exact h1),
              nomain _ (MMState.take q x).after (by simp [MMState.take])]
            simp [hf]
        obtain ⟨q, o, hq, hs⟩ := mm_step_data reg p x hd
        rw [hs]
        have hsplit : (if q.afterCount ≠ 1 then
              (((MMState.take q x).flush reg).1, o ++ ((MMState.take q x).flush reg).2)
              else (MMState.take q x, o)).2 ++ (mainMerge reg).runFrom (if q.afterCount ≠ 1 then
              (((MMState.take q x).flush reg).1, o ++ ((MMState.take q x).flush reg).2)
              else (MMState.take q x, o)).1 xs = o ++ (if q.afterCount ≠ 1 then
              ((MMState.take q x).flush reg).2 ++ (mainMerge reg).runFrom ((MMState.take q x).flush reg).1 xs
              else (mainMerge reg).runFrom (MMState.take q x) xs) := by
          split <;> simp
        rw [hsplit]
        -- does the item fit?
        have hfit : ∀ m ms, p.mains = m :: ms → s.fits (T.main .atUsage x.key) = x.pyEq m := by
          intro m ms hpm
          have hmn := hc.mains
          rw [hpm, keys_cons] at hmn
          unfold Pend.fits
          cases hsg : s.group with
          | nil => rw [hsg] at hmn; simp at hmn
          | cons a t =>
            rw [hsg, List.map_cons, List.cons.injEq] at hmn
            have h1 : m.cls = a.cls := congrArg Prod.fst hmn.1
            have h2 : m.ival = a.val := congrArg Prod.snd hmn.1
            have := C52_item_eq.1 x m
            rw [Bool.eq_iff_iff]
            simp only [Host.main, key_fst, Bool.and_eq_true, beq_iff_eq]
            rw [this, h1, h2]
            exact ⟨fun h => ⟨h.1.symm, h.2.symm⟩, fun h => ⟨h.1.symm, h.2.symm⟩⟩
        rcases hq with ⟨rfl, rfl, he⟩ | ⟨rfl, rfl, m, ms, hpm, he⟩
        · rw [List.nil_append]
          apply join h q s hc
          cases hqm : q.mains with
          | nil =>
            have hmn := hc.mains
            rw [hqm] at hmn
            unfold Pend.fits
            cases hsg : s.group with
            | nil => rfl
            | cons a t => rw [hsg] at hmn; simp at hmn
          | cons m ms => rw [hfit m ms hqm]; exact he m ms hqm
        · obtain ⟨f1, f2⟩ := flush_core reg hc.toCore
          have hnf : s.fits (T.main .atUsage x.key) = false := by rw [hfit m ms hpm, he]
          rw [keys_append, eventsFrom_append, f2, join _ _ _ f1 rfl]
          have hft : s.flush.fits (T.main .atUsage x.key) = true := rfl
          have h0 : eventsFrom .atUsage (h.after .atUsage (keys (p.flush reg).2))
              (keys ((p.flush reg).1.before.filter notCount)) = [] := nomain _ _ hc.nomain
          rw [h0, List.nil_append, List.append_assoc]
          congr 1
          by_cases h1 : T.g .reportCount = 1
          · rw [merged_data_one (by simpa using hd) h1, merged_data_one (by simpa using hd) h1, hnf, hft]
            simp [joined]
          · rw [merged_data_more (by simpa using hd) h1, merged_data_more (by simpa using hd) h1, hnf, hft]
            simp [joined]
      · -- collection or end of collection
        have hd' : x.cls.isData = false := by simpa using hd
        have hpas : Passive x := ⟨hd', hp1, hp2⟩
        have hnc : x.cls ≠ .reportCount := by intro hc; rw [hc] at hm; exact absurd hm (by decide)
        obtain ⟨props, hs, hprops⟩ := mm_step_flush reg p x (Or.inl ⟨hm, hd'⟩)
        have hcore := push_core hc.toCore x hpas hnc props (by
          intro c hcc
          rw [step_local_g _ _ _ (by rw [hm]; decide), hprops c, if_neg (by rw [hm]; simp)]
          exact hc.props c hcc)
        rw [hs, useFlush _ _ _ _ hcore hcl2, merged_main (by simpa using hd') (by simpa using hm)]
        show eventsFrom .atUsage h (keys (p.before.filter notCount)) ++ _ = _
        congr 2
        show _ ++ _ = _ ++ _
        congr 1
        obtain ⟨f1, -⟩ := flush_core reg hc.toCore
        have hT := f1.host
        have hf : (p.after ++ [x]).filter notCount = p.after.filter notCount ++ [x] := by
          rw [List.filter_append]; simp [(notCount_iff x).2 hnc]
        show eventsFrom .atUsage (h.after .atUsage (keys (p.flush reg).2)) (keys ((p.after ++ [x]).filter notCount)) = _
        rw [hf, keys_append, eventsFrom_append, nomain _ _ hc.nomain, List.nil_append, keys_cons, keys_nil,
          eventsFrom_cons_main _ _ _ _ (by simpa using hm), eventsFrom_nil, List.append_nil]
        have : T = ((h.after .atUsage (keys (p.flush reg).2)).after .atUsage (keys (p.after.filter notCount))).setRC
            p.afterCount := hT
        rw [this, setRC_main_events .atUsage _ _ x hd']
    · -- local or global item
      have hd' : x.cls.isData = false := by
        cases hdd : x.cls.isData with
        | false => rfl
        | true => exact absurd (isData_kind hdd) hm
      have hpas : Passive x := ⟨hd', hp1, hp2⟩
      by_cases hrc : x.cls = .reportCount
      · rw [mm_step_rc reg p x hrc, List.nil_append, ih _ _ _ _ (push_rc hc x hrc) hcl2 hpp,
          merged_rc (by simpa using hrc)]
        rfl
      · by_cases hw : x.cls ∈ fieldTags ∧ T.g x.cls ≠ x.ival
        · have hwt := (watched_iff x.cls).2 hw.1
          have hgl : x.cls.kind = .global := by
            have hh1 := hwt
            cases hc : x.cls <;> rw [hc] at hh1 <;> simp [watched] at hh1 <;> rfl
          obtain ⟨props, hs, hprops⟩ := mm_step_flush reg p x (Or.inr ⟨hgl, hwt, by rw [hc.props _ hw.1]; exact hw.2⟩)
          have hcore := push_core hc.toCore x hpas hrc props (by
            intro c hcc
            rw [step_global _ _ _ hgl hp1 hp2, hprops c]
            by_cases hcx : c = x.cls
            · simp [hcx, hgl]
            · simp only [hcx, and_false, if_false]
              exact hc.props c hcc)
          rw [hs, useFlush _ _ _ _ hcore hcl2, merged_change (by simpa using hd') (by simpa using hm) (by simpa [Item.key] using hw)]
          show eventsFrom .atUsage h (keys (p.before.filter notCount)) ++ (_ ++ (eventsFrom .atUsage _ (keys ((p.after ++ [x]).filter notCount)) ++ _)) = _
          rw [nomain _ (p.after ++ [x]) (by
            intro i hi
            rcases List.mem_append.1 hi with hi | hi
            · exact hc.nomain i hi
            · simp at hi; subst hi; exact hm), List.nil_append]
        · have hw' : ¬ (watched x.cls = true ∧ p.props x.cls ≠ x.ival) := by
            intro hh
            have h1 := (watched_iff _).1 hh.1
            exact hw ⟨h1, by rw [← hc.props _ h1]; exact hh.2⟩
          have hgc : ∀ c ∈ fieldTags, (T.step .atUsage x.key).g c = T.g c := by
            intro c hcc
            by_cases hg : x.cls.kind = .global
            · rw [step_global _ _ _ hg hp1 hp2]
              by_cases hcx : c = x.cls
              · subst hcx
                simp only [if_true]
                by_cases he : T.g x.cls = x.ival
                · exact he.symm
                · exact absurd ⟨hcc, he⟩ hw
              · simp [hcx]
            · rw [step_local_g _ _ _ hg]
          have hcore := push_core hc.toCore x hpas hrc p.props (by
            intro c hcc; rw [hgc c hcc]; exact hc.props c hcc)
          have hrel : Rel h (MMState.push p x) (T.step .atUsage x.key) s := by
            refine ⟨hcore, ?_, hc.cb, ?_⟩
            · intro i hi
              rcases List.mem_append.1 hi with hi | hi
              · exact hc.nomain i hi
              · simp at hi; subst hi; exact hm
            · intro hg c hcc; rw [hgc c hcc]; exact hc.fieldsT hg c hcc
          rw [mm_step_quiet reg p x hm hw' hrc, List.nil_append, ih _ _ _ _ hrel hcl2 hpp,
            merged_quiet (by simpa using hd') (by simpa using hm) (by simpa [Item.key] using hw) (by simpa using hrc)]
          rfl

/-- Meaning of the output. -/
theorem mm_run_exact (reg : Registry) (xs : List Item) (hcl : rangesClosed .atUsage {} (keys xs) = true)
    (hpp : NoPushPop xs) :
    meaning .atUsage (keys ((mainMerge reg).run xs)) = mergedEvents {} {} (keys xs) := by
  have h0 : Rel ({} : Host) {} {} {} := by
    refine ⟨⟨by simp, by simp, fun _ _ => rfl, ?_, rfl, rfl, rfl, rfl, fun h => absurd rfl h⟩, by simp, rfl, fun h => absurd rfl h⟩
    exact (setRC_self {} 0 rfl).symm
  have := mm_exact reg xs {} {} {} {} h0 hcl hpp
  simpa [meaning, Pass.run] using this

end Hrdc
