import Verif.Proofs.MainMerge
import Verif.Props.Usages
/-!
# `MainMerge` keeps the meaning of safe streams
-/
namespace Hrdc
open Spec Optimizer

/-- Merged main items of a state. -/
def MMState.mid (p : MMState) : List SItem :=
  match p.mains with
  | [] => []
  | m :: _ => [(.reportCount, p.beforeCount), m.key]

/-- What is still to be sent on, with the report count in force at the end. -/
def MMState.virt (p : MMState) : List SItem :=
  keys (p.before.filter notCount) ++ MMState.mid p ++ keys (p.after.filter notCount) ++
    [(.reportCount, p.afterCount)]

theorem flush_virt (reg : Registry) (q : MMState) :
    keys (q.flush reg).2 ++ MMState.virt (q.flush reg).1 = MMState.virt q := by
  unfold MMState.virt MMState.flush MMState.mid
  cases hm : q.mains with
  | nil => simp
  | cons m ms => simp [build_key]; rfl

theorem flush_keys (reg : Registry) (q : MMState) :
    keys (q.flush reg).2 = keys (q.before.filter notCount) ++ MMState.mid q := by
  unfold MMState.flush MMState.mid
  cases hm : q.mains with
  | nil => simp
  | cons m ms => simp [build_key]; rfl

/-- Length of the index list `L` of a merged item whose last part is `l`, after `n` earlier ones. -/
def Acc (n : Nat) (L l : List Int) : Prop := (l = [] → L = []) ∧ (l ≠ [] → L.length = n + l.length)

/-- A pending merged item `m`, the last of whose parts had record `r`. -/
structure MS (h : Host) (p : MMState) (m : Item) (r : MainRec) : Prop where
  head : ∃ ms, p.mains = m :: ms
  data : m.cls.isData = true
  nomain : ∀ i ∈ p.after, i.cls.kind ≠ .main
  closed : (h.after .atUsage (keys (p.before.filter notCount))).usages.closed = true ∧
    (h.after .atUsage (keys (p.before.filter notCount))).strings.closed = true ∧
    (h.after .atUsage (keys (p.before.filter notCount))).desigs.closed = true
  cls : r.cls = m.cls
  val : r.val = m.ival
  gr : ∀ c ∈ fieldTags, r.g c = (h.after .atUsage (MMState.virt p)).g c
  gH : ∀ c ∈ fieldTags, (h.after .atUsage (keys (p.before.filter notCount))).g c
    = (h.after .atUsage (MMState.virt p)).g c
  rc : r.g .reportCount = 1
  lists : ∃ n : Nat, p.beforeCount = ((n + 1 : Nat) : Int) ∧ (r.isConst = false →
    Acc n ((h.after .atUsage (keys (p.before.filter notCount))).usages.values id) r.usages ∧
    (r.isVar = true →
      Acc n ((h.after .atUsage (keys (p.before.filter notCount))).strings.values id) r.strings ∧
      Acc n ((h.after .atUsage (keys (p.before.filter notCount))).desigs.values id) r.desigs))

/-- The pending merged item and the record of its last part, if any. -/
def Prev (h : Host) (p : MMState) (prev : List MainRec) : Prop :=
  (p.mains = [] ∧ prev = []) ∨ ∃ m r, prev = [r] ∧ MS h p m r

/-- Invariant of the state. -/
structure MMInv (h : Host) (p : MMState) : Prop where
  before : ∀ i ∈ p.before, Passive i
  after : ∀ i ∈ p.after, Passive i
  props : ∀ c, watched c = true → p.props c = (h.after .atUsage (MMState.virt p)).g c
  zero : p.mains = [] → p.beforeCount = 0

theorem mergeSafe_tail {a : MainRec} {l : List MainRec} (h : mergeSafe (a :: l) = true) :
    mergeSafe l = true := by
  cases l with
  | nil => rfl
  | cons b l => simp [mergeSafe] at h; exact h.2

theorem mergeSafe_append {a l : List MainRec} (h : mergeSafe (a ++ l) = true) :
    mergeSafe l = true := by
  induction a with
  | nil => exact h
  | cons x a ih => exact ih (mergeSafe_tail h)

theorem watched_iff (c : Cls) : watched c = true ↔ c ∈ fieldTags := by
  cases c <;> simp [watched, fieldTags]

theorem mem_filter_notCount {l : List Item} {i : Item} (h : i ∈ l.filter notCount) :
    i ∈ l ∧ i.cls ≠ .reportCount :=
  ⟨(List.mem_filter.1 h).1, (notCount_iff i).1 (List.mem_filter.1 h).2⟩

theorem eventsFrom_rc_cons (rule : PageRule) (h : Host) (n : Int) (xs : List SItem) :
    eventsFrom rule h ((.reportCount, n) :: xs) = eventsFrom rule (h.setRC n) xs := by
  rw [eventsFrom_cons_of_not_main _ _ _ _ (by simp [Cls.kind]), step_rc]

/-- Passive items may be moved before a report count. -/
theorem swap_events (rule : PageRule) (h : Host) (A : List SItem) (n : Int) (i : Item)
    (hp : Passive i) (hc : i.cls ≠ .reportCount) (K : List SItem) :
    eventsFrom rule h (A ++ (i.key :: (.reportCount, n) :: K))
      = eventsFrom rule h (A ++ ((.reportCount, n) :: i.key :: K)) := by
  rw [eventsFrom_append, eventsFrom_append, eventsFrom_cons, eventsFrom_rc_cons, eventsFrom_rc_cons,
    eventsFrom_cons, setRC_step rule _ n i hp.2.1 hp.2.2 hc, setRC_main_events rule _ n i hp.1]

theorem swap_after (rule : PageRule) (h : Host) (A : List SItem) (n : Int) (i : Item)
    (hp : Passive i) (hc : i.cls ≠ .reportCount) :
    h.after rule (A ++ [i.key, (.reportCount, n)])
      = (h.after rule (A ++ [(.reportCount, n)])).step rule i.key := by
  rw [after_append, after_append]
  simp only [after_cons, after_nil, step_rc]
  rw [setRC_step rule _ n i hp.2.1 hp.2.2 hc]

/-- Appending a passive item to `after`. -/
def MMState.push (p : MMState) (i : Item) : MMState := { p with after := p.after ++ [i] }

/-- Appending a report count. -/
def MMState.pushRC (p : MMState) (i : Item) : MMState :=
  { p with after := p.after ++ [i], afterCount := i.ival }

theorem push_virt (p : MMState) (i : Item) (hc : i.cls ≠ .reportCount) : ∃ A,
    MMState.virt (MMState.push p i) = A ++ [i.key, (.reportCount, p.afterCount)] ∧
    MMState.virt p = A ++ [(.reportCount, p.afterCount)] := by
  refine ⟨keys (p.before.filter notCount) ++ MMState.mid p ++ keys (p.after.filter notCount), ?_, rfl⟩
  unfold MMState.virt MMState.push
  simp [List.filter_append, List.filter_cons, (notCount_iff i).2 hc]
  rfl

theorem push_after (h : Host) (p : MMState) (i : Item) (hp : Passive i) (hc : i.cls ≠ .reportCount) :
    h.after .atUsage (MMState.virt (MMState.push p i))
      = (h.after .atUsage (MMState.virt p)).step .atUsage i.key := by
  obtain ⟨A, h1, h2⟩ := push_virt p i hc
  rw [h1, h2, swap_after .atUsage h A _ i hp hc]

theorem push_events (h : Host) (p : MMState) (i : Item) (hp : Passive i)
    (hc : i.cls ≠ .reportCount) (K : List SItem) :
    eventsFrom .atUsage h (MMState.virt (MMState.push p i) ++ K)
      = eventsFrom .atUsage h (MMState.virt p ++ i.key :: K) := by
  obtain ⟨A, h1, h2⟩ := push_virt p i hc
  rw [h1, h2]
  simpa using swap_events .atUsage h A p.afterCount i hp hc K

theorem virt_rc (h : Host) (rule : PageRule) (p : MMState) :
    (h.after rule (MMState.virt p)).g .reportCount = p.afterCount := by
  unfold MMState.virt
  rw [after_append]
  exact setRC_rc _ _

theorem virt_eq (h : Host) (rule : PageRule) (p : MMState) :
    h.after rule (MMState.virt p) = (h.after rule (keys (p.before.filter notCount) ++ MMState.mid p ++
      keys (p.after.filter notCount))).setRC p.afterCount := by
  unfold MMState.virt
  rw [after_append]
  rfl

/-! ### A data item -/

/-- State after taking in data item `i`. -/
def MMState.take (p : MMState) (i : Item) : MMState :=
  { p with before := p.before ++ p.after, beforeCount := p.beforeCount + p.afterCount,
           after := [], mains := p.mains ++ [i] }

theorem take_first (h : Host) (p : MMState) (i : Item) (inv : MMInv h p) (hm : p.mains = [])
    (hd : i.cls.isData = true) (K : List SItem)
    (hcl : rangesClosed .atUsage (h.after .atUsage (MMState.virt p)) (i.key :: K) = true) :
    eventsFrom .atUsage h (MMState.virt (MMState.take p i) ++ K)
      = eventsFrom .atUsage h (MMState.virt p ++ i.key :: K) ∧
    h.after .atUsage (MMState.virt (MMState.take p i))
      = (h.after .atUsage (MMState.virt p)).step .atUsage i.key ∧
    (p.afterCount = 1 → MS h (MMState.take p i) i
      ((h.after .atUsage (MMState.virt p)).main .atUsage i.key)) := by
  have hz := inv.zero hm
  have hv : MMState.virt (MMState.take p i)
      = MMState.virt p ++ [i.key, (.reportCount, p.afterCount)] := by
    unfold MMState.virt MMState.take MMState.mid
    simp [hm, hz]
  have hV := virt_eq h .atUsage p
  have hmid : MMState.mid p = [] := by unfold MMState.mid; rw [hm]
  rw [hmid, List.append_nil, ← keys_append, ← List.filter_append] at hV
  have hstep : h.after .atUsage (MMState.virt (MMState.take p i))
      = (h.after .atUsage (MMState.virt p)).step .atUsage i.key := by
    rw [hv, after_append]
    simp only [after_cons, after_nil, step_rc]
    apply setRC_self
    rw [step_local_g _ _ _ (by rw [isData_kind hd]; decide), virt_rc]
  refine ⟨?_, hstep, ?_⟩
  · rw [hv, List.append_assoc, eventsFrom_append, eventsFrom_append _ _ _ (i.key :: K)]
    congr 1
    show eventsFrom .atUsage _ (i.key :: (.reportCount, p.afterCount) :: K) = _
    rw [eventsFrom_cons, eventsFrom_rc_cons, eventsFrom_cons]
    congr 2
    apply setRC_self
    rw [step_local_g _ _ _ (by rw [isData_kind hd]; decide), virt_rc]
  · intro h1
    have hbef : (MMState.take p i).before = p.before ++ p.after := rfl
    have hgs : ∀ c, (h.after .atUsage (MMState.virt (MMState.take p i))).g c
        = (h.after .atUsage (MMState.virt p)).g c := by
      intro c; rw [hstep, step_local_g _ _ _ (by rw [isData_kind hd]; decide)]
    simp only [rangesClosed, key_fst, hd, Bool.not_true, Bool.false_or, Bool.and_eq_true] at hcl
    have hu : (h.after .atUsage (keys ((p.before ++ p.after).filter notCount))).usages
        = (h.after .atUsage (MMState.virt p)).usages := by rw [hV]; rfl
    have hs : (h.after .atUsage (keys ((p.before ++ p.after).filter notCount))).strings
        = (h.after .atUsage (MMState.virt p)).strings := by rw [hV]; rfl
    have hdg : (h.after .atUsage (keys ((p.before ++ p.after).filter notCount))).desigs
        = (h.after .atUsage (MMState.virt p)).desigs := by rw [hV]; rfl
    have acc0 : ∀ l : List Int, Acc 0 l l := fun l => ⟨id, fun _ => by simp⟩
    refine ⟨⟨[], by simp [MMState.take, hm]⟩, hd, by simp [MMState.take], ?_, rfl, rfl, ?_, ?_, ?_, ?_⟩
    · rw [hbef, hu, hs, hdg]; exact ⟨hcl.1.1.1, hcl.1.1.2, hcl.1.2⟩
    · intro c _; rw [hgs]; rfl
    · intro c hc
      rw [hgs, hbef, hV, setRC_g]
      intro hcc; subst hcc; simp [fieldTags] at hc
    · show (h.after .atUsage (MMState.virt p)).g .reportCount = 1
      rw [virt_rc, h1]
    · refine ⟨0, by simp [MMState.take, hz, h1], fun _ => ?_⟩
      rw [hbef, hu, hs, hdg]
      exact ⟨acc0 _, fun _ => ⟨acc0 _, acc0 _⟩⟩

theorem joinN_of {n : Nat} {L l m : List Int} (ha : Acc n L l) (hj : Joinable l m) :
    JoinN (n + 1) L m := by
  rcases hj with ⟨h1, h2⟩ | ⟨h1, h2⟩
  · exact Or.inl ⟨ha.1 h1, h2⟩
  · refine Or.inr ⟨?_, h2⟩
    rw [ha.2 (by intro h; rw [h] at h1; simp at h1), h1]

theorem acc_join {n : Nat} {L l m : List Int} (ha : Acc n L l) (hj : Joinable l m) :
    Acc (n + 1) (L ++ m) m := by
  rcases hj with ⟨h1, h2⟩ | ⟨h1, h2⟩
  · subst h2; rw [ha.1 h1]; exact ⟨id, fun h => absurd rfl h⟩
  · refine ⟨fun h => absurd h h2, fun _ => ?_⟩
    rw [List.length_append, ha.2 (by intro h; rw [h] at h1; simp at h1), h1]

theorem take_more (h : Host) (p : MMState) (m i : Item) (r0 : MainRec) (inv : MMInv h p)
    (hms : MS h p m r0) (hk : i.key = m.key) (K : List SItem)
    (hcl : rangesClosed .atUsage (h.after .atUsage (MMState.virt p)) (i.key :: K) = true)
    (hok : MergeOK r0 ((h.after .atUsage (MMState.virt p)).main .atUsage i.key)) :
    eventsFrom .atUsage h (MMState.virt (MMState.take p i) ++ K)
      = eventsFrom .atUsage h (MMState.virt p ++ i.key :: K) ∧
    h.after .atUsage (MMState.virt (MMState.take p i))
      = (h.after .atUsage (MMState.virt p)).step .atUsage i.key ∧
    (p.afterCount = 1 → MS h (MMState.take p i) m
      ((h.after .atUsage (MMState.virt p)).main .atUsage i.key)) := by
  obtain ⟨ms, hm⟩ := hms.head
  obtain ⟨n, hn, hacc⟩ := hms.lists
  have hic : i.cls = m.cls := congrArg Prod.fst hk
  have hiv : i.ival = m.ival := congrArg Prod.snd hk
  have hid : i.cls.isData = true := by rw [hic]; exact hms.data
  have hkm : m.key.1.kind = .main := isData_kind hms.data
  have hmid : MMState.mid p = [(.reportCount, p.beforeCount), m.key] := by
    unfold MMState.mid; rw [hm]
  -- the states involved
  have haf : ∀ j ∈ p.after.filter notCount, j.cls.kind ≠ .main ∧ j.cls ≠ .push ∧ j.cls ≠ .pop :=
    fun j hj => ⟨hms.nomain j (mem_filter_notCount hj).1,
      (inv.after j (mem_filter_notCount hj).1).2⟩
  have haf0 : ∀ k ∈ keys (p.after.filter notCount), k.1.kind ≠ .main := by
    intro k hk; obtain ⟨j, hj, rfl⟩ := mem_keys.1 hk; exact (haf j hj).1
  have hafp : ∀ j ∈ p.after.filter notCount, Passive j := fun j hj =>
    inv.after j (mem_filter_notCount hj).1
  have hafc : ∀ j ∈ p.after.filter notCount, j.cls ≠ .reportCount := fun j hj =>
    (mem_filter_notCount hj).2
  generalize hH : h.after .atUsage (keys (p.before.filter notCount)) = H at *
  generalize hB : H.cleared.after .atUsage (keys (p.after.filter notCount)) = B at *
  have hH' : H.after .atUsage (keys (p.after.filter notCount))
      = B.behind H.usages H.strings H.desigs := by
    rw [← hB, ← behind_after .atUsage _ _ _ _ haf, behind_cleared H]
    · have := hms.closed; rw [hH] at this; exact this.1
    · have := hms.closed; rw [hH] at this; exact this.2.1
    · have := hms.closed; rw [hH] at this; exact this.2.2
  have hV : h.after .atUsage (MMState.virt p) = B.setRC p.afterCount := by
    rw [virt_eq, hmid, after_append, after_append, hH]
    simp only [after_cons, after_nil, step_rc]
    rw [step_data .atUsage _ m hms.data]
    have : (H.setRC p.beforeCount).cleared = H.cleared.setRC p.beforeCount := rfl
    rw [this, setRC_after .atUsage _ hafp hafc, hB, setRC_setRC]
  have hbf : (MMState.take p i).before.filter notCount
      = p.before.filter notCount ++ p.after.filter notCount := by
    show (p.before ++ p.after).filter notCount = _
    rw [List.filter_append]
  have hbef : h.after .atUsage (keys ((MMState.take p i).before.filter notCount))
      = B.behind H.usages H.strings H.desigs := by
    rw [hbf, keys_append, after_append, hH, hH']
  have hvirt : MMState.virt (MMState.take p i) = keys ((MMState.take p i).before.filter notCount) ++
      [(.reportCount, p.beforeCount + p.afterCount), m.key, (.reportCount, p.afterCount)] := by
    unfold MMState.virt MMState.mid MMState.take
    simp [hm]
  have hstep : h.after .atUsage (MMState.virt (MMState.take p i))
      = (h.after .atUsage (MMState.virt p)).step .atUsage i.key := by
    rw [hvirt, after_append, hbef, hV, step_data .atUsage _ i hid]
    simp only [after_cons, after_nil, step_rc]
    rw [step_data .atUsage _ m hms.data]
    show ((B.cleared.setRC _).setRC _) = B.cleared.setRC _
    rw [setRC_setRC]
  -- records
  have hmerge : Mergeable r0 ((h.after .atUsage (MMState.virt p)).main .atUsage i.key) := by
    refine ⟨by rw [hms.cls]; exact hms.data, by rw [hms.cls]; exact hic,
      by rw [hms.val]; exact hiv, fun c hc => (hms.gr c hc).symm, hms.rc⟩
  obtain ⟨h0, hcases⟩ := hok hmerge
  have hrval : ∀ (G : Host), (G.main .atUsage m.key).isConst = r0.isConst ∧
      (G.main .atUsage m.key).isVar = r0.isVar := by
    intro G
    simp [MainRec.isConst, MainRec.isVar, Host.main, hms.val]
  have hgH : ∀ c ∈ fieldTags, H.g c = B.g c := by
    intro c hc
    have := hms.gH c hc
    rw [hH, hV, setRC_g] at this
    · exact this
    · intro hcc; subst hcc; simp [fieldTags] at hc
  have hev : ((B.behind H.usages H.strings H.desigs).setRC (p.beforeCount + p.afterCount)
        |>.main .atUsage m.key).events
      = ((H.setRC p.beforeCount).main .atUsage m.key).events ++
        ((B.setRC p.afterCount).main .atUsage i.key).events := by
    have hrcne : ∀ c ∈ fieldTags, c ≠ .reportCount := by
      intro c hc hcc; subst hcc; simp [fieldTags] at hc
    apply merge_events (n := n + 1)
    · exact hms.data
    · exact hic
    · exact hiv
    · intro c hc
      show (B.setRC _).g c = (H.setRC _).g c
      rw [setRC_g _ _ _ (hrcne c hc), setRC_g _ _ _ (hrcne c hc), hgH c hc]
    · rfl
    · rfl
    · intro c hc
      show ((B.behind _ _ _).setRC _).g c = (H.setRC _).g c
      rw [setRC_g _ _ _ (hrcne c hc), setRC_g _ _ _ (hrcne c hc), hgH c hc]
      rfl
    · show (H.setRC _).g .reportCount = _
      rw [setRC_rc, hn]; try rfl
    · have h0' : 0 ≤ (B.setRC p.afterCount).g .reportCount := by rw [← hV]; exact h0
      exact h0'
    · show ((B.behind H.usages H.strings H.desigs).setRC _).g .reportCount = _ + (B.setRC _).g .reportCount
      rw [setRC_rc, setRC_rc, hn]; try rfl
    · exact values_join _ _ _
    · exact values_join _ _ _
    · exact values_join _ _ _
    · rw [(hrval _).1, (hrval _).2]
      rw [hV] at hcases
      rcases hcases with hc | ⟨hv, hj1, hj2, hj3⟩ | ⟨hv, hj1, hj2⟩
      · exact Or.inl hc
      · by_cases hc : r0.isConst = true
        · exact Or.inl hc
        · right; left
          obtain ⟨a1, a2⟩ := hacc (by simpa using hc)
          obtain ⟨a2, a3⟩ := a2 hv
          exact ⟨hv, joinN_of a1 hj1, joinN_of a2 hj2, joinN_of a3 hj3⟩
      · by_cases hc : r0.isConst = true
        · exact Or.inl hc
        · right; right
          obtain ⟨a1, -⟩ := hacc (by simpa using hc)
          exact ⟨hv, a1.1 hj1, hj2⟩
  refine ⟨?_, hstep, ?_⟩
  · rw [eventsFrom_append, hstep]
    have hR : eventsFrom .atUsage h (MMState.virt p ++ i.key :: K)
        = eventsFrom .atUsage h (MMState.virt p) ++
          (((h.after .atUsage (MMState.virt p)).main .atUsage i.key).events ++
          eventsFrom .atUsage ((h.after .atUsage (MMState.virt p)).step .atUsage i.key) K) := by
      rw [eventsFrom_append, eventsFrom_cons_main _ _ _ _ (isData_kind hid)]
    rw [hR, ← List.append_assoc]
    congr 1
    rw [hvirt, hbf, keys_append, List.append_assoc, eventsFrom_append, hH, eventsFrom_append, hH',
      eventsFrom_no_main _ _ _ haf0, List.nil_append, eventsFrom_rc_cons,
      eventsFrom_cons_main _ _ _ _ hkm, eventsFrom_rc_cons, eventsFrom_nil, List.append_nil, hev, hV]
    unfold MMState.virt
    rw [hmid, List.append_assoc, List.append_assoc, eventsFrom_append, hH, List.append_assoc]
    congr 1
    simp only [List.cons_append, List.nil_append]
    rw [eventsFrom_rc_cons, eventsFrom_cons_main _ _ _ _ hkm, eventsFrom_append,
      eventsFrom_no_main _ _ _ haf0, List.nil_append, eventsFrom_rc_cons, eventsFrom_nil,
      List.append_nil]
  · intro h1
    have hgs : ∀ c, (h.after .atUsage (MMState.virt (MMState.take p i))).g c
        = (h.after .atUsage (MMState.virt p)).g c := by
      intro c; rw [hstep, step_local_g _ _ _ (by rw [isData_kind hid]; decide)]
    simp only [rangesClosed, key_fst, hid, Bool.not_true, Bool.false_or, Bool.and_eq_true] at hcl
    rw [hV] at hcl
    refine ⟨⟨ms ++ [i], by simp [MMState.take, hm]⟩, hms.data, by simp [MMState.take], ?_, hic, hiv,
      ?_, ?_, ?_, ?_⟩
    · rw [hbef]; exact ⟨hcl.1.1.1, hcl.1.1.2, hcl.1.2⟩
    · intro c _; rw [hgs]; rfl
    · intro c hc
      rw [hgs, hbef, hV, setRC_g]
      · rfl
      · intro hcc; subst hcc; simp [fieldTags] at hc
    · show (h.after .atUsage (MMState.virt p)).g .reportCount = 1
      rw [virt_rc, h1]
    · refine ⟨n + 1, by simp [MMState.take, hn, h1], ?_⟩
      rw [hbef, hV]
      rw [hV] at hcases
      have hcon : ((B.setRC p.afterCount).main .atUsage i.key).isConst = r0.isConst := by
        rw [hk]; exact (hrval _).1
      have hvar : ((B.setRC p.afterCount).main .atUsage i.key).isVar = r0.isVar := by
        rw [hk]; exact (hrval _).2
      intro hc
      rw [hcon] at hc
      obtain ⟨a1, a2⟩ := hacc hc
      rw [hvar]
      have e1 : (B.behind H.usages H.strings H.desigs).usages.values id
          = H.usages.values id ++ ((B.setRC p.afterCount).main .atUsage i.key).usages :=
        values_join _ _ _
      have e2 : (B.behind H.usages H.strings H.desigs).strings.values id
          = H.strings.values id ++ ((B.setRC p.afterCount).main .atUsage i.key).strings :=
        values_join _ _ _
      have e3 : (B.behind H.usages H.strings H.desigs).desigs.values id
          = H.desigs.values id ++ ((B.setRC p.afterCount).main .atUsage i.key).desigs :=
        values_join _ _ _
      rw [e1, e2, e3]
      rcases hcases with hc' | ⟨hv, hj1, hj2, hj3⟩ | ⟨hv, hj1, hj2⟩
      · rw [hc] at hc'; exact absurd hc' (by decide)
      · obtain ⟨a2, a3⟩ := a2 hv
        exact ⟨acc_join a1 hj1, fun _ => ⟨acc_join a2 hj2, acc_join a3 hj3⟩⟩
      · refine ⟨acc_join a1 (Or.inl ⟨hj1, hj2⟩), fun hv' => ?_⟩
        rw [hv] at hv'; exact absurd hv' (by decide)

/-! ### Induction -/

theorem mm_step_quiet (reg : Registry) (p : MMState) (x : Item) (hk : x.cls.kind ≠ .main)
    (hw : ¬ (watched x.cls = true ∧ p.props x.cls ≠ x.ival)) (hc : x.cls ≠ .reportCount) :
    (mainMerge reg).step p x = (MMState.push p x, []) := by
  cases hkk : x.cls.kind with
  | main => exact absurd hkk hk
  | loc => simp [hkk, MMState.push]
  | global =>
    simp only [hkk]
    rw [if_neg hw, if_neg hc]
    rfl

theorem mm_step_rc (reg : Registry) (p : MMState) (x : Item) (hc : x.cls = .reportCount) :
    (mainMerge reg).step p x = (MMState.pushRC p x, []) := by
  simp [hc, Cls.kind, watched, MMState.pushRC]

theorem mm_step_flush (reg : Registry) (p : MMState) (x : Item)
    (h : (x.cls.kind = .main ∧ x.cls.isData = false) ∨
      (x.cls.kind = .global ∧ watched x.cls = true ∧ p.props x.cls ≠ x.ival)) :
    ∃ props, (mainMerge reg).step p x = ({ MMState.push p x with props := props } : MMState).flush reg ∧
      (∀ c, props c = if x.cls.kind = .global ∧ c = x.cls then x.ival else p.props c) := by
  rcases h with ⟨h1, h2⟩ | ⟨h1, h2, h3⟩
  · exact ⟨p.props, by simp [h1, h2, MMState.push], by simp [h1]⟩
  · refine ⟨fun c => if c = x.cls then x.ival else p.props c, ?_, by simp [h1]⟩
    simp only [h1]
    rw [if_pos ⟨h2, h3⟩]
    rfl

/-- A data item: a flush when another item is pending, then the item is taken in, then a flush
when the report count is not 1. -/
theorem mm_step_data (reg : Registry) (p : MMState) (x : Item) (hd : x.cls.isData = true) :
    ∃ q o, ((q = p ∧ o = [] ∧ ∀ m ms, p.mains = m :: ms → x.pyEq m = true) ∨
        (q = (p.flush reg).1 ∧ o = (p.flush reg).2 ∧ ∃ m ms, p.mains = m :: ms ∧ x.pyEq m = false)) ∧
      (mainMerge reg).step p x = if q.afterCount ≠ 1 then
        (((MMState.take q x).flush reg).1, o ++ ((MMState.take q x).flush reg).2)
        else (MMState.take q x, o) := by
  have hm := isData_kind hd
  cases hms : p.mains with
  | nil =>
    refine ⟨p, [], Or.inl ⟨rfl, rfl, by simp⟩, ?_⟩
    simp only [hm, hd, if_true, hms]
    split <;> simp [MMState.take, hms]
  | cons m ms =>
    by_cases heq : x.pyEq m = true
    · refine ⟨p, [], Or.inl ⟨rfl, rfl, by intro m' ms' h; cases h; exact heq⟩, ?_⟩
      simp only [hm, hd, if_true, hms, heq]
      split <;> simp [MMState.take, hms]
    · refine ⟨_, _, Or.inr ⟨rfl, rfl, m, ms, rfl, by simpa using heq⟩, ?_⟩
      simp only [hm, hd, if_true, hms, heq, if_false, Bool.false_eq_true]
      split <;> simp [MMState.take]

theorem flush_inv (reg : Registry) (h : Host) (q : MMState)
    (hb : ∀ i ∈ q.after, Passive i)
    (hp : ∀ c, watched c = true → q.props c = (h.after .atUsage (MMState.virt q)).g c) :
    MMInv (h.after .atUsage (keys (q.flush reg).2)) (q.flush reg).1 := by
  refine ⟨hb, by simp [MMState.flush], ?_, fun _ => rfl⟩
  intro c hc
  rw [← after_append, flush_virt reg q]
  exact hp c hc

theorem flush_mains (reg : Registry) (q : MMState) : (q.flush reg).1.mains = [] := rfl

theorem mainMerge_events (reg : Registry) (xs : List Item) (h : Host) (p : MMState)
    (prev : List MainRec) (inv : MMInv h p) (hprev : Prev h p prev)
    (hsafe : mergeSafe (prev ++ recs .atUsage (h.after .atUsage (MMState.virt p)) (keys xs)) = true)
    (hcl : rangesClosed .atUsage (h.after .atUsage (MMState.virt p)) (keys xs) = true)
    (hpp : NoPushPop xs) (htr : trailing p.mains.isEmpty xs = true) :
    eventsFrom .atUsage h (keys ((mainMerge reg).runFrom p xs))
      = eventsFrom .atUsage h (MMState.virt p ++ keys xs) := by
  induction xs generalizing h p prev with
  | nil =>
    rw [Pass.runFrom_nil]
    simp only [trailing, List.isEmpty_iff] at htr
    have hmid : MMState.mid p = [] := by unfold MMState.mid; rw [htr]
    show eventsFrom .atUsage h (keys (p.before ++ p.mains ++ p.after)) = _
    rw [htr, List.append_nil, keys_nil, List.append_nil]
    unfold MMState.virt
    rw [hmid, List.append_nil, ← keys_append, ← List.filter_append, eventsFrom_append,
      filter_events .atUsage (p.before ++ p.after) (by
        intro i hi
        rcases List.mem_append.1 hi with hi | hi
        · exact inv.before i hi
        · exact inv.after i hi)]
    rw [eventsFrom_no_main _ _ [_] (by simp [Cls.kind]), List.append_nil]
  | cons x xs ih =>
    rw [NoPushPop.cons] at hpp
    obtain ⟨⟨hp1, hp2⟩, hpp⟩ := hpp
    -- flushing
    have useFlush : ∀ (q : MMState) (prev' : List MainRec), (∀ i ∈ q.after, Passive i) →
        (∀ c, watched c = true → q.props c = (h.after .atUsage (MMState.virt q)).g c) →
        mergeSafe (prev' ++ recs .atUsage (h.after .atUsage (MMState.virt q)) (keys xs)) = true →
        rangesClosed .atUsage (h.after .atUsage (MMState.virt q)) (keys xs) = true →
        trailing true xs = true →
        eventsFrom .atUsage h (keys ((q.flush reg).2 ++ (mainMerge reg).runFrom (q.flush reg).1 xs))
          = eventsFrom .atUsage h (MMState.virt q ++ keys xs) := by
      intro q prev' hb hpr hs hc ht
      have hV : (h.after .atUsage (keys (q.flush reg).2)).after .atUsage (MMState.virt (q.flush reg).1)
          = h.after .atUsage (MMState.virt q) := by rw [← after_append, flush_virt]
      rw [keys_append, eventsFrom_append,
        ih _ _ [] (flush_inv reg h q hb hpr) (Or.inl ⟨rfl, rfl⟩) (by
          rw [hV]; exact mergeSafe_append hs) (by rw [hV]; exact hc) hpp
          (by rw [flush_mains]; exact ht),
        ← eventsFrom_append, ← List.append_assoc, flush_virt]
    rw [Pass.runFrom_cons]
    by_cases hm : x.cls.kind = .main
    · by_cases hd : x.cls.isData = true
      · -- data item
        have htr' : trailing false xs = true := by
          simpa [trailing, hm, hd] using htr
        rw [keys_cons, recs_cons, if_pos (by simpa using hm)] at hsafe
        have hcl' := hcl
        rw [keys_cons] at hcl'
        have hcl2 : rangesClosed .atUsage
            ((h.after .atUsage (MMState.virt p)).step .atUsage x.key) (keys xs) = true := by
          simp only [rangesClosed, Bool.and_eq_true] at hcl'; exact hcl'.2
        -- after taking the item in
        have fin : ∀ (h : Host) (q : MMState) (m : Item), MMInv h q →
            (∀ q' : MMState, (∀ i ∈ q'.after, Passive i) →
              (∀ c, watched c = true → q'.props c = (h.after .atUsage (MMState.virt q')).g c) →
              mergeSafe ([] ++ recs .atUsage (h.after .atUsage (MMState.virt q')) (keys xs)) = true →
              rangesClosed .atUsage (h.after .atUsage (MMState.virt q')) (keys xs) = true →
              trailing true xs = true →
              eventsFrom .atUsage h (keys ((q'.flush reg).2 ++
                (mainMerge reg).runFrom (q'.flush reg).1 xs))
                = eventsFrom .atUsage h (MMState.virt q' ++ keys xs)) →
            eventsFrom .atUsage h (MMState.virt (MMState.take q x) ++ keys xs)
              = eventsFrom .atUsage h (MMState.virt q ++ x.key :: keys xs) →
            h.after .atUsage (MMState.virt (MMState.take q x))
              = (h.after .atUsage (MMState.virt q)).step .atUsage x.key →
            (q.afterCount = 1 → MS h (MMState.take q x) m
              ((h.after .atUsage (MMState.virt q)).main .atUsage x.key)) →
            mergeSafe ((h.after .atUsage (MMState.virt q)).main .atUsage x.key ::
              recs .atUsage ((h.after .atUsage (MMState.virt q)).step .atUsage x.key) (keys xs))
              = true →
            rangesClosed .atUsage
              ((h.after .atUsage (MMState.virt q)).step .atUsage x.key) (keys xs) = true →
            eventsFrom .atUsage h (keys (if q.afterCount ≠ 1 then
                ((MMState.take q x).flush reg).2 ++
                  (mainMerge reg).runFrom ((MMState.take q x).flush reg).1 xs
              else (mainMerge reg).runFrom (MMState.take q x) xs))
              = eventsFrom .atUsage h (MMState.virt q ++ x.key :: keys xs) := by
          intro h q m invq useF hev hst hMS hsf hc2
          have hpr : ∀ c, watched c = true →
              (MMState.take q x).props c = (h.after .atUsage (MMState.virt (MMState.take q x))).g c := by
            intro c hc
            rw [hst, step_local_g _ _ _ (by rw [hm]; decide)]
            exact invq.props c hc
          rw [← hev]
          split
          · next hne =>
            exact useF _ (by simp [MMState.take]) hpr (by rw [hst]; exact mergeSafe_tail hsf)
              (by rw [hst]; exact hc2) (trailing_mono _ htr' _)
          · next hne =>
            have hac : q.afterCount = 1 := by
              by_cases h1 : q.afterCount = 1
              · exact h1
              · exact absurd h1 hne
            refine ih h _ [(h.after .atUsage (MMState.virt q)).main .atUsage x.key] ?_
              (Or.inr ⟨m, _, rfl, hMS hac⟩) (by rw [hst]; exact hsf) (by rw [hst]; exact hc2) hpp
              (trailing_mono _ htr' _)
            refine ⟨?_, by simp [MMState.take], hpr, by simp [MMState.take]⟩
            intro i hi
            rcases List.mem_append.1 hi with hi | hi
            · exact invq.before i hi
            · exact invq.after i hi
        rw [keys_cons]
        rcases hprev with ⟨hm0, rfl⟩ | ⟨m, r0, rfl, hMS⟩
        · -- nothing pending
          have hstep : (mainMerge reg).step p x = if p.afterCount ≠ 1 then
              ((MMState.take p x).flush reg) else (MMState.take p x, []) := by
            simp only [hm, hd, if_true, hm0]
            split
            · simp [MMState.take, hm0]
            · simp [MMState.take, hm0]
          obtain ⟨e1, e2, e3⟩ := take_first h p x inv hm0 hd (keys xs) (by simpa using hcl)
          have := fin h p x inv (fun q' => useFlush q' []) e1 e2 e3 (by simpa using hsafe) hcl2
          rw [hstep]
          split
          · next hne => rw [if_pos hne] at this; exact this
          · next hne => rw [if_neg hne] at this; simpa using this
        · obtain ⟨ms, hms⟩ := hMS.head
          have hsafe' : mergeSafe (r0 :: (h.after .atUsage (MMState.virt p)).main .atUsage x.key ::
              recs .atUsage ((h.after .atUsage (MMState.virt p)).step .atUsage x.key) (keys xs))
              = true := by simpa using hsafe
          have hok : MergeOK r0 ((h.after .atUsage (MMState.virt p)).main .atUsage x.key) := by
            simp only [mergeSafe, Bool.and_eq_true, decide_eq_true_eq] at hsafe'; exact hsafe'.1
          by_cases heq : x.pyEq m = true
          · -- same item
            have hkey : x.key = m.key := by
              have := (C52_item_eq.1 x m).1 heq
              simp [Item.key, this]
            have hstep : (mainMerge reg).step p x = if p.afterCount ≠ 1 then
                ((MMState.take p x).flush reg) else (MMState.take p x, []) := by
              simp only [hm, hd, if_true, hms, heq]
              split
              · simp [MMState.take, hms]
              · simp [MMState.take, hms]
            obtain ⟨e1, e2, e3⟩ := take_more h p m x r0 inv hMS hkey (keys xs) (by simpa using hcl) hok
            have := fin h p m inv (fun q' => useFlush q' []) e1 e2 e3 (mergeSafe_tail hsafe') hcl2
            rw [hstep]
            split
            · next hne => rw [if_pos hne] at this; exact this
            · next hne => rw [if_neg hne] at this; simpa using this
          · -- another item: flush first
            generalize hq : (p.flush reg).1 = q at *
            generalize ho : (p.flush reg).2 = o at *
            have hfp : p.flush reg = (q, o) := by rw [← hq, ← ho]
            have hstep : (mainMerge reg).step p x = if q.afterCount ≠ 1 then
                (((MMState.take q x).flush reg).1, o ++ ((MMState.take q x).flush reg).2)
                else (MMState.take q x, o) := by
              simp only [hm, hd, if_true, hms, heq, hfp, if_false, Bool.false_eq_true]
              split
              · simp [MMState.take]
              · simp [MMState.take]
            have hqm : q.mains = [] := by rw [← hq]; rfl
            have invq : MMInv (h.after .atUsage (keys o)) q := by
              rw [← hq, ← ho]; exact flush_inv reg h p inv.after inv.props
            have hV : (h.after .atUsage (keys o)).after .atUsage (MMState.virt q)
                = h.after .atUsage (MMState.virt p) := by
              rw [← after_append, ← hq, ← ho, flush_virt]
            obtain ⟨e1, e2, e3⟩ := take_first (h.after .atUsage (keys o)) q x invq hqm hd (keys xs)
              (by rw [hV]; simpa using hcl)
            have useF : ∀ q' : MMState, (∀ i ∈ q'.after, Passive i) →
              (∀ c, watched c = true →
                q'.props c = ((h.after .atUsage (keys o)).after .atUsage (MMState.virt q')).g c) →
              mergeSafe ([] ++ recs .atUsage
                ((h.after .atUsage (keys o)).after .atUsage (MMState.virt q')) (keys xs)) = true →
              rangesClosed .atUsage
                ((h.after .atUsage (keys o)).after .atUsage (MMState.virt q')) (keys xs) = true →
              trailing true xs = true →
              eventsFrom .atUsage (h.after .atUsage (keys o)) (keys ((q'.flush reg).2 ++
                (mainMerge reg).runFrom (q'.flush reg).1 xs))
                = eventsFrom .atUsage (h.after .atUsage (keys o)) (MMState.virt q' ++ keys xs) := by
              intro q' hb hpr hs hc ht
              generalize h.after .atUsage (keys o) = h at *
              have hV : (h.after .atUsage (keys (q'.flush reg).2)).after .atUsage
                  (MMState.virt (q'.flush reg).1) = h.after .atUsage (MMState.virt q') := by
                rw [← after_append, flush_virt]
              rw [keys_append, eventsFrom_append,
                ih _ _ [] (flush_inv reg h q' hb hpr) (Or.inl ⟨rfl, rfl⟩) (by
                  rw [hV]; exact mergeSafe_append hs) (by rw [hV]; exact hc) hpp
                  (by rw [flush_mains]; exact ht),
                ← eventsFrom_append, ← List.append_assoc, flush_virt]
            have := fin _ q x invq useF e1 e2 e3 (by rw [hV]; exact mergeSafe_tail hsafe')
              (by rw [hV]; exact hcl2)
            have hgoal : eventsFrom .atUsage h (MMState.virt p ++ x.key :: keys xs)
                = eventsFrom .atUsage h (keys o) ++
                  eventsFrom .atUsage (h.after .atUsage (keys o)) (MMState.virt q ++ x.key :: keys xs) := by
              rw [← eventsFrom_append, ← List.append_assoc, ← hq, ← ho, flush_virt]
            rw [hgoal, ← this, hstep]
            split
            · simp only [List.append_assoc]
              rw [keys_append, eventsFrom_append]
            · simp only
              rw [keys_append, eventsFrom_append]
      · -- collection or end of collection
        have hd' : x.cls.isData = false := by simpa using hd
        have hpas : Passive x := ⟨hd', hp1, hp2⟩
        have hnc : x.cls ≠ .reportCount := by intro hc; rw [hc] at hm; exact absurd hm (by decide)
        obtain ⟨props, hs, hprops⟩ := mm_step_flush reg p x (Or.inl ⟨hm, hd'⟩)
        rw [hs]
        have hvq : MMState.virt ({ MMState.push p x with props := props } : MMState)
            = MMState.virt (MMState.push p x) := rfl
        rw [keys_cons, recs_cons, if_pos (by simpa using hm)] at hsafe
        rw [useFlush _ (prev ++ [(h.after .atUsage (MMState.virt p)).main .atUsage x.key]) ?_ ?_ ?_ ?_ ?_,
          hvq, push_events h p x hpas hnc, keys_cons]
        · intro i hi
          rcases List.mem_append.1 hi with hi | hi
          · exact inv.after i hi
          · simp at hi; subst hi; exact hpas
        · intro c hc
          rw [hvq, push_after h p x hpas hnc, step_local_g _ _ _ (by rw [hm]; decide)]
          show props c = _
          rw [hprops c, if_neg (by rw [hm]; simp)]
          exact inv.props c hc
        · rw [hvq, push_after h p x hpas hnc, List.append_assoc]; exact hsafe
        · rw [hvq, push_after h p x hpas hnc]
          simp only [keys_cons, rangesClosed, Bool.and_eq_true] at hcl; exact hcl.2
        · simpa [trailing, hm, hd'] using htr
    · -- local or global item
      have hd' : x.cls.isData = false := by
        cases hdd : x.cls.isData with
        | false => rfl
        | true => exact absurd (isData_kind hdd) hm
      have hpas : Passive x := ⟨hd', hp1, hp2⟩
      have htr' : trailing p.mains.isEmpty xs = true := by simpa [trailing, hm] using htr
      have hcl' : rangesClosed .atUsage
          ((h.after .atUsage (MMState.virt p)).step .atUsage x.key) (keys xs) = true := by
        simp only [keys_cons, rangesClosed, Bool.and_eq_true] at hcl; exact hcl.2
      rw [keys_cons, recs_cons, if_neg (by simpa using hm), List.nil_append] at hsafe
      by_cases hrc : x.cls = .reportCount
      · -- report count
        rw [mm_step_rc reg p x hrc, List.nil_append]
        have hk : x.key = (.reportCount, x.ival) := by simp [Item.key, hrc]
        have hvq : ∃ A, MMState.virt (MMState.pushRC p x)
            = A ++ [(.reportCount, x.ival)] ∧ MMState.virt p = A ++ [(.reportCount, p.afterCount)] := by
          refine ⟨keys (p.before.filter notCount) ++ MMState.mid p ++
            keys (p.after.filter notCount), ?_, rfl⟩
          unfold MMState.virt MMState.pushRC
          have : notCount x = false := by
            cases hn : notCount x with
            | false => rfl
            | true => exact absurd hrc ((notCount_iff x).1 hn)
          simp [List.filter_append, List.filter_cons, this]
          rfl
        obtain ⟨A, hA1, hA2⟩ := hvq
        have hV : h.after .atUsage (MMState.virt (MMState.pushRC p x))
            = (h.after .atUsage (MMState.virt p)).step .atUsage x.key := by
          rw [hA1, hA2, after_append, after_append, hk]
          simp only [after_cons, after_nil, step_rc, setRC_setRC]
        have hgc : ∀ c ∈ fieldTags, ((h.after .atUsage (MMState.virt p)).step .atUsage x.key).g c
            = (h.after .atUsage (MMState.virt p)).g c := by
          intro c hc
          rw [hk, step_rc, setRC_g]
          intro hcc; subst hcc; simp [fieldTags] at hc
        rw [ih h (MMState.pushRC p x) prev ?_ ?_ (by rw [hV]; exact hsafe) (by rw [hV]; exact hcl') hpp htr', hA1, hA2,
          keys_cons, hk]
        · rw [List.append_assoc, List.append_assoc, eventsFrom_append, eventsFrom_append _ _ A]
          simp only [List.cons_append, List.nil_append]
          rw [eventsFrom_rc_cons, eventsFrom_rc_cons, eventsFrom_rc_cons, setRC_setRC]
        · refine ⟨inv.before, ?_, ?_, inv.zero⟩
          · intro i hi
            rcases List.mem_append.1 hi with hi | hi
            · exact inv.after i hi
            · simp at hi; subst hi; exact hpas
          · intro c hc
            rw [hV, hgc c ((watched_iff c).1 hc)]
            exact inv.props c hc
        · rcases hprev with hpr | ⟨m, r, hpr, hMS⟩
          · exact Or.inl hpr
          · refine Or.inr ⟨m, r, hpr, ⟨hMS.head, hMS.data, ?_, hMS.closed, hMS.cls, hMS.val, ?_, ?_,
              hMS.rc, hMS.lists⟩⟩
            · intro i hi
              rcases List.mem_append.1 hi with hi | hi
              · exact hMS.nomain i hi
              · simp at hi; subst hi; exact hm
            · intro c hc; rw [hV, hgc c hc]; exact hMS.gr c hc
            · intro c hc; rw [hV, hgc c hc]; exact hMS.gH c hc
      · have hpush := push_after h p x hpas hrc
        by_cases hw : x.cls.kind = .global ∧ watched x.cls = true ∧ p.props x.cls ≠ x.ival
        · -- a watched global changes
          obtain ⟨props, hs, hprops⟩ := mm_step_flush reg p x (Or.inr hw)
          rw [hs]
          have hvq : MMState.virt ({ MMState.push p x with props := props } : MMState)
              = MMState.virt (MMState.push p x) := rfl
          rw [useFlush _ prev ?_ ?_ ?_ ?_ ?_, hvq, push_events h p x hpas hrc, keys_cons]
          · intro i hi
            rcases List.mem_append.1 hi with hi | hi
            · exact inv.after i hi
            · simp at hi; subst hi; exact hpas
          · intro c hc
            rw [hvq, hpush, step_global _ _ _ hw.1 hp1 hp2]
            show props c = _
            rw [hprops c]
            by_cases hcx : c = x.cls
            · simp [hcx, hw.1]
            · simp only [hcx, and_false, if_false]
              exact inv.props c hc
          · rw [hvq, hpush]; exact hsafe
          · rw [hvq, hpush]; exact hcl'
          · cases hb : p.mains.isEmpty with
            | true => rw [hb] at htr'; exact htr'
            | false => rw [hb] at htr'; exact trailing_mono _ htr' _
        · have hw' : ¬ (watched x.cls = true ∧ p.props x.cls ≠ x.ival) := by
            intro hh
            apply hw
            refine ⟨?_, hh⟩
            have hh1 := hh.1
            cases hc : x.cls <;> rw [hc] at hh1 <;> simp [watched] at hh1 <;> rfl
          rw [mm_step_quiet reg p x hm hw' hrc, List.nil_append]
          have hgc : ∀ c ∈ fieldTags, ((h.after .atUsage (MMState.virt p)).step .atUsage x.key).g c
              = (h.after .atUsage (MMState.virt p)).g c := by
            intro c hc
            by_cases hg : x.cls.kind = .global
            · rw [step_global _ _ _ hg hp1 hp2]
              by_cases hcx : c = x.cls
              · subst hcx
                have hwc := (watched_iff _).2 hc
                simp only [if_true]
                rw [← inv.props _ hwc]
                by_cases he : p.props x.cls = x.ival
                · exact he.symm
                · exact absurd ⟨hwc, he⟩ hw'
              · simp [hcx]
            · rw [step_local_g _ _ _ hg]
          rw [ih h (MMState.push p x) prev ?_ ?_ (by rw [hpush]; exact hsafe)
            (by rw [hpush]; exact hcl') hpp htr', push_events h p x hpas hrc, keys_cons]
          · refine ⟨inv.before, ?_, ?_, inv.zero⟩
            · intro i hi
              rcases List.mem_append.1 hi with hi | hi
              · exact inv.after i hi
              · simp at hi; subst hi; exact hpas
            · intro c hc
              rw [hpush, hgc c ((watched_iff c).1 hc)]
              exact inv.props c hc
          · rcases hprev with hpr | ⟨m, r, hpr, hMS⟩
            · exact Or.inl hpr
            · refine Or.inr ⟨m, r, hpr, ⟨hMS.head, hMS.data, ?_, hMS.closed, hMS.cls, hMS.val, ?_, ?_,
                hMS.rc, hMS.lists⟩⟩
              · intro i hi
                rcases List.mem_append.1 hi with hi | hi
                · exact hMS.nomain i hi
                · simp at hi; subst hi; exact hm
              · intro c hc; rw [hpush, hgc c hc]; exact hMS.gr c hc
              · intro c hc; rw [hpush, hgc c hc]; exact hMS.gH c hc

theorem mainMerge_run_events (reg : Registry) (xs : List Item)
    (hpp : NoPushPop xs) (hsafe : mergeSafe (recs .atUsage {} (keys xs)) = true)
    (hcl : rangesClosed .atUsage {} (keys xs) = true) (htr : trailing true xs = true) :
    meaning .atUsage (keys ((mainMerge reg).run xs)) = meaning .atUsage (keys xs) := by
  have hv : MMState.virt {} = [(.reportCount, 0)] := rfl
  have h0 : (({} : Host).after .atUsage (MMState.virt {})) = {} := by
    rw [hv]
    exact setRC_self {} 0 rfl
  have := mainMerge_events reg xs {} {} [] ⟨by simp, by simp, by intro c _; rw [h0], fun _ => rfl⟩
    (Or.inl ⟨rfl, rfl⟩) (by rw [h0]; exact hsafe) (by rw [h0]; exact hcl) hpp htr
  unfold meaning
  rw [show (mainMerge reg).run xs = (mainMerge reg).runFrom {} xs from rfl, this, hv]
  show eventsFrom .atUsage {} ((.reportCount, 0) :: keys xs) = _
  rw [eventsFrom_rc_cons, setRC_self {} 0 rfl]

end Hrdc
