import Verif.Props.Passes2
/-!
# Lemmas on `MainMerge`
-/
namespace Hrdc
open Spec

/-! ## Safe streams -/

/-- Globals a field depends on, besides the usage page and the report count. -/
def fieldTags : List Cls :=
  [.logMin, .logMax, .physMin, .physMax, .unit, .unitExp, .reportSize, .reportID]

/-- Consecutive main items that `MainMerge` may put together: the same data item in the same
context, the first with a report count of 1. -/
def Mergeable (a b : MainRec) : Prop :=
  a.cls.isData = true ∧ b.cls = a.cls ∧ b.val = a.val ∧ (∀ c ∈ fieldTags, b.g c = a.g c) ∧
    a.g .reportCount = 1

instance (a b : MainRec) : Decidable (Mergeable a b) := by unfold Mergeable; infer_instance

/-- Index lists that can be concatenated: neither has any index, or the first has exactly one and
the second at least one. -/
def Joinable (l m : List Int) : Prop := (l = [] ∧ m = []) ∨ (l.length = 1 ∧ m ≠ [])

instance (l m : List Int) : Decidable (Joinable l m) := by unfold Joinable; infer_instance

/-- Putting mergeable items together is harmless: they are constant, or variable with
corresponding index lists, or arrays without usages. -/
def MergeOK (a b : MainRec) : Prop :=
  Mergeable a b → 0 ≤ b.g .reportCount ∧
    (a.isConst = true ∨
     (a.isVar = true ∧ Joinable a.usages b.usages ∧ Joinable a.strings b.strings ∧
        Joinable a.desigs b.desigs) ∨
     (a.isVar = false ∧ a.usages = [] ∧ b.usages = []))

instance (a b : MainRec) : Decidable (MergeOK a b) := by unfold MergeOK; infer_instance

/-- All consecutive main items satisfy `MergeOK`. -/
def mergeSafe : List MainRec → Bool
  | a :: b :: r => decide (MergeOK a b) && mergeSafe (b :: r)
  | _ => true

/-- No minimum or maximum waits for its partner. -/
def Spec.Decl.closed (d : Decl) : Bool := d.lo.isNone && d.hi.isNone

/-- Every minimum has its maximum (and conversely) before each data item. -/
def rangesClosed (rule : PageRule) (h : Host) : List SItem → Bool
  | [] => true
  | i :: r =>
    (!i.1.isData || (h.usages.closed && h.strings.closed && h.desigs.closed)) &&
      rangesClosed rule (h.step rule i) r

/-- The last main item is not a data item; `b` is the answer when there is none. -/
def trailing (b : Bool) : List Item → Bool
  | [] => b
  | i :: r => trailing (if i.cls.kind = .main then !i.cls.isData else b) r

theorem trailing_mono (xs : List Item) (h : trailing false xs = true) (b : Bool) :
    trailing b xs = true := by
  induction xs generalizing b with
  | nil => simp [trailing] at h
  | cons x xs ih =>
    simp only [trailing] at h ⊢
    split
    · next hk => simpa [hk] using h
    · next hk => exact ih (by simpa [hk] using h) b

/-! ## Merged records -/

theorem pick_append_left (l m : List Int) (k : Nat) (hk : k < l.length) :
    pick (l ++ m) k = pick l k := by
  unfold pick
  rw [List.getElem?_append_left hk, List.getElem?_eq_getElem hk]
  rfl

theorem pick_append_right (l m : List Int) (k : Nat) (hm : m ≠ []) :
    pick (l ++ m) (l.length + k) = pick m k := by
  unfold pick
  rw [List.getElem?_append_right (by omega), List.getLast?_append]
  have : l.length + k - l.length = k := by omega
  rw [this]
  cases m with
  | nil => exact absurd rfl hm
  | cons x m => simp [List.getLast?_cons]

/-- As `Joinable`, for a first list of `n` fields. -/
def JoinN (n : Nat) (l m : List Int) : Prop := (l = [] ∧ m = []) ∨ (l.length = n ∧ m ≠ [])

theorem pick_join_left {n : Nat} {l m : List Int} (h : JoinN n l m) {k : Nat} (hk : k < n) :
    pick (l ++ m) k = pick l k := by
  rcases h with ⟨rfl, rfl⟩ | ⟨rfl, -⟩
  · rfl
  · exact pick_append_left l m k hk

theorem pick_join_right {n : Nat} {l m : List Int} (h : JoinN n l m) (k : Nat) :
    pick (l ++ m) (n + k) = pick m k := by
  rcases h with ⟨rfl, rfl⟩ | ⟨rfl, hm⟩
  · simp [pick]
  · exact pick_append_right l m k hm

theorem events_data {r : MainRec} (hd : r.cls.isData = true) : r.events =
    if r.isConst then
      List.replicate ((r.g .reportSize).toNat * (r.g .reportCount).toNat)
        (.padBit r.cls (r.g .reportID))
    else
      (List.range (r.g .reportCount).toNat).map (fun k =>
        .control r.cls r.val (r.g .reportID) r.attrs (r.what k)) := by
  unfold MainRec.events
  cases hc : r.cls <;> simp_all [Cls.isData]

theorem attrs_congr' {a b : MainRec} (h : ∀ c ∈ fieldTags, a.g c = b.g c) : a.attrs = b.attrs := by
  unfold MainRec.attrs
  rw [h .reportSize (by simp [fieldTags]), h .logMin (by simp [fieldTags]),
    h .logMax (by simp [fieldTags]), h .physMin (by simp [fieldTags]),
    h .physMax (by simp [fieldTags]), h .unit (by simp [fieldTags]),
    h .unitExp (by simp [fieldTags])]

/-- The record of the merged item describes what the two items described. -/
theorem merge_events {a b m : MainRec} {n : Nat} (hd : a.cls.isData = true)
    (hbc : b.cls = a.cls) (hbv : b.val = a.val) (hbg : ∀ c ∈ fieldTags, b.g c = a.g c)
    (hmc : m.cls = a.cls) (hmv : m.val = a.val) (hmg : ∀ c ∈ fieldTags, m.g c = a.g c)
    (hn : a.g .reportCount = n) (hb0 : 0 ≤ b.g .reportCount)
    (hmn : m.g .reportCount = n + b.g .reportCount)
    (hu : m.usages = a.usages ++ b.usages) (hs : m.strings = a.strings ++ b.strings)
    (hdg : m.desigs = a.desigs ++ b.desigs)
    (hok : a.isConst = true ∨
     (a.isVar = true ∧ JoinN n a.usages b.usages ∧ JoinN n a.strings b.strings ∧
        JoinN n a.desigs b.desigs) ∨
     (a.isVar = false ∧ a.usages = [] ∧ b.usages = [])) :
    m.events = a.events ++ b.events := by
  rw [events_data (r := m) (by rw [hmc]; exact hd), events_data hd,
    events_data (r := b) (by rw [hbc]; exact hd)]
  have hcm : m.isConst = a.isConst := by simp [MainRec.isConst, hmv]
  have hcb : b.isConst = a.isConst := by simp [MainRec.isConst, hbv]
  have hvm : m.isVar = a.isVar := by simp [MainRec.isVar, hmv]
  have hvb : b.isVar = a.isVar := by simp [MainRec.isVar, hbv]
  obtain ⟨k, hk⟩ := Int.eq_ofNat_of_zero_le hb0
  have hm' : (m.g .reportCount).toNat = n + k := by rw [hmn, hk]; omega
  have ha' : (a.g .reportCount).toNat = n := by rw [hn]; omega
  have hb' : (b.g .reportCount).toNat = k := by rw [hk]; omega
  have e1 := hmg .reportSize (by simp [fieldTags])
  have e2 := hbg .reportSize (by simp [fieldTags])
  have e3 := hmg .reportID (by simp [fieldTags])
  have e4 := hbg .reportID (by simp [fieldTags])
  have am : m.attrs = a.attrs := by
    apply attrs_congr'
    intro c hc
    exact hmg c hc
  have ab : b.attrs = a.attrs := by
    apply attrs_congr'
    intro c hc
    exact hbg c hc
  rw [hm', ha', hb', hcm, hcb, hmc, hbc, hmv, hbv, e1, e2, e3, e4, am, ab]
  by_cases hc : a.isConst = true
  · simp only [hc, if_true]
    rw [List.replicate_append_replicate, Nat.mul_add]
  · simp only [hc, if_false, Bool.false_eq_true]
    rw [List.range_add, List.map_append, List.map_map]
    rcases hok with hok | ⟨hv, h1, h2, h3⟩ | ⟨hv, h1, h2⟩
    · exact absurd hok hc
    · congr 1
      · apply List.map_congr_left
        intro j hj
        have hj := List.mem_range.1 hj
        simp only [MainRec.what, hvm, hv, if_true, MainRec.selector, hu, hs, hdg,
          pick_join_left h1 hj, pick_join_left h2 hj, pick_join_left h3 hj]
      · apply List.map_congr_left
        intro j _
        simp only [Function.comp, MainRec.what, hvm, hvb, hv, if_true, MainRec.selector, hu, hs, hdg,
          pick_join_right h1, pick_join_right h2, pick_join_right h3]
    · congr 1
      · apply List.map_congr_left
        intro j _
        simp [MainRec.what, hvm, hv, hu, h1, h2]
      · apply List.map_congr_left
        intro j _
        simp [MainRec.what, hvm, hvb, hv, hu, h1, h2]

/-! ## Report counts and passive items -/

/-- Not a data item, no Push, no Pop. -/
def Passive (i : Item) : Prop := i.cls.isData = false ∧ i.cls ≠ .push ∧ i.cls ≠ .pop

/-- The host with another report count. -/
def Spec.Host.setRC (h : Host) (n : Int) : Host :=
  { h with g := fun c => if c = .reportCount then n else h.g c }

theorem step_rc (rule : PageRule) (h : Host) (n : Int) :
    h.step rule (.reportCount, n) = h.setRC n := rfl

@[simp] theorem setRC_setRC (h : Host) (n k : Int) : (h.setRC n).setRC k = h.setRC k := by
  unfold Spec.Host.setRC
  congr 1
  funext c
  by_cases hc : c = .reportCount <;> simp [hc]

theorem setRC_self (h : Host) (n : Int) (hn : h.g .reportCount = n) : h.setRC n = h := by
  obtain ⟨g, s, u, t, d⟩ := h
  unfold Spec.Host.setRC
  congr 1
  funext c
  by_cases hc : c = .reportCount
  · subst hc; simp; exact hn.symm
  · simp [hc]

theorem setRC_g (h : Host) (n : Int) (c : Cls) (hc : c ≠ .reportCount) : (h.setRC n).g c = h.g c := by
  simp [Spec.Host.setRC, hc]

theorem setRC_rc (h : Host) (n : Int) : (h.setRC n).g .reportCount = n := by
  simp [Spec.Host.setRC]

theorem setRC_step (rule : PageRule) (h : Host) (n : Int) (i : Item) (h1 : i.cls ≠ .push)
    (h2 : i.cls ≠ .pop) (h3 : i.cls ≠ .reportCount) :
    (h.setRC n).step rule i.key = (h.step rule i.key).setRC n := by
  obtain ⟨c, v⟩ := i
  cases c <;> first
    | rfl
    | exact absurd rfl h1
    | exact absurd rfl h2
    | exact absurd rfl h3
    | (simp only [Host.step, Spec.Host.setRC, Item.key]
       congr 1
       funext c
       by_cases hc : c = .reportCount
       · subst hc; simp
       · simp only [hc, if_false]; rfl)

theorem setRC_main_events (rule : PageRule) (h : Host) (n : Int) (i : Item)
    (hd : i.cls.isData = false) :
    ((h.setRC n).main rule i.key).events = (h.main rule i.key).events := by
  obtain ⟨c, v⟩ := i
  cases c <;> first | rfl | (simp [Cls.isData] at hd)

theorem setRC_after (rule : PageRule) (l : List Item) (hl : ∀ i ∈ l, Passive i)
    (hc : ∀ i ∈ l, i.cls ≠ .reportCount) (h : Host) (n : Int) :
    (h.setRC n).after rule (keys l) = (h.after rule (keys l)).setRC n := by
  induction l generalizing h with
  | nil => rfl
  | cons x l ih =>
    have hx := hl x (by simp)
    rw [keys_cons, after_cons, after_cons, setRC_step rule h n x hx.2.1 hx.2.2 (hc x (by simp)),
      ih (fun i hi => hl i (by simp [hi])) (fun i hi => hc i (by simp [hi]))]

theorem setRC_events (rule : PageRule) (l : List Item) (hl : ∀ i ∈ l, Passive i)
    (hc : ∀ i ∈ l, i.cls ≠ .reportCount) (h : Host) (n : Int) :
    eventsFrom rule (h.setRC n) (keys l) = eventsFrom rule h (keys l) := by
  induction l generalizing h with
  | nil => rfl
  | cons x l ih =>
    have hx := hl x (by simp)
    rw [keys_cons, eventsFrom_cons, eventsFrom_cons,
      setRC_step rule h n x hx.2.1 hx.2.2 (hc x (by simp)),
      ih (fun i hi => hl i (by simp [hi])) (fun i hi => hc i (by simp [hi])),
      setRC_main_events rule h n x hx.1]

theorem notCount_iff (i : Item) : Optimizer.notCount i = true ↔ i.cls ≠ .reportCount := by
  obtain ⟨c, v⟩ := i
  cases c <;> simp [Optimizer.notCount, Cls.kind]

/-- Report count items make no difference to passive items. -/
theorem filter_events (rule : PageRule) (l : List Item) (hl : ∀ i ∈ l, Passive i) (h : Host) :
    eventsFrom rule h (keys (l.filter Optimizer.notCount)) = eventsFrom rule h (keys l) := by
  induction l generalizing h with
  | nil => rfl
  | cons x l ih =>
    have hl' : ∀ i ∈ l, Passive i := fun i hi => hl i (by simp [hi])
    by_cases hn : Optimizer.notCount x = true
    · rw [List.filter_cons_of_pos hn, keys_cons, keys_cons, eventsFrom_cons, eventsFrom_cons, ih hl']
    · rw [List.filter_cons_of_neg hn]
      have hx : x.cls = .reportCount := by
        by_cases hc : x.cls = .reportCount
        · exact hc
        · exact absurd ((notCount_iff x).2 hc) hn
      have hk : x.key = (.reportCount, x.ival) := by simp [Item.key, hx]
      rw [keys_cons, eventsFrom_cons_of_not_main _ _ _ _ (by rw [hk]; simp [Cls.kind]), hk, step_rc,
        ← ih hl' (h.setRC x.ival), setRC_events rule _ (fun i hi => hl' i (List.mem_filter.1 hi).1)
          (fun i hi => (notCount_iff i).1 (List.mem_filter.1 hi).2)]

/-! ## Local items on both sides of a removed main item -/

/-- Declarations `d` followed by `e`. -/
def Spec.Decl.join (d e : Decl) : Decl := ⟨d.ranges ++ e.ranges, e.lo, e.hi⟩

/-- Host `b` with declarations put before its own. -/
def Spec.Host.behind (u s d : Decl) (b : Host) : Host :=
  { b with usages := u.join b.usages, strings := s.join b.strings, desigs := d.join b.desigs }

theorem join_one (d e : Decl) (v : Int) : (d.join e).one v = d.join (e.one v) := by
  simp [Decl.join, Decl.one]
theorem join_setLo (d e : Decl) (v : Int) : (d.join e).setLo v = d.join (e.setLo v) := by
  unfold Decl.join Decl.setLo; cases e.hi <;> simp
theorem join_setHi (d e : Decl) (v : Int) : (d.join e).setHi v = d.join (e.setHi v) := by
  unfold Decl.join Decl.setHi; cases e.lo <;> simp

theorem behind_step (rule : PageRule) (u s d : Decl) (b : Host) (i : Item)
    (hm : i.cls.kind ≠ .main) (h1 : i.cls ≠ .push) (h2 : i.cls ≠ .pop) :
    (b.behind u s d).step rule i.key = (b.step rule i.key).behind u s d := by
  obtain ⟨c, v⟩ := i
  cases c <;> first
    | (exact absurd rfl h1)
    | (exact absurd rfl h2)
    | (exact absurd rfl hm)
    | rfl
    | (simp only [Host.step, Spec.Host.behind, Item.key, join_one, join_setLo, join_setHi])

theorem behind_after (rule : PageRule) (u s d : Decl) (l : List Item)
    (hl : ∀ i ∈ l, i.cls.kind ≠ .main ∧ i.cls ≠ .push ∧ i.cls ≠ .pop) (b : Host) :
    (b.behind u s d).after rule (keys l) = (b.after rule (keys l)).behind u s d := by
  induction l generalizing b with
  | nil => rfl
  | cons x l ih =>
    have hx := hl x (by simp)
    rw [keys_cons, after_cons, after_cons, behind_step rule u s d b x hx.1 hx.2.1 hx.2.2,
      ih (fun i hi => hl i (by simp [hi]))]

theorem join_closed (d : Decl) (hd : d.closed = true) : d.join {} = d := by
  obtain ⟨r, l, k⟩ := d
  simp [Decl.closed] at hd
  simp [Decl.join, hd]

/-- The host without local declarations. -/
def Spec.Host.cleared (h : Host) : Host := { h with usages := {}, strings := {}, desigs := {} }

theorem step_data (rule : PageRule) (h : Host) (i : Item) (hd : i.cls.isData = true) :
    h.step rule i.key = h.cleared := by
  obtain ⟨c, v⟩ := i
  cases c <;> first | rfl | (simp [Cls.isData] at hd)

theorem isData_kind {c : Cls} (h : c.isData = true) : c.kind = .main := by
  cases c <;> first | rfl | (simp [Cls.isData] at h)

theorem behind_cleared (h : Host) (hu : h.usages.closed = true) (hs : h.strings.closed = true)
    (hd : h.desigs.closed = true) : h.cleared.behind h.usages h.strings h.desigs = h := by
  unfold Spec.Host.behind Spec.Host.cleared
  simp [join_closed, hu, hs, hd]

theorem values_join (d e : Decl) (f : Int → Int) : (d.join e).values f = d.values f ++ e.values f := by
  simp [Decl.join, Decl.values]

end Hrdc
