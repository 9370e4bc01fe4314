import Verif.Props.Passes3
/-!
# C21: physical bounds
-/
namespace Hrdc
open Spec

/-- What is known of the physical bounds in force: both are 0; they were last set equal to the
logical bounds, which have not changed since; anything else. -/
inductive PhysMode | zero | logical | explicit
  deriving DecidableEq, Repr

/-- Bounds set since the last main item. -/
abbrev Bounds := Cls → Option Int

/-- The mode after a main item before which the bounds `s` were set; `none` where the pass is not
known to be safe: only one physical bound is set, non-zero physical bounds are set without the
logical ones, logical bounds change under physical bounds that were set equal to them, or physical
bounds go back to the logical ones after they were different. -/
def physNext (m : PhysMode) (s : Bounds) : Option PhysMode :=
  match s .physMin, s .physMax with
  | none, none =>
    if m = .logical ∧ (s .logMin ≠ none ∨ s .logMax ≠ none) then none else some m
  | some p, some q =>
    if p = 0 ∧ q = 0 then
      if (s .logMin).getD 0 = 0 ∧ (s .logMax).getD 0 = 0 ∧ m = .explicit then none else some .zero
    else
      match s .logMin, s .logMax with
      | some l, some k =>
        if p = l ∧ q = k then (if m = .explicit then none else some .logical) else some .explicit
      | _, _ => none
  | _, _ => none

/-- `physNext` is defined all along the stream. -/
def physSafe (m : PhysMode) (s : Bounds) : List Item → Bool
  | [] => true
  | i :: r =>
    if i.cls.kind = .main then
      match physNext m s with
      | none => false
      | some m' => physSafe m' (fun _ => none) r
    else if i.cls.kind = .global ∧ Optimizer.rangeTag i.cls then
      physSafe m (fun c => if c = i.cls then some i.ival else s c) r
    else physSafe m s r

/-- Two hosts agreeing on everything but the physical bounds. -/
def PhysEq (a b : Host) : Prop :=
  (∀ c, c ≠ .physMin → c ≠ .physMax → a.g c = b.g c) ∧ a.usages = b.usages ∧
    a.strings = b.strings ∧ a.desigs = b.desigs

/-- Items that may be pending: not main, no push, no pop. -/
def Quiet (i : Item) : Prop := i.cls.kind ≠ .main ∧ i.cls ≠ .push ∧ i.cls ≠ .pop

theorem physEq_step (rule : PageRule) {a b : Host} (h : PhysEq a b) (i : Item) (hq : i.cls ≠ .push)
    (hp : i.cls ≠ .pop) : PhysEq (a.step rule i.key) (b.step rule i.key) := by
  obtain ⟨ga, sa, ua, ta, da⟩ := a
  obtain ⟨gb, sb, ub, tb, db⟩ := b
  obtain ⟨h1, h2, h3, h4⟩ := h
  simp only at h1 h2 h3 h4
  subst h2 h3 h4
  have hpg := h1 .usagePage (by decide) (by decide)
  obtain ⟨c, v⟩ := i
  cases c <;> simp_all [PhysEq, Host.step, Item.key] <;> (intro c _ _; split <;> simp_all)

theorem physEq_drop (rule : PageRule) {a b : Host} (h : PhysEq a b) (i : Item)
    (hd : Optimizer.notPhys i = false) : PhysEq (a.step rule i.key) b := by
  obtain ⟨ga, sa, ua, ta, da⟩ := a
  obtain ⟨gb, sb, ub, tb, db⟩ := b
  obtain ⟨h1, h2, h3, h4⟩ := h
  obtain ⟨c, v⟩ := i
  cases c <;> simp_all [PhysEq, Host.step, Item.key, Optimizer.notPhys, Cls.kind] <;>
    (intro c _ _; simp_all)

theorem physEq_filter (rule : PageRule) (xs : List Item) (hx : ∀ i ∈ xs, Quiet i)
    {a b : Host} (h : PhysEq a b) :
    PhysEq (a.after rule (keys xs)) (b.after rule (keys (xs.filter Optimizer.notPhys))) := by
  induction xs generalizing a b with
  | nil => exact h
  | cons x xs ih =>
    have hq := hx x (by simp)
    have ih' := fun {a b} h => ih (a := a) (b := b) (fun i hi => hx i (by simp [hi])) h
    by_cases hn : Optimizer.notPhys x = true
    · rw [List.filter_cons_of_pos hn]
      exact ih' (physEq_step rule h x hq.2.1 hq.2.2)
    · rw [List.filter_cons_of_neg hn]
      exact ih' (physEq_drop rule h x (by simpa using hn))

theorem physEq_after (rule : PageRule) (xs : List Item) (hx : ∀ i ∈ xs, Quiet i)
    {a b : Host} (h : PhysEq a b) :
    PhysEq (a.after rule (keys xs)) (b.after rule (keys xs)) := by
  induction xs generalizing a b with
  | nil => exact h
  | cons x xs ih =>
    have hq := hx x (by simp)
    exact ih (fun i hi => hx i (by simp [hi])) (physEq_step rule h x hq.2.1 hq.2.2)

/-- Filtering leaves the physical bounds of the state alone. -/
theorem filter_phys (rule : PageRule) (xs : List Item) (hx : ∀ i ∈ xs, Quiet i) (b : Host)
    (c : Cls) (hc : c = .physMin ∨ c = .physMax) :
    (b.after rule (keys (xs.filter Optimizer.notPhys))).g c = b.g c := by
  induction xs generalizing b with
  | nil => rfl
  | cons x xs ih =>
    have hq := hx x (by simp)
    have ih' := fun b => ih (fun i hi => hx i (by simp [hi])) b
    by_cases hn : Optimizer.notPhys x = true
    · rw [List.filter_cons_of_pos hn, keys_cons, after_cons, ih']
      by_cases hk : x.cls.kind = .global
      · rw [step_global rule b x hk hq.2.1 hq.2.2]
        have : x.cls ≠ .physMin ∧ x.cls ≠ .physMax := by simpa [Optimizer.notPhys, hk] using hn
        rcases hc with rfl | rfl
        · simp [Ne.symm this.1]
        · simp [Ne.symm this.2]
      · rw [step_local_g rule b x hk]
    · rw [List.filter_cons_of_neg hn, ih']

/-- The bounds set by pending items. -/
def bounds (s : Bounds) (xs : List Item) : Bounds :=
  xs.foldl (fun s i => if i.cls.kind = .global ∧ Optimizer.rangeTag i.cls
    then (fun c => if c = i.cls then some i.ival else s c) else s) s

theorem bounds_append (s : Bounds) (xs ys : List Item) :
    bounds s (xs ++ ys) = bounds (bounds s xs) ys := by simp [bounds]

theorem after_bounds (rule : PageRule) (xs : List Item) (hx : ∀ i ∈ xs, Quiet i) (h0 h : Host)
    (s : Bounds) (c : Cls) (hc : Optimizer.rangeTag c = true)
    (hs : h.g c = (s c).getD (h0.g c)) :
    (h.after rule (keys xs)).g c = (bounds s xs c).getD (h0.g c) := by
  induction xs generalizing h s with
  | nil => exact hs
  | cons x xs ih =>
    have hq := hx x (by simp)
    apply ih (fun i hi => hx i (by simp [hi]))
    by_cases hk : x.cls.kind = .global
    · rw [step_global rule h x hk hq.2.1 hq.2.2]
      by_cases hcx : c = x.cls
      · subst hcx
        simp [hk, hc]
      · by_cases hr : Optimizer.rangeTag x.cls = true
        · simp [hk, hr, hcx, hs]
        · simp [hr, hcx, hs]
    · rw [step_local_g rule h x hk]
      simp [hk, hs]

theorem physEq_main_events (rule : PageRule) {a b : Host} (h : PhysEq a b)
    (he : (if a.g .physMin = 0 ∧ a.g .physMax = 0 then a.g .logMin else a.g .physMin)
      = (if b.g .physMin = 0 ∧ b.g .physMax = 0 then b.g .logMin else b.g .physMin))
    (he2 : (if a.g .physMin = 0 ∧ a.g .physMax = 0 then a.g .logMax else a.g .physMax)
      = (if b.g .physMin = 0 ∧ b.g .physMax = 0 then b.g .logMax else b.g .physMax)) (i : SItem) :
    (a.main rule i).events = (b.main rule i).events := by
  obtain ⟨h1, h2, h3, h4⟩ := h
  have hu := h1 .usagePage (by decide) (by decide)
  have h5 := h1 .reportSize (by decide) (by decide)
  have h6 := h1 .reportCount (by decide) (by decide)
  have h7 := h1 .reportID (by decide) (by decide)
  have h8 := h1 .logMin (by decide) (by decide)
  have h9 := h1 .logMax (by decide) (by decide)
  have h10 := h1 .unit (by decide) (by decide)
  have h11 := h1 .unitExp (by decide) (by decide)
  have hat : (a.main rule i).attrs = (b.main rule i).attrs := by
    unfold MainRec.attrs Host.main
    simp only [Attrs.mk.injEq]
    exact ⟨h5, h8, h9, he, he2, h10, h11⟩
  have hus : (a.main rule i).usages = (b.main rule i).usages := by simp [Host.main, h2, hu]
  have hsel : (a.main rule i).selector = (b.main rule i).selector := by
    funext n; simp [MainRec.selector, Host.main, h2, h3, h4, hu]
  have hwhat : (a.main rule i).what = (b.main rule i).what := by
    funext n; unfold MainRec.what; rw [hsel, hus]; rfl
  obtain ⟨c, v⟩ := i
  simp only [MainRec.events, hat, hsel, hwhat]
  cases c <;> simp [Host.main, MainRec.isConst, h5, h6, h7]

/-- Relation on physical bounds alone. -/
def PhysVals (m : PhysMode) (a b : Host) : Prop :=
  match m with
  | .zero => a.g .physMin = 0 ∧ a.g .physMax = 0 ∧ b.g .physMin = 0 ∧ b.g .physMax = 0
  | .logical => a.g .physMin = a.g .logMin ∧ a.g .physMax = a.g .logMax ∧
      b.g .physMin = 0 ∧ b.g .physMax = 0
  | .explicit => a.g .physMin = b.g .physMin ∧ a.g .physMax = b.g .physMax

theorem phys_main_events (rule : PageRule) {m : PhysMode} {a b : Host} (h : PhysEq a b)
    (hv : PhysVals m a b) (i : SItem) : (a.main rule i).events = (b.main rule i).events := by
  have h8 := h.1 .logMin (by decide) (by decide)
  have h9 := h.1 .logMax (by decide) (by decide)
  apply physEq_main_events rule h
  · cases m <;> simp only [PhysVals] at hv <;> grind
  · cases m <;> simp only [PhysVals] at hv <;> grind

theorem physEq_step_main (rule : PageRule) {a b : Host} (h : PhysEq a b) (i : Item)
    (hi : i.cls.kind = .main) : PhysEq (a.step rule i.key) (b.step rule i.key) := by
  apply physEq_step rule h i <;> (intro hc; rw [hc] at hi; exact absurd hi (by decide))

theorem physicalMerge_events (rule : PageRule) (xs : List Item) (m : PhysMode) (pend : List Item)
    (a b : Host) (hq : ∀ i ∈ pend, Quiet i) (hp : NoPushPop xs)
    (hs : physSafe m (bounds (fun _ => none) pend) xs = true)
    (he : PhysEq a b) (hv : PhysVals m a b) :
    eventsFrom rule b (keys (Optimizer.physicalMerge.runFrom
        ⟨fun c => (bounds (fun _ => none) pend c).getD 0, pend⟩ xs))
      = eventsFrom rule (a.after rule (keys pend)) (keys xs) := by
  induction xs generalizing m pend a b with
  | nil =>
    rw [Pass.runFrom_nil]
    show eventsFrom rule b (keys pend) = _
    rw [eventsFrom_no_main rule b (keys pend) (by
      intro i hi; obtain ⟨j, hj, rfl⟩ := mem_keys.1 hi; exact (hq j hj).1)]
    rfl
  | cons x xs ih =>
    rw [NoPushPop.cons] at hp
    rw [Pass.runFrom_cons]
    by_cases hm : x.cls.kind = .main
    · simp only [hm, if_true]
      simp only [physSafe, hm, if_true] at hs
      cases hn : physNext m (bounds (fun _ => none) pend) with
      | none => simp [hn] at hs
      | some m' =>
        simp only [hn] at hs
        generalize hout : (if (bounds (fun _ => none) pend .physMin).getD 0
            = (bounds (fun _ => none) pend .logMin).getD 0 ∧
          (bounds (fun _ => none) pend .physMax).getD 0
            = (bounds (fun _ => none) pend .logMax).getD 0
          then pend.filter Optimizer.notPhys else pend) = out
        have hga := fun c hc => after_bounds rule pend hq a a (fun _ => none) c hc rfl
        have hgb := fun c hc => after_bounds rule pend hq b b (fun _ => none) c hc rfl
        have hqo : ∀ i ∈ out, Quiet i := by
          subst hout; split
          · intro i hi; exact hq i (List.mem_filter.1 hi).1
          · exact hq
        have key : PhysEq (a.after rule (keys pend)) (b.after rule (keys out)) ∧
            PhysVals m' (a.after rule (keys pend)) (b.after rule (keys out)) := by
          subst hout
          have hb8 := he.1 .logMin (by decide) (by decide)
          have hb9 := he.1 .logMax (by decide) (by decide)
          have h1 := hga .physMin rfl
          have h2 := hga .physMax rfl
          have h3 := hga .logMin rfl
          have h4 := hga .logMax rfl
          split
          · next hdrop =>
            refine ⟨physEq_filter rule pend hq he, ?_⟩
            have h5 := filter_phys rule pend hq b .physMin (Or.inl rfl)
            have h6 := filter_phys rule pend hq b .physMax (Or.inr rfl)
            generalize bounds (fun _ => none) pend = s at *
            unfold physNext at hn
            unfold PhysVals at hv ⊢
            rw [h1, h2, h3, h4, h5, h6]
            cases hsp : s .physMin <;> cases hsq : s .physMax <;> cases hsl : s .logMin <;>
              cases hsk : s .logMax <;> simp only [hsp, hsq, hsl, hsk] at hn hdrop ⊢ <;>
              cases m <;> simp at hn hdrop hv ⊢ <;> grind
          · next hkeep =>
            refine ⟨physEq_after rule pend hq he, ?_⟩
            have h5 := hgb .physMin rfl
            have h6 := hgb .physMax rfl
            generalize bounds (fun _ => none) pend = s at *
            unfold physNext at hn
            unfold PhysVals at hv ⊢
            rw [h1, h2, h3, h4, h5, h6]
            cases hsp : s .physMin <;> cases hsq : s .physMax <;> cases hsl : s .logMin <;>
              cases hsk : s .logMax <;> simp only [hsp, hsq, hsl, hsk] at hn hkeep ⊢ <;>
              cases m <;> simp at hn hkeep hv ⊢ <;> grind
        rw [keys_append, keys_append, List.append_assoc, eventsFrom_append,
          eventsFrom_no_main rule b (keys out) (by
            intro i hi; obtain ⟨j, hj, rfl⟩ := mem_keys.1 hi; exact (hqo j hj).1),
          List.nil_append, keys_cons, keys_cons]
        show eventsFrom rule _ (x.key :: _) = _
        rw [eventsFrom_cons_main _ _ _ _ (by simpa using hm),
          eventsFrom_cons_main _ _ _ _ (by simpa using hm), phys_main_events rule key.1 key.2 x.key]
        congr 1
        have hg1 : ∀ h : Host, (h.step rule x.key).g = h.g := fun h =>
          step_local_g rule h x (by rw [hm]; decide)
        have := ih m' [] _ _ (by simp) hp.2 hs (physEq_step_main rule key.1 x hm) (by
          unfold PhysVals; rw [hg1, hg1]; exact key.2)
        exact this
    · simp only [hm, if_false, List.nil_append]
      have hb : physSafe m (bounds (fun _ => none) (pend ++ [x])) xs = true := by
        rw [bounds_append]
        simp only [physSafe, hm, if_false] at hs
        simp only [bounds, List.foldl_cons, List.foldl_nil]
        split
        · next h => simpa [h, bounds] using hs
        · next h => simpa [h, bounds] using hs
      have hq' : ∀ i ∈ pend ++ [x], Quiet i := by
        intro i hi
        rcases List.mem_append.1 hi with hi | hi
        · exact hq i hi
        · simp at hi; subst hi; exact ⟨hm, hp.1.1, hp.1.2⟩
      have := ih m (pend ++ [x]) a b hq' hp.2 hb he hv
      rw [keys_append, after_append] at this
      rw [keys_cons, eventsFrom_cons_of_not_main _ _ _ _ (by simpa using hm)]
      rw [show ((a.after rule (keys pend)).step rule x.key)
        = (a.after rule (keys pend)).after rule (keys [x]) from rfl, ← this]
      congr 3
      rw [bounds_append]
      simp only [bounds, List.foldl_cons, List.foldl_nil]
      split
      · next h => congr 1; funext c; simp only; split <;> simp
      · rfl

/-- C21.  Removing physical bounds that repeat the logical ones leaves the meaning unchanged in
every stream without Push/Pop along which `physNext` is defined. -/
theorem C21_physical_merge_meaning_partial (rule : PageRule) (xs : List Item) (hp : NoPushPop xs)
    (hs : physSafe .zero (fun _ => none) xs = true) :
    meaning rule (keys (Optimizer.physicalMerge.run xs)) = meaning rule (keys xs) :=
  physicalMerge_events rule xs .zero [] {} {} (by simp) hp hs
    ⟨fun _ _ _ => rfl, rfl, rfl, rfl⟩ ⟨rfl, rfl, rfl, rfl⟩

/-- Two fields without physical bounds of their own, then one with. -/
def physSample : List Item :=
  [⟨.logMin, .int 0⟩, ⟨.logMax, .int 7⟩, ⟨.physMin, .int 0⟩, ⟨.physMax, .int 7⟩,
   ⟨.reportSize, .int 3⟩, ⟨.reportCount, .int 1⟩, ⟨.input, .int 2⟩,
   ⟨.logMin, .int 0⟩, ⟨.logMax, .int 7⟩, ⟨.physMin, .int (-90)⟩, ⟨.physMax, .int 90⟩,
   ⟨.input, .int 2⟩]

example : NoPushPop physSample ∧ physSafe .zero (fun _ => none) physSample = true ∧
    keys (Optimizer.physicalMerge.run physSample)
      = [(.logMin, 0), (.logMax, 7), (.reportSize, 3), (.reportCount, 1), (.input, 2),
         (.logMin, 0), (.logMax, 7), (.physMin, -90), (.physMax, 90), (.input, 2)] := by
  decide +kernel

/-- Left out by `C21_physical_merge_meaning_partial`, and false: after a field with physical bounds
of its own, bounds equal to the logical ones are dropped too, and the old bounds stay in force. -/
theorem C21_return_to_logical_breaks :
    let xs : List Item :=
      [⟨.reportSize, .int 8⟩, ⟨.reportCount, .int 1⟩,
       ⟨.logMin, .int 0⟩, ⟨.logMax, .int 7⟩, ⟨.physMin, .int (-90)⟩, ⟨.physMax, .int 90⟩,
       ⟨.input, .int 2⟩,
       ⟨.logMin, .int 0⟩, ⟨.logMax, .int 7⟩, ⟨.physMin, .int 0⟩, ⟨.physMax, .int 7⟩,
       ⟨.input, .int 2⟩]
    ∀ rule, meaning rule (keys (Optimizer.physicalMerge.run xs)) ≠ meaning rule (keys xs) := by
  intro xs rule
  cases rule <;> decide +kernel

/-- Likewise when the bounds are reset to 0 before a collection. -/
theorem C21_reset_before_collection_breaks :
    let xs : List Item :=
      [⟨.reportSize, .int 8⟩, ⟨.reportCount, .int 1⟩,
       ⟨.logMin, .int 0⟩, ⟨.logMax, .int 7⟩, ⟨.physMin, .int (-90)⟩, ⟨.physMax, .int 90⟩,
       ⟨.input, .int 2⟩,
       ⟨.physMin, .int 0⟩, ⟨.physMax, .int 0⟩, ⟨.collection, .int 2⟩,
       ⟨.logMin, .int 1⟩, ⟨.logMax, .int 3⟩, ⟨.input, .int 0⟩, ⟨.endCollection, .int 0⟩]
    ∀ rule, meaning rule (keys (Optimizer.physicalMerge.run xs)) ≠ meaning rule (keys xs) := by
  intro xs rule
  cases rule <;> decide +kernel

/-- Left out by `C21_physical_merge_meaning_partial`, and false: logical bounds that Pop takes back are
still compared with the physical ones. -/
theorem C21_push_pop_breaks :
    let xs : List Item :=
      [⟨.reportSize, .int 8⟩, ⟨.reportCount, .int 1⟩, ⟨.physMin, .int 0⟩, ⟨.physMax, .int 7⟩, ⟨.push, .int 0⟩,
       ⟨.logMin, .int 0⟩, ⟨.logMax, .int 7⟩, ⟨.pop, .int 0⟩, ⟨.input, .int 2⟩]
    ∀ rule, meaning rule (keys (Optimizer.physicalMerge.run xs)) ≠ meaning rule (keys xs) := by
  intro xs rule
  cases rule <;> decide +kernel

end Hrdc
