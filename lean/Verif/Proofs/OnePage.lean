import Verif.Proofs.OptExtract3
import Verif.Spec.Alike
/-!
# When the optimizer changes no page between a usage and its main item
-/
namespace Hrdc
open Spec Optimizer MR Extractor Streamer

/-- All usages are on one page. -/
abbrev samePage (us : List Int) : Bool := commonPage us

theorem samePage_iff (us : List Int) : samePage us = true ↔ ∃ p, ∀ u ∈ us, u / 65536 = p := by
  unfold samePage commonPage
  rw [List.all_eq_true]
  constructor
  · intro h
    exact ⟨us.headD 0 / 65536, fun u hu => by simpa using h u hu⟩
  · rintro ⟨p, h⟩ u hu
    cases us with
    | nil => simp at hu
    | cons a t =>
      rw [h u hu]
      simpa using (h a (by simp)).symm

/-- Usages that stand between two main items are on one page; `prev` is the page of those met. -/
def steadyPages (prev : Option Int) : List SItem → Bool
  | [] => true
  | i :: r =>
    if i.1.kind = .main then steadyPages none r
    else if usageLike i.1 then prev.all (· == i.2 / 65536) && steadyPages (some (i.2 / 65536)) r
    else steadyPages prev r

theorem usageLike_kind {c : Cls} (h : usageLike c = true) : c.kind ≠ .main := by
  cases c <;> simp [usageLike] at h <;> simp [Cls.kind]

/-! ## Splitting usages -/

theorem up_steady (reg : Registry) (xs : List Item) (hx : ∀ i ∈ xs, i.cls ≠ .usagePage ∧ i.cls ≠ .pop) :
    ∀ (page prev : Option Int), (∀ p, prev = some p → page = some p) →
      pageSteady prev.isSome (keys ((usagePage reg).runFrom page xs)) = steadyPages prev (keys xs) := by
  induction xs with
  | nil => intro page prev _; rfl
  | cons x xs ih =>
    intro page prev hp
    have ih := ih (fun i hi => hx i (by simp [hi]))
    have hx0 := hx x (by simp)
    rw [keys_cons, steadyPages, key_fst, key_snd, Pass.runFrom_cons]
    by_cases hu : usageLike x.cls = true
    · have hsp : (Usage.split (Usage.lookup reg x.val)).1.toInt = x.ival / 65536 := by
        rw [split_fst, lookup_value]; rfl
      have hstep : (usagePage reg).step page x
        = (some (x.ival / 65536),
           (if page = some (x.ival / 65536) then []
            else [build reg .usagePage (Usage.split (Usage.lookup reg x.val)).1])
            ++ [build reg x.cls (Usage.split (Usage.lookup reg x.val)).2]) := by
        simp [hu, hsp]
      rw [hstep]
      have hnm := usageLike_kind hu
      rw [if_neg hnm, if_pos hu]
      have hrest := ih (some (x.ival / 65536)) (some (x.ival / 65536)) (fun p hp => hp)
      have hone : ∀ b, pageSteady b (keys ([build reg x.cls (Usage.split (Usage.lookup reg x.val)).2] ++
          (usagePage reg).runFrom (some (x.ival / 65536)) xs)) = steadyPages (some (x.ival / 65536)) (keys xs) := by
        intro b
        rw [List.singleton_append, keys_cons, pageSteady, key_fst, build_cls, if_neg hnm, if_pos hu]
        exact hrest
      by_cases hpg : page = some (x.ival / 65536)
      · rw [if_pos hpg, List.nil_append, hone]
        cases prev with
        | none => simp
        | some p =>
          have := hp p rfl
          rw [hpg] at this
          simp at this
          simp [this]
      · rw [if_neg hpg, List.append_assoc, List.singleton_append, keys_cons, pageSteady, key_fst, build_cls,
          if_neg (by simp [Cls.kind]), if_neg (by simp [usageLike]), if_pos (Or.inl rfl), hone]
        cases prev with
        | none => simp
        | some p =>
          have : p ≠ x.ival / 65536 := by
            intro e; exact hpg (by rw [← e]; exact hp p rfl)
          simp [this]
    · have hstep : (usagePage reg).step page x = (page, [x]) := by simp [hu, hx0.1]
      rw [hstep, List.singleton_append, keys_cons, pageSteady]
      by_cases hm : x.cls.kind = .main
      · rw [if_pos (show x.key.1.kind = .main from hm), if_pos hm]
        exact ih page none (by simp)
      · rw [if_neg (show ¬ x.key.1.kind = .main from hm), if_neg hm, if_neg (show ¬ usageLike x.key.1 = true from hu), if_neg hu,
          if_neg (by simp [key_fst, hx0])]
        exact ih page prev hp

/-! ## Other items do not matter -/

/-- Main items and usages. -/
def pagedLike (k : SItem) : Bool := k.1.kind == .main || usageLike k.1

theorem steady_view (xs : List Item) : ∀ prev, steadyPages prev (keys xs) = steadyPages prev (view pagedLike xs) := by
  induction xs with
  | nil => intro prev; rfl
  | cons x xs ih =>
    intro prev
    rw [keys_cons, view_cons, steadyPages]
    generalize x.key = k
    by_cases hm : k.1.kind = .main
    · rw [if_pos hm, if_pos (by simp [pagedLike, hm]), List.singleton_append, steadyPages, if_pos hm, ih]
    · by_cases hu : usageLike k.1 = true
      · rw [if_neg hm, if_pos hu, if_pos (by simp [pagedLike, hu]), List.singleton_append, steadyPages, if_neg hm, if_pos hu, ih]
      · rw [if_neg hm, if_neg hu, if_neg (by simp [pagedLike, hm, hu]), List.nil_append, ih]

/-! ## Ranges of usages -/

theorem seg_steady (seg : List SItem) (hseg : ∀ k ∈ seg, k.1.kind ≠ .main) (rest : List SItem)
    (hr : ∀ q, steadyPages q rest = true) : ∀ (prev : Option Int),
    (∃ p, (∀ q, prev = some q → q = p) ∧ ∀ k ∈ seg, usageLike k.1 = true → k.2 / 65536 = p) →
    steadyPages prev (seg ++ rest) = true := by
  induction seg with
  | nil => intro prev _; exact hr _
  | cons k seg ih =>
    intro prev hp
    obtain ⟨p, hp1, hp2⟩ := hp
    have ih := ih (fun i hi => hseg i (by simp [hi]))
    rw [List.cons_append, steadyPages, if_neg (hseg k (by simp))]
    by_cases hu : usageLike k.1 = true
    · have hk := hp2 k (by simp) hu
      rw [if_pos hu, ih _ ⟨p, fun q hq => by simp at hq; omega, fun i hi => hp2 i (by simp [hi])⟩, Bool.and_true]
      cases prev with
      | none => rfl
      | some q => simp [hp1 q rfl, hk]
    · rw [if_neg hu]
      exact ih _ ⟨p, hp1, fun i hi => hp2 i (by simp [hi])⟩

/-- The bounds collected are usages of the stretch. -/
def RMIn (st : RMState) (seg : List Item) : Prop :=
  (∀ v, st.minValue = some v → ∃ i ∈ seg, i.cls = .usage ∧ i.val = v) ∧
  ∀ v, st.maxValue = some v → ∃ i ∈ seg, i.cls = .usage ∧ i.val = v

theorem rmIn_note {st : RMState} {seg : List Item} (h : RMIn st seg) (x : Item) : RMIn (st.note usageTags x) (seg ++ [x]) := by
  have mono : RMIn st (seg ++ [x]) := by
    refine ⟨fun v hv => ?_, fun v hv => ?_⟩
    · obtain ⟨i, hi, e⟩ := h.1 v hv; exact ⟨i, by simp [hi], e⟩
    · obtain ⟨i, hi, e⟩ := h.2 v hv; exact ⟨i, by simp [hi], e⟩
  unfold RMState.note
  split
  · split
    · exact mono
    · split
      · next hl =>
        have hx : ∃ i ∈ seg ++ [x], i.cls = .usage ∧ i.val = x.val := ⟨x, by simp, hl, rfl⟩
        split
        · exact ⟨fun v hv => by simp at hv; subst hv; exact hx, fun v hv => by simp at hv; subst hv; exact hx⟩
        · split
          · exact ⟨mono.1, fun v hv => by simp at hv; subst hv; exact hx⟩
          · exact mono
      · exact mono
  · exact mono

theorem usage_ival (reg : Registry) (c : Cls) (hc : usageLike c = true) (v : PyVal) : (build reg c v).ival = v.toInt := by
  have := build_key reg c v (by rintro rfl; simp [usageLike] at hc)
  exact congrArg Prod.snd this

theorem out_steady (reg : Registry) (st : RMState) (seg : List Item)
    (hseg : ∀ i ∈ seg, i.cls.kind ≠ .main) (hin : RMIn st seg)
    (p : Int) (hp : ∀ i ∈ seg, usageLike i.cls = true → i.ival / 65536 = p) (rest : List Item)
    (hr : ∀ q, steadyPages q (keys rest) = true) :
    (st.pending = seg → steadyPages none (keys (st.out reg usageTags ++ rest)) = true) ∧
    (∀ m, m.cls.kind = .main → st.pending = m :: seg →
      ∀ q, steadyPages q (keys (st.out reg usageTags ++ rest)) = true) := by
  have good : ∀ l : List Item, (∀ i ∈ l, i.cls.kind ≠ .main ∧ (usageLike i.cls = true → i.ival / 65536 = p)) →
      steadyPages none (keys (l ++ rest)) = true := by
    intro l hl
    rw [keys_append]
    refine seg_steady _ ?_ _ hr none ⟨p, by simp, ?_⟩
    · intro k hk
      obtain ⟨i, hi, rfl⟩ := mem_keys.1 hk
      exact (hl i hi).1
    · intro k hk
      obtain ⟨i, hi, rfl⟩ := mem_keys.1 hk
      exact (hl i hi).2
  have hseg' : ∀ i ∈ seg, i.cls.kind ≠ .main ∧ (usageLike i.cls = true → i.ival / 65536 = p) :=
    fun i hi => ⟨hseg i hi, hp i hi⟩
  have key : ∃ seg', (∀ m, m.cls.kind = .main → st.pending = m :: seg → st.out reg usageTags = m :: seg') ∧
      (st.pending = seg → st.out reg usageTags = seg') ∧ steadyPages none (keys (seg' ++ rest)) = true := by
    unfold RMState.out
    cases hmin : st.minValue with
    | none => exact ⟨seg, fun m _ h => h, fun h => h, good seg hseg'⟩
    | some lo =>
      cases hmax : st.maxValue with
      | none => exact ⟨seg, fun m _ h => h, fun h => h, good seg hseg'⟩
      | some hi =>
        obtain ⟨il, hil, cl, rfl⟩ := hin.1 lo hmin
        obtain ⟨ih, hih, ch, rfl⟩ := hin.2 hi hmax
        have pl : il.val.toInt / 65536 = p := hp il hil (by rw [cl]; rfl)
        have ph : ih.val.toInt / 65536 = p := hp ih hih (by rw [ch]; rfl)
        by_cases hc : il.val.truthy ∧ ih.val.truthy ∧ st.merging
        · refine ⟨seg.filter (notRange usageTags) ++ (if il.val.eqv ih.val then [build reg usageTags.lookup il.val]
            else if ih.val.toInt - il.val.toInt > 1 then [build reg usageTags.min il.val, build reg usageTags.max ih.val]
            else [build reg usageTags.lookup il.val, build reg usageTags.lookup ih.val]), ?_, ?_, ?_⟩
          · intro m hm h
            simp only [hc]
            rw [h, List.filter_cons_of_pos (by simp [notRange, hm])]
            rfl
          · intro h
            simp only [hc]
            rw [h]
            rfl
          · have hf : ∀ i ∈ seg.filter (notRange usageTags), i.cls.kind ≠ .main ∧ (usageLike i.cls = true → i.ival / 65536 = p) :=
              fun i hi => hseg' i (List.mem_filter.1 hi).1
            have hb : ∀ c ∈ [Cls.usage, .usageMin, .usageMax], ∀ v ∈ [il.val, ih.val],
                (build reg c v).cls.kind ≠ .main ∧ (usageLike (build reg c v).cls = true → (build reg c v).ival / 65536 = p) := by
              intro c hc v hv
              have hu : usageLike c = true := by
                simp only [List.mem_cons, List.not_mem_nil, or_false] at hc
                rcases hc with rfl | rfl | rfl <;> rfl
              rw [build_cls]
              refine ⟨usageLike_kind hu, fun _ => ?_⟩
              rw [usage_ival reg c hu]
              simp only [List.mem_cons, List.not_mem_nil, or_false] at hv
              rcases hv with rfl | rfl
              · exact pl
              · exact ph
            apply good
            intro i hi
            rcases List.mem_append.1 hi with hi | hi
            · exact hf i hi
            · split at hi
              · simp only [List.mem_cons, List.not_mem_nil, or_false] at hi
                subst hi; exact hb _ (by decide) _ (by simp)
              · split at hi <;> simp only [List.mem_cons, List.not_mem_nil, or_false] at hi <;> rcases hi with rfl | rfl <;>
                  exact hb _ (by decide) _ (by simp)
        · exact ⟨seg, fun m _ h => by simp only [hc, if_false]; exact h, fun h => by simp only [hc, if_false]; exact h, good seg hseg'⟩
  obtain ⟨seg', a, b, d⟩ := key
  refine ⟨fun h => by rw [b h]; exact d, fun m hm h q => ?_⟩
  rw [a m hm h, List.cons_append, keys_cons, steadyPages, if_pos (show m.key.1.kind = .main from hm)]
  exact d

theorem rm_steady (reg : Registry) (xs : List Item) : ∀ (st : RMState) (seg : List Item) (prev : Option Int),
    (∀ i ∈ seg, i.cls.kind ≠ .main) → (∀ i ∈ seg, usageLike i.cls = true → prev = some (i.ival / 65536)) →
    RMIn st seg → steadyPages prev (keys xs) = true →
    (st.pending = seg → steadyPages none (keys ((rangeMerge reg usageTags).runFrom st xs)) = true) ∧
    (∀ m, m.cls.kind = .main → st.pending = m :: seg →
      ∀ q, steadyPages q (keys ((rangeMerge reg usageTags).runFrom st xs)) = true) := by
  have page : ∀ (seg : List Item) (prev : Option Int), (∀ i ∈ seg, usageLike i.cls = true → prev = some (i.ival / 65536)) →
      ∀ i ∈ seg, usageLike i.cls = true → i.ival / 65536 = prev.getD 0 := by
    intro seg prev h i hi hu
    rw [h i hi hu]; rfl
  induction xs with
  | nil =>
    intro st seg prev hseg hp hin _
    have := out_steady reg st seg hseg hin _ (page seg prev hp) [] (fun _ => rfl)
    simpa [Pass.runFrom_nil] using this
  | cons x xs ih =>
    intro st seg prev hseg hp hin hs
    rw [keys_cons, steadyPages, key_fst, key_snd] at hs
    rw [Pass.runFrom_cons]
    by_cases hk : x.cls.kind = .main
    · rw [if_pos hk] at hs
      have hrest := (ih { pending := [x] } [] none (by simp) (by simp) ⟨by simp, by simp⟩ hs).2 x hk rfl
      have hnote : st.note usageTags x = st := by
        unfold RMState.note
        rw [if_neg (by simp [hk])]
      have := out_steady reg (st.note usageTags x) seg hseg (by rw [hnote]; exact hin) _ (page seg prev hp) _ hrest
      simp only [hk, if_true]
      rw [note_pending3] at this
      exact this
    · rw [if_neg hk] at hs
      simp only [hk, if_false, List.nil_append]
      have hseg' : ∀ i ∈ seg ++ [x], i.cls.kind ≠ .main := by
        intro i hi
        rcases List.mem_append.1 hi with hi | hi
        · exact hseg i hi
        · simp at hi; subst hi; exact hk
      have hin' : RMIn { st.note usageTags x with pending := st.pending ++ [x] } (seg ++ [x]) := rmIn_note hin x
      by_cases hu : usageLike x.cls = true
      · rw [if_pos hu, Bool.and_eq_true] at hs
        obtain ⟨a, b⟩ := ih { st.note usageTags x with pending := st.pending ++ [x] } (seg ++ [x]) (some (x.ival / 65536)) hseg' (by
          intro i hi hui
          rcases List.mem_append.1 hi with hi | hi
          · have := hp i hi hui
            rw [this] at hs
            have := hs.1
            simp at this
            rw [this]
          · simp at hi; subst hi; rfl) hin' hs.2
        exact ⟨fun h => a (by simp [h]), fun m hm h => b m hm (by simp [h])⟩
      · rw [if_neg hu] at hs
        obtain ⟨a, b⟩ := ih { st.note usageTags x with pending := st.pending ++ [x] } (seg ++ [x]) prev hseg' (by
          intro i hi hui
          rcases List.mem_append.1 hi with hi | hi
          · exact hp i hi hui
          · simp at hi; subst hi; exact absurd hui hu) hin' hs
        exact ⟨fun h => a (by simp [h]), fun m hm h => b m hm (by simp [h])⟩

theorem rm_run_steady (reg : Registry) (xs : List Item) (h : steadyPages none (keys xs) = true) :
    steadyPages none (keys ((rangeMerge reg usageTags).run xs)) = true :=
  (rm_steady reg xs {} [] none (by simp) (by simp) ⟨by simp, by simp⟩ h).1 rfl

/-! ## From main items to pages -/

/-- Usages given one by one. -/
def upList (l : List Int) : List Int := (l.map fun u => (u, u)).flatMap fun r => upTo r.1 r.2

theorem upList_self (l : List Int) : upList l = l := by
  induction l with
  | nil => rfl
  | cons a t ih =>
    simp only [upList, List.map_cons, List.flatMap_cons] at ih ⊢
    rw [ih]
    simp [upTo]

/-- Every usage is followed by a main item; `pending`: usages are waiting for one. -/
def usagesTaken (pending : Bool) : List SItem → Bool
  | [] => !pending
  | k :: r => if k.1.kind = .main then usagesTaken false r else usagesTaken (pending || usageLike k.1) r

/-- With single usages only, every main item takes the usages since the last one. -/
theorem recs_steady (ks : List SItem) (hno : ∀ k ∈ ks, k.1 ∉ [Cls.usagePage, .push, .pop, .usageMin, .usageMax]) :
    ∀ (h : Host) (l : List Int), h.g .usagePage = 0 → h.usages = { ranges := l.map fun u => (u, u) } →
      usagesTaken (!l.isEmpty) ks = true → (∀ r ∈ recs .atUsage h ks, ∃ p, ∀ u ∈ r.usages, u / 65536 = p) →
      steadyPages (l.getLast?.map (· / 65536)) ks = true ∧ (∃ p, ∀ u ∈ l, u / 65536 = p) := by
  induction ks with
  | nil =>
    intro h l _ _ hl _
    simp [usagesTaken] at hl
    rw [hl]; exact ⟨rfl, 0, by simp⟩
  | cons k ks ih =>
    intro h l hg hu he hr
    have hno0 := hno k (by simp)
    have ih := ih (fun i hi => hno i (by simp [hi]))
    rw [recs_cons] at hr
    rw [steadyPages]
    rw [usagesTaken] at he
    have hlist : upList l = l := upList_self l
    by_cases hm : k.1.kind = .main
    · rw [if_pos hm] at hr he ⊢
      have hl := hr _ (List.mem_append_left _ (List.mem_singleton.2 rfl))
      have hus : (h.main .atUsage k).usages = l := by
        simp only [Host.main, hu, Decl.values]
        exact hlist
      rw [hus] at hl
      refine ⟨?_, hl⟩
      have hs : (h.step .atUsage k).usages = {} ∧ (h.step .atUsage k).g .usagePage = 0 := by
        obtain ⟨c, v⟩ := k
        cases c <;> simp [Cls.kind] at hm <;> exact ⟨rfl, hg⟩
      exact (ih (h.step .atUsage k) [] hs.2 hs.1 he (fun r hr' => hr r (List.mem_append_right _ hr'))).1
    · rw [if_neg hm, List.nil_append] at hr
      rw [if_neg hm] at he ⊢
      by_cases huse : usageLike k.1 = true
      · rw [if_pos huse]
        obtain ⟨c, v⟩ := k
        have hc : c = .usage := by
          simp only [List.mem_cons, List.not_mem_nil, or_false, not_or] at hno0
          cases c <;> simp [usageLike] at huse <;> simp_all
        subst hc
        have := ih (h.step .atUsage (.usage, v)) (l ++ [v]) hg (by
          simp [Host.step, hu, Decl.one, hg, declare_zero]) (by
          have e : (!(l ++ [v]).isEmpty) = true := by cases l <;> rfl
          rw [e]; simpa [usageLike] using he) hr
        rw [List.getLast?_concat] at this
        obtain ⟨h1, p, hp⟩ := this
        refine ⟨?_, p, fun u hu => hp u (by simp [hu])⟩
        rw [Bool.and_eq_true]
        refine ⟨?_, h1⟩
        cases hl : l.getLast? with
        | none => rfl
        | some w =>
          have h2 := hp w (by simp [List.mem_of_getLast? hl])
          have h3 := hp v (by simp)
          simp [h2, h3]
      · rw [if_neg huse]
        refine ih (h.step .atUsage k) l ?_ ?_ (by simpa [huse] using he) hr
        · obtain ⟨c, v⟩ := k
          cases c <;> simp [Host.step, hg] at hno0 ⊢
        · obtain ⟨c, v⟩ := k
          cases c <;> simp [usageLike] at huse <;> simp [Cls.kind] at hm <;> simp at hno0 <;> simp [Host.step, hu]

end Hrdc
