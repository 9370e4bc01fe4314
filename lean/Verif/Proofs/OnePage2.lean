import Verif.Proofs.OnePage
import Verif.Proofs.Named2
/-!
# When the optimizer changes no page between a usage and its main item: streams and trees
-/
namespace Hrdc
open Spec Optimizer MR Extractor Streamer

/-! ## Every usage has a main item -/

/-- Every usage is followed by a main item that is not a data item. -/
def closedOff (pending : Bool) : List SItem → Bool
  | [] => !pending
  | k :: r =>
    if k.1.kind = .main then closedOff (if k.1.isData then pending else false) r
    else closedOff (pending || usageLike k.1) r

theorem closed_taken (ks : List SItem) : ∀ p q, (q = true → p = true) → closedOff p ks = true → usagesTaken q ks = true := by
  induction ks with
  | nil =>
    intro p q hq h
    cases p <;> cases q <;> simp_all [closedOff, usagesTaken]
  | cons k ks ih =>
    intro p q hq h
    rw [closedOff] at h
    rw [usagesTaken]
    by_cases hm : k.1.kind = .main
    · rw [if_pos hm] at h ⊢
      exact ih _ _ (by simp) h
    · rw [if_neg hm] at h ⊢
      refine ih _ _ ?_ h
      intro hh
      cases q <;> cases p <;> simp_all

theorem closed_off (ks : List SItem) : ∀ p q t, (p = true → q = true ∨ t = false) → usagesTaken q ks = true →
    trailingK t ks = true → closedOff p ks = true := by
  induction ks with
  | nil =>
    intro p q t hp hq ht
    cases p <;> cases q <;> cases t <;> simp_all [closedOff, usagesTaken, trailingK]
  | cons k ks ih =>
    intro p q t hp hq ht
    rw [usagesTaken] at hq
    rw [trailingK] at ht
    rw [closedOff]
    by_cases hm : k.1.kind = .main
    · rw [if_pos hm] at hq ht ⊢
      refine ih _ _ _ ?_ hq ht
      cases k.1.isData <;> simp
    · rw [if_neg hm] at hq ht ⊢
      refine ih _ _ _ ?_ hq ht
      cases usageLike k.1 <;> simp <;> exact hp

theorem closed_no_main (tail : List SItem) (ht : ∀ k ∈ tail, k.1.kind ≠ .main) : ∀ p, closedOff p tail = true → p = false := by
  induction tail with
  | nil => intro p h; simpa [closedOff] using h
  | cons k ks ih =>
    intro p h
    rw [closedOff, if_neg (ht k (by simp))] at h
    have := ih (fun i hi => ht i (by simp [hi])) _ h
    cases p <;> simp_all

theorem closed_prefix (xs tail : List SItem) (ht : ∀ k ∈ tail, k.1.kind ≠ .main) :
    ∀ p, closedOff p (xs ++ tail) = true → closedOff p xs = true := by
  induction xs with
  | nil => intro p h; rw [closed_no_main tail ht p h]; rfl
  | cons x xs ih =>
    intro p h
    rw [List.cons_append, closedOff] at h
    rw [closedOff]
    split
    · next hm => rw [if_pos hm] at h; exact ih _ h
    · next hm => rw [if_neg hm] at h; exact ih _ h

/-- Usages and main items that are not data items. -/
def calls (k : SItem) : Bool := (k.1.kind == .main && !k.1.isData) || usageLike k.1

theorem closed_view (xs : List Item) : ∀ p, closedOff p (keys xs) = closedOff p (view calls xs) := by
  induction xs with
  | nil => intro p; rfl
  | cons x xs ih =>
    intro p
    rw [keys_cons, view_cons, closedOff]
    generalize x.key = k
    by_cases hm : k.1.kind = .main
    · rw [if_pos hm]
      by_cases hd : k.1.isData = true
      · have hu : usageLike k.1 = false := by
          cases hu : usageLike k.1 with
          | true => exact absurd hm (usageLike_kind hu)
          | false => rfl
        rw [if_neg (show ¬ calls k = true by simp [calls, hd, hu]), List.nil_append, if_pos hd, ih]
      · rw [if_pos (show calls k = true by simp [calls, hm, hd]), List.singleton_append, closedOff, if_pos hm, ih]
    · rw [if_neg hm]
      cases hu : usageLike k.1 with
      | true => rw [if_pos (by simp [calls, hu]), List.singleton_append, closedOff, if_neg hm, hu, ih]
      | false => rw [if_neg (by simp [calls, hm, hu]), List.nil_append, Bool.or_false, ih]

theorem mm_closed (reg : Registry) (xs : List Item) (h : closedOff false (keys xs) = true) :
    closedOff false (keys ((mainMerge reg).run xs)) = true := by
  rw [closed_view, mm_view calls (by
    intro k hk
    rcases hk with hk | hk
    · have hu : usageLike k.1 = false := by
        cases hu : usageLike k.1 with
        | false => rfl
        | true => revert hk hu; cases k.1 <;> simp [Cls.isData, usageLike]
      simp [calls, hk, hu]
    · simp [calls, hk, Cls.kind, usageLike]), ← closed_view]
  exact h

/-! ## Groups -/

/-- All on one page. -/
abbrev OnPage (us : List Int) : Prop := ∃ p, ∀ u ∈ us, u / 65536 = p

/-- Main items made one have usages on one page, or none of them has usages. -/
def PageOK (a b : MainRec) : Prop :=
  Mergeable a b → OnPage (a.usages ++ b.usages) ∧ (a.usages = [] ↔ b.usages = [])

/-- `PageOK` for neighbours, each on one page. -/
def PagesSafe : List MainRec → Prop
  | [] => True
  | a :: r => OnPage a.usages ∧ (∀ b, r.head? = some b → PageOK a b) ∧ PagesSafe r

theorem pagesSafe_append (xs ys : List MainRec) (h : PagesSafe (xs ++ ys)) : PagesSafe xs ∧ PagesSafe ys := by
  induction xs with
  | nil => exact ⟨trivial, h⟩
  | cons a xs ih =>
    obtain ⟨h1, h2, h3⟩ := h
    obtain ⟨i1, i2⟩ := ih h3
    refine ⟨⟨h1, ?_, i1⟩, i2⟩
    intro b hb
    apply h2
    cases xs with
    | nil => simp at hb
    | cons c xs => exact hb

theorem pagesSafe_flatten (gs : List (List MainRec)) (h : PagesSafe gs.flatten) : ∀ g ∈ gs, PagesSafe g := by
  induction gs with
  | nil => simp
  | cons g gs ih =>
    rw [List.flatten_cons] at h
    obtain ⟨h1, h2⟩ := pagesSafe_append _ _ h
    intro g' hg
    rcases List.mem_cons.1 hg with rfl | hg
    · exact h1
    · exact ih h2 g' hg

theorem pagesSafe_chain (lr : Option MainRec) (b : MainRec) (rest : List MainRec)
    (h1 : ∀ r, lr = some r → OnPage r.usages ∧ PageOK r b) (h2 : PagesSafe ((some b).toList ++ rest)) :
    PagesSafe (lr.toList ++ (b :: rest)) := by
  cases lr with
  | none => exact h2
  | some a =>
    refine ⟨(h1 a rfl).1, ?_, h2⟩
    intro c hc
    simp at hc; subst hc
    exact (h1 a rfl).2

theorem run_page (g : List MainRec) (hr : Run g) (hs : PagesSafe g) : OnPage (g.flatMap (·.usages)) := by
  induction g with
  | nil => exact ⟨0, by simp⟩
  | cons a g ih =>
    obtain ⟨h1, h2, h3⟩ := hs
    have ih := ih (fun p q c d e => hr (a :: p) q c d (by rw [e]; rfl)) h3
    cases g with
    | nil =>
      obtain ⟨p, hp⟩ := h1
      exact ⟨p, by simpa using hp⟩
    | cons b g =>
      have hm : Mergeable a b := hr [] g a b rfl
      obtain ⟨⟨p, hp⟩, he⟩ := h2 b rfl hm
      obtain ⟨q, hq⟩ := ih
      cases hb : b.usages with
      | nil =>
        have ha := he.2 hb
        refine ⟨q, ?_⟩
        intro u hu
        rw [List.flatMap_cons, ha, List.nil_append] at hu
        exact hq u hu
      | cons w t =>
        have h1 := hp w (by simp [hb])
        have h2 := hq w (by simp [hb])
        refine ⟨q, ?_⟩
        intro u hu
        rw [List.flatMap_cons] at hu
        rcases List.mem_append.1 hu with hu | hu
        · have := hp u (by simp [hu])
          omega
        · exact hq u hu

theorem joinedR_usages {n : Int} {g : List MainRec} {r : MainRec} (h : r ∈ joinedR n g) :
    r.usages = g.flatMap (·.usages) := by
  cases g with
  | nil => simp [joinedR] at h
  | cons a g =>
    simp only [joinedR, List.mem_singleton] at h
    subst h; rfl

theorem mm_pages (reg : Registry) (xs : List Item) (hcl : rangesClosed .atUsage {} (keys xs) = true)
    (hpp : NoPushPop xs) (hs : PagesSafe (recs .atUsage {} (keys xs))) :
    ∀ r ∈ recs .atUsage {} (keys ((mainMerge reg).run xs)), OnPage r.usages := by
  have hrecs := mm_run_recs reg xs hcl hpp
  have e := runs_recs (keys xs) {} {}
  obtain ⟨hrun, h', hw⟩ := runs_run xs {} {} hpp (waiting_nil {})
  have hnil : ({} : Pend).group = [] := rfl
  rw [hnil, List.nil_append] at e
  rw [e] at hs
  obtain ⟨s1, s2⟩ := pagesSafe_append _ _ hs
  have hm : ∀ r ∈ mergedRecs {} {} (keys xs), OnPage r.usages := by
    intro r hr
    unfold mergedRecs at hr
    rcases List.mem_append.1 hr with hr | hr
    · obtain ⟨g, hg, hr⟩ := List.mem_flatMap.1 hr
      rw [joinedR_usages hr]
      exact run_page g (hrun g hg) (pagesSafe_flatten _ s1 g hg)
    · unfold closeR at hr
      rcases List.mem_append.1 hr with hr | hr
      · rw [joinedR_usages hr]
        exact run_page _ (waiting_run hw) s2
      · obtain ⟨g, hg, hr⟩ := List.mem_flatMap.1 hr
        simp only [plainR, List.mem_singleton] at hr
        subst hr
        exact ⟨0, by simp [canon]⟩
  intro r hr
  exact hm (canon r) (by rw [← hrecs]; exact List.mem_map.2 ⟨r, hr, rfl⟩)

/-! ## The optimizer -/

/-- Streams of single usages in which no page is chosen: the optimizer chooses no page between a usage and its main
item. -/
theorem optimize_steady (reg : Registry) (items : List Item)
    (hno : ∀ i ∈ items, i.cls ∉ [Cls.usagePage, .push, .pop, .usageMin, .usageMax])
    (hd : ∀ i ∈ items, isDesig0 i = false)
    (hcl : rangesClosed .atUsage {} (keys items) = true)
    (htk : usagesTaken false (keys items) = true) (htr : trailing true items = true)
    (hs : PagesSafe (recs .atUsage {} (keys items))) :
    pageSteady false (keys (optimize reg items)) = true := by
  have hco := closed_off (keys items) false false true (by simp) htk (by rw [← trailing_keys]; exact htr)
  obtain ⟨tail, htl, he⟩ := du_eq items hd
  have k1 := keeps_du (fun i => i.cls ∉ [Cls.usagePage, .push, .pop, .usageMin, .usageMax]) items hno
  have erec : recs .atUsage {} (keys items) = recs .atUsage {} (keys (designatorUniq.run items)) := by
    conv => lhs; rw [he]
    exact recs_tail _ _ _ _ htl
  rw [erec] at hs
  rw [he, keys_append] at hcl hco
  have hcl := rangesClosed_prefix _ _ _ _ hcl
  have hco := closed_prefix _ _ (by
    intro k hk
    obtain ⟨i, hi, rfl⟩ := mem_keys.1 hk
    rw [key_fst, htl i hi]; simp) _ hco
  rw [optimize_eq]
  clear he erec hno hd htk htr
  generalize designatorUniq.run items = y1 at k1 hs hcl hco ⊢
  have hpp : NoPushPop y1 := by
    intro i hi
    have := k1 i hi
    simp only [List.mem_cons, List.not_mem_nil, or_false, not_or] at this
    exact ⟨this.2.1, this.2.2.1⟩
  have hone := mm_pages reg y1 hcl hpp hs
  have k2 := keeps_mm (fun i => i.cls ∉ [Cls.usagePage, .push, .pop, .usageMin, .usageMax]) reg
    (fun v => by rw [build_cls]; decide) y1 k1
  have hco := mm_closed reg y1 hco
  generalize (mainMerge reg).run y1 = y2 at hone k2 hco ⊢
  have h2 : steadyPages none (keys y2) = true :=
    (recs_steady (keys y2) (by
      intro k hk
      obtain ⟨i, hi, rfl⟩ := mem_keys.1 hk
      exact k2 i hi) {} [] rfl rfl (closed_taken _ _ _ (by simp) hco) hone).1
  have hP : ∀ c : Cls, c.kind ≠ .main → usageLike c = false → ∀ k : SItem, k.1 = c → pagedLike k = false := by
    rintro c h1 h2 k rfl
    simp [pagedLike, h1, h2]
  rw [steady_view, ← pm_view pagedLike (by
      rintro k (hk | hk) <;> exact hP _ (by simp [Cls.kind]) rfl k hk),
    ← gm_view pagedLike (by
      intro k hk
      refine hP k.1 (by rw [hk]; simp) ?_ k rfl
      revert hk
      cases k.1 <;> simp [Cls.kind, usageLike]),
    ← rm_view_tags pagedLike reg strTags (by
      intro k hk
      simp only [strTags, List.mem_cons, List.not_mem_nil, or_false] at hk
      rcases hk with hk | hk | hk <;> exact hP _ (by simp [Cls.kind]) rfl k hk),
    ← rm_view_tags pagedLike reg desigTags (by
      intro k hk
      simp only [desigTags, List.mem_cons, List.not_mem_nil, or_false] at hk
      rcases hk with hk | hk | hk <;> exact hP _ (by simp [Cls.kind]) rfl k hk),
    ← steady_view] at h2
  have h3 := rm_run_steady reg _ h2
  have hbuild : ∀ t ∈ [strTags, desigTags, usageTags], ∀ c ∈ [t.lookup, t.min, t.max], c ≠ .usagePage ∧ c ≠ .pop := by
    decide
  have hrm : ∀ t ∈ [strTags, desigTags, usageTags], ∀ ys : List Item, (∀ i ∈ ys, i.cls ≠ .usagePage ∧ i.cls ≠ .pop) →
      ∀ i ∈ (rangeMerge reg t).run ys, i.cls ≠ .usagePage ∧ i.cls ≠ .pop := by
    intro t ht ys hys
    exact keeps_rm (fun i => i.cls ≠ .usagePage ∧ i.cls ≠ .pop) reg t
      (fun i _ _ c hc => by rw [build_cls]; exact hbuild t ht c hc) ys hys
  have k7 := hrm usageTags (by simp) _ (hrm desigTags (by simp) _ (hrm strTags (by simp) _
    (keeps_gm (fun i => i.cls ≠ .usagePage ∧ i.cls ≠ .pop) _
      (keeps_pm (fun i => i.cls ≠ .usagePage ∧ i.cls ≠ .pop) y2 (by
        intro i hi
        have := k2 i hi
        simp only [List.mem_cons, List.not_mem_nil, or_false, not_or] at this
        exact ⟨this.1, this.2.2.1⟩)))))
  have := up_steady reg _ k7 none none (by simp)
  rw [h3] at this
  exact this

/-! ## Trees -/

/-- Values that look alike and follow each other have usages on one page. -/
def prevPage (prev : Option (Value × Int)) (cur : Int) (v : Value) : Bool :=
  match prev with
  | none => true
  | some (p, i) => !decide (i = cur ∧ sameField p v) || samePage (fieldUsages p ++ fieldUsages v)

/-- Each value has its usages on one page, and so have consecutive values that look alike. -/
def pagesFit (prev : Option (Value × Int)) (cur : Int) : List Tok → Bool
  | [] => true
  | .report i :: r => pagesFit prev (if i = 0 then cur else i) r
  | .endReport :: r => pagesFit prev cur r
  | .enter _ _ :: r => pagesFit none cur r
  | .leave :: r => pagesFit none cur r
  | .leaf (.align _ _) :: r => pagesFit prev cur r
  | .leaf (.padding _ s) :: r => pagesFit (if s = 0 then prev else none) cur r
  | .leaf (.value v) :: r =>
    if constFlag v.flags = true then pagesFit none cur r
    else if wrapped v = true then samePage (fieldUsages v) && pagesFit none cur r
    else samePage (fieldUsages v) && prevPage prev cur v && pagesFit (some (v, cur)) cur r

theorem pageOK_left {a b : MainRec} (h : a.cls.isData = false) : PageOK a b := by
  intro hm; rw [hm.1] at h; simp at h

theorem pageOK_right {a b : MainRec} (h : b.cls.isData = false) : PageOK a b := by
  intro hm; rw [hm.2.1, hm.1] at h; simp at h

/-- What the last main item may be when `prev` is the preceding value. -/
def LastPage (prev : Option (Value × Int)) (r : MainRec) : Prop :=
  OnPage r.usages ∧ (r.cls.isData = false ∨ (r.isConst = true ∧ r.usages = []) ∨
    ∃ v i, prev = some (v, i) ∧ RecOf i v r ∧ constFlag v.flags = false)

theorem onPage_nil : OnPage [] := ⟨0, by simp⟩

theorem const_recP (h : Host) (hcl : Clean h) (w : Way) (n s x : Int) (hx : x % 2 = 1) (X : List SItem) :
    ∃ r h', recs .atUsage h ([(.reportCount, n), (.reportSize, s), (w.cls, x)] ++ X) = r :: recs .atUsage h' X ∧
      Clean h' ∧ h'.g .reportID = h.g .reportID ∧ r.isConst = true ∧ r.usages = [] := by
  refine ⟨(h.after .atUsage [(.reportCount, n), (.reportSize, s)]).main .atUsage (w.cls, x),
    h.after .atUsage [(.reportCount, n), (.reportSize, s), (w.cls, x)], ?_, ?_, ?_, ?_, ?_⟩
  · rw [recs_append, recs_cons, recs_cons, recs_cons, if_neg (by simp [Cls.kind]), if_neg (by simp [Cls.kind]),
      if_pos (way_kind w)]
    rfl
  · simp only [after_cons, after_nil, way_step]
    exact ⟨rfl, rfl, rfl, by simpa [Host.step] using hcl.2.2.2⟩
  · simp only [after_cons, after_nil, way_step]; simp [Host.step]
  · simp [MainRec.isConst, Host.main, hx]
  · obtain ⟨g, stack, usages, strings, desigs⟩ := h
    obtain ⟨h1, h2, h3, h4⟩ := hcl
    simp only at h1
    subst h1
    rfl

theorem recOf_const {i : Int} {v : Value} {r : MainRec} (h : RecOf i v r) (hc : constFlag v.flags = false) :
    r.isConst = false := by
  unfold MainRec.isConst
  unfold constFlag at hc
  rw [bitSet_zero] at hc
  rw [h.2.1]
  simpa using hc

theorem const_mergeable {a b : MainRec} (hm : Mergeable a b) : a.isConst = b.isConst := by
  unfold MainRec.isConst; rw [hm.2.2.1]

theorem pageOK_const {prev : Option (Value × Int)} {r b : MainRec} (hl : LastPage prev r) (hb : b.isConst = true)
    (hu : b.usages = []) : PageOK r b := by
  rcases hl.2 with h | ⟨h1, h2⟩ | ⟨v, i, hp, hr, hc⟩
  · exact pageOK_left h
  · intro _
    rw [h2, hu]
    exact ⟨onPage_nil, Iff.rfl⟩
  · intro hm
    have := const_mergeable hm
    rw [recOf_const hr hc, hb] at this
    simp at this

theorem recOf_same {i j : Int} {v w : Value} {a b : MainRec} (ha : RecOf i v a) (hb : RecOf j w b)
    (hm : Mergeable a b) : i = j ∧ sameField v w := by
  obtain ⟨a1, a2, a3, a4, a5, a6, a7⟩ := ha
  obtain ⟨b1, b2, b3, b4, b5, b6, b7⟩ := hb
  obtain ⟨-, m2, m3, m4, m5⟩ := hm
  have hg : ∀ c ∈ fieldTags, fieldOf j w c = fieldOf i v c := fun c hc => by
    rw [← a7 c hc, ← b7 c hc]; exact m4 c hc
  exact ⟨(hg .reportID (by simp [fieldTags])).symm, way_inj (by rw [← a1, ← b1]; exact m2), by rw [← a2, ← b2]; exact m3,
    hg .reportSize (by simp [fieldTags]), hg .logMin (by simp [fieldTags]), hg .logMax (by simp [fieldTags]),
    Prod.ext (hg .physMin (by simp [fieldTags])) (hg .physMax (by simp [fieldTags])),
    hg .unit (by simp [fieldTags]), hg .unitExp (by simp [fieldTags]), by rw [← a6]; exact m5⟩

theorem fit_empty {v w : Value} (h : fitTogether v w) : fieldUsages v = [] ↔ fieldUsages w = [] := by
  rcases h with ⟨-, h, -⟩ | ⟨-, h1, h2⟩
  · rcases h with ⟨h1, h2⟩ | ⟨h1, h2⟩
    · simp [h1, h2]
    · constructor
      · intro e; rw [e] at h1; simp at h1
      · intro e; exact absurd e h2
  · simp [h1, h2]

theorem pageOK_value {prev : Option (Value × Int)} {r b : MainRec} {j : Int} {w : Value} (hl : LastPage prev r)
    (hb : RecOf j w b) (hc : constFlag w.flags = false) (hf : prevFits prev j w = true) (hp : prevPage prev j w = true) :
    PageOK r b := by
  rcases hl.2 with h | ⟨h1, h2⟩ | ⟨v, i, hpv, hr, hcv⟩
  · exact pageOK_left h
  · intro hm
    have := const_mergeable hm
    rw [recOf_const hb hc, h1] at this
    simp at this
  · intro hm
    obtain ⟨e1, e2⟩ := recOf_same hr hb hm
    subst hpv
    simp only [prevFits, decide_eq_true_eq] at hf
    simp only [prevPage, e1, e2, and_self, decide_true, Bool.not_true, Bool.false_or] at hp
    rw [hr.2.2.1, hb.2.2.1]
    exact ⟨(samePage_iff _).1 hp, fit_empty (hf e1 e2)⟩

theorem pad_pages (prev : Option (Value × Int)) (lr : Option MainRec) (h : Host) (w : Way) (p : Int)
    (X : List SItem) (hcl : Clean h) (hl : ∀ r, lr = some r → LastPage prev r)
    (hX : ∀ h' lr', Clean h' → h'.g .reportID = h.g .reportID →
      (∀ r, lr' = some r → (p = 0 ∧ LastPage prev r) ∨ (r.isConst = true ∧ r.usages = [])) →
      PagesSafe (lr'.toList ++ recs .atUsage h' X)) :
    PagesSafe (lr.toList ++ recs .atUsage h (padKeys w p ++ X)) := by
  unfold padKeys
  by_cases hp : p = 0
  · rw [if_pos hp]
    exact hX h lr hcl rfl (fun r hr => Or.inl ⟨hp, hl r hr⟩)
  · rw [if_neg hp]
    obtain ⟨r, h', hr, h1, h2, h3, h4⟩ := const_recP h hcl w 1 p 3 (by decide) X
    rw [hr]
    exact pagesSafe_chain _ _ _ (fun a ha => ⟨(hl a ha).1, pageOK_const (hl a ha) h3 h4⟩)
      (hX h' (some r) h1 h2 (fun a ha => by simp at ha; subst ha; exact Or.inr ⟨h3, h4⟩))

theorem tree_pages (ts : List Tok) (c : Count) (last : Int) (h : Host) (prev : Option (Value × Int))
    (lr : Option MainRec) (hcl : Clean h) (hal : alikeFit prev (h.g .reportID) ts = true)
    (hpg : pagesFit prev (h.g .reportID) ts = true) (hl : ∀ r, lr = some r → LastPage prev r) :
    PagesSafe (lr.toList ++ recs .atUsage h (treeKeys c last ts)) := by
  induction ts generalizing c last h prev lr with
  | nil =>
    cases lr with
    | none => trivial
    | some r => exact ⟨(hl r rfl).1, by intro b hb; simp [treeKeys, recs_nil] at hb, trivial⟩
  | cons t ts ih =>
    have hnone : ∀ {r : MainRec}, OnPage r.usages → (r.cls.isData = false ∨ (r.isConst = true ∧ r.usages = [])) →
        ∀ a, some r = some a → LastPage none a := by
      intro r h1 hr a ha
      simp at ha; subst ha
      rcases hr with hr | hr
      · exact ⟨h1, Or.inl hr⟩
      · exact ⟨h1, Or.inr (Or.inl hr)⟩
    have hconst : ∀ {prev : Option (Value × Int)} {r : MainRec}, r.isConst = true ∧ r.usages = [] → LastPage prev r :=
      fun hr => ⟨by rw [hr.2]; exact onPage_nil, Or.inr (Or.inl hr)⟩
    cases t with
    | report i =>
      rw [treeKeys, recs_append]
      by_cases hi : i = 0
      · simp only [alikeFit, pagesFit, hi, if_true] at hal hpg ⊢
        exact ih c 0 h prev lr hcl hal hpg hl
      · simp only [alikeFit, pagesFit, hi, if_false] at hal hpg ⊢
        rw [recs_no_main _ _ _ (by simp [Cls.kind]), List.nil_append]
        refine ih c i _ prev lr ⟨hcl.1, hcl.2.1, hcl.2.2.1, ?_⟩ ?_ ?_ hl
        · simpa [Host.step] using hcl.2.2.2
        · simpa [Host.step] using hal
        · simpa [Host.step] using hpg
    | endReport => exact ih c last h prev lr hcl hal hpg hl
    | enter k u =>
      rw [treeKeys, recs_cons, if_neg (by simp [Cls.kind]), recs_cons, if_pos (by simp [Cls.kind])]
      simp only [List.nil_append, List.singleton_append]
      have honly : OnPage ((h.step .atUsage (.usage, (u.map PyVal.toInt).getD 0)).main .atUsage
          (.collection, (wrapKind k).toInt)).usages := by
        obtain ⟨g, stack, usages, strings, desigs⟩ := h
        obtain ⟨h1, h2, h3, h4⟩ := hcl
        simp only at h1 h4
        subst h1
        refine ⟨(u.map PyVal.toInt).getD 0 / 65536, ?_⟩
        simp [Host.main, Host.step, Decl.one, h4, PageRule.declare, PageRule.consume, full, Decl.values, upTo_self]
      refine pagesSafe_chain _ _ _ (fun r hr => ⟨(hl r hr).1, pageOK_right rfl⟩) ?_
      refine ih c last _ none (some _) ⟨rfl, rfl, rfl, ?_⟩ ?_ ?_ (hnone honly (Or.inl rfl))
      · exact hcl.2.2.2
      · exact hal
      · exact hpg
    | leave =>
      rw [treeKeys, recs_cons, if_pos (by simp [Cls.kind])]
      simp only [List.singleton_append]
      have honly : OnPage (h.main .atUsage (.endCollection, 0)).usages := by
        obtain ⟨g, stack, usages, strings, desigs⟩ := h
        obtain ⟨h1, h2, h3, h4⟩ := hcl
        simp only at h1
        subst h1
        exact onPage_nil
      refine pagesSafe_chain _ _ _ (fun r hr => ⟨(hl r hr).1, pageOK_right rfl⟩) ?_
      refine ih c last _ none (some _) ⟨rfl, rfl, rfl, ?_⟩ ?_ ?_ (hnone honly (Or.inl rfl))
      · exact hcl.2.2.2
      · exact hal
      · exact hpg
    | leaf l =>
      rw [treeKeys, leafKeys, List.append_assoc]
      refine pad_pages prev lr h _ _ _ hcl hl ?_
      intro h' lr' hcl' hid' hl'
      cases l with
      | align w b =>
        simp only [ownKeys, List.nil_append]
        refine ih _ last h' prev lr' hcl' (by rw [hid']; exact hal) (by rw [hid']; exact hpg) ?_
        intro r hr
        rcases hl' r hr with ⟨-, hh⟩ | hh
        · exact hh
        · exact hconst hh
      | padding w s =>
        simp only [ownKeys, List.nil_append]
        refine ih _ last h' (if s = 0 then prev else none) lr' hcl' (by rw [hid']; exact hal) (by rw [hid']; exact hpg) ?_
        intro r hr
        rcases hl' r hr with ⟨hs, hh⟩ | hh
        · have : s = 0 := hs
          rw [if_pos this]; exact hh
        · exact hconst hh
      | value v =>
        simp only [ownKeys]
        have hl'' : ∀ r, lr' = some r → LastPage prev r := by
          intro r hr
          rcases hl' r hr with ⟨-, hh⟩ | hh
          · exact hh
          · exact hconst hh
        rw [alikeFit] at hal
        rw [pagesFit] at hpg
        by_cases hc : constFlag v.flags = true
        · rw [if_pos (Or.inl hc)] at hal
          rw [if_pos hc] at hpg
          have hk : valKeys v = [(.reportCount, v.count), (.reportSize, v.size), (v.way.cls, v.flags.toInt)] := by
            simp [valKeys, hc]
          have hodd : v.flags.toInt % 2 = 1 := by
            unfold constFlag at hc; rw [bitSet_zero] at hc; simpa using hc
          obtain ⟨r, h2, hr, g1, g2, g3, g4⟩ := const_recP h' hcl' v.way v.count v.size v.flags.toInt hodd
            (treeKeys (c.add last (.value v)) last ts)
          rw [hk, hr]
          refine pagesSafe_chain _ _ _ (fun a ha => ⟨(hl'' a ha).1, pageOK_const (hl'' a ha) g3 g4⟩) ?_
          exact ih _ last h2 none (some r) g1 (by rw [g2, hid']; exact hal) (by rw [g2, hid']; exact hpg)
            (hnone (by rw [g4]; exact onPage_nil) (Or.inr ⟨g3, g4⟩))
        · rw [if_neg hc] at hpg
          by_cases hw : wrapped v = true
          · rw [if_pos (Or.inr hw)] at hal
            rw [if_pos hw, Bool.and_eq_true] at hpg
            obtain ⟨a, b, e, h2, u, hr, g0, g1, g1', gu, grec, g2, g3, g4, g5⟩ := wrapped_recs h' hcl' v hw
              (treeKeys (c.add last (.value v)) last ts)
            rw [hr]
            have ha : OnPage a.usages := by rw [gu]; exact ⟨u / 65536, by simp⟩
            have hbu : OnPage b.usages := by rw [grec.2.2.1]; exact (samePage_iff _).1 hpg.1
            have da : a.cls.isData = false := by rw [g1]; rfl
            have de : e.cls.isData = false := by rw [g2]; rfl
            have hou : OnPage e.usages := by rw [g5]; exact onPage_nil
            refine pagesSafe_chain _ _ _ (fun r hr => ⟨(hl'' r hr).1, pageOK_right da⟩) ?_
            refine pagesSafe_chain _ _ _ (fun r hr => ?_) ?_
            · simp at hr; subst hr; exact ⟨ha, pageOK_left da⟩
            refine pagesSafe_chain _ _ _ (fun r hr => ?_) ?_
            · simp at hr; subst hr; exact ⟨hbu, pageOK_right de⟩
            exact ih _ last h2 none (some e) g3 (by rw [g4, hid']; exact hal) (by rw [g4, hid']; exact hpg.2)
              (hnone hou (Or.inl de))
          · rw [if_neg hw, Bool.and_eq_true, Bool.and_eq_true] at hpg
            rw [if_neg (by simp [hc, hw]), Bool.and_eq_true] at hal
            obtain ⟨r, hr, hrec, g1, g2⟩ := plain_rec h' hcl' v (by simpa using hc) (by simpa using hw)
            rw [recs_append, hr, List.singleton_append]
            have hcv : constFlag v.flags = false := by simpa using hc
            refine pagesSafe_chain _ _ _ (fun a ha => ⟨(hl'' a ha).1, ?_⟩) ?_
            · refine pageOK_value (hl'' a ha) hrec hcv ?_ ?_
              · rw [hid']; exact hal.1
              · rw [hid']; exact hpg.1.2
            · refine ih _ last _ (some (v, h.g .reportID)) (some r) g1 (by rw [g2, hid']; exact hal.2)
                (by rw [g2, hid']; exact hpg.2) ?_
              intro a ha
              simp at ha; subst ha
              exact ⟨by rw [hrec.2.2.1]; exact (samePage_iff _).1 hpg.1.1,
                Or.inr (Or.inr ⟨v, _, rfl, by rw [← hid']; exact hrec, hcv⟩)⟩

theorem taken_append (xs ys : List SItem) (hx : usagesTaken false xs = true) (hy : usagesTaken false ys = true) :
    ∀ b, (b = true → usagesTaken true xs = true) → usagesTaken b (xs ++ ys) = true := by
  have key : ∀ (xs : List SItem) b, usagesTaken b xs = true → usagesTaken b (xs ++ ys) = true := by
    intro xs
    induction xs with
    | nil =>
      intro b h
      have : b = false := by simpa [usagesTaken] using h
      rw [this]; exact hy
    | cons x xs ih =>
      intro b h
      rw [List.cons_append, usagesTaken]
      rw [usagesTaken] at h
      split
      · next hm => rw [if_pos hm] at h; exact ih _ h
      · next hm => rw [if_neg hm] at h; exact ih _ h
  intro b hb
  cases b with
  | false => exact key xs _ hx
  | true => exact key xs _ (hb rfl)

theorem taken_end (xs : List SItem) (k : SItem) (hk : k.1.kind = .main) : ∀ b, usagesTaken b (xs ++ [k]) = true := by
  induction xs with
  | nil => intro b; rw [List.nil_append, usagesTaken, if_pos hk]; rfl
  | cons x xs ih =>
    intro b
    rw [List.cons_append, usagesTaken]
    split <;> exact ih _

theorem taken_join {xs ys : List SItem} (hx : usagesTaken false xs = true) (hy : usagesTaken false ys = true) :
    usagesTaken false (xs ++ ys) = true := taken_append xs ys hx hy false (by simp)

theorem pad_taken (w : Way) (p : Int) : usagesTaken false (padKeys w p) = true := by
  unfold padKeys
  split
  · rfl
  · exact taken_end [(.reportCount, 1), (.reportSize, p)] (w.cls, 3) (way_kind w) false

theorem val_taken (v : Value) : usagesTaken false (valKeys v) = true := by
  unfold valKeys
  split
  · exact taken_end [(.reportCount, v.count), (.reportSize, v.size)] _ (way_kind _) false
  · split
    · exact taken_end _ (.endCollection, 0) rfl false
    · unfold fieldKeys
      rw [List.append_nil, List.append_nil]
      rw [show [(Cls.reportCount, v.count), (.reportSize, v.size), (v.way.cls, v.flags.toInt)] =
        [(Cls.reportCount, v.count), (.reportSize, v.size)] ++ [(v.way.cls, v.flags.toInt)] from rfl,
        ← List.append_assoc, ← List.append_assoc]
      exact taken_end _ _ (way_kind _) false

theorem tree_taken (ts : List Tok) : ∀ (c : Count) (last : Int), usagesTaken false (treeKeys c last ts) = true := by
  induction ts with
  | nil => intro c last; rfl
  | cons t ts ih =>
    intro c last
    cases t with
    | report i =>
      rw [treeKeys]
      refine taken_join ?_ (ih _ _)
      split <;> rfl
    | endReport => exact ih _ _
    | enter k u => exact taken_join (xs := [(.usage, (u.map PyVal.toInt).getD 0), (.collection, (wrapKind k).toInt)]) rfl (ih _ _)
    | leave => exact taken_join (xs := [(.endCollection, 0)]) rfl (ih _ _)
    | leaf l =>
      rw [treeKeys, leafKeys]
      refine taken_join (taken_join (pad_taken _ _) ?_) (ih _ _)
      cases l with
      | value v => exact val_taken v
      | align w b => rfl
      | padding w s => rfl

/-- Compiled trees with pages that fit: the optimizer chooses no page between a usage and its main item. -/
theorem compiled_steady {reg : Registry} {n : Node} {items : List Item} (h : compile reg n = .ok items)
    (ho : OptTree n) (hp : pagesFit none 0 (tokens n) = true) :
    pageSteady false (keys (optimize reg items)) = true := by
  have hkeys := compile_keys h
  have hplain : ∀ k ∈ keys items, Streamer.Plain ((tokens n).flatMap tokUsages) k := by
    rw [hkeys]
    exact treeKeys_plain _ _ _ _ (fun t ht u hu => List.mem_flatMap.2 ⟨t, ht, hu⟩)
  have hsafe := compiled_safe h ho
  refine optimize_steady reg items ?_ hsafe.noDesig0 hsafe.closed ?_ hsafe.trail ?_
  · intro i hi hc
    have := hplain i.key (mem_keys.2 ⟨i, hi, rfl⟩)
    simp only [List.mem_cons, List.not_mem_nil, or_false] at hc
    rcases hc with hc | hc | hc | hc | hc <;> simp [Streamer.Plain, key_fst, hc] at this
  · rw [hkeys]; exact tree_taken _ _ _
  · rw [hkeys]
    exact tree_pages (tokens n) _ 0 {} none none ⟨rfl, rfl, rfl, rfl⟩ ho.alike hp (by simp)

end Hrdc
