import Verif.Proofs.OnePage2
import Verif.Props.Extract3
/-!
# Neighbouring controls and neighbouring main items
-/
namespace Hrdc
open Spec Optimizer MR Extractor Streamer

theorem neighbours_tail {P : Event → Event → Bool} {xs ys : List Event} (h : neighbours P (xs ++ ys) = true) :
    neighbours P ys = true := by
  induction xs with
  | nil => exact h
  | cons a xs ih =>
    apply ih
    cases hxs : xs ++ ys with
    | nil => rfl
    | cons b r =>
      rw [List.cons_append, hxs, neighbours, Bool.and_eq_true] at h
      exact h.2

/-- Main items of compiled decompiled trees. -/
def RecShape (r : MainRec) : Prop :=
  (r.cls.isData = false ∧ r.usages.length ≤ 1) ∨
  (r.cls.isData = true ∧ r.isConst = true ∧ r.usages = [] ∧ 0 ≤ r.g .reportCount) ∨
  (r.cls.isData = true ∧ r.isConst = false ∧ r.g .reportCount = 1 ∧ (r.isVar = true → r.usages.length ≤ 1) ∧
    r.strings.length ≤ 1 ∧ r.desigs.length ≤ 1 ∧ (∀ x ∈ r.strings, x ≠ 0) ∧ ∀ x ∈ r.desigs, x ≠ 0)

theorem onPage_short {us : List Int} (h : us.length ≤ 1) : OnPage us := by
  match us, h with
  | [], _ => exact onPage_nil
  | [u], _ => exact ⟨u / 65536, by simp⟩

theorem one_event {r : MainRec} (hd : r.cls.isData = true) (hc : r.isConst = false) (hn : r.g .reportCount = 1) :
    r.events = [.control r.cls r.val (r.g .reportID) r.attrs (r.what 0)] := by
  rw [events_data hd, hc, hn]; rfl

theorem filterMap_congr' {α β : Type} {f g : α → Option β} {l : List α} (h : ∀ a ∈ l, f a = g a) :
    l.filterMap f = l.filterMap g := by
  induction l with
  | nil => rfl
  | cons a l ih => rw [List.filterMap_cons, List.filterMap_cons, h a (by simp), ih (fun b hb => h b (by simp [hb]))]

theorem filterMap_get {α : Type} (l : List α) : (List.range l.length).filterMap (fun n => l[n]?) = l := by
  induction l with
  | nil => rfl
  | cons a l ih =>
    rw [List.length_cons, List.range_succ_eq_map, List.filterMap_cons, List.filterMap_map]
    simpa [Function.comp_def] using ih

theorem what_usages {r : MainRec} (h : r.isVar = true → r.usages.length ≤ 1) :
    (r.what 0).filterMap (·.usage) = r.usages := by
  unfold MainRec.what
  by_cases hv : r.isVar = true
  · rw [if_pos hv]
    match hu : r.usages, h hv with
    | [], _ => simp [MainRec.selector, hu, pick]
    | [u], _ => simp [MainRec.selector, hu, pick]
  · rw [if_neg hv]
    rw [List.filterMap_map]
    rw [filterMap_congr' (g := fun n => r.usages[n]?) (fun n hn => ?_), filterMap_get]
    have hn := List.mem_range.1 hn
    simp [MainRec.selector, pick, hn]

theorem alike_refl {a b : MainRec} (hm : Mergeable a b) (s t : List Selector) :
    Event.alike (.control a.cls a.val (a.g .reportID) a.attrs s) (.control b.cls b.val (b.g .reportID) b.attrs t) = true := by
  obtain ⟨-, m2, m3, m4, -⟩ := hm
  simp only [Event.alike, decide_eq_true_eq]
  exact ⟨m2.symm, m3.symm, (m4 .reportID (by simp [fieldTags])).symm, (attrs_congr' m4).symm⟩

theorem joinable_idx {l m : List Int} (hl : l.length ≤ 1) (hm : m.length ≤ 1) (h1 : ∀ x ∈ l, x ≠ 0) (h2 : ∀ x ∈ m, x ≠ 0)
    (h : (((pick l 0).getD 0 == 0) == ((pick m 0).getD 0 == 0)) = true) : Joinable l m := by
  unfold Joinable
  match l, hl, m, hm with
  | [], _, [], _ => simp
  | [], _, [u], _ => exact absurd h (by have := h2 u (by simp); simp [pick, this])
  | [u], _, [], _ => exact absurd h (by have := h1 u (by simp); simp [pick, this])
  | [u], _, [w], _ => simp

theorem joinable_usage {l m : List Int} (hl : l.length ≤ 1) (hm : m.length ≤ 1)
    (h : ((pick l 0).isSome == (pick m 0).isSome) = true) : Joinable l m := by
  unfold Joinable
  match l, hl, m, hm with
  | [], _, [], _ => simp
  | [], _, [u], _ => exact absurd h (by simp [pick])
  | [u], _, [], _ => exact absurd h (by simp [pick])
  | [u], _, [w], _ => simp

theorem shape_mergeable {a b : MainRec} (ha : RecShape a) (hb : RecShape b) (hm : Mergeable a b) :
    (a.isConst = true ∧ a.usages = [] ∧ b.usages = [] ∧ 0 ≤ b.g .reportCount) ∨
    (a.isConst = false ∧ b.isConst = false ∧ b.g .reportCount = 1 ∧ (a.isVar = true → a.usages.length ≤ 1) ∧
      (b.isVar = true → b.usages.length ≤ 1) ∧
      a.strings.length ≤ 1 ∧ a.desigs.length ≤ 1 ∧ (∀ x ∈ a.strings, x ≠ 0) ∧ (∀ x ∈ a.desigs, x ≠ 0) ∧
      b.strings.length ≤ 1 ∧ b.desigs.length ≤ 1 ∧ (∀ x ∈ b.strings, x ≠ 0) ∧ ∀ x ∈ b.desigs, x ≠ 0) := by
  have hd := hm.1
  have hd' : b.cls.isData = true := by rw [hm.2.1]; exact hd
  have hc := const_mergeable hm
  rcases ha with ⟨h, -⟩ | ⟨-, a1, a2, a3⟩ | ⟨-, a1, a2, a3, a4, a5, a6, a7⟩
  · rw [hd] at h; simp at h
  · rcases hb with ⟨h, -⟩ | ⟨-, b1, b2, b3⟩ | ⟨-, b1, -⟩
    · rw [hd'] at h; simp at h
    · exact Or.inl ⟨a1, a2, b2, b3⟩
    · rw [a1, b1] at hc; simp at hc
  · rcases hb with ⟨h, -⟩ | ⟨-, b1, b2, b3⟩ | ⟨-, b1, b2, b3, b4, b5, b6, b7⟩
    · rw [hd'] at h; simp at h
    · rw [a1, b1] at hc; simp at hc
    · exact Or.inr ⟨a1, b1, b2, a3, b3, a4, a5, a6, a7, b4, b5, b6, b7⟩

theorem join_merge {a b : MainRec} (ha : RecShape a) (hb : RecShape b) (rest : List Event)
    (h : alikeJoin (a.events ++ (b.events ++ rest)) = true) : MergeOK a b := by
  intro hm
  have hd := hm.1
  have hd' : b.cls.isData = true := by rw [hm.2.1]; exact hd
  rcases shape_mergeable ha hb hm with ⟨h1, -, -, h4⟩ | ⟨a1, b1, bn, a3, b3, a4, a5, a6, a7, b4, b5, b6, b7⟩
  · exact ⟨h4, Or.inl h1⟩
  · refine ⟨by rw [bn]; decide, Or.inr ?_⟩
    have hvar : b.isVar = a.isVar := by unfold MainRec.isVar; rw [hm.2.2.1]
    rw [one_event hd a1 hm.2.2.2.2, one_event hd' b1 bn] at h
    simp only [List.cons_append, List.nil_append, alikeJoin, neighbours, Bool.and_eq_true] at h
    have h := h.1
    rw [alike_refl hm, Bool.not_true, Bool.false_or, Event.joins] at h
    by_cases hv : a.val / 2 % 2 = 1
    · rw [if_pos hv] at h
      have hva : a.isVar = true := by simp [MainRec.isVar, hv]
      have hvb : b.isVar = true := by rw [hvar]; exact hva
      simp only [MainRec.what, hva, hvb, if_true, List.all_cons, List.all_nil, Bool.and_true, Selector.similar,
        MainRec.selector, Bool.and_eq_true] at h
      exact Or.inl ⟨hva, joinable_usage (a3 hva) (b3 hvb) h.1.1, joinable_idx a4 b4 a6 b6 h.1.2, joinable_idx a5 b5 a7 b7 h.2⟩
    · rw [if_neg hv] at h
      have hva : a.isVar = false := by simp [MainRec.isVar, hv]
      have hvb : b.isVar = false := by rw [hvar]; exact hva
      simp only [MainRec.what, hva, hvb, Bool.false_eq_true, if_false, Bool.and_eq_true, List.isEmpty_iff, List.map_eq_nil_iff,
        List.range_eq_nil, List.length_eq_zero_iff] at h
      exact Or.inr ⟨hva, h.1, h.2⟩

theorem events_merge (rs : List MainRec) (hs : ∀ r ∈ rs, RecShape r) (h : alikeJoin (rs.flatMap MainRec.events) = true) :
    mergeSafe rs = true := by
  induction rs with
  | nil => rfl
  | cons a rs ih =>
    cases rs with
    | nil => rfl
    | cons b rs =>
      rw [mergeSafe, Bool.and_eq_true, decide_eq_true_eq]
      refine ⟨join_merge (hs a (by simp)) (hs b (by simp)) (rs.flatMap MainRec.events) (by simpa using h), ?_⟩
      refine ih (fun r hr => hs r (by simp [hr])) ?_
      rw [List.flatMap_cons] at h
      exact neighbours_tail h

theorem page_merge {a b : MainRec} (ha : RecShape a) (hb : RecShape b) (rest : List Event)
    (hj : alikeJoin (a.events ++ (b.events ++ rest)) = true)
    (h : neighbours (fun e f => !e.alike f || commonPage (e.usages ++ f.usages)) (a.events ++ (b.events ++ rest)) = true) :
    PageOK a b := by
  intro hm
  have hd := hm.1
  have hd' : b.cls.isData = true := by rw [hm.2.1]; exact hd
  rcases shape_mergeable ha hb hm with ⟨h1, h2, h3, h4⟩ | ⟨a1, b1, bn, a3, b3, -⟩
  · rw [h2, h3]; exact ⟨onPage_nil, Iff.rfl⟩
  · constructor
    · rw [one_event hd a1 hm.2.2.2.2, one_event hd' b1 bn] at h
      simp only [List.cons_append, List.nil_append, neighbours, Bool.and_eq_true] at h
      have h := h.1
      rw [alike_refl hm, Bool.not_true, Bool.false_or, Event.usages, Event.usages, what_usages a3, what_usages b3] at h
      exact (samePage_iff _).1 h
    · have := join_merge ha hb rest hj hm
      rcases this.2 with h | ⟨-, h, -⟩ | ⟨-, h1, h2⟩
      · rw [a1] at h; simp at h
      · rcases h with ⟨h1, h2⟩ | ⟨h1, h2⟩
        · simp [h1, h2]
        · constructor
          · intro e; rw [e] at h1; simp at h1
          · intro e; exact absurd e h2
      · simp [h1, h2]

theorem events_pages (rs : List MainRec) (hs : ∀ r ∈ rs, RecShape r) (hj : alikeJoin (rs.flatMap MainRec.events) = true)
    (h : alikePages (rs.flatMap MainRec.events) = true) : PagesSafe rs := by
  unfold alikePages at h
  rw [Bool.and_eq_true] at h
  obtain ⟨h1, h2⟩ := h
  induction rs with
  | nil => trivial
  | cons a rs ih =>
    have ha := hs a (by simp)
    rw [List.flatMap_cons] at hj h1 h2
    rw [List.all_append, Bool.and_eq_true] at h1
    refine ⟨?_, ?_, ih (fun r hr => hs r (by simp [hr])) (neighbours_tail hj) h1.2 (neighbours_tail h2)⟩
    · rcases ha with ⟨-, h⟩ | ⟨-, -, h, -⟩ | ⟨hd, hc, hn, hv, -⟩
      · exact onPage_short h
      · rw [h]; exact onPage_nil
      · have := h1.1
        rw [one_event hd hc hn] at this
        simp only [List.all_cons, List.all_nil, Bool.and_true, Event.usages, what_usages hv] at this
        exact (samePage_iff _).1 this
    · intro b hb
      cases rs with
      | nil => simp at hb
      | cons c rs =>
        simp at hb; subst hb
        rw [List.flatMap_cons] at hj h2
        exact page_merge ha (hs c (by simp)) _ hj h2

end Hrdc
