import Verif.Proofs.Again6
/-!
# The third rebuild has no items but those of the second, and padding
-/
namespace Hrdc.Thrice
open Spec

/-- True of the items rebuilding may add. -/
structure Small (Q : SItem → Prop) : Prop where
  count : Q (.reportCount, 1)
  size : ∀ g : Int, 0 ≤ g → g < 8 → Q (.reportSize, g)
  pad : ∀ w : Cls, w.isData = true → Q (w, 3)
  shut : Q (.endCollection, 0)

/-- True of the items of an element. -/
def BlockQ (Q : SItem → Prop) : Block → Prop
  | .enter k u => Q (.usage, u.getD 0) ∧ Q (.collection, k)
  | .leave => True
  | .pad w _ n => ∀ x ∈ padItems w n, Q x
  | .value f => ∀ x ∈ f.items, Q x

theorem gap_lt (f : Fields) (c : Int) : f.gap c < 8 := by
  unfold Fields.gap
  split
  · rename_i h
    have := Int.emod_lt_of_pos (-c) (b := min 8 f.attrs.size) (by omega)
    omega
  · omega

theorem small_pad {Q : SItem → Prop} (hQ : Small Q) {w : Cls} (hw : w.isData = true) {g : Int} (h0 : 0 ≤ g) (h8 : g < 8) :
    ∀ x ∈ padItems w g, Q x := by
  intro x hx
  unfold padItems at hx
  split at hx
  · simp at hx
  · simp only [List.mem_cons, List.not_mem_nil, or_false] at hx
    rcases hx with rfl | rfl | rfl
    · exact hQ.count
    · exact hQ.size g h0 h8
    · exact hQ.pad w hw

theorem begins_id {Q : SItem → Prop} {cur : Option Int} {i : Int} (h : ∀ x ∈ begins cur i, Q x)
    (hc : ∀ j, cur = some j → j = 0 ∨ Q (.reportID, j)) : i = 0 ∨ Q (.reportID, i) := by
  unfold begins at h
  split at h
  · rename_i hh
    rcases hh with hh | hh
    · exact hc i hh
    · exact .inl hh
  · exact .inr (h _ (by simp))

theorem begins_of {Q : SItem → Prop} {cur : Option Int} {i : Int} (h : i = 0 ∨ Q (.reportID, i)) : ∀ x ∈ begins cur i, Q x := by
  intro x hx
  unfold begins at hx
  split at hx
  · simp at hx
  · rename_i hh
    simp only [List.mem_singleton] at hx
    subst hx
    exact h.resolve_left (fun h0 => hh (.inr h0))

theorem all_app {Q : SItem → Prop} {a b : List SItem} (h : ∀ x ∈ a ++ b, Q x) : (∀ x ∈ a, Q x) ∧ ∀ x ∈ b, Q x :=
  ⟨fun x hx => h x (List.mem_append_left _ hx), fun x hx => h x (List.mem_append_right _ hx)⟩

theorem app_all {Q : SItem → Prop} {a b : List SItem} (h : ∀ x ∈ a, Q x) (h' : ∀ x ∈ b, Q x) : ∀ x ∈ a ++ b, Q x := by
  intro x hx
  rcases List.mem_append.1 hx with hx | hx
  · exact h x hx
  · exact h' x hx

/-- What is true of the items written is true of the elements. -/
theorem of_written {Q : SItem → Prop} (bs : List Block) : ∀ c cur d, (∀ j, cur = some j → j = 0 ∨ Q (.reportID, j)) →
    (∀ x ∈ written c cur d bs, Q x) → (∀ b ∈ bs, BlockQ Q b) ∧ ∀ i ∈ reportsIn bs, i = 0 ∨ Q (.reportID, i) := by
  induction bs with
  | nil => intro c cur d _ _; simp [reportsIn]
  | cons b r ih =>
    intro c cur d hc h
    have done : ∀ {c cur d}, (∀ j, cur = some j → j = 0 ∨ Q (.reportID, j)) → (∀ x ∈ written c cur d r, Q x) → BlockQ Q b →
        (∀ i ∈ reportsIn [b], i = 0 ∨ Q (.reportID, i)) →
        (∀ x ∈ b :: r, BlockQ Q x) ∧ ∀ i ∈ reportsIn (b :: r), i = 0 ∨ Q (.reportID, i) := by
      intro c cur d hc h hb hi
      obtain ⟨k1, k2⟩ := ih c cur d hc h
      refine ⟨fun x hx => ?_, fun i hx => ?_⟩
      · rcases List.mem_cons.1 hx with rfl | hx
        · exact hb
        · exact k1 x hx
      · have e : reportsIn (b :: r) = reportsIn [b] ++ reportsIn r := by cases b <;> simp [reportsIn]
        rw [e, List.mem_append] at hx
        rcases hx with hx | hx
        · exact hi i hx
        · exact k2 i hx
    have some_ok : ∀ {i}, (i = 0 ∨ Q (.reportID, i)) → ∀ j, some i = some j → j = 0 ∨ Q (.reportID, j) := by
      intro i hi j hj
      simp only [Option.some.injEq] at hj
      subst hj
      exact hi
    cases b with
    | enter k u =>
      have head : ∀ {w : List SItem}, (∀ x ∈ [((.usage, u.getD 0) : SItem), (.collection, k)] ++ w, Q x) →
          BlockQ Q (.enter k u) ∧ ∀ x ∈ w, Q x := by
        intro w h
        exact ⟨⟨h _ (by simp), h _ (by simp)⟩, (all_app h).2⟩
      cases d with
      | zero =>
        simp only [written] at h
        split at h
        · rename_i i hi
          rw [List.append_assoc] at h
          obtain ⟨h1, h2⟩ := all_app h
          obtain ⟨h3, h4⟩ := head h2
          exact done (some_ok (begins_id h1 hc)) h4 h3 (by simp [reportsIn])
        · obtain ⟨h3, h4⟩ := head h
          exact done (by simp) h4 h3 (by simp [reportsIn])
      | succ d =>
        simp only [written] at h
        obtain ⟨h3, h4⟩ := head h
        exact done hc h4 h3 (by simp [reportsIn])
    | leave =>
      cases d with
      | zero =>
        simp only [written] at h
        exact done (cur := none) (by simp) (fun x hx => h x (List.mem_cons_of_mem _ hx)) trivial (by simp [reportsIn])
      | succ d =>
        simp only [written] at h
        exact done hc (fun x hx => h x (List.mem_cons_of_mem _ hx)) trivial (by simp [reportsIn])
    | pad w i n =>
      rw [written] at h
      obtain ⟨h1, h2⟩ := all_app h
      obtain ⟨h3, h4⟩ := all_app h1
      have hi := begins_id h3 hc
      exact done (some_ok hi) h2 h4 (by simpa [reportsIn] using hi)
    | value f =>
      rw [written] at h
      obtain ⟨h1, h2⟩ := all_app h
      obtain ⟨h3, h4⟩ := all_app h1
      obtain ⟨h5, h6⟩ := all_app h3
      have hi := begins_id h5 hc
      exact done (some_ok hi) h2 h4 (by simpa [reportsIn] using hi)

/-- What is true of elements is true of the items written. -/
theorem to_written {Q : SItem → Prop} (hQ : Small Q) (bs : List Block) (ht : ∀ b ∈ bs, TidyB b) (hb : ∀ b ∈ bs, BlockQ Q b)
    (hi : ∀ i ∈ reportsIn bs, i = 0 ∨ Q (.reportID, i)) : ∀ c cur d, ∀ x ∈ written c cur d bs, Q x := by
  induction bs with
  | nil => intro c cur d x hx; simp [written] at hx
  | cons b r ih =>
    have ih := ih (fun x hx => ht x (List.mem_cons_of_mem _ hx)) (fun x hx => hb x (List.mem_cons_of_mem _ hx))
      (fun i h => hi i (by cases b <;> simp [reportsIn, h]))
    have hb := hb b List.mem_cons_self
    have ht := ht b List.mem_cons_self
    intro c cur d
    cases b with
    | enter k u =>
      have hh : ∀ x ∈ [((.usage, u.getD 0) : SItem), (.collection, k)], Q x := by
        intro x hx
        simp only [List.mem_cons, List.not_mem_nil, or_false] at hx
        rcases hx with rfl | rfl
        · exact hb.1
        · exact hb.2
      cases d with
      | zero =>
        simp only [written]
        split
        · rename_i i ho
          obtain ⟨t, ht⟩ := only_first ho
          have := hi i (by simp [reportsIn, ht])
          exact app_all (app_all (begins_of this) hh) (ih _ _ _)
        · exact app_all hh (ih _ _ _)
      | succ d =>
        simp only [written]
        exact app_all hh (ih _ _ _)
    | leave =>
      intro x hx
      cases d with
      | zero =>
        simp only [written, List.mem_cons] at hx
        rcases hx with rfl | hx
        · exact hQ.shut
        · exact ih _ _ _ x hx
      | succ d =>
        simp only [written, List.mem_cons] at hx
        rcases hx with rfl | hx
        · exact hQ.shut
        · exact ih _ _ _ x hx
    | pad w i n =>
      rw [written]
      exact app_all (app_all (begins_of (hi i (by simp [reportsIn]))) hb) (ih _ _ _)
    | value f =>
      rw [written]
      exact app_all (app_all (app_all (begins_of (hi f.id (by simp [reportsIn])))
        (small_pad hQ (tidy_way ht) (gap_nonneg _ _) (gap_lt _ _))) hb) (ih _ _ _)

theorem first_items {f : Fields} {u : Int} (h : Tidy f) (hi : f.inside = some u) : ∀ x ∈ (firstOf f).items, x ∈ f.items := by
  cases h with
  | plain way id flags attrs v count m hw ha hf hn => simp [plainF] at hi
  | array way id size lo hh l inside m hw hl hf =>
    have hi : inside = some u := hi
    subst hi
    intro x hx
    have e : (firstOf (arrayF way id size lo hh l (some u) m)).usageItems = (l.head?.toList).map (fun u => (.usage, u)) := by
      show ((us (plainF _ _ _ _ _ _ _)).map _ : List SItem) = _
      rw [us_plain, us_array]
    have e' : (arrayF way id size lo hh l (some u) m).usageItems = l.map (fun u => (.usage, u)) := by
      show ((us (arrayF _ _ _ _ _ _ _ _)).map _ : List SItem) = _
      rw [us_array]
    have e2 : (firstOf (arrayF way id size lo hh l (some u) m)).items =
        (firstOf (arrayF way id size lo hh l (some u) m)).usageItems ++ [(.physMin, 0), (.physMax, 0)] ++
          (arrayF way id size lo hh l (some u) m).dataItems := by
      simp [Fields.items, firstOf, plainF, arrayF, Fields.bounds, Fields.dataItems]
    have e3 : (arrayF way id size lo hh l (some u) m).items = (.usage, u) :: [(.physMin, 0), (.physMax, 0)] ++ (.collection, 2) ::
        (arrayF way id size lo hh l (some u) m).usageItems ++ (arrayF way id size lo hh l (some u) m).dataItems ++
          [(.endCollection, 0)] := by
      simp [Fields.items, arrayF, Fields.bounds]
    rw [e2, e] at hx
    rw [e3, e']
    simp only [List.mem_append, List.mem_map, Option.mem_toList] at hx
    rcases hx with (⟨v, hv, rfl⟩ | hx) | hx
    · have : v ∈ l := List.mem_of_head? hv
      simp [this]
    · simp only [List.mem_cons, List.not_mem_nil, or_false] at hx
      rcases hx with rfl | rfl <;> simp
    · simp [hx]

/-- What is true of elements is true of them as they are read again. -/
theorem expand_q {Q : SItem → Prop} (hQ : Small Q) (known : Int → Bool) (bs : List Block) (ht : ∀ b ∈ bs, TidyB b)
    (hb : ∀ b ∈ bs, BlockQ Q b) : ∀ c, (∀ b ∈ expand known c bs, TidyB b ∧ BlockQ Q b) ∧
      ∀ i ∈ reportsIn (expand known c bs), i ∈ reportsIn bs := by
  induction bs with
  | nil => intro c; simp [expand, reportsIn]
  | cons b r ih =>
    have ih := ih (fun x hx => ht x (List.mem_cons_of_mem _ hx)) (fun x hx => hb x (List.mem_cons_of_mem _ hx))
    have hb := hb b List.mem_cons_self
    have ht := ht b List.mem_cons_self
    intro c
    have one : ∀ c, (∀ x ∈ b :: expand known c r, TidyB x ∧ BlockQ Q x) ∧
        ∀ i ∈ reportsIn (b :: expand known c r), i ∈ reportsIn (b :: r) := by
      intro c
      refine ⟨fun x hx => ?_, fun i h => ?_⟩
      · rcases List.mem_cons.1 hx with rfl | hx
        · exact ⟨ht, hb⟩
        · exact (ih c).1 x hx
      · have h2 := (ih c).2
        cases b <;> simp only [reportsIn, List.mem_cons] at h ⊢
        · exact h2 i h
        · exact h2 i h
        · exact h.imp id (h2 i)
        · exact h.imp id (h2 i)
    cases b with
    | enter k u => exact one c
    | leave => exact one c
    | pad w i n => exact one _
    | value f =>
      rw [expand]
      generalize hg : f.gap (c f.way f.id) = g
      have g0 : 0 ≤ g := hg ▸ gap_nonneg _ _
      have g8 : g < 8 := hg ▸ gap_lt _ _
      generalize c.add f.way f.id (g + f.attrs.size) = c'
      have hp : (∀ x ∈ padB f.way f.id g, TidyB x ∧ BlockQ Q x) ∧ ∀ i ∈ reportsIn (padB f.way f.id g), i = f.id := by
        unfold padB
        split
        · simp [reportsIn]
        · refine ⟨fun x hx => ?_, fun i hx => by simpa [reportsIn] using hx⟩
          simp only [List.mem_singleton] at hx
          subst hx
          have e : ((g.toNat : Nat) : Int) = g := by omega
          refine ⟨tidy_way ht, ?_⟩
          show ∀ x ∈ padItems f.way ((g.toNat : Nat) : Int), Q x
          rw [e]
          exact small_pad hQ (tidy_way ht) g0 g8
      have hs : (∀ x ∈ shownB known f, TidyB x ∧ BlockQ Q x) ∧ ∀ i ∈ reportsIn (shownB known f), i = f.id := by
        unfold shownB
        split
        · simp only [List.mem_singleton, reportsIn]
          exact ⟨fun x hx => by subst hx; exact ⟨ht, hb⟩, fun i hx => hx⟩
        · rename_i u hu
          split
          · simp only [List.mem_singleton, reportsIn]
            exact ⟨fun x hx => by subst hx; exact ⟨ht, hb⟩, fun i hx => hx⟩
          · refine ⟨fun x hx => ?_, fun i hx => ?_⟩
            · simp only [List.mem_cons, List.not_mem_nil, or_false] at hx
              have hall : ∀ y ∈ f.items, Q y := hb
              rcases hx with rfl | rfl | rfl
              · refine ⟨trivial, hall _ ?_, hall _ ?_⟩ <;> simp [Fields.items, hu]
              · refine ⟨?_, fun y hy => hall y (first_items ht hu y hy)⟩
                have hF : Tidy f := ht
                show Tidy (firstOf f)
                cases hF with
                | plain way id flags attrs v count m hw ha hf hn => simp [plainF] at hu
                | array way id size lo hh l inside m hw hl hf =>
                  exact .plain _ _ _ _ _ _ _ hw (fun h1 h2 => ⟨h1, h2⟩) (by decide) (.inl rfl)
              · exact ⟨trivial, trivial⟩
            · simp only [reportsIn, List.mem_singleton] at hx
              exact hx
      refine ⟨fun x hx => ?_, fun i hx => ?_⟩
      · simp only [List.mem_append] at hx
        rcases hx with hx | hx | hx
        · exact hp.1 x hx
        · exact hs.1 x hx
        · exact (ih c').1 x hx
      · rw [reports_append, reports_append] at hx
        simp only [List.mem_append] at hx
        simp only [reportsIn, List.mem_cons]
        rcases hx with hx | hx | hx
        · exact .inl (hp.2 i hx)
        · exact .inl (hs.2 i hx)
        · exact .inr ((ih c').2 i hx)

/-- The third rebuild has items of the second, but for padding. -/
theorem adds_none {known : Int → Bool} {xs r1 r2 r3 : List SItem} {Q : SItem → Prop} (hQ : Small Q)
    (h1 : rewritten known xs = some r1) (h2 : rewritten known r1 = some r2) (h3 : rewritten known r2 = some r3)
    (h : ∀ x ∈ r2, Q x) : ∀ x ∈ r3, Q x := by
  have un : ∀ {ys r}, rewritten known ys = some r → ∃ bs, blocks known ys = .ok bs ∧ r = written (fun _ _ => 0) none 0 bs := by
    intro ys r h
    unfold rewritten at h
    split at h
    · simp at h
    · rename_i bs hb
      split at h
      · exact ⟨bs, hb, by simpa using h.symm⟩
      · simp at h
  obtain ⟨b0, k0, rfl⟩ := un h1
  obtain ⟨b1, k1, rfl⟩ := un h2
  obtain ⟨b2, k2, rfl⟩ := un h3
  obtain ⟨q1, i1⟩ := calm_of_blocks (tidy_of_blocks k0) k1
  obtain ⟨s1, e1, g1⟩ := calm_blocks q1 i1
  obtain ⟨m1, m2⟩ := of_written b1 _ none 0 (by simp) h
  obtain ⟨n1, n2⟩ := expand_q hQ known b1 (tidy_of_blocks k1) m1 (fun _ _ => 0)
  have hb2 : s1.tree = some b2 := by
    unfold blocks at k2
    rw [e1] at k2
    simp only at k2
    split at k2
    · simp at k2
    · rename_i bs hb
      simp only [Except.ok.injEq] at k2
      rw [← k2]
      exact hb
  rcases g1.tree rfl with k | ⟨P, R, p1, -, p3⟩
  · rw [hb2] at k; simp at k
  · rw [hb2] at p3
    simp only [List.nil_append, Option.some.injEq] at p3
    subst p3
    rw [p1] at n1 n2
    have n1 := fun b hb => n1 b (List.mem_append_left _ hb)
    refine to_written hQ _ (fun b hb => (n1 b hb).1) (fun b hb => (n1 b hb).2) (fun i hi => ?_) _ _ _
    exact m2 i (n2 i (by rw [reports_append]; exact List.mem_append_left _ hi))

end Hrdc.Thrice
