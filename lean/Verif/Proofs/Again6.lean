import Verif.Proofs.Again5
/-!
# When there is a third rebuild
-/
namespace Hrdc.Thrice
open Spec

/-! ## The tree is there once a collection was closed -/

theorem next_tree {known : Int → Bool} {s s' : Rooms} {r : MainRec} (h : s.next known r = .ok s') :
    (s.tree ≠ none → s'.tree ≠ none) ∧ (r.cls ≠ .endCollection → s'.tree = s.tree) := by
  have hf : ∀ {s'}, s.fields r = .ok s' → s'.tree = s.tree := by
    intro s' h
    unfold Rooms.fields at h
    split at h
    · simp at h
    · simp only [Except.ok.injEq] at h; subst h; rfl
  have hn : ∀ {s'} {p o}, s.named p o r = .ok s' → s'.tree = s.tree := by
    intro s' p o h
    unfold Rooms.named at h
    split at h
    · simp at h
    · split at h
      · simp at h
      · simp only [Except.ok.injEq] at h; subst h; rfl
  have hc : ∀ {t : Rooms}, t.tree = s.tree → s.tree ≠ none → t.closed.tree ≠ none := by
    intro t ht h0
    unfold Rooms.closed
    split
    · simp
    · rwa [ht]
  unfold Rooms.next at h
  split at h
  · simp only [Except.ok.injEq] at h; subst h; exact ⟨id, fun _ => rfl⟩
  · rename_i he
    refine ⟨fun h0 => ?_, fun h' => absurd he h'⟩
    split at h
    · simp only [Except.ok.injEq] at h; subst h; exact hc rfl h0
    · split at h
      · simp at h
      · simp only [Except.ok.injEq] at h; subst h; exact hc rfl h0
  · have : s'.tree = s.tree := by
      split at h
      · split at h
        · simp at h
        · split at h
          · simp at h
          · exact hn h
          · exact hf h
      · exact hf h
    exact ⟨fun h0 => by rwa [this], fun _ => this⟩

theorem read_tree {known : Int → Bool} (rs : List MainRec) : ∀ {s s' : Rooms}, s.read known rs = .ok s' →
    (s.tree ≠ none → s'.tree ≠ none) ∧ ((∀ r ∈ rs, r.cls ≠ .endCollection) → s'.tree = s.tree) := by
  induction rs with
  | nil =>
    intro s s' h
    simp only [Rooms.read, Except.ok.injEq] at h
    subst h
    exact ⟨id, fun _ => rfl⟩
  | cons r rs ih =>
    intro s s' h
    rw [Rooms.read] at h
    split at h
    · simp at h
    · rename_i s1 h1
      have k := next_tree h1
      have g := ih h
      exact ⟨fun h0 => g.1 (k.1 h0), fun hr => (g.2 (fun x hx => hr x (List.mem_cons_of_mem _ hx))).trans
        (k.2 (hr r List.mem_cons_self))⟩

theorem mains_ends (xs : List SItem) (h : ∀ x ∈ xs, x.1 ≠ .endCollection) : ∀ rd, ∀ r ∈ mainsOf rd xs, r.cls ≠ .endCollection := by
  induction xs with
  | nil => intro rd r hr; simp [mainsOf] at hr
  | cons x xs ih =>
    intro rd r hr
    rw [mainsOf, List.mem_append] at hr
    rcases hr with hr | hr
    · split at hr
      · simp only [List.mem_singleton] at hr
        subst hr
        exact h x List.mem_cons_self
      · simp at hr
    · exact ih (fun y hy => h y (List.mem_cons_of_mem _ hy)) _ r hr

/-- Ends of collections among elements. -/
def shuts : Block → Bool
  | .leave => true
  | .value f => f.inside.isSome
  | _ => false

theorem calm_split {known : Int → Bool} {a : Around} {bs : List Block} (h : Calm known a bs) (hs : bs.any shuts = true) :
    ∃ A B, bs = A ++ B ∧ Calm known a A ∧ shut A = true := by
  have keep : ∀ {x : List Block} {r : List Block}, (∃ A B, r = A ++ B ∧ Calm known a A ∧ shut A = true) →
      (∀ A, Calm known a A → Calm known a (x ++ A)) → ∃ A B, x ++ r = A ++ B ∧ Calm known a A ∧ shut A = true := by
    rintro x r ⟨A, B, rfl, h1, h2⟩ hx
    refine ⟨x ++ A, B, by rw [List.append_assoc], hx A h1, ?_⟩
    rw [shut_append (shut_ne h2)]
    exact h2
  induction h with
  | nil a => simp at hs
  | pad a w i n r hw hn _ ih =>
    exact keep (x := [_]) (ih (by simpa [shuts] using hs) keep) (fun A hA => .pad a w i n A hw hn hA)
  | value a f r hf _ ih =>
    exact keep (x := [_]) (ih (by simpa [shuts, hf.inside] using hs) keep) (fun A hA => .value a f A hf hA)
  | array a f u r hf hi _ ih =>
    exact ⟨[.value f], r, rfl, .array a f u [] hf hi (.nil a), by simp [shut, hi]⟩
  | coll a k u l r hl h1 _ _ ih =>
    refine ⟨.enter k (some u) :: l ++ [.leave], r, by simp, .coll a k u l [] hl h1 (.nil a), ?_⟩
    rw [shut_append (by simp)]
    rfl

theorem written_ends (bs : List Block) : ∀ c cur d, (∃ x ∈ written c cur d bs, x.1 = .endCollection) → bs.any shuts = true ∨
    ∃ b ∈ bs, ¬TidyB b := by
  induction bs with
  | nil => rintro c cur d ⟨x, hx, -⟩; simp [written] at hx
  | cons b r ih =>
    intro c cur d h
    have ih : ∀ c cur d, (∃ x ∈ written c cur d r, x.1 = .endCollection) → (b :: r).any shuts = true ∨ ∃ y ∈ b :: r, ¬TidyB y := by
      intro c cur d h
      rcases ih c cur d h with k | ⟨y, hy, k⟩
      · left; simp [k]
      · right; exact ⟨y, List.mem_cons_of_mem _ hy, k⟩
    have hbeg : ∀ cur i, ∀ x ∈ begins cur i, x.1 ≠ .endCollection := by
      intro cur i x hx
      unfold begins at hx
      split at hx
      · simp at hx
      · simp only [List.mem_singleton] at hx; subst hx; simp
    have hpad : ∀ w n, w.isData = true → ∀ x ∈ padItems w n, x.1 ≠ .endCollection := by
      intro w n hw x hx
      unfold padItems at hx
      split at hx
      · simp at hx
      · simp only [List.mem_cons, List.not_mem_nil, or_false] at hx
        rcases hx with rfl | rfl | rfl
        · simp
        · simp
        · intro h; simp only at h; rw [h] at hw; simp [Cls.isData] at hw
    by_cases ht : TidyB b
    rotate_left
    · exact .inr ⟨b, List.mem_cons_self, ht⟩
    cases b with
    | leave => left; simp [shuts]
    | enter k u =>
      obtain ⟨x, hx, he⟩ := h
      cases d with
      | zero =>
        simp only [written] at hx
        split at hx
        · rename_i i hi
          simp only [List.mem_append, List.mem_cons, List.not_mem_nil, or_false] at hx
          rcases hx with (hx | rfl | rfl) | hx
          · exact absurd he (hbeg _ _ x hx)
          · simp at he
          · simp at he
          · exact ih _ _ _ ⟨x, hx, he⟩
        · simp only [List.mem_append, List.mem_cons, List.not_mem_nil, or_false] at hx
          rcases hx with (rfl | rfl) | hx
          · simp at he
          · simp at he
          · exact ih _ _ _ ⟨x, hx, he⟩
      | succ d =>
        simp only [written, List.mem_append, List.mem_cons, List.not_mem_nil, or_false] at hx
        rcases hx with (rfl | rfl) | hx
        · simp at he
        · simp at he
        · exact ih _ _ _ ⟨x, hx, he⟩
    | pad w i n =>
      obtain ⟨x, hx, he⟩ := h
      rw [written] at hx
      simp only [List.mem_append] at hx
      rcases hx with (hx | hx) | hx
      · exact absurd he (hbeg _ _ x hx)
      · exact absurd he (hpad _ _ ht x hx)
      · exact ih _ _ _ ⟨x, hx, he⟩
    | value f =>
      obtain ⟨x, hx, he⟩ := h
      rw [written] at hx
      simp only [List.mem_append] at hx
      have hw := tidy_way ht
      rcases hx with ((hx | hx) | hx) | hx
      · exact absurd he (hbeg _ _ x hx)
      · exact absurd he (hpad _ _ hw x hx)
      · cases hi : f.inside with
        | some u => left; simp [shuts, hi]
        | none =>
          exfalso
          have hd : ∀ x ∈ f.dataItems, x.1 ≠ .endCollection := by
            intro x hx
            unfold Fields.dataItems markItem at hx
            simp only [List.mem_append, List.mem_cons, List.not_mem_nil, or_false] at hx
            have hm : ∀ (p : Prop) [Decidable p] (c : Cls) (n : Int), c ≠ .endCollection → x ∈ (if p then [] else [(c, n)]) → x.1 ≠ .endCollection := by
              intro p _ c n hc hx
              split at hx
              · simp at hx
              · simp only [List.mem_singleton] at hx; subst hx; exact hc
            rcases hx with (((rfl | rfl | rfl | rfl) | hx) | hx) | (rfl | rfl | rfl)
            iterate 4 simp
            · exact hm _ _ _ (by simp) hx
            · exact hm _ _ _ (by simp) hx
            · simp
            · simp
            · intro h; simp only at h; rw [h] at hw; simp [Cls.isData] at hw
          have hb : ∀ x ∈ f.bounds, x.1 ≠ .endCollection := by
            intro x hx
            unfold Fields.bounds at hx
            split at hx <;> simp only [List.mem_cons, List.not_mem_nil, or_false] at hx <;> rcases hx with rfl | rfl <;> simp
          have hu : ∀ x ∈ f.usageItems, x.1 ≠ .endCollection := by
            intro x hx
            unfold Fields.usageItems at hx
            simp only [List.mem_map] at hx
            obtain ⟨y, -, rfl⟩ := hx
            simp
          unfold Fields.items at hx
          simp only [hi] at hx
          split at hx <;> simp only [List.mem_append] at hx <;> rcases hx with (hx | hx) | hx
          · exact hb x hx he
          · exact hu x hx he
          · exact hd x hx he
          · exact hu x hx he
          · exact hb x hx he
          · exact hd x hx he
      · exact ih _ _ _ ⟨x, hx, he⟩

/-! ## What is read can be compiled -/

theorem expand_compiles (known : Int → Bool) (bs : List Block) (h : bs.all Block.compiles = true) :
    ∀ c, (expand known c bs).all Block.compiles = true := by
  induction bs with
  | nil => intro c; rfl
  | cons b r ih =>
    simp only [List.all_cons, Bool.and_eq_true] at h
    have ih := ih h.2
    intro c
    cases b with
    | enter k u => simp [expand, h.1, ih]
    | leave => simp [expand, h.1, ih]
    | pad w i n => simp only [expand, List.all_cons, h.1, ih, Bool.and_true]
    | value f =>
      have hf : f.id < 256 := by simpa [Block.compiles] using h.1
      simp only [expand, List.all_append, ih, Bool.and_true, Bool.and_eq_true]
      constructor
      · unfold padB
        split
        · rfl
        · simp [Block.compiles, hf]
      · unfold shownB
        split
        · simp [h.1]
        · split
          · simp [h.1]
          · simp [Block.compiles, firstOf, plainF, hf]

/-- There is a third rebuild exactly when a collection is left after the second. -/
theorem goes_on {known : Int → Bool} {xs r1 r2 : List SItem} (h1 : rewritten known xs = some r1)
    (h2 : rewritten known r1 = some r2) : (∃ r3, rewritten known r2 = some r3) ↔ ∃ x ∈ r2, x.1 = .endCollection := by
  have un : ∀ {ys r}, rewritten known ys = some r → ∃ bs, blocks known ys = .ok bs ∧ bs.all Block.compiles = true ∧
      r = written (fun _ _ => 0) none 0 bs := by
    intro ys r h
    unfold rewritten at h
    split at h
    · simp at h
    · rename_i bs hb
      split at h
      · rename_i hc
        exact ⟨bs, hb, hc, by simpa using h.symm⟩
      · simp at h
  obtain ⟨b0, k0, -, rfl⟩ := un h1
  obtain ⟨b1, k1, c1, rfl⟩ := un h2
  obtain ⟨q1, i1⟩ := calm_of_blocks (tidy_of_blocks k0) k1
  obtain ⟨s1, e1, g1⟩ := calm_blocks q1 i1
  constructor
  · rintro ⟨r3, h3⟩
    obtain ⟨b2, k2, -, -⟩ := un h3
    refine Classical.byContradiction (fun hn => ?_)
    have := (read_tree _ e1).2 (mains_ends _ (fun x hx he => hn ⟨x, hx, he⟩) _)
    unfold blocks at k2
    rw [e1] at k2
    simp only [this] at k2
    simp at k2
  · intro he
    have hs : b1.any shuts = true := by
      rcases written_ends b1 _ _ _ he with k | ⟨b, hb, k⟩
      · exact k
      · exact absurd (tidy_of_blocks k1 b hb) k
    obtain ⟨A, B, rfl, hA, hsA⟩ := calm_split q1 hs
    obtain ⟨cur', rd', F', s', -, -, m3, m4⟩ := calm_reads hA B (fun _ _ => 0) none 0 {} 0 {} clean_start
      ⟨by simp, by simpa using i1, fun i _ h => absurd rfl h⟩ trivial rfl
    have ht : s1.tree ≠ none := by
      rw [m4] at e1
      apply (read_tree _ e1).1
      rw [m3.closes rfl hsA]
      simp
    rcases g1.tree rfl with k | ⟨P, Q, p1, p2, p3⟩
    · exact absurd k ht
    · have hc := expand_compiles known _ c1 (fun _ _ => 0)
      rw [p1, List.all_append, Bool.and_eq_true] at hc
      refine ⟨written (fun _ _ => 0) none 0 P, ?_⟩
      have hb : blocks known (written (fun _ _ => 0) none 0 (A ++ B)) = .ok P := by
        unfold blocks
        rw [e1]
        simp only [p3]
        rfl
      unfold rewritten
      rw [hb]
      simp only [hc.1, if_true]

end Hrdc.Thrice
