import Verif.Props.SizesExact
import Verif.Proofs.TreeKeys
import Verif.Props.Compile3
import Verif.Props.Merging
/-!
# Compiled descriptors have a report count in front of every data item

So the fields `MainMerge` still has to write at the end of a compiled stream have the report count they were given.
-/
namespace Hrdc
open Spec Optimizer Streamer

/-- Every data item follows a report count and a report size; `k` of these have been met. -/
def precounted (k : Nat) : List SItem → Bool
  | [] => true
  | x :: xs =>
    if x.1.isData then k == 2 && precounted 0 xs
    else if x.1 = .reportCount then precounted 1 xs
    else if x.1 = .reportSize ∧ k = 1 then precounted 2 xs
    else precounted 0 xs

theorem precounted_mono (xs : List SItem) : ∀ k, precounted 0 xs = true → precounted k xs = true := by
  induction xs with
  | nil => intros; rfl
  | cons x xs ih =>
    intro k h
    unfold precounted at h ⊢
    split
    · rename_i hd; rw [if_pos hd] at h; simp at h
    · rename_i hd
      rw [if_neg hd] at h
      split
      · rename_i hc; rw [if_pos hc] at h; exact h
      · rename_i hc
        rw [if_neg hc, if_neg (by simp)] at h
        split
        · exact ih _ h
        · exact h

theorem precounted_append (xs ys : List SItem) : ∀ k, precounted k xs = true → precounted 0 ys = true →
    precounted k (xs ++ ys) = true := by
  induction xs with
  | nil => intro k _ h; exact precounted_mono ys k h
  | cons x xs ih =>
    intro k h hy
    rw [List.cons_append]
    unfold precounted at h ⊢
    split
    · rename_i hd
      rw [if_pos hd, Bool.and_eq_true] at h
      rw [Bool.and_eq_true]
      exact ⟨h.1, ih _ h.2 hy⟩
    · rename_i hd
      rw [if_neg hd] at h
      split
      · rename_i hc; rw [if_pos hc] at h; exact ih _ h hy
      · rename_i hc
        rw [if_neg hc] at h
        split
        · rename_i hs; rw [if_pos hs] at h; exact ih _ h hy
        · rename_i hs; rw [if_neg hs] at h; exact ih _ h hy

theorem precounted_quiet (xs : List SItem) (h : ∀ x ∈ xs, x.1.isData = false) : ∀ k, precounted k xs = true := by
  induction xs with
  | nil => intros; rfl
  | cons x xs ih =>
    intro k
    have ih := ih fun y hy => h y (by simp [hy])
    unfold precounted
    rw [if_neg (by simp [h x (by simp)])]
    split
    · exact ih _
    · split <;> exact ih _

theorem precounted_filter (xs : List SItem) : ∀ k, precounted k xs = true →
    precounted k (xs.filter fun x => x.1.kind != .loc) = true := by
  induction xs with
  | nil => intros; rfl
  | cons x xs ih =>
    intro k h
    by_cases hl : x.1.kind = .loc
    · have : precounted 0 xs = true := by
        obtain ⟨c, v⟩ := x
        unfold precounted at h
        cases c <;> simp [Cls.kind] at hl <;> simpa [Cls.isData] using h
      rw [List.filter_cons_of_neg (by simp [hl])]
      exact precounted_mono _ k (ih 0 this)
    · rw [List.filter_cons_of_pos (by simpa using hl)]
      unfold precounted at h ⊢
      split
      · rename_i hd
        rw [if_pos hd, Bool.and_eq_true] at h
        rw [Bool.and_eq_true]
        exact ⟨h.1, ih _ h.2⟩
      · rename_i hd
        rw [if_neg hd] at h
        split
        · rename_i hc; rw [if_pos hc] at h; exact ih _ h
        · rename_i hc
          rw [if_neg hc] at h
          split
          · rename_i hs; rw [if_pos hs] at h; exact ih _ h
          · rename_i hs; rw [if_neg hs] at h; exact ih _ h

theorem tree_precounted (ts : List Tok) : ∀ (c : Count) (last : Int), precounted 0 (treeKeys c last ts) = true := by
  have field : ∀ (n s v : Int) (w : Way), precounted 0 [(.reportCount, n), (.reportSize, s), (w.cls, v)] = true := by
    intro n s v w
    cases w <;> rfl
  have val : ∀ v : Value, precounted 0 (valKeys v) = true := by
    intro v
    unfold valKeys
    split
    · exact field _ _ _ _
    · unfold fieldKeys
      have hl : ∀ (l : List Int) (x : SItem), x ∈ l.map (fun u => (Cls.usage, u)) → x.1.isData = false := by
        intro l x hx
        obtain ⟨u, -, rfl⟩ := List.mem_map.1 hx
        rfl
      have ho : ∀ (p : Bool) (c : Cls) (v : Int), c.isData = false → ∀ x ∈ (if p then [(c, v)] else []), x.1.isData = false := by
        intro p c v hc x hx
        cases p <;> simp at hx
        subst hx; exact hc
      have hi : ∀ (n : Int) (c : Cls), c.isData = false → ∀ x ∈ (if n = 0 then [] else [(c, n)]), x.1.isData = false := by
        intro n c hc x hx
        split at hx <;> simp at hx
        subst hx; exact hc
      refine precounted_append _ _ _ (precounted_append _ _ _ (precounted_append _ _ _ (precounted_append _ _ _ ?_ ?_) ?_)
        (precounted_append _ _ _ (precounted_append _ _ _ (precounted_append _ _ _ (precounted_append _ _ _ ?_ ?_) ?_) ?_) ?_)) ?_
      · exact precounted_quiet _ (hl _) _
      · rfl
      · exact precounted_quiet _ (ho _ _ _ rfl) _
      · exact precounted_quiet _ (hl _) _
      · rfl
      · exact precounted_quiet _ (hi _ _ rfl) _
      · exact precounted_quiet _ (hi _ _ rfl) _
      · exact field _ _ _ _
      · exact precounted_quiet _ (ho _ _ _ rfl) _
  induction ts with
  | nil => intros; rfl
  | cons t ts ih =>
    intro c last
    cases t with
    | report i =>
      rw [treeKeys]
      refine precounted_append _ _ _ ?_ (ih _ _)
      split <;> rfl
    | endReport => exact ih _ _
    | enter k u =>
      rw [treeKeys]
      exact precounted_append [_, _] _ _ rfl (ih _ _)
    | leave =>
      rw [treeKeys]
      exact precounted_append [_] _ _ rfl (ih _ _)
    | leaf l =>
      rw [treeKeys, leafKeys]
      refine precounted_append _ _ _ (precounted_append _ _ _ ?_ ?_) (ih _ _)
      · unfold padKeys
        split
        · rfl
        · exact field _ _ _ _
      · cases l with
        | value v => exact val v
        | align w a => rfl
        | padding w s => rfl

/-- What is known of the fields to be written, when `k` of report count and size have been met. -/
def PendOK (k : Nat) (h : Host) (s : Pend) : Prop :=
  (s.group ≠ [] → s.before = some 1) ∧
  (k = 1 → s.after = some (h.g .reportCount)) ∧
  (k = 2 → s.after = some (h.g .reportCount) ∨ (s.group = [] ∧ s.after = none ∧ s.before = some (h.g .reportCount)))

theorem runs_precounted (xs : List SItem) (hp : ∀ x ∈ xs, x.1 ≠ .push ∧ x.1 ≠ .pop) :
    ∀ (k : Nat) (h : Host) (s : Pend), k ≤ 2 → precounted k xs = true → PendOK k h s →
    ((runs h s xs).2.group ≠ [] → (runs h s xs).2.before = some 1) := by
  induction xs with
  | nil => intro k h s _ _ hs; exact hs.1
  | cons x xs ih =>
    intro k h s hk hc hs
    have ih := ih fun y hy => hp y (by simp [hy])
    have hflush : ∀ (w : Pend) (h' : Host), PendOK 0 h' w.flush := by
      intro w h'
      exact ⟨fun hn => absurd rfl hn, by simp, by simp⟩
    unfold precounted at hc
    rw [runs]
    simp only
    by_cases hd : x.1.isData = true
    · rw [if_pos hd] at hc ⊢
      rw [Bool.and_eq_true, beq_iff_eq] at hc
      obtain ⟨rfl, hc⟩ := hc
      have hadd : ∀ w : Pend, (w.after = some (h.g .reportCount) ∨ (w.after = none ∧ w.before = some (h.g .reportCount))) →
          (w.add (h.main .atUsage x)).before = some (h.g .reportCount) := by
        intro w hw
        rcases hw with hw | ⟨h1, h2⟩
        · simp [Pend.add, hw]
        · simp [Pend.add, h1, h2]
      have hnew : ((if s.fits (h.main .atUsage x) then s else s.flush).add (h.main .atUsage x)).before
          = some (h.g .reportCount) := by
        refine hadd _ ?_
        rcases hs.2.2 rfl with h1 | ⟨h1, h2, h3⟩
        · split
          · exact .inl h1
          · exact .inr ⟨rfl, h1⟩
        · rw [if_pos (by simp [Pend.fits, h1])]
          exact .inr ⟨h2, h3⟩
      split
      · rename_i hone
        refine ih 0 _ _ (by omega) hc ⟨fun _ => ?_, by simp, by simp⟩
        rw [hnew]
        exact congrArg some hone
      · exact ih 0 _ _ (by omega) hc (hflush _ _)
    · rw [if_neg hd] at hc ⊢
      by_cases hm : x.1.kind = .main
      · rw [if_pos hm]
        have hc' : precounted 0 xs = true := by
          rw [if_neg (by rintro h0; rw [h0] at hm; simp [Cls.kind] at hm),
            if_neg (by rintro ⟨h0, -⟩; rw [h0] at hm; simp [Cls.kind] at hm)] at hc
          exact hc
        exact ih 0 _ _ (by omega) hc' (hflush _ _)
      · rw [if_neg hm]
        by_cases hrc : x.1 = .reportCount
        · rw [if_pos hrc] at hc
          rw [if_neg (by rw [hrc]; simp [groupTags]), if_pos hrc]
          refine ih 1 _ _ (by omega) hc ⟨hs.1, fun _ => ?_, by simp⟩
          obtain ⟨c, v⟩ := x
          simp only at hrc
          subst hrc
          simp [Host.step]
        · rw [if_neg hrc] at hc
          have hcount : (h.step .atUsage x).g .reportCount = h.g .reportCount := by
            have := hp x (by simp)
            obtain ⟨c, v⟩ := x
            cases c <;> simp_all [Host.step]
          by_cases hrs : x.1 = .reportSize ∧ k = 1
          · rw [if_pos hrs] at hc
            have ha := hs.2.1 hrs.2
            split
            · refine ih 2 _ _ (by omega) hc ⟨fun hn => absurd rfl hn, by simp, fun _ => .inr ⟨rfl, rfl, ?_⟩⟩
              rw [hcount]; exact ha
            · refine ih 2 _ _ (by omega) hc ⟨hs.1, by simp, fun _ => .inl ?_⟩
              rw [hcount]; exact ha
          · rw [if_neg hrs] at hc
            split
            · exact ih 0 _ _ (by omega) hc (hflush _ _)
            · exact ih 0 _ _ (by omega) hc ⟨hs.1, by simp, by simp⟩

/-- The fields still to be written at the end of a compiled descriptor. -/
theorem compiled_open {reg : Registry} {n : Node} {items : List Item} (h : compile reg n = .ok items) (hp : NoPushPop items) :
    (openFields (keys items)).group ≠ [] →
      (openFields (keys items)).before.getD (openFields (keys items)).written = 1 := by
  intro hg
  have hx : ∀ x ∈ (keys items).filter (fun x => x.1.kind != .loc), x.1 ≠ .push ∧ x.1 ≠ .pop := by
    intro x hx
    obtain ⟨i, hi, rfl⟩ := List.mem_map.1 (List.mem_filter.1 hx).1
    exact hp i hi
  have hc : precounted 0 ((keys items).filter fun x => x.1.kind != .loc) = true := by
    refine precounted_filter _ 0 ?_
    rw [compile_keys h]
    exact tree_precounted _ _ _
  have := runs_precounted _ hx 0 {} {} (by omega) hc ⟨fun hn => absurd rfl hn, by simp, by simp⟩ hg
  unfold openFields
  rw [this]
  rfl

/-- **C27.** Every report of a compiled descriptor keeps its size, whatever passes are selected. -/
theorem C27_compile (reg : Registry) (min max : Int) (rule : PageRule) (way : Cls) (id : Int) (n : Node) (items : List Item)
    (h : compile reg n = .ok items) :
    reportBits way id (meaning rule (keys ((new reg min max Pass.sink).run items))) =
      reportBits way id (meaning rule (keys items)) := by
  refine (C27_iff reg min max rule items (compiled_base h).1 (fun i hi h' => made_count (compile_made h i hi) h')).2
    (fun _ _ r hr => .inr (compiled_open h (compiled_base h).1 (List.ne_nil_of_mem hr))) way id

end Hrdc
