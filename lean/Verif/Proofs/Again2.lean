import Verif.Proofs.Again
/-!
# Elements that have been read, and reading them again
-/
namespace Hrdc.Thrice
open Spec

/-- Fields as they are read when they are no named array. -/
def plainF (way : Cls) (id flags : Int) (attrs : Attrs) (u : Option Int) (count : Nat) (m : Int × Int) : Fields where
  way := way
  id := id
  flags := flags
  attrs := attrs
  what := if flags / 2 % 2 = 1 ∨ u.isSome = true then [⟨u, m.1, m.2⟩] else []
  count := count
  marks := m

/-- A named array as it is read. -/
def arrayF (way : Cls) (id size lo hi : Int) (l : List Int) (inside : Option Int) (m : Int × Int) : Fields where
  way := way
  id := id
  flags := 0
  attrs := ⟨size, lo, hi, lo, hi, 0, 0⟩
  what := l.map (fun u => ⟨some u, m.1, m.2⟩)
  inside := inside
  named := true
  marks := m

/-- Physical bounds that are both 0 are the logical bounds. -/
def PhysOK (a : Attrs) : Prop := a.physMin = 0 → a.physMax = 0 → a.logMin = 0 ∧ a.logMax = 0

/-- Fields that have been read from items. -/
inductive Tidy : Fields → Prop
  | plain (way : Cls) (id flags : Int) (attrs : Attrs) (u : Option Int) (count : Nat) (m : Int × Int)
      (hw : way.isData = true) (ha : PhysOK attrs) (hf : flags % 2 ≠ 1) (hn : count = 1 ∨ flags / 256 % 2 = 1) :
      Tidy (plainF way id flags attrs u count m)
  | array (way : Cls) (id size lo hi : Int) (l : List Int) (inside : Option Int) (m : Int × Int)
      (hw : way.isData = true) (hl : l ≠ []) (hf : (l.length : Int) = hi - lo + 1) :
      Tidy (arrayF way id size lo hi l inside m)

theorem us_plain (way id flags attrs u count m) : us (plainF way id flags attrs u count m) = u.toList := by
  unfold us plainF
  cases u <;> simp

theorem us_array (way id size lo hi l inside m) : us (arrayF way id size lo hi l inside m) = l := by
  simp [us, arrayF, List.filterMap_map, Function.comp_def]

theorem tidy_way {f : Fields} (h : Tidy f) : f.way.isData = true := by cases h <;> assumption

/-! ## From records -/

theorem pick_take (l : List Int) (n : Nat) : pick (l.take 1) n = l.head? := by
  cases l with
  | nil => simp [pick]
  | cons a l => cases n <;> simp [pick]

theorem pick_zero (l : List Int) : pick l 0 = l.head? := by
  cases l with
  | nil => simp [pick]
  | cons a l => simp [pick]

theorem pick_lt (l : List Int) (n : Nat) (h : n < l.length) : pick l n = some l[n] := by simp [pick, h]

theorem pick_isSome (l : List Int) (n : Nat) : (pick l n).isSome = !l.isEmpty := by
  cases l with
  | nil => simp [pick]
  | cons a l =>
    unfold pick
    cases h : (a :: l)[n]? <;> simp [List.getLast?_cons]

theorem plainFields_eq (r : MainRec) (k n : Nat) : r.plainFields k n =
    plainF r.cls (r.g .reportID) r.val r.attrs (pick r.usages k) n ((r.selector k).string, (r.selector k).desig) := by
  unfold MainRec.plainFields plainF
  simp only [Fields.mk.injEq, true_and, and_true]
  unfold MainRec.shown MainRec.isVar
  rw [pick_isSome]
  by_cases h : r.val / 2 % 2 = 1 <;> cases r.usages.isEmpty <;> simp [h, MainRec.selector]

theorem arrayFields_eq (r : MainRec) (i : Option Int) : r.arrayFields i =
    arrayF r.cls (r.g .reportID) (r.g .reportSize) (r.g .logMin) (r.g .logMax) r.usages i
      ((r.selector 0).string, (r.selector 0).desig) := by
  unfold MainRec.arrayFields arrayF
  simp only [Fields.mk.injEq, true_and, and_true]
  refine ⟨?_, ?_⟩
  · simp [MainRec.arrayField, MainRec.attrs]
  · unfold MainRec.what
    rw [if_neg (by simp [MainRec.isVar, MainRec.arrayField])]
    apply List.ext_getElem
    · simp [MainRec.arrayField]
    · intro n h1 h2
      have hn : n < r.usages.length := by simpa using h2
      simp [MainRec.selector, MainRec.arrayField, pick_take, pick_zero, pick_lt _ _ hn]

theorem attrs_phys (r : MainRec) : PhysOK r.attrs := by
  unfold PhysOK MainRec.attrs
  simp only
  split
  · intro a b; exact ⟨a, b⟩
  · rename_i h
    intro a b
    exact absurd ⟨a, b⟩ h

theorem tidy_plain {r : MainRec} (hd : r.cls.isData = true) (hc : r.isConst = false) (k : Nat) {n : Nat}
    (hn : n = 1 ∨ r.val / 256 % 2 = 1) : Tidy (r.plainFields k n) := by
  rw [plainFields_eq]
  refine .plain _ _ _ _ _ _ _ hd (attrs_phys r) ?_ hn
  simpa [MainRec.isConst] using hc

theorem tidy_array {r : MainRec} (hd : r.cls.isData = true) (hu : r.usages ≠ []) (hf : r.full = true) (i : Option Int) :
    Tidy (r.arrayFields i) := by
  rw [arrayFields_eq]
  refine .array _ _ _ _ _ _ _ _ hd hu ?_
  simpa [MainRec.full] using hf

/-- Elements that have been read from items. -/
def TidyB : Block → Prop
  | .pad w _ _ => w.isData = true
  | .value f => Tidy f
  | _ => True

theorem tidy_blocks {r : MainRec} (hd : r.cls.isData = true)
    (hv : ¬(!r.isConst && r.val == 0 && r.full && decide (0 < r.g .reportCount) && r.usages.isEmpty) = true) :
    ∀ b ∈ r.blocks, TidyB b := by
  intro b hb
  unfold MainRec.blocks at hb
  simp only at hb
  split at hb
  · simp only [List.mem_singleton] at hb
    subst hb
    exact hd
  · rename_i hc
    have hc : r.isConst = false := by simpa using hc
    split at hb
    · rename_i h
      rw [List.mem_replicate] at hb
      obtain ⟨h1, rfl⟩ := hb
      refine tidy_array hd ?_ h.2 none
      intro he
      apply hv
      have : 0 < r.g .reportCount := by omega
      simp [hc, h.1, h.2, this, he]
    · split at hb
      · rename_i h
        simp only [List.mem_singleton] at hb
        subst hb
        exact tidy_plain hd hc 0 (.inr h)
      · rw [List.mem_map] at hb
        obtain ⟨k, -, rfl⟩ := hb
        exact tidy_plain hd hc k (.inl rfl)

/-! ## Whatever is read -/

/-- All elements met so far are tidy. -/
structure AllTidy (s : Rooms) : Prop where
  room : ∀ b ∈ s.room.inner, TidyB b
  outer : ∀ p ∈ s.outer, ∀ b ∈ p.inner, TidyB b
  tree : ∀ bs, s.tree = some bs → ∀ b ∈ bs, TidyB b

theorem tidy_put {p : Room} {f : Bool} {bs : List Block} (hp : ∀ b ∈ p.inner, TidyB b) (hb : ∀ b ∈ bs, TidyB b) :
    ∀ b ∈ (p.put f bs).inner, TidyB b := by
  intro b h
  simp only [Room.put, List.mem_append] at h
  exact h.elim (hp b) (hb b)

theorem tidy_closed {s : Rooms} (h : AllTidy s) : AllTidy s.closed := by
  unfold Rooms.closed
  split
  · refine ⟨h.room, h.outer, ?_⟩
    intro bs hbs
    simp only [Option.some.injEq] at hbs
    subst hbs
    exact h.room
  · exact h

theorem tidy_fields {s s' : Rooms} {r : MainRec} (hd : r.cls.isData = true) (h : AllTidy s) (he : s.fields r = .ok s') :
    AllTidy s' := by
  unfold Rooms.fields at he
  split at he
  · simp at he
  · rename_i hv
    simp only [Except.ok.injEq] at he
    subst he
    exact ⟨tidy_put h.room (tidy_blocks hd hv), h.outer, h.tree⟩

theorem tidy_next {known : Int → Bool} {s s' : Rooms} {r : MainRec} (hk : r.cls.kind = .main) (h : AllTidy s)
    (he : s.next known r = .ok s') : AllTidy s' := by
  unfold Rooms.next at he
  split at he
  · simp only [Except.ok.injEq] at he
    subst he
    refine ⟨by simp, ?_, h.tree⟩
    intro p hp
    simp only [List.mem_cons] at hp
    rcases hp with rfl | hp
    · exact h.room
    · exact h.outer p hp
  · split at he
    · simp only [Except.ok.injEq] at he
      subst he
      exact tidy_closed ⟨h.room, h.outer, h.tree⟩
    · split at he
      · simp at he
      · rename_i p o ho
        simp only [Except.ok.injEq] at he
        subst he
        have hp := h.outer p (by rw [ho]; exact List.mem_cons_self)
        apply tidy_closed
        refine ⟨?_, fun q hq => h.outer q (by rw [ho]; exact List.mem_cons_of_mem _ hq), h.tree⟩
        unfold Room.close
        split
        · apply tidy_put hp
          intro b hb
          simp only [List.cons_append, List.mem_cons, List.mem_append, List.not_mem_nil, or_false] at hb
          rcases hb with rfl | hb | rfl
          · trivial
          · exact h.room b hb
          · trivial
        · exact hp
  · rename_i h1 h2
    have hd : r.cls.isData = true := by
      cases hc : r.cls <;> simp_all [Cls.kind, Cls.isData]
    split at he
    · rename_i hs
      split at he
      · simp at he
      · rename_i p o ho
        split at he
        · simp at he
        · unfold Rooms.named at he
          split at he
          · simp at he
          · split at he
            · simp at he
            · rename_i hu
              simp only [Except.ok.injEq] at he
              subst he
              refine ⟨tidy_put (h.outer p (by rw [ho]; exact List.mem_cons_self)) ?_,
                fun q hq => h.outer q (by rw [ho]; exact List.mem_cons_of_mem _ hq), h.tree⟩
              intro b hb
              simp only [List.mem_singleton] at hb
              subst hb
              refine tidy_array hd (by simpa using hu) ?_ _
              simp only [MainRec.single, Bool.and_eq_true] at hs
              exact hs.2
        · exact tidy_fields hd h he
    · exact tidy_fields hd h he

theorem tidy_read {known : Int → Bool} (rs : List MainRec) : ∀ {s s' : Rooms}, (∀ r ∈ rs, r.cls.kind = .main) → AllTidy s →
    s.read known rs = .ok s' → AllTidy s' := by
  induction rs with
  | nil =>
    intro s s' _ h he
    simp only [Rooms.read, Except.ok.injEq] at he
    subst he
    exact h
  | cons r rs ih =>
    intro s s' hk h he
    rw [Rooms.read] at he
    split at he
    · simp at he
    · rename_i s1 h1
      exact ih (fun q hq => hk q (List.mem_cons_of_mem _ hq)) (tidy_next (hk r List.mem_cons_self) h h1) he

theorem mains_main (xs : List SItem) : ∀ rd, ∀ r ∈ mainsOf rd xs, r.cls.kind = .main := by
  induction xs with
  | nil => intro rd r h; simp [mainsOf] at h
  | cons i xs ih =>
    intro rd r h
    rw [mainsOf, List.mem_append] at h
    rcases h with h | h
    · split at h
      · rename_i hi
        simp only [List.mem_singleton] at h
        subst h
        exact hi
      · simp at h
    · exact ih _ r h

/-- Whatever is read is tidy. -/
theorem tidy_of_blocks {known : Int → Bool} {xs : List SItem} {bs : List Block} (h : blocks known xs = .ok bs) :
    ∀ b ∈ bs, TidyB b := by
  unfold blocks at h
  split at h
  · simp at h
  · rename_i s hs
    split at h
    · simp at h
    · rename_i bs' ht
      simp only [Except.ok.injEq] at h
      subst h
      exact (tidy_read _ (mains_main xs _) ⟨by simp, by simp, by simp⟩ hs).tree _ ht

/-! ## Records of tidy fields -/

/-- Data items that are written by a rebuild. -/
structure RecOK (r : MainRec) : Prop where
  data : r.cls.isData = true
  var : r.isConst = false
  count : r.g .reportCount = 1 ∨ r.val / 256 % 2 = 1
  usages : r.usages.length ≤ 1 ∨ r.full = true

theorem rec_ok {f : Fields} (h : Tidy f) (F : Int) : RecOK (recOf f F) := by
  cases h with
  | plain way id flags attrs u count m hw ha hf hn =>
    refine ⟨hw, ?_, ?_, .inl ?_⟩
    · simpa [MainRec.isConst, recOf, plainF] using hf
    · rcases hn with rfl | hn
      · exact .inl rfl
      · exact .inr hn
    · show (us _).length ≤ 1
      rw [us_plain]
      cases u <;> simp
  | array way id size lo hi l inside m hw hl hf =>
    refine ⟨hw, ?_, .inl rfl, .inr ?_⟩
    · cases inside <;> simp [MainRec.isConst, recOf, arrayF]
    · have : (us (arrayF way id size lo hi l inside m)).length = l.length := by rw [us_array]
      simp only [MainRec.full, recOf, beq_iff_eq, this, hf]
      rfl

theorem mark_pick (n : Int) : (pick (mark n) 0).getD 0 = n := by
  rw [pick_zero]
  unfold mark
  split <;> simp_all

theorem rec_plain (way id flags attrs u count m F) (ha : PhysOK attrs) :
    (recOf (plainF way id flags attrs u count m) F).plainFields 0 count = plainF way F flags attrs u count m := by
  rw [plainFields_eq]
  have h1 : (recOf (plainF way id flags attrs u count m) F).usages = u.toList := us_plain ..
  have h2 : (recOf (plainF way id flags attrs u count m) F).attrs = attrs := by
    unfold MainRec.attrs
    simp only [recOf, pLo, pHi, plainF]
    obtain ⟨size, lo, hi, plo, phi, un, ue⟩ := attrs
    simp only [PhysOK] at ha
    by_cases h : plo = lo ∧ phi = hi
    · simp [h.1, h.2]
    · simp only [Bool.false_eq_true, false_or, h, if_false]
      by_cases h' : plo = 0 ∧ phi = 0
      · have := ha h'.1 h'.2
        exact absurd ⟨h'.1.trans this.1.symm, h'.2.trans this.2.symm⟩ h
      · simp [h']
  rw [h1, h2, pick_zero]
  have h3 : u.toList.head? = u := by cases u <;> rfl
  rw [h3]
  show plainF way F flags attrs u count ((pick (mark m.1) 0).getD 0, (pick (mark m.2) 0).getD 0) = _
  rw [mark_pick, mark_pick]

theorem rec_array (way id size lo hi l i m F j) :
    (recOf (arrayF way id size lo hi l i m) F).arrayFields j = arrayF way F size lo hi l j m := by
  rw [arrayFields_eq]
  show arrayF way F size lo hi (us _) j ((pick (mark m.1) 0).getD 0, (pick (mark m.2) 0).getD 0) = _
  rw [mark_pick, mark_pick, us_array]

/-- A named array that is read as fields has the first of its usages. -/
def firstOf (f : Fields) : Fields := plainF f.way f.id 2 f.attrs (us f).head? 1 f.marks

theorem rec_first (way id size lo hi l u m F) :
    (recOf (arrayF way id size lo hi l (some u) m) F).plainFields 0 1 = plainF way F 2 ⟨size, lo, hi, lo, hi, 0, 0⟩ l.head? 1 m := by
  rw [plainFields_eq]
  have h2 : (recOf (arrayF way id size lo hi l (some u) m) F).attrs = ⟨size, lo, hi, lo, hi, 0, 0⟩ := by
    simp [MainRec.attrs, recOf, pLo, pHi, arrayF]
  have h1 : (recOf (arrayF way id size lo hi l (some u) m) F).usages = l := us_array ..
  rw [h1, h2, pick_zero]
  show plainF way F 2 _ _ 1 ((pick (mark m.1) 0).getD 0, (pick (mark m.2) 0).getD 0) = _
  rw [mark_pick, mark_pick]

end Hrdc.Thrice
