import Verif.Proofs.Again2
/-!
# What is read from a rebuild is calm

Elements that are read from what a rebuild has written are read as themselves afterwards, but for the padding before them
and named arrays whose usage is not known.
-/
namespace Hrdc.Thrice
open Spec

/-- The collection around: kind and usage; none for the descriptor. -/
abbrev Around := Option (Int × Int)

/-- A single field with these flags that has a usage for each value is no named array here. -/
def Apart (known : Int → Bool) (a : Around) (flags : Int) : Prop :=
  match a with
  | none => False
  | some (k, u) => ¬(k = 4 ∧ flags = 2) ∧ (k = 2 → known u = false)

/-- Fields that are read as themselves. -/
structure Fit (known : Int → Bool) (a : Around) (f : Fields) : Prop where
  tidy : Tidy f
  inside : f.inside = none
  named : f.flags = 0 → (recOf f f.id).full = true → f.named = true
  apart : (recOf f f.id).single = true → Apart known a f.flags

/-- Elements that are read as themselves, but for padding and named arrays whose usage is not known. -/
inductive Calm (known : Int → Bool) : Around → List Block → Prop
  | nil (a) : Calm known a []
  | pad (a w i n r) (hw : w.isData = true) (hn : n ≠ 0) (h : Calm known a r) : Calm known a (.pad w i n :: r)
  | value (a f r) (hf : Fit known a f) (h : Calm known a r) : Calm known a (.value f :: r)
  | array (a f u r) (hf : Tidy f) (hi : f.inside = some u) (h : Calm known a r) : Calm known a (.value f :: r)
  | coll (a k u l r) (hl : l ≠ []) (h1 : Calm known (some (k, u)) l) (h : Calm known a r) :
      Calm known a (.enter k (some u) :: l ++ .leave :: r)

theorem calm_append {known : Int → Bool} {a : Around} {l m : List Block} (h : Calm known a l) (h' : Calm known a m) :
    Calm known a (l ++ m) := by
  induction h with
  | nil a => exact h'
  | pad a w i n r hw hn _ ih => exact .pad a w i n _ hw hn (ih h')
  | value a f r hf _ ih => exact .value a f _ hf (ih h')
  | array a f u r hf hi _ ih => exact .array a f u _ hf hi (ih h')
  | coll a k u l r hl h1 _ _ ih =>
    rw [List.append_assoc]
    exact .coll a k u l _ hl h1 (ih h')

/-! ## Open collections -/

/-- Report 0 does not follow others. -/
def Down (a b : Int) : Prop := a ≠ 0 → b ≠ 0

/-- The open collections are calm. -/
def Quiet (known : Int → Bool) : Room → List Room → Prop
  | r, [] => Calm known none r.inner ∧ (r.full = true ↔ r.inner ≠ [])
  | r, p :: o => (∃ u, r.usage = some u ∧ Calm known (some (r.kind, u)) r.inner) ∧ (r.full = true ↔ r.inner ≠ []) ∧ Quiet known p o

/-- What is around. -/
def around (r : Room) : List Room → Around
  | [] => none
  | _ :: _ => r.usage.map (fun u => (r.kind, u))

theorem quiet_iff {known : Int → Bool} {r : Room} {o : List Room} (h : Quiet known r o) :
    Calm known (around r o) r.inner ∧ (r.full = true ↔ r.inner ≠ []) ∧ (o ≠ [] → ∃ u, r.usage = some u) := by
  cases o with
  | nil => exact ⟨h.1, h.2, fun h => absurd rfl h⟩
  | cons p o =>
    obtain ⟨⟨u, h1, h2⟩, h3, -⟩ := h
    refine ⟨?_, h3, fun _ => ⟨u, h1⟩⟩
    simpa [around, h1] using h2

theorem quiet_put {known : Int → Bool} {r : Room} {o : List Room} (h : Quiet known r o) {bs : List Block} (hb : bs ≠ [])
    (hc : Calm known (around r o) bs) : Quiet known (r.put true bs) o := by
  cases o with
  | nil =>
    refine ⟨calm_append h.1 hc, ?_⟩
    simp [Room.put, hb]
  | cons p o =>
    obtain ⟨⟨u, h1, h2⟩, h3, h4⟩ := h
    refine ⟨⟨u, h1, ?_⟩, ?_, h4⟩
    · refine calm_append h2 ?_
      simpa [around, h1, Room.put] using hc
    · simp [Room.put, hb]

/-- The reports of all that was met. -/
def idsOut : List Room → List Int
  | [] => []
  | p :: o => idsOut o ++ reportsIn p.inner

/-- The reports of all that was met. -/
def idsOf (s : Rooms) : List Int := idsOut s.outer ++ reportsIn s.room.inner

theorem reports_append (a b : List Block) : reportsIn (a ++ b) = reportsIn a ++ reportsIn b := by
  induction a with
  | nil => rfl
  | cons x a ih => cases x <;> simp [reportsIn, ih]

/-- What is known while a rebuild is read. -/
structure Good (known : Int → Bool) (s : Rooms) (F : Int) : Prop where
  quiet : Quiet known s.room s.outer
  ids : (idsOf s).Pairwise Down
  last : ∀ a ∈ idsOf s, Down a F
  tree : ∀ bs, s.tree = some bs → Calm known none bs ∧ (reportsIn bs).Pairwise Down

theorem good_force {known : Int → Bool} {s : Rooms} {F F' : Int} (h : Good known s F) (hF : Down F F') : Good known s F' :=
  ⟨h.quiet, h.ids, fun a ha h0 => hF (h.last a ha h0), h.tree⟩

theorem good_closed {known : Int → Bool} {s : Rooms} {F : Int} (h : Good known s F) : Good known s.closed F := by
  unfold Rooms.closed
  split
  · rename_i ho
    refine ⟨h.quiet, h.ids, h.last, ?_⟩
    intro bs hbs
    simp only [Option.some.injEq] at hbs
    subst hbs
    have ho : s.outer = [] := by simpa using ho
    have hq := h.quiet
    have hi := h.ids
    rw [ho] at hq
    simp only [idsOf, ho, idsOut, List.nil_append] at hi
    exact ⟨hq.1, hi⟩
  · exact h

/-- Something of the report in force is put in the collection. -/
theorem good_put {known : Int → Bool} {s : Rooms} {F : Int} (h : Good known s F) {b : Block}
    (hc : Calm known (around s.room s.outer) [b]) (hi : reportsIn [b] = [F]) :
    Good known { s with room := s.room.put true [b] } F := by
  have e : idsOf { s with room := s.room.put true [b] } = idsOf s ++ [F] := by
    simp [idsOf, Room.put, reports_append, hi]
  refine ⟨quiet_put h.quiet (by simp) hc, ?_, ?_, h.tree⟩
  · rw [e, List.pairwise_append]
    refine ⟨h.ids, by simp, ?_⟩
    intro a ha b hb
    simp only [List.mem_singleton] at hb
    subst hb
    exact h.last a ha
  · rw [e]
    intro a ha
    rw [List.mem_append, List.mem_singleton] at ha
    rcases ha with ha | rfl
    · exact h.last a ha
    · exact id

/-- A collection opens. -/
theorem good_open {known : Int → Bool} {s s' : Rooms} {F u : Int} {r : MainRec} (h : Good known s F) (hr : r.cls = .collection)
    (hu : r.usages = [u]) (he : s.next known r = .ok s') : Good known s' F := by
  unfold Rooms.next at he
  rw [hr] at he
  simp only [Except.ok.injEq] at he
  subst he
  have e : ∀ (q : Room), q.inner = [] → idsOf { s with room := q, outer := s.room :: s.outer } = idsOf s := by
    intro q hq
    simp [idsOf, idsOut, hq, reportsIn]
  refine ⟨⟨⟨u, by simp [hu], .nil _⟩, by simp, h.quiet⟩, ?_, ?_, h.tree⟩
  · rw [e _ rfl]; exact h.ids
  · rw [e _ rfl]; exact h.last

/-- An EndCollection. -/
theorem good_end {known : Int → Bool} {s s' : Rooms} {F : Int} {r : MainRec} (h : Good known s F) (hr : r.cls = .endCollection)
    (he : s.next known r = .ok s') : Good known s' F := by
  unfold Rooms.next at he
  rw [hr] at he
  simp only at he
  split at he
  · simp only [Except.ok.injEq] at he
    subst he
    exact good_closed ⟨h.quiet, h.ids, h.last, h.tree⟩
  · split at he
    · simp at he
    · rename_i p o ho
      simp only [Except.ok.injEq] at he
      subst he
      apply good_closed
      have hq := h.quiet
      rw [ho] at hq
      obtain ⟨⟨u, h1, h2⟩, h3, h4⟩ := hq
      unfold Room.close
      by_cases hf : s.room.full = true
      · rw [if_pos hf]
        have e : idsOf { s with room := p.put true (.enter s.room.kind s.room.usage :: s.room.inner ++ [.leave]), outer := o } =
            idsOf s := by
          simp [idsOf, ho, idsOut, Room.put, reports_append, reportsIn]
        refine ⟨quiet_put h4 (by simp) ?_, ?_, ?_, h.tree⟩
        · rw [h1]
          exact .coll _ _ _ _ _ (h3.1 hf) h2 (.nil _)
        · rw [e]; exact h.ids
        · rw [e]; exact h.last
      · rw [if_neg hf]
        have hn : s.room.inner = [] := Classical.not_not.1 (fun hc => hf (h3.2 hc))
        have e : idsOf { s with room := p, outer := o } = idsOf s := by
          simp [idsOf, ho, idsOut, hn, reportsIn]
        refine ⟨h4, ?_, ?_, h.tree⟩
        · rw [e]; exact h.ids
        · rw [e]; exact h.last

/-- Padding. -/
theorem next_pad {known : Int → Bool} {s : Rooms} {F n : Int} {r : MainRec} {w : Cls} (hw : w.isData = true) (hr : r.cls = w)
    (hv : r.val = 3) (h1 : r.g .reportCount = 1) (h2 : r.g .reportSize = n) (h3 : r.g .reportID = F) :
    s.next known r = .ok { s with room := s.room.put true [.pad w F n.toNat] } := by
  have hc : r.isConst = true := by simp [MainRec.isConst, hv]
  have hs : r.single = false := by simp [MainRec.single, hc]
  have hb : r.blocks = [.pad w F n.toNat] := by simp [MainRec.blocks, hc, h1, h2, h3, hr]
  have hf : s.fields r = .ok { s with room := s.room.put true [.pad w F n.toNat] } := by
    unfold Rooms.fields
    rw [if_neg (by simp [hc]), hb]
    simp [hasFields, hc]
  unfold Rooms.next
  rw [hr]
  cases w <;> simp [Cls.isData] at hw <;> simp [hs, hf]

theorem good_pad {known : Int → Bool} {s : Rooms} {F n : Int} {w : Cls} (h : Good known s F) (hw : w.isData = true)
    (hn : 0 < n) : Good known { s with room := s.room.put true [.pad w F n.toNat] } F :=
  good_put h (.pad _ _ _ _ _ hw (by omega) (.nil _)) rfl

/-! ## Fields -/

/-- Data items that are no named array. -/
theorem fields_ok {s s' : Rooms} {r : MainRec} (hr : RecOK r) (he : s.fields r = .ok s') :
    ∃ f, s' = { s with room := s.room.put true [.value f] } ∧
      ((r.val = 0 ∧ r.full = true ∧ r.usages ≠ [] ∧ f = r.arrayFields none) ∨
        (¬(r.val = 0 ∧ r.full = true) ∧ f = r.plainFields 0 (r.g .reportCount).toNat)) := by
  obtain ⟨-, hc, hn, -⟩ := hr
  unfold Rooms.fields at he
  split at he
  · simp at he
  · rename_i hv
    simp only [Except.ok.injEq] at he
    subst he
    have hf : hasFields r = true := by
      unfold hasFields
      rcases hn with hn | hn <;> simp [hn]
    rw [hf]
    have hb : r.blocks = if r.val = 0 ∧ r.full = true then [.value (r.arrayFields none)] else
        [.value (r.plainFields 0 (r.g .reportCount).toNat)] := by
      unfold MainRec.blocks
      simp only [hc, Bool.false_eq_true, if_false]
      by_cases h : r.val = 0 ∧ r.full = true
      · rw [if_pos h, if_pos h]
        have : r.g .reportCount = 1 := by
          rcases hn with hn | hn
          · exact hn
          · rw [h.1] at hn; simp at hn
        simp [this]
      · rw [if_neg h, if_neg h]
        split
        · rfl
        · rename_i hb
          have : r.g .reportCount = 1 := hn.resolve_right hb
          simp [this, List.range_succ]
    rw [hb]
    by_cases h : r.val = 0 ∧ r.full = true
    · refine ⟨r.arrayFields none, by rw [if_pos h], .inl ⟨h.1, h.2, ?_, rfl⟩⟩
      intro hu
      apply hv
      have : r.g .reportCount = 1 := by
        rcases hn with hn | hn
        · exact hn
        · rw [h.1] at hn; simp at hn
      simp [hc, h.1, h.2, this, hu]
    · exact ⟨_, by rw [if_neg h], .inr ⟨h, rfl⟩⟩

theorem rec_full (f : Fields) (F : Int) : (recOf f F).full = true ↔ ((us f).length : Int) = f.attrs.logMax - f.attrs.logMin + 1 := by
  simp [MainRec.full, recOf]

/-- Fields that are read in a place are read the same there again. -/
theorem fields_fit {known : Int → Bool} {s s' : Rooms} {r : MainRec} {a : Around} (hr : RecOK r) (he : s.fields r = .ok s')
    (ha : r.single = true → Apart known a r.val) :
    ∃ f, s' = { s with room := s.room.put true [.value f] } ∧ f.id = r.g .reportID ∧ Fit known a f := by
  obtain ⟨f, h1, h2⟩ := fields_ok hr he
  refine ⟨f, h1, ?_, ?_⟩
  · rcases h2 with ⟨-, -, -, rfl⟩ | ⟨-, rfl⟩ <;> rfl
  obtain ⟨hd, hc, hn, hu⟩ := hr
  rcases h2 with ⟨hv, hf, hne, rfl⟩ | ⟨hv, rfl⟩
  · refine ⟨tidy_array hd hne hf none, rfl, fun _ _ => rfl, ?_⟩
    intro _
    have hs : r.single = true := by
      have : r.g .reportCount = 1 := by
        rcases hn with hn | hn
        · exact hn
        · rw [hv] at hn; simp at hn
      simp [MainRec.single, hc, this, hf]
    have := ha hs
    rw [hv] at this
    exact this
  · have hfull : (recOf (r.plainFields 0 (r.g .reportCount).toNat) (r.plainFields 0 (r.g .reportCount).toNat).id).full = true →
        r.full = true := by
      rcases hu with hu | hu
      · rw [rec_full, plainFields_eq, us_plain, pick_zero]
        intro h
        have e : r.usages.head?.toList = r.usages := by
          match r.usages, hu with
          | [], _ => rfl
          | [x], _ => rfl
        rw [e] at h
        simpa [MainRec.full, plainF, MainRec.attrs] using h
      · intro _; exact hu
    refine ⟨tidy_plain hd hc 0 (hn.imp (by omega) id), rfl, ?_, ?_⟩
    · intro h0 h
      exact absurd ⟨h0, hfull h⟩ hv
    · intro h
      apply ha
      simp only [MainRec.single, Bool.and_eq_true, beq_iff_eq] at h ⊢
      refine ⟨⟨by simp [hc], ?_⟩, hfull h.2⟩
      have := h.1.2
      simp only [recOf, MainRec.plainFields] at this
      omega

/-- A data item. -/
theorem good_data {known : Int → Bool} {s s' : Rooms} {F : Int} {r : MainRec} (h : Good known s F) (hr : RecOK r)
    (hi : r.g .reportID = F) (he : s.next known r = .ok s') : Good known s' F := by
  have hd := hr.data
  unfold Rooms.next at he
  have he : (if r.single = true then
      match s.outer with
      | [] => .error .outside
      | p :: o =>
        match s.room.array known r.val with
        | .error e => .error e
        | .ok true => s.named p o r
        | .ok false => s.fields r
      else s.fields r) = Except.ok s' := by
    cases hc : r.cls <;> rw [hc] at hd he <;> simp [Cls.isData] at hd <;> exact he
  have key : (r.single = true → Apart known (around s.room s.outer) r.val) → s.fields r = .ok s' → Good known s' F := by
    intro ha hf
    obtain ⟨f, rfl, hid, hfit⟩ := fields_fit hr hf ha
    refine good_put h (.value _ _ _ hfit (.nil _)) ?_
    simp [reportsIn, hid, hi]
  split at he
  · rename_i hs
    have hq := quiet_iff h.quiet
    split at he
    · simp at he
    · rename_i p o ho
      obtain ⟨u, hu⟩ := hq.2.2 (by rw [ho]; simp)
      split at he
      · simp at he
      · unfold Rooms.named at he
        split at he
        · simp at he
        · rename_i hfull
          split at he
          · simp at he
          · rename_i hne
            simp only [Except.ok.injEq] at he
            subst he
            have hn : s.room.inner = [] := Classical.not_not.1 (fun hc => hfull (hq.2.1.2 hc))
            have hq' := h.quiet
            rw [ho] at hq'
            have hg : Good known { s with room := p, outer := o, left := true } F := by
              have e : idsOf { s with room := p, outer := o, left := true } = idsOf s := by
                simp [idsOf, ho, idsOut, hn, reportsIn]
              refine ⟨hq'.2.2, ?_, ?_, h.tree⟩
              · rw [e]; exact h.ids
              · rw [e]; exact h.last
            refine good_put hg (.array _ _ u _ (tidy_array hd (by simpa using hne) ?_ _) ?_ (.nil _)) ?_
            · simp only [MainRec.single, Bool.and_eq_true] at hs
              exact hs.2
            · simpa [MainRec.arrayFields] using hu
            · simp [reportsIn, MainRec.arrayFields, hi]
      · rename_i harr
        refine key ?_ he
        intro _
        rw [ho]
        simp only [around, hu, Option.map_some, Apart]
        unfold Room.array at harr
        rw [hu] at harr
        split at harr
        · simp at harr
        · rename_i h4
          refine ⟨h4, ?_⟩
          intro h2
          rw [if_pos h2] at harr
          simpa using harr
  · rename_i hs
    exact key (fun h => absurd h hs) he

end Hrdc.Thrice
