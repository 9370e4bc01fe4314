import Verif.Proofs.Again4
/-!
# A rebuild of calm elements, exactly; rebuilding for the third time
-/
namespace Hrdc.Thrice
open Spec

/-- The collection around is this one. -/
def At (s : Rooms) (a : Around) : Prop :=
  match a with
  | none => True
  | some (k, u) => s.outer ≠ [] ∧ s.room.kind = k ∧ s.room.usage = some u

theorem next_data {known : Int → Bool} {s : Rooms} {r : MainRec} (hd : r.cls.isData = true) : s.next known r =
    (if r.single = true then
      match s.outer with
      | [] => .error .outside
      | p :: o =>
        match s.room.array known r.val with
        | .error e => .error e
        | .ok true => s.named p o r
        | .ok false => s.fields r
      else s.fields r) := by
  unfold Rooms.next
  cases hc : r.cls <;> rw [hc] at hd <;> simp [Cls.isData] at hd <;> rfl

theorem fields_fit_eq {known : Int → Bool} {a : Around} {f : Fields} (hf : Fit known a f) (s : Rooms) :
    s.fields (recOf f f.id) = .ok { s with room := s.room.put true [.value f] } := by
  obtain ⟨ht, hi, hn, -⟩ := hf
  have hok : ∃ s', s.fields (recOf f f.id) = .ok s' := by
    unfold Rooms.fields
    rw [if_neg]
    · exact ⟨_, rfl⟩
    · intro h
      simp only [Bool.and_eq_true, beq_iff_eq, decide_eq_true_eq] at h
      obtain ⟨⟨⟨⟨-, h0⟩, h1⟩, -⟩, h2⟩ := h
      have h0 : f.flags = 0 := by simpa [recOf, hi] using h0
      have hnm := hn h0 h1
      cases ht with
      | plain way id flags attrs u count m hw ha hf hn => simp [plainF] at hnm
      | array way id size lo hh l inside m hw hl hf =>
        have : (recOf (arrayF way id size lo hh l inside m) (arrayF way id size lo hh l inside m).id).usages = l := us_array ..
        rw [this] at h2
        exact hl (by simpa using h2)
  obtain ⟨s', hs⟩ := hok
  obtain ⟨f', h1, h2⟩ := fields_ok (rec_ok ht f.id) hs
  rw [hs, h1]
  have : f' = f := by
    cases ht with
    | plain way id flags attrs u count m hw ha hf hn' =>
      rcases h2 with ⟨g1, g2, -, -⟩ | ⟨-, rfl⟩
      · have := hn (by simpa [recOf, plainF] using g1) g2
        simp [plainF] at this
      · have e : ((recOf (plainF way id flags attrs u count m) (plainF way id flags attrs u count m).id).g .reportCount).toNat = count := rfl
        rw [e, rec_plain _ _ _ _ _ _ _ _ ha]
        rfl
    | array way id size lo hi l inside m hw hl hf =>
      have hi : inside = none := hi
      subst hi
      rcases h2 with ⟨-, -, -, rfl⟩ | ⟨g, -⟩
      · rw [rec_array]; rfl
      · exfalso
        apply g
        refine ⟨rfl, ?_⟩
        rw [rec_full, us_array]
        exact hf
  rw [this]

theorem next_fit {known : Int → Bool} {a : Around} {f : Fields} (hf : Fit known a f) {s : Rooms} (hs : At s a) :
    s.next known (recOf f f.id) = .ok { s with room := s.room.put true [.value f] } := by
  rw [next_data (r := recOf f f.id) (tidy_way hf.tidy)]
  split
  · rename_i h
    have ha := hf.apart h
    cases a with
    | none => exact absurd ha (by simp [Apart])
    | some ku =>
      obtain ⟨k, u⟩ := ku
      obtain ⟨h1, h2, h3⟩ := hs
      obtain ⟨a1, a2⟩ := ha
      have hv : (recOf f f.id).val = f.flags := by simp [recOf, hf.inside]
      have harr : s.room.array known (recOf f f.id).val = .ok false := by
        unfold Room.array
        rw [hv, h2, if_neg a1]
        split
        · rename_i hk
          simp only [h3, a2 hk]
        · rfl
      cases ho : s.outer with
      | nil => exact absurd ho h1
      | cons p o =>
        simp only [harr]
        rw [fields_fit_eq hf, ho]
  · exact fields_fit_eq hf s

/-- The field of a named array with a usage, in its collection. -/
theorem next_array {known : Int → Bool} {f : Fields} {u : Int} (ht : Tidy f) (hi : f.inside = some u) {s : Rooms} {p : Room}
    {o : List Room} (hr : s.room = { kind := 2, usage := some u }) (ho : s.outer = p :: o) :
    s.next known (recOf f f.id) = .ok
      (if known u then { s with room := p.put true [.value f], outer := o, left := true }
        else { s with room := s.room.put true [.value (firstOf f)] }) := by
  rw [next_data (r := recOf f f.id) (tidy_way ht)]
  have hok := rec_ok ht f.id
  cases ht with
  | plain way id flags attrs v count m hw ha hf hn' => simp [plainF] at hi
  | array way id size lo hh l inside m hw' hne hf =>
    have hi : inside = some u := hi
    subst hi
    generalize hF : (arrayF way id size lo hh l (some u) m).id = F at hok ⊢
    have hF : id = F := hF
    subst hF
    have hu : (recOf (arrayF way id size lo hh l (some u) m) id).usages = l := us_array ..
    have hfull : (recOf (arrayF way id size lo hh l (some u) m) id).full = true := by
      rw [rec_full, us_array]; exact hf
    have hv : (recOf (arrayF way id size lo hh l (some u) m) id).val = 2 := rfl
    have hcnt : (recOf (arrayF way id size lo hh l (some u) m) id).g .reportCount = 1 := rfl
    have hsing : (recOf (arrayF way id size lo hh l (some u) m) id).single = true := by
      simp [MainRec.single, hfull, hcnt, hok.var]
    rw [if_pos hsing, ho]
    simp only
    have harr : s.room.array known (recOf (arrayF way id size lo hh l (some u) m) id).val = .ok (known u) := by
      rw [hr]
      simp [Room.array]
    rw [harr]
    by_cases hk : known u = true
    · rw [hk]
      simp only [Rooms.named, if_true]
      rw [if_neg (by simp [hr]), if_neg (by simp [hu, hne]), rec_array]
      simp [hr]
    · have hk : known u = false := by simpa using hk
      rw [hk]
      simp only [Bool.false_eq_true, if_false]
      have hfd : ∃ s', s.fields (recOf (arrayF way id size lo hh l (some u) m) id) = .ok s' := by
        unfold Rooms.fields
        rw [if_neg (by simp [hv])]
        exact ⟨_, rfl⟩
      obtain ⟨s', hs⟩ := hfd
      obtain ⟨f', g1, g2⟩ := fields_ok hok hs
      rw [hs, g1]
      rcases g2 with ⟨g2, -⟩ | ⟨-, rfl⟩
      · rw [hv] at g2; simp at g2
      · have e1 : ((recOf (arrayF way id size lo hh l (some u) m) id).g .reportCount).toNat = 1 := by rw [hcnt]; rfl
        rw [e1, rec_first, firstOf, us_array, ho]
        rfl

/-- A named array with a usage is read again. -/
theorem read_array {known : Int → Bool} {f : Fields} {u : Int} (ht : Tidy f) (hi : f.inside = some u) {s : Rooms}
    (hl : s.left = false) {r1 r3 : MainRec} (h1 : r1.cls = .collection) (h2 : r1.val = 2) (h3 : r1.usages = [u])
    (h4 : r3.cls = .endCollection) (rest : List MainRec) :
    s.read known (r1 :: recOf f f.id :: r3 :: rest) =
      Rooms.read known ({ s with room := s.room.put true (shownB known f), left := false } : Rooms).closed rest := by
  have n1 : s.next known r1 = .ok { s with room := { kind := 2, usage := some u }, outer := s.room :: s.outer } := by
    unfold Rooms.next
    rw [h1]
    simp [h2, h3]
  rw [Rooms.read, n1]
  simp only
  rw [Rooms.read, next_array ht hi rfl rfl]
  simp only
  rw [Rooms.read]
  unfold Rooms.next
  rw [h4]
  simp only [shownB, hi]
  by_cases hk : known u = true
  · simp [hk]
  · have hk : known u = false := by simpa using hk
    simp [hk, hl, Room.close, Room.put]

/-! ## Reports -/

/-- The report in force is the one of what follows. -/
structure Rep (cur : Option Int) (F : Int) (l : List Int) : Prop where
  cur : ∀ i, cur = some i → F = i
  ids : l.Pairwise Down
  force : ∀ i ∈ l, Down F i

theorem rep_next {cur : Option Int} {F i : Int} {l : List Int} (h : Rep cur F (i :: l)) :
    force cur i F = i ∧ Rep (some i) i (i :: l) ∧ Rep (some i) i l := by
  have hp := List.pairwise_cons.1 h.ids
  refine ⟨?_, ⟨fun j hj => by simpa using hj, h.ids, ?_⟩, ⟨fun j hj => by simpa using hj, hp.2, hp.1⟩⟩
  · unfold Thrice.force
    split
    · rename_i hc
      rcases hc with hc | rfl
      · exact h.cur i hc
      · have := h.force 0 List.mem_cons_self
        exact Classical.not_not.1 (fun h0 => this h0 rfl)
    · rfl
  · intro j hj
    rcases List.mem_cons.1 hj with rfl | hj
    · exact id
    · exact hp.1 j hj

theorem rep_none {cur : Option Int} {F : Int} {l : List Int} (h : Rep cur F l) : Rep none F l :=
  ⟨by simp, h.ids, h.force⟩

theorem until_reports (l : List Block) : ∀ d, ∃ t, reportsIn l = reportsIn (untilLeave d l) ++ t := by
  induction l with
  | nil => intro d; exact ⟨[], by simp [untilLeave]⟩
  | cons b l ih =>
    intro d
    cases b with
    | enter k u =>
      obtain ⟨t, ht⟩ := ih (d + 1)
      exact ⟨t, by simp [untilLeave, reportsIn, ht]⟩
    | leave =>
      cases d with
      | zero => exact ⟨reportsIn l, by simp [untilLeave, reportsIn]⟩
      | succ d =>
        obtain ⟨t, ht⟩ := ih d
        exact ⟨t, by simp [untilLeave, reportsIn, ht]⟩
    | pad w i n =>
      obtain ⟨t, ht⟩ := ih d
      exact ⟨t, by simp [untilLeave, reportsIn, ht]⟩
    | value f =>
      obtain ⟨t, ht⟩ := ih d
      exact ⟨t, by simp [untilLeave, reportsIn, ht]⟩

theorem only_first {l : List Block} {i : Int} (h : onlyReport (untilLeave 0 l) = some i) : ∃ t, reportsIn l = i :: t := by
  obtain ⟨t, ht⟩ := until_reports l 0
  unfold onlyReport at h
  split at h
  · rename_i j r hj
    split at h
    · simp only [Option.some.injEq] at h
      subst h
      exact ⟨r ++ t, by rw [ht, hj]; rfl⟩
    · simp at h
  · simp at h

/-! ## Reading calm elements again -/

/-- Padding of these bits. -/
theorem reach_pad {known : Int → Bool} {w : Cls} (hw : w.isData = true) {n : Int} {rd : Reader} {F : Int} (hc : Clean rd F)
    {s : Rooms} (hl : s.left = false) (bs : List Block) (hb : shut bs = false) (hn : n ≠ 0 → bs ≠ []) :
    ∃ rd' s1, Clean rd' F ∧ (Reach s s1 (if n = 0 then [] else bs) (padB w F n)) ∧
      ∀ rest, s.read known (mainsOf rd (padItems w n ++ rest)) = s1.read known (mainsOf rd' rest) := by
  by_cases h0 : n = 0
  · refine ⟨rd, s, hc, ?_, fun rest => ?_⟩
    · rw [if_pos h0, padB, if_pos h0]; exact .refl hl
    · rw [padItems, if_pos h0]; rfl
  · obtain ⟨r, rd', k1, k2, k3, k4, k5, k6, k7⟩ := read_pad w hw n h0 hc
    refine ⟨rd', { s with room := s.room.put true [.pad w F n.toNat] }, k1, ?_, fun rest => ?_⟩
    · rw [if_neg h0, padB, if_neg h0]; exact .put bs hl hb (hn h0)
    · rw [k7, Rooms.read, next_pad hw k2 k3 k4 k5 k6]

/-- Elements are read: from `bs` before `R`. -/
def Reads (known : Int → Bool) (bs : List Block) (a : Around) : Prop :=
  ∀ (R : List Block) (c : Offsets) (cur : Option Int) (d : Nat) (rd : Reader) (F : Int) (s : Rooms), Clean rd F →
    Rep cur F (reportsIn (bs ++ R)) → At s a → s.left = false →
    ∃ cur' rd' F' s', Clean rd' F' ∧ Rep cur' F' (reportsIn R) ∧ Reach s s' bs (expand known c bs) ∧
      s.read known (mainsOf rd (written c cur d (bs ++ R))) = s'.read known (mainsOf rd' (written (after c bs) cur' d R))

theorem reach_at {s s' : Rooms} {a : Around} {bs e : List Block} (h : Reach s s' bs e) (ha : At s a) : At s' a := by
  cases a with
  | none => trivial
  | some ku =>
    obtain ⟨h1, h2, h3⟩ := ha
    refine ⟨by rw [h.outer]; exact h1, ?_, ?_⟩
    · rw [h.room]; exact h2
    · rw [h.room]; exact h3

theorem reads_append {known : Int → Bool} {a : Around} {b1 b2 : List Block} (h1 : Reads known b1 a) (h2 : Reads known b2 a) :
    Reads known (b1 ++ b2) a := by
  intro R c cur d rd F s hc hr ha hl
  rw [List.append_assoc] at hr ⊢
  obtain ⟨cur1, rd1, F1, s1, k1, k2, k3, k4⟩ := h1 (b2 ++ R) c cur d rd F s hc hr ha hl
  obtain ⟨cur2, rd2, F2, s2, g1, g2, g3, g4⟩ := h2 R (after c b1) cur1 d rd1 F1 s1 k1 k2 (reach_at k3 ha) k3.left
  refine ⟨cur2, rd2, F2, s2, g1, g2, ?_, ?_⟩
  · rw [expand_append]; exact k3.trans g3
  · rw [k4, g4, after_append]

theorem reads_pad {known : Int → Bool} {a : Around} {w : Cls} {i : Int} {n : Nat} (hw : w.isData = true) (hn : n ≠ 0) :
    Reads known [.pad w i n] a := by
  intro R c cur d rd F s hc hr ha hl
  obtain ⟨e, -, r2⟩ := rep_next (i := i) (l := reportsIn R) hr
  obtain ⟨rd1, k1, k2⟩ := read_begins cur i hc
  rw [e] at k1
  have hn' : (n : Int) ≠ 0 := by omega
  obtain ⟨rd2, s1, g1, g2, g3⟩ := reach_pad (known := known) (n := (n : Int)) hw k1 hl [.pad w i n] rfl (by simp)
  rw [if_neg hn', padB, if_neg hn'] at g2
  refine ⟨some i, rd2, i, s1, g1, r2, ?_, ?_⟩
  · simpa [expand] using g2
  · rw [List.singleton_append, written, List.append_assoc, k2, g3]
    rfl

/-- Fields, with the padding before them. -/
theorem reads_value {known : Int → Bool} {a : Around} {f : Fields} (hw : f.way.isData = true)
    (H : ∀ (rd : Reader) (s : Rooms), Clean rd f.id → At s a → s.left = false → ∃ rd' s', Clean rd' f.id ∧
      Reach s s' [.value f] (shownB known f) ∧
      ∀ rest, s.read known (mainsOf rd (f.items ++ rest)) = s'.read known (mainsOf rd' rest)) :
    Reads known [.value f] a := by
  intro R c cur d rd F s hc hr ha hl
  obtain ⟨e, -, r2⟩ := rep_next (i := f.id) (l := reportsIn R) hr
  obtain ⟨rd1, k1, k2⟩ := read_begins cur f.id hc
  rw [e] at k1
  obtain ⟨rd2, s1, g1, g2, g3⟩ := reach_pad (known := known) (n := f.gap (c f.way f.id)) hw k1 hl
    [.pad f.way f.id 0] rfl (by simp)
  obtain ⟨rd3, s2, q1, q2, q3⟩ := H rd2 s1 g1 (reach_at g2 ha) g2.left
  have q := g2.trans q2
  refine ⟨some f.id, rd3, f.id, s2, q1, r2, ?_, ?_⟩
  · obtain ⟨a1, a2, a3, a4, a5, a6, a7⟩ := q
    have e : expand known c [.value f] = padB f.way f.id (f.gap (c f.way f.id)) ++ shownB known f := by simp [expand]
    rw [e]
    refine ⟨a1, a2, a3, a4, a5, ?_, by simp⟩
    intro ho hs
    apply a6 ho
    rw [shut_append (by simp)]
    exact hs
  · rw [List.singleton_append, written]
    simp only [List.append_assoc]
    rw [k2, g3, q3]
    rfl

theorem reads_coll {known : Int → Bool} {a : Around} {k u : Int} {l : List Block} (hl : l ≠ [])
    (h : Reads known l (some (k, u))) : Reads known (.enter k (some u) :: l ++ [.leave]) a := by
  intro R c cur d rd F s hc hr ha hleft
  have eR : .enter k (some u) :: l ++ [.leave] ++ R = .enter k (some u) :: (l ++ (.leave :: R)) := by simp
  have er : reportsIn (l ++ (.leave :: R)) = reportsIn (.enter k (some u) :: l ++ [.leave] ++ R) := by
    rw [eR]; rfl
  rw [← er] at hr
  rw [eR]
  have head : ∃ cur1 d1 rd1 F1 , Clean rd1 F1 ∧ Rep cur1 F1 (reportsIn (l ++ (.leave :: R))) ∧
      (∀ cur2 c, Rep cur2 F1 (reportsIn R) ∨ True → ∃ cur3, (cur3 = cur2 ∨ cur3 = none) ∧
        written c cur2 d1 (.leave :: R) = (.endCollection, 0) :: written c cur3 d R) ∧
      s.read known (mainsOf rd (written c cur d (.enter k (some u) :: (l ++ (.leave :: R))))) =
        s.read known (mainsOf rd1 ([(.usage, u), (.collection, k)] ++ written c cur1 d1 (l ++ (.leave :: R)))) := by
    cases d with
    | zero =>
      cases ho : onlyReport (untilLeave 0 (l ++ (.leave :: R))) with
      | some i =>
        obtain ⟨t, ht⟩ := only_first ho
        rw [ht] at hr
        obtain ⟨e, r1, -⟩ := rep_next hr
        obtain ⟨rd1, k1, k2⟩ := read_begins cur i hc
        rw [e] at k1
        refine ⟨some i, 1, rd1, i, k1, by rw [ht]; exact r1, fun cur2 c _ => ⟨cur2, .inl rfl, by simp only [written]⟩, ?_⟩
        simp only [written, ho, List.append_assoc, Option.getD_some]
        rw [k2]
      | none =>
        refine ⟨none, 0, rd, F, hc, rep_none hr, fun cur2 c _ => ⟨none, .inr rfl, by simp only [written]⟩, ?_⟩
        simp only [written, ho, Option.getD_some]
    | succ d =>
      refine ⟨cur, d + 2, rd, F, hc, hr, fun cur2 c _ => ⟨cur2, .inl rfl, by simp only [written]⟩, ?_⟩
      simp only [written, Option.getD_some]
  obtain ⟨cur1, d1, rd1, F1, a1, a2, a3, a4⟩ := head
  rw [a4]
  obtain ⟨r1, rd2, b1, b2, b3, b4, b5⟩ := read_head u k a1
  rw [show ∀ y : List SItem, [((.usage, u) : SItem), (.collection, k)] ++ y = (.usage, u) :: (.collection, k) :: y from fun _ => rfl,
    b5, Rooms.read]
  have n1 : s.next known r1 = .ok { s with room := { kind := k, usage := some u }, outer := s.room :: s.outer } := by
    unfold Rooms.next
    rw [b2]
    simp [b3, b4]
  rw [n1]
  simp only
  obtain ⟨cur2, rd3, F2, s2, c1, c2, c3, c4⟩ := h (.leave :: R) c cur1 d1 rd2 F1
    { s with room := { kind := k, usage := some u }, outer := s.room :: s.outer } b1 a2 ⟨by simp, rfl, rfl⟩ hleft
  rw [c4]
  obtain ⟨cur3, e1, e2⟩ := a3 cur2 (after c l) (.inr trivial)
  rw [e2]
  obtain ⟨r3, rd4, f1, f2, f3⟩ := read_end c1
  rw [f3, Rooms.read]
  have hne : expand known c l ≠ [] := by
    cases l with
    | nil => exact absurd rfl hl
    | cons b l =>
      cases b with
      | value f => simp [expand, shown_ne]
      | enter _ _ => simp [expand]
      | leave => simp [expand]
      | pad _ _ _ => simp [expand]
  have hie : (!(expand known c l).isEmpty) = true := by
    cases hx : expand known c l with
    | nil => exact absurd hx hne
    | cons _ _ => rfl
  have n3 : s2.next known r3 = .ok
      ({ s with room := s.room.put true (.enter k (some u) :: expand known c l ++ [.leave]), left := false } : Rooms).closed := by
    unfold Rooms.next
    rw [f2]
    simp only [c3.left, c3.outer, Bool.false_eq_true, if_false]
    have ht : s2.tree = s.tree := c3.inner (by simp)
    congr 2
    rw [c3.room, hie, ht]
    simp [Room.close, Room.put]
  rw [n3]
  simp only
  refine ⟨cur3, rd4, F2,
    ({ s with room := s.room.put true (.enter k (some u) :: expand known c l ++ [.leave]), left := false } : Rooms).closed,
    f1, ?_, ?_, ?_⟩
  · have c2 : Rep cur2 F2 (reportsIn R) := c2
    rcases e1 with rfl | rfl
    · exact c2
    · exact rep_none c2
  · have ee : expand known c (.enter k (some u) :: l ++ [.leave]) = .enter k (some u) :: expand known c l ++ [.leave] := by
      rw [expand_append]
      simp [expand]
    rw [ee]
    refine .close _ ?_ (by simp)
    rw [shut_append (by simp)]
    rfl
  · have ea : after c (.enter k (some u) :: l ++ [.leave]) = after c l := by
      rw [after_append]; rfl
    rw [ea]

theorem calm_reads {known : Int → Bool} {a : Around} {bs : List Block} (h : Calm known a bs) : Reads known bs a := by
  induction h with
  | nil a =>
    intro R c cur d rd F s hc hr ha hl
    exact ⟨cur, rd, F, s, hc, hr, .refl hl, rfl⟩
  | pad a w i n r hw hn _ ih => exact reads_append (b1 := [_]) (reads_pad hw hn) ih
  | value a f r hf _ ih =>
    refine reads_append (b1 := [_]) (reads_value (tidy_way hf.tidy) ?_) ih
    intro rd s hc ha hl
    obtain ⟨rd', k1, k2⟩ := read_plain f (tidy_way hf.tidy) hf.inside hc
    refine ⟨rd', { s with room := s.room.put true [.value f] }, k1, ?_, fun rest => ?_⟩
    rotate_left
    · rw [k2, Rooms.read, next_fit hf ha]
    · have e : shownB known f = [.value f] := by simp [shownB, hf.inside]
      rw [e]
      exact .put _ hl (by simp [shut, hf.inside]) (by simp)
  | array a f u r hf hi _ ih =>
    refine reads_append (b1 := [_]) (reads_value (tidy_way hf) ?_) ih
    intro rd s hc ha hl
    obtain ⟨r1, r3, rd', k1, k2, k3, k4, k5, k6⟩ := read_inside f (tidy_way hf) hi hc
    refine ⟨rd', ({ s with room := s.room.put true (shownB known f), left := false } : Rooms).closed, k1, ?_, fun rest => ?_⟩
    rotate_left
    · rw [k6, read_array hf hi hl k2 k3 k4 k5]
    · refine .close _ ?_ (by simp)
      unfold shownB
      rw [hi]
      simp only
      split
      · simp [shut, hi]
      · rfl
  | coll a k u l r hl _ _ ih1 ih =>
    have e : .enter k (some u) :: l ++ .leave :: r = (.enter k (some u) :: l ++ [.leave]) ++ r := by simp
    rw [e]
    exact reads_append (reads_coll hl ih1) ih

/-! ## Offsets -/

theorem add_add (c : Offsets) (w : Cls) (i m n : Int) : (c.add w i m).add w i n = c.add w i (m + n) := by
  funext w' i'
  unfold Offsets.add
  split <;> omega

theorem add_self (c : Offsets) (w : Cls) (i n : Int) : c.add w i n w i = c w i + n := by simp [Offsets.add]

theorem gap_again (f : Fields) (c : Int) : f.gap (c + f.gap c) = 0 := by
  unfold Fields.gap
  split
  · rename_i h
    have hm : 0 < min 8 f.attrs.size := by omega
    generalize min 8 f.attrs.size = m at hm
    have e : -(c + -c % m) = -c - -c % m := by omega
    rw [e, Int.sub_emod, Int.emod_emod_of_dvd _ (Int.dvd_refl m), Int.sub_self, Int.zero_emod]
  · rfl

theorem add_zero (c : Offsets) (w : Cls) (i : Int) : c.add w i 0 = c := by
  funext w' i'
  unfold Offsets.add
  split <;> omega

theorem first_gap (f : Fields) (c : Int) : (firstOf f).gap c = f.gap c := rfl

theorem expand_pad (known : Int → Bool) (c : Offsets) (w : Cls) (i n : Int) (hn : 0 ≤ n) (r : List Block) :
    expand known c (padB w i n ++ r) = padB w i n ++ expand known (c.add w i n) r := by
  unfold padB
  split
  · rename_i h
    subst h
    rw [add_zero]
    rfl
  · have e : ((n.toNat : Nat) : Int) = n := by omega
    simp only [List.singleton_append, expand, e]

/-- Padding is added once, and arrays are expanded once. -/
theorem expand_again (known : Int → Bool) (bs : List Block) : ∀ c, expand known c (expand known c bs) = expand known c bs := by
  induction bs with
  | nil => intro c; rfl
  | cons b bs ih =>
    intro c
    cases b with
    | enter k u => simp [expand, ih]
    | leave => simp [expand, ih]
    | pad w i n => simp [expand, ih]
    | value f =>
      rw [expand, expand_pad _ _ _ _ _ (gap_nonneg _ _)]
      congr 1
      generalize hg : f.gap (c f.way f.id) = g
      have hz : f.gap ((c.add f.way f.id g) f.way f.id) = 0 := by
        rw [add_self, ← hg, gap_again]
      have hv : ∀ r, expand known (c.add f.way f.id g) (.value f :: r) = shownB known f ++
          expand known (c.add f.way f.id (g + f.attrs.size)) r := by
        intro r
        simp only [expand, hz, padB, if_true, List.nil_append, Int.zero_add, add_add]
      unfold shownB
      split
      · rename_i hi
        rw [List.singleton_append, hv, ih, shownB]
        simp only [hi]
        rfl
      · rename_i u hi
        split
        · rename_i hk
          rw [List.singleton_append, hv, ih, shownB]
          simp only [hi, hk, if_true]
          rfl
        · have e1 : (firstOf f).inside = none := rfl
          have e2 : (firstOf f).way = f.way := rfl
          have e3 : (firstOf f).id = f.id := rfl
          have e4 : (firstOf f).attrs = f.attrs := rfl
          simp only [List.cons_append, List.nil_append, expand, shownB, e1, e2, e3, e4, first_gap, hz, padB, if_true, Int.zero_add,
            add_add, ih]

theorem expand_length (known : Int → Bool) (bs : List Block) : ∀ c, bs.length ≤ (expand known c bs).length := by
  induction bs with
  | nil => intro c; simp
  | cons b bs ih =>
    intro c
    cases b with
    | value f =>
      have := ih (c.add f.way f.id (f.gap (c f.way f.id) + f.attrs.size))
      have := List.length_pos_iff.2 (shown_ne known f)
      simp only [expand, List.length_append, List.length_cons]
      omega
    | enter k u => simpa [expand] using ih c
    | leave => simpa [expand] using ih c
    | pad w i n => simpa [expand] using ih _

theorem expand_prefix {known : Int → Bool} {c : Offsets} {P Q : List Block} (h : expand known c (P ++ Q) = P ++ Q) :
    expand known c P = P := by
  rw [expand_append] at h
  have h1 := expand_length known P c
  have h2 := expand_length known Q (after c P)
  have h3 := congrArg List.length h
  simp only [List.length_append] at h3
  exact (List.append_inj h (by omega)).1

/-! ## The third rebuild -/

theorem calm_blocks {known : Int → Bool} {bs : List Block} (h : Calm known none bs) (hi : (reportsIn bs).Pairwise Down) :
    ∃ s, ({} : Rooms).read known (mainsOf {} (written (fun _ _ => 0) none 0 bs)) = .ok s ∧
      Reach {} s bs (expand known (fun _ _ => 0) bs) := by
  obtain ⟨cur', rd', F', s', -, -, k3, k4⟩ := calm_reads h [] (fun _ _ => 0) none 0 {} 0 {} clean_start
    ⟨by simp, by simpa using hi, fun i _ h => absurd rfl h⟩ trivial rfl
  refine ⟨s', ?_, k3⟩
  rw [List.append_nil] at k4
  rw [k4]
  rfl

/-- After three rebuilds nothing changes. -/
theorem third {known : Int → Bool} {xs r1 r2 r3 : List SItem} (h1 : rewritten known xs = some r1)
    (h2 : rewritten known r1 = some r2) (h3 : rewritten known r2 = some r3) : rewritten known r3 = some r3 := by
  have un : ∀ {ys r}, rewritten known ys = some r → ∃ bs, blocks known ys = .ok bs ∧ bs.all Block.compiles = true ∧
      r = written (fun _ _ => 0) none 0 bs := by
    intro ys r h
    unfold rewritten at h
    split at h
    · simp at h
    · rename_i bs hb
      split at h
      · rename_i hc
        exact ⟨bs, hb, hc, by simpa using h.symm⟩
      · simp at h
  obtain ⟨b0, k0, -, rfl⟩ := un h1
  obtain ⟨b1, k1, -, rfl⟩ := un h2
  obtain ⟨b2, k2, c2, rfl⟩ := un h3
  obtain ⟨q1, i1⟩ := calm_of_blocks (tidy_of_blocks k0) k1
  obtain ⟨q2, i2⟩ := calm_of_blocks (tidy_of_blocks k1) k2
  obtain ⟨s1, e1, g1⟩ := calm_blocks q1 i1
  obtain ⟨s2, e2, g2⟩ := calm_blocks q2 i2
  -- the second tree is part of what was read
  have hb2 : s1.tree = some b2 := by
    unfold blocks at k2
    rw [e1] at k2
    simp only at k2
    split at k2
    · simp at k2
    · rename_i bs hb
      simp only [Except.ok.injEq] at k2
      rw [← k2]
      exact hb
  have hset : expand known (fun _ _ => 0) b2 = b2 ∧ shut b2 = true := by
    rcases g1.tree rfl with k | ⟨P, Q, p1, p2, p3⟩
    · rw [hb2] at k; simp at k
    · rw [hb2] at p3
      simp only [List.nil_append, Option.some.injEq] at p3
      subst p3
      refine ⟨expand_prefix (Q := Q) ?_, p2⟩
      rw [← p1]
      exact expand_again known b1 _
  have ht : s2.tree = some b2 := by
    rw [g2.closes rfl hset.2, g2.room, hset.1]
    simp [Room.put]
  unfold rewritten
  have : blocks known (written (fun _ _ => 0) none 0 b2) = .ok b2 := by
    unfold blocks
    rw [e2]
    simp only [ht]
  rw [this]
  simp only [c2, if_true]

end Hrdc.Thrice
