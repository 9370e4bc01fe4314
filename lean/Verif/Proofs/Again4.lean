import Verif.Proofs.Again3
/-!
# Reading a rebuild of tidy elements, and of calm ones
-/
namespace Hrdc.Thrice
open Spec

theorem gap_nonneg (f : Fields) (c : Int) : 0 ≤ f.gap c := by
  unfold Fields.gap
  split
  · apply Int.emod_nonneg
    omega
  · omega

theorem down_force (cur : Option Int) (i F : Int) : Down F (force cur i F) := by
  unfold force
  split
  · exact id
  · rename_i h
    intro _
    exact fun h0 => h (.inr h0)

theorem good_pads {known : Int → Bool} {w : Cls} (hw : w.isData = true) {n : Int} (hn : 0 ≤ n) {rd : Reader} {F : Int}
    (hc : Clean rd F) {s : Rooms} (h : Good known s F) : ∃ rd' s1, Clean rd' F ∧ Good known s1 F ∧
      ∀ rest, s.read known (mainsOf rd (padItems w n ++ rest)) = s1.read known (mainsOf rd' rest) := by
  by_cases h0 : n = 0
  · refine ⟨rd, s, hc, h, fun rest => ?_⟩
    rw [padItems, if_pos h0]
    rfl
  · obtain ⟨r, rd', k1, k2, k3, k4, k5, k6, k7⟩ := read_pad w hw n h0 hc
    refine ⟨rd', _, k1, good_pad (w := w) (n := n) h hw (by omega), fun rest => ?_⟩
    rw [k7, Rooms.read, next_pad hw k2 k3 k4 k5 k6]

/-- What is read from a rebuild is calm. -/
theorem good_written {known : Int → Bool} (bs : List Block) (hb : ∀ b ∈ bs, TidyB b) :
    ∀ (c : Offsets) (cur : Option Int) (d : Nat) (rd : Reader) (F : Int) (s s' : Rooms), Clean rd F → Good known s F →
      s.read known (mainsOf rd (written c cur d bs)) = .ok s' → ∃ F', Good known s' F' := by
  induction bs with
  | nil =>
    intro c cur d rd F s s' _ h he
    simp only [written, mainsOf, Rooms.read, Except.ok.injEq] at he
    subst he
    exact ⟨F, h⟩
  | cons b r ih =>
    have ih := ih (fun x hx => hb x (List.mem_cons_of_mem _ hx))
    have hb := hb b List.mem_cons_self
    intro c cur d rd F s s' hc h he
    have head : ∀ (k : Int) (u : Int) (rd : Reader) (F : Int) (cur : Option Int) (d : Nat), Clean rd F → Good known s F →
        s.read known (mainsOf rd ([(.usage, u), (.collection, k)] ++ written c cur d r)) = .ok s' →
        ∃ F', Good known s' F' := by
      intro k u rd F cur d hc h he
      obtain ⟨q, rd', k1, k2, -, k4, k5⟩ := read_head u k hc
      rw [List.cons_append, List.singleton_append, k5, Rooms.read] at he
      split at he
      · simp at he
      · rename_i s1 h1
        exact ih _ _ _ _ _ _ _ k1 (good_open h k2 k4 h1) he
    cases b with
    | enter k u =>
      cases d with
      | zero =>
        simp only [written] at he
        split at he
        · rename_i i hi
          obtain ⟨rd', k1, k2⟩ := read_begins cur i hc
          rw [List.append_assoc, k2] at he
          exact head _ _ _ _ _ _ k1 (good_force h (down_force _ _ _)) he
        · exact head _ _ _ _ _ _ hc h he
      | succ d =>
        simp only [written] at he
        exact head _ _ _ _ _ _ hc h he
    | leave =>
      have hw : ∃ cur' d', written c cur d (.leave :: r) = (.endCollection, 0) :: written c cur' d' r := by
        cases d with
        | zero => exact ⟨none, 0, by simp only [written]⟩
        | succ d => exact ⟨cur, d, by simp only [written]⟩
      obtain ⟨cur', d', hw⟩ := hw
      rw [hw] at he
      obtain ⟨q, rd', k1, k2, k3⟩ := read_end hc
      rw [k3, Rooms.read] at he
      split at he
      · simp at he
      · rename_i s1 h1
        exact ih _ _ _ _ _ _ _ k1 (good_end h k2 h1) he
    | pad w i n =>
      rw [written, List.append_assoc] at he
      obtain ⟨rd1, k1, k2⟩ := read_begins cur i hc
      rw [k2] at he
      obtain ⟨rd2, s1, g1, g2, g3⟩ := good_pads (n := (n : Int)) hb (by omega) k1 (good_force h (down_force _ _ _))
      rw [g3] at he
      exact ih _ _ _ _ _ _ _ g1 g2 he
    | value f =>
      rw [written] at he
      simp only [List.append_assoc] at he
      obtain ⟨rd1, k1, k2⟩ := read_begins cur f.id hc
      rw [k2] at he
      obtain ⟨rd2, s1, g1, g2, g3⟩ := good_pads (n := f.gap (c f.way f.id)) (tidy_way hb) (gap_nonneg _ _) k1
        (good_force h (down_force _ _ _))
      rw [g3] at he
      cases hi : f.inside with
      | none =>
        obtain ⟨rd3, q1, q2⟩ := read_plain f (tidy_way hb) hi g1
        rw [q2, Rooms.read] at he
        split at he
        · simp at he
        · rename_i s2 h2
          exact ih _ _ _ _ _ _ _ q1 (good_data g2 (rec_ok hb _) rfl h2) he
      | some u =>
        obtain ⟨r1, r3, rd3, q1, q2, -, q4, q5, q6⟩ := read_inside f (tidy_way hb) hi g1
        rw [q6, Rooms.read] at he
        split at he
        · simp at he
        · rename_i s2 h2
          rw [Rooms.read] at he
          split at he
          · simp at he
          · rename_i s3 h3
            rw [Rooms.read] at he
            split at he
            · simp at he
            · rename_i s4 h4
              exact ih _ _ _ _ _ _ _ q1 (good_end (good_data (good_open g2 q2 q4 h2) (rec_ok hb _) rfl h3) q5 h4) he

theorem good_start (known : Int → Bool) : Good known {} 0 :=
  ⟨⟨.nil _, by simp⟩, by simp [idsOf, idsOut, reportsIn], by simp [idsOf, idsOut, reportsIn], by simp⟩

/-- What is read from a rebuild is calm, and report 0 does not follow others. -/
theorem calm_of_blocks {known : Int → Bool} {bs bs' : List Block} (hb : ∀ b ∈ bs, TidyB b)
    (h : blocks known (written (fun _ _ => 0) none 0 bs) = .ok bs') : Calm known none bs' ∧ (reportsIn bs').Pairwise Down := by
  unfold blocks at h
  split at h
  · simp at h
  · rename_i s hs
    obtain ⟨F, hg⟩ := good_written bs hb _ _ _ _ _ _ _ clean_start (good_start known) hs
    split at h
    · simp at h
    · rename_i t ht
      simp only [Except.ok.injEq] at h
      subst h
      exact hg.tree _ ht

/-! ## What is read from a rebuild of calm elements -/

/-- Padding that is there. -/
def padB (w : Cls) (i n : Int) : List Block := if n = 0 then [] else [.pad w i n.toNat]

/-- Fields as they are read again. -/
def shownB (known : Int → Bool) (f : Fields) : List Block :=
  match f.inside with
  | none => [.value f]
  | some u => if known u then [.value f] else [.enter 2 (some u), .value (firstOf f), .leave]

/-- Bits before what follows the elements. -/
def after (c : Offsets) : List Block → Offsets
  | [] => c
  | .enter _ _ :: r => after c r
  | .leave :: r => after c r
  | .pad w i n :: r => after (c.add w i n) r
  | .value f :: r => after (c.add f.way f.id (f.gap (c f.way f.id) + f.attrs.size)) r

/-- The elements as they are read again. -/
def expand (known : Int → Bool) (c : Offsets) : List Block → List Block
  | [] => []
  | .enter k u :: r => .enter k u :: expand known c r
  | .leave :: r => .leave :: expand known c r
  | .pad w i n :: r => .pad w i n :: expand known (c.add w i n) r
  | .value f :: r =>
    padB f.way f.id (f.gap (c f.way f.id)) ++ (shownB known f ++
      expand known (c.add f.way f.id (f.gap (c f.way f.id) + f.attrs.size)) r)

theorem expand_append (known : Int → Bool) (a b : List Block) : ∀ c,
    expand known c (a ++ b) = expand known c a ++ expand known (after c a) b := by
  induction a with
  | nil => intro c; rfl
  | cons x a ih => intro c; cases x <;> simp [expand, after, ih]

theorem after_append (a b : List Block) : ∀ c, after c (a ++ b) = after (after c a) b := by
  induction a with
  | nil => intro c; rfl
  | cons x a ih => intro c; cases x <;> simp [after, ih]

theorem shown_ne (known : Int → Bool) (f : Fields) : shownB known f ≠ [] := by
  unfold shownB
  split
  · simp
  · split <;> simp

/-- The last element ends a collection. -/
def shut (l : List Block) : Bool :=
  match l.getLast? with
  | some .leave => true
  | some (.value f) => f.inside.isSome
  | _ => false

theorem shut_append {a b : List Block} (h : b ≠ []) : shut (a ++ b) = shut b := by
  unfold shut
  rw [List.getLast?_append]
  cases hb : b.getLast? with
  | none => exact absurd (List.getLast?_eq_none_iff.1 hb) h
  | some x => rfl

theorem shut_ne {a : List Block} (h : shut a = true) : a ≠ [] := by
  rintro rfl
  simp [shut] at h

theorem put_put (p : Room) (f g : Bool) (a b : List Block) : (p.put f a).put g b = p.put (f || g) (a ++ b) := by
  simp [Room.put, Bool.or_assoc]

/-- From `s` to `s'` elements `bs` were read, as `e`. -/
structure Reach (s s' : Rooms) (bs e : List Block) : Prop where
  room : s'.room = s.room.put (!e.isEmpty) e
  outer : s'.outer = s.outer
  left : s'.left = false
  inner : s.outer ≠ [] → s'.tree = s.tree
  tree : s.outer = [] → s'.tree = s.tree ∨ ∃ P Q, e = P ++ Q ∧ shut P = true ∧ s'.tree = some (s.room.inner ++ P)
  closes : s.outer = [] → shut bs = true → s'.tree = some s'.room.inner
  none : bs = [] → e = []

theorem Reach.refl {s : Rooms} (h : s.left = false) : Reach s s [] [] := by
  refine ⟨?_, rfl, h, fun _ => rfl, fun _ => .inl rfl, ?_, fun _ => rfl⟩
  · simp [Room.put]
  · intro _ h; simp [shut] at h

theorem Reach.trans {s s1 s2 : Rooms} {b1 b2 e1 e2 : List Block} (h : Reach s s1 b1 e1) (h' : Reach s1 s2 b2 e2) :
    Reach s s2 (b1 ++ b2) (e1 ++ e2) := by
  have hr : s2.room = s.room.put (!(e1 ++ e2).isEmpty) (e1 ++ e2) := by
    rw [h'.room, h.room, put_put]
    congr 1
    cases e1 <;> cases e2 <;> rfl
  refine ⟨hr, h'.outer.trans h.outer, h'.left, ?_, ?_, ?_, ?_⟩
  · intro ho
    rw [h'.inner (by rwa [h.outer]), h.inner ho]
  · intro ho
    rcases h'.tree (by rwa [h.outer]) with k | ⟨P, Q, k1, k2, k3⟩
    · rw [k]
      rcases h.tree ho with g | ⟨P, Q, g1, g2, g3⟩
      · exact .inl g
      · exact .inr ⟨P, Q ++ e2, by rw [g1, List.append_assoc], g2, g3⟩
    · refine .inr ⟨e1 ++ P, Q, by rw [k1, List.append_assoc], ?_, ?_⟩
      · rw [shut_append (shut_ne k2)]; exact k2
      · rw [k3, h.room]; simp [Room.put]
  · intro ho hs
    by_cases hb : b2 = []
    · have he := h'.none hb
      subst hb he
      rw [List.append_nil] at hs
      have hroom : s2.room = s1.room := by rw [h'.room]; simp [Room.put]
      rw [hroom, ← h.closes ho hs]
      rcases h'.tree (by rwa [h.outer]) with k | ⟨P, Q, k1, k2, -⟩
      · exact k
      · simp only [List.nil_eq, List.append_eq_nil_iff] at k1
        exact absurd k1.1 (shut_ne k2)
    · rw [shut_append hb] at hs
      exact h'.closes (by rwa [h.outer]) hs
  · intro hb
    simp only [List.append_eq_nil_iff] at hb
    rw [h.none hb.1, h'.none hb.2]
    rfl

/-- Nothing is closed. -/
theorem Reach.put {s : Rooms} {b : Block} (bs : List Block) (h : s.left = false) (hb : shut bs = false) (hn : bs ≠ []) :
    Reach s { s with room := s.room.put true [b] } bs [b] := by
  refine ⟨rfl, rfl, h, fun _ => rfl, fun _ => .inl rfl, ?_, fun h => absurd h hn⟩
  intro _ h'
  rw [hb] at h'
  simp at h'

/-- A collection is closed. -/
theorem Reach.close {s : Rooms} (bs : List Block) {e : List Block} (he : shut e = true) (hn : bs ≠ []) :
    Reach s ({ s with room := s.room.put true e, left := false } : Rooms).closed bs e := by
  have hne : (!e.isEmpty) = true := by
    cases e with
    | nil => simp [shut] at he
    | cons a e => rfl
  unfold Rooms.closed
  split
  · rename_i ho
    have ho : s.outer = [] := by simpa using ho
    refine ⟨by rw [hne], rfl, rfl, fun h => absurd ho h, fun _ => .inr ⟨e, [], by simp, he, by simp [Room.put]⟩,
      fun _ _ => rfl, fun h => absurd h hn⟩
  · rename_i ho
    have ho : s.outer ≠ [] := by simpa using ho
    exact ⟨by rw [hne], rfl, rfl, fun _ => rfl, fun h => absurd h ho, fun h => absurd h ho, fun h => absurd h hn⟩

end Hrdc.Thrice
