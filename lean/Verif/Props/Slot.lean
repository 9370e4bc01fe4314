import Verif.Spec.Slot
import Verif.Props.Recompile
import Verif.Props.Frame2
/-!
# C82: decompiling and compiling again keeps the layout of reports

Whatever becomes of names: the arrays left with one usage, the strings, units and collections lost (C39, C42), the fields of
a decompiled and recompiled descriptor are where they were.
-/
namespace Hrdc
open Spec Extractor Streamer

/-! ## Elements without names -/

/-- The element without names. -/
def Spec.Block.lump : Block → Option Lump
  | .pad w id n => some (.pad w id n)
  | .value f => some (.fields f.way f.id f.attrs.size f.attrs.logMin f.attrs.logMax f.count)
  | _ => none

def lumps (bs : List Block) : List Lump := bs.filterMap Block.lump

theorem lumps_append (a b : List Block) : lumps (a ++ b) = lumps a ++ lumps b := by simp [lumps]

theorem slots_append (a b : List Event) : slots (a ++ b) = slots a ++ slots b := by simp [slots]

theorem slots_replicate (n : Nat) (e s : Event) (h : e.slot = some s) : slots (List.replicate n e) = List.replicate n s := by
  induction n with
  | zero => rfl
  | succ n ih =>
    rw [List.replicate_succ, List.replicate_succ, ← ih]
    simp [slots, h]

theorem slots_within (u : Option Int) (es : List Event) : slots (within u es) = slots es := by
  cases u with
  | none => rfl
  | some u =>
    show slots (Event.enter 2 ⟨some u, 0, 0⟩ :: (es ++ [.leave])) = _
    unfold slots
    rw [List.filterMap_cons_none rfl, List.filterMap_append]
    exact List.append_nil _

theorem blocks_lumps {r : MainRec} (hd : r.cls.isData = true) : lumps r.blocks = r.lumps := by
  have key : ∀ (n : Nat) (f : Nat → Block) (l : Lump), (∀ k, (f k).lump = some l) →
      Hrdc.lumps ((List.range n).map f) = List.replicate n l := by
    intro n f l h
    induction n with
    | zero => rfl
    | succ n ih => rw [List.range_succ, List.map_append, lumps_append, ih, List.replicate_succ']; simp [Hrdc.lumps, h]
  unfold MainRec.blocks MainRec.lumps
  rw [if_pos hd]
  simp only
  split
  · rfl
  · split
    · rename_i h
      rw [if_neg (by rw [h.1]; decide)]
      generalize (r.g .reportCount).toNat = n
      induction n with
      | zero => rfl
      | succ n ih => rw [List.replicate_succ, List.replicate_succ, ← ih]; rfl
    · split
      · rfl
      · exact key _ _ _ fun k => rfl

theorem rec_slots (r : MainRec) : slots r.events = r.lumps.flatMap Lump.slots := by
  by_cases hd : r.cls.isData = true
  · rw [events_data hd]
    unfold MainRec.lumps
    rw [if_pos hd]
    have key : ∀ n : Nat, slots ((List.range n).map fun k => Event.control r.cls r.val (r.g .reportID) r.attrs (r.what k))
        = List.replicate n (slotOf r.cls (r.g .reportID) (r.g .reportSize) (r.g .logMin) (r.g .logMax)) := by
      intro n
      induction n with
      | zero => rfl
      | succ n ih => rw [List.range_succ, List.map_append, slots_append, ih, List.replicate_succ']; rfl
    split
    · rw [slots_replicate _ _ _ rfl]; simp [Lump.slots]
    · rw [key]
      split
      · simp [Lump.slots]
      · generalize (r.g .reportCount).toNat = n
        induction n with
        | zero => rfl
        | succ n ih => rw [List.replicate_succ, List.replicate_succ, List.flatMap_cons, ← ih]; rfl
  · unfold MainRec.lumps
    rw [if_neg hd]
    unfold MainRec.events
    cases h : r.cls <;> simp_all [Cls.isData, slots, Event.slot]

/-! ## Two readings of a stream -/

theorem lumps_same {r s : MainRec} (hc : r.cls = s.cls) (hv : r.val = s.val) (hg : ∀ t ∈ frameTags, r.g t = s.g t) :
    r.lumps = s.lumps := by
  have h1 := hg .reportSize (by decide)
  have h2 := hg .reportCount (by decide)
  have h3 := hg .reportID (by decide)
  have h4 := hg .logMin (by decide)
  have h5 := hg .logMax (by decide)
  unfold MainRec.lumps MainRec.isConst
  rw [hc, hv, h1, h2, h3, h4, h5]

theorem readings (rule : PageRule) (xs : List SItem) (hp : ∀ i ∈ xs, i.1 ≠ .pop) : ∀ (h : Host) (s : Reader),
    (∀ t ∈ frameTags, h.g t = s.g t) →
    ((recs rule h xs).flatMap MainRec.lumps) = ((mainsOf s xs).flatMap MainRec.lumps) := by
  induction xs with
  | nil => intros; rfl
  | cons i xs ih =>
    intro h s hg
    have hn : ∀ t ∈ frameTags, (h.step rule i).g t = (s.next i).g t := by
      intro t ht
      have h0 := hp i (by simp)
      have h1 := hg t ht
      obtain ⟨c, v⟩ := i
      have h2 : t ≠ .push := by rintro rfl; simp [frameTags] at ht
      cases c <;> simp_all [Host.step, Reader.next, Cls.kind]
    rw [recs_cons, mainsOf, List.flatMap_append, List.flatMap_append, ih (fun j hj => hp j (by simp [hj])) _ _ hn]
    congr 1
    split
    · simp only [List.flatMap_cons, List.flatMap_nil, List.append_nil]
      exact lumps_same rfl rfl hg
    · rfl

theorem meaning_slots (rule : PageRule) (xs : List SItem) (hp : ∀ i ∈ xs, i.1 ≠ .pop) :
    slots (meaning rule xs) = ((mainsOf {} xs).flatMap MainRec.lumps).flatMap Lump.slots := by
  rw [← readings rule xs hp {} {} (fun _ _ => rfl)]
  unfold meaning eventsFrom slots
  rw [List.filterMap_flatMap, List.flatMap_assoc]
  exact flatMap_same fun r _ => rec_slots r

/-! ## Collections -/

/-- All there is. -/
def Spec.Rooms.all (s : Rooms) : List Block := (s.outer.reverse.map Room.inner).flatten ++ s.room.inner

/-- Rooms with nothing inside have no elements. -/
def Spec.Rooms.Fair (s : Rooms) : Prop := ∀ p ∈ s.room :: s.outer, p.full = false → lumps p.inner = []

theorem closed_all (s : Rooms) : s.closed.all = s.all ∧ s.closed.room = s.room ∧ s.closed.outer = s.outer ∧
    s.closed.left = s.left := by
  unfold Rooms.closed
  split <;> exact ⟨rfl, rfl, rfl, rfl⟩

theorem fields_all {s s' : Rooms} {r : MainRec} (hd : r.cls.isData = true) (h : s.fields r = .ok s') (hf : s.Fair) :
    lumps s'.all = lumps s.all ++ r.lumps ∧ s'.Fair ∧ s'.outer = s.outer ∧ s'.left = s.left := by
  unfold Rooms.fields at h
  split at h
  · simp at h
  · simp only [Except.ok.injEq] at h
    subst h
    refine ⟨?_, ?_, rfl, rfl⟩
    · simp only [Rooms.all, Room.put, lumps_append, List.append_assoc, blocks_lumps hd]
    · intro p hp hfull
      simp only [List.mem_cons] at hp
      rcases hp with rfl | hp
      · simp only [Room.put, Bool.or_eq_false_iff] at hfull
        simp only [Room.put, lumps_append, blocks_lumps hd]
        rw [hf s.room (by simp) hfull.1, List.nil_append]
        have h2 := hfull.2
        simp only [hasFields, Bool.or_eq_false_iff, decide_eq_false_iff_not] at h2
        unfold MainRec.lumps
        rw [if_pos hd, if_neg (by simp [h2.1.1]), if_neg (by simpa using h2.2)]
        have : (r.g .reportCount).toNat = 0 := by omega
        rw [this]; rfl
      · exact hf p (by simp [hp]) hfull

theorem single_lumps {r : MainRec} (hd : r.cls.isData = true) (h : r.single = true) (u : Option Int) :
    lumps [.value (r.arrayFields u)] = r.lumps := by
  simp only [MainRec.single, Bool.and_eq_true, Bool.not_eq_true', beq_iff_eq] at h
  unfold MainRec.lumps
  rw [if_pos hd, if_neg (by simp [h.1.1]), h.1.2]
  have : Hrdc.lumps [.value (r.arrayFields u)] =
      [.fields r.cls (r.g .reportID) (r.g .reportSize) (r.g .logMin) (r.g .logMax) 1] := rfl
  rw [this]
  split <;> rfl

theorem named_all {s s' : Rooms} {p : Room} {o : List Room} {r : MainRec} (hd : r.cls.isData = true)
    (ho : s.outer = p :: o) (hs : r.single = true) (h : s.named p o r = .ok s') (hf : s.Fair) :
    lumps s'.all = lumps s.all ++ r.lumps ∧ s'.Fair ∧ s'.outer.length + 1 = s.outer.length ∧ s'.left = true := by
  unfold Rooms.named at h
  split at h
  · simp at h
  · rename_i hfull
    split at h
    · simp at h
    · simp only [Except.ok.injEq] at h
      subst h
      have he := hf s.room (by simp) (by simpa using hfull)
      refine ⟨?_, ?_, by simp [ho], rfl⟩
      · simp only [Rooms.all, Room.put, ho, lumps_append, List.reverse_cons, List.map_append, List.flatten_append, he,
          single_lumps hd hs]
        simp [lumps]
      · intro q hq hqf
        simp only [List.mem_cons] at hq
        rcases hq with rfl | hq
        · simp [Room.put] at hqf
        · exact hf q (by simp [ho, hq]) hqf

/-- Reading a main item. -/
theorem next_all {known : Int → Bool} {s s' : Rooms} {r : MainRec} (hm : r.cls.kind = .main)
    (h : s.next known r = .ok s') (hf : s.Fair) :
    lumps s'.all = lumps s.all ++ r.lumps ∧ s'.Fair ∧
    s'.outer.length + s'.left.toNat + (if r.cls = .endCollection then 1 else 0) ≤
      s.outer.length + s.left.toNat + (if r.cls = .collection then 1 else 0) ∧
    (r.cls = .endCollection → s'.outer = [] → s'.tree = some s'.room.inner) := by
  have close : ∀ w : Rooms, (w.outer = [] → w.closed.tree = some w.closed.room.inner) := by
    intro w hw
    unfold Rooms.closed
    simp [hw]
  have data : ∀ (hd : r.cls.isData = true), (if r.single then
      match s.outer with
      | [] => (.error .outside : Except Refusal Rooms)
      | p :: o =>
        match s.room.array known r.val with
        | .error e => .error e
        | .ok true => s.named p o r
        | .ok false => s.fields r
    else s.fields r) = .ok s' → lumps s'.all = lumps s.all ++ r.lumps ∧ s'.Fair ∧
      s'.outer.length + s'.left.toNat ≤ s.outer.length + s.left.toNat := by
    intro hd h
    split at h
    · rename_i hs
      split at h
      · simp at h
      · rename_i p o ho
        split at h
        · simp at h
        · obtain ⟨a, b, c, d⟩ := named_all hd ho hs h hf
          refine ⟨a, b, ?_⟩
          rw [d]
          simp only [Bool.toNat_true]
          omega
        · obtain ⟨a, b, c, d⟩ := fields_all hd h hf
          exact ⟨a, b, by rw [c, d]; exact Nat.le_refl _⟩
    · obtain ⟨a, b, c, d⟩ := fields_all hd h hf
      exact ⟨a, b, by rw [c, d]; exact Nat.le_refl _⟩
  unfold Rooms.next at h
  cases hc : r.cls <;> rw [hc] at h hm <;> simp only [Cls.kind, reduceCtorEq] at hm
  case collection =>
    simp only [Except.ok.injEq] at h
    subst h
    have hl : r.lumps = [] := by simp [MainRec.lumps, hc, Cls.isData]
    refine ⟨?_, ?_, ?_, by simp⟩
    · rw [hl]
      simp [Rooms.all]
    · intro p hp hfull
      simp only [List.mem_cons] at hp
      rcases hp with rfl | rfl | hp
      · rfl
      · exact hf _ (by simp) hfull
      · exact hf p (by simp [hp]) hfull
    · simp
      omega
  case endCollection =>
    have hl : r.lumps = [] := by simp [MainRec.lumps, hc, Cls.isData]
    rw [hl, List.append_nil]
    simp only at h
    split at h
    · rename_i hleft
      simp only [Except.ok.injEq] at h
      subst h
      obtain ⟨a, b, c, d⟩ := closed_all { s with left := false }
      refine ⟨by rw [a]; rfl, ?_, ?_, fun _ h => close _ (by rw [c] at h; exact h)⟩
      · intro p hp; rw [b, c] at hp; exact hf p hp
      · rw [c, d, hleft]; simp
    · split at h
      · simp at h
      · rename_i p o ho
        simp only [Except.ok.injEq] at h
        subst h
        obtain ⟨a, b, c, d⟩ := closed_all { s with room := s.room.close p, outer := o }
        refine ⟨?_, ?_, ?_, fun _ h => close _ (by rw [c] at h; exact h)⟩
        · rw [a]
          simp only [Rooms.all, ho, Room.close]
          split
          · simp only [Room.put, lumps, List.reverse_cons, List.map_append, List.flatten_append, List.filterMap_append,
              List.cons_append]
            rw [List.filterMap_cons_none rfl, List.filterMap_append]
            simp [Block.lump]
          · rename_i hfull
            have he := hf s.room (by simp) (by simpa using hfull)
            simp only [List.reverse_cons, List.map_append, List.flatten_append, lumps_append, he]
            simp [lumps]
        · intro q hq hqf
          rw [b, c] at hq
          simp only [List.mem_cons] at hq
          rcases hq with rfl | hq
          · simp only [Room.close] at hqf ⊢
            split at hqf
            · simp [Room.put] at hqf
            · rename_i hfull
              rw [if_neg hfull]
              exact hf p (by simp [ho]) hqf
          · exact hf q (by simp [ho, hq]) hqf
        · rw [c, d, ho]; simp; omega
  all_goals
    obtain ⟨a, b, c⟩ := data (by rw [hc]; rfl) h
    exact ⟨a, b, by simpa using c, by simp⟩

theorem read_all {known : Int → Bool} (rs : List MainRec) (hm : ∀ r ∈ rs, r.cls.kind = .main) : ∀ {s s' : Rooms},
    s.read known rs = .ok s' → s.Fair →
    lumps s'.all = lumps s.all ++ rs.flatMap MainRec.lumps ∧ s'.Fair ∧
    s'.outer.length + s'.left.toNat + (rs.map MainRec.cls).count .endCollection ≤
      s.outer.length + s.left.toNat + (rs.map MainRec.cls).count .collection ∧
    ((rs.map MainRec.cls).getLast? = some .endCollection → s'.outer = [] → s'.tree = some s'.room.inner) := by
  induction rs with
  | nil =>
    intro s s' h hf
    simp only [Rooms.read, Except.ok.injEq] at h
    subst h
    exact ⟨by simp, hf, by simp, by simp⟩
  | cons r rs ih =>
    intro s s' h hf
    simp only [Rooms.read] at h
    split at h
    · simp at h
    · rename_i w hw
      obtain ⟨a, b, c, d⟩ := next_all (hm r (by simp)) hw hf
      obtain ⟨a', b', c', d'⟩ := ih (fun q hq => hm q (by simp [hq])) h b
      refine ⟨?_, b', ?_, ?_⟩
      · rw [a', a, List.flatMap_cons, List.append_assoc]
      · rw [List.map_cons, List.count_cons, List.count_cons]
        simp only [beq_iff_eq]
        omega
      · cases rs with
        | nil =>
          intro hl ho
          simp only [Rooms.read, Except.ok.injEq] at h
          subst h
          exact d (by simpa using hl) ho
        | cons q qs => intro hl; exact d' (by simpa using hl)

theorem mains_of (xs : List SItem) : ∀ s : Reader, (mainsOf s xs).map MainRec.cls = mains xs ∧
    ∀ r ∈ mainsOf s xs, r.cls.kind = .main := by
  induction xs with
  | nil => intro s; exact ⟨rfl, by simp [mainsOf]⟩
  | cons i xs ih =>
    intro s
    obtain ⟨a, b⟩ := ih (s.next i)
    unfold mains at a ⊢
    by_cases h : i.1.kind = .main
    · refine ⟨by simp [mainsOf, h, a, Reader.main], fun r hr => ?_⟩
      simp only [mainsOf, h, if_true, List.cons_append, List.nil_append, List.mem_cons] at hr
      rcases hr with rfl | hr
      · exact h
      · exact b r hr
    · refine ⟨by simp [mainsOf, h, a], fun r hr => ?_⟩
      simp only [mainsOf, h, if_false, List.nil_append] at hr
      exact b r hr

/-- The elements of a decompiled stream, when all collections are closed at the end. -/
theorem blocks_slots {known : Int → Bool} {xs : List SItem} {bs : List Block} (h : blocks known xs = .ok bs)
    (hc : complete xs = true) : lumps bs = (mainsOf {} xs).flatMap MainRec.lumps := by
  unfold blocks at h
  split at h
  · simp at h
  · rename_i s hs
    obtain ⟨m1, m2⟩ := mains_of xs {}
    have hf : ({} : Rooms).Fair := by
      intro p hp
      simp only [List.mem_cons, List.not_mem_nil, or_false] at hp
      subst hp
      exact fun _ => rfl
    obtain ⟨a, -, c, d⟩ := read_all _ m2 hs hf
    rw [m1] at c d
    simp only [complete, Bool.and_eq_true, beq_iff_eq] at hc
    have ho : s.outer = [] := by
      rw [hc.1] at c
      have e : ({} : Rooms).outer.length + ({} : Rooms).left.toNat = 0 := rfl
      have : s.outer.length = 0 := by omega
      exact List.length_eq_zero_iff.1 this
    rw [d hc.2 ho] at h
    simp only [Except.ok.injEq] at h
    subst h
    have : s.all = s.room.inner := by simp [Rooms.all, ho]
    rw [← this, a]
    rfl

/-! ## Layout -/

/-- Report 0 comes first; `nz` is the report before. -/
def zeroFirst (nz : Int) : List Lump → Prop
  | [] => True
  | .pad _ id _ :: r | .fields _ id _ _ _ _ :: r => (id = 0 → nz = 0) ∧ zeroFirst (if id = 0 then nz else id) r

/-- Fields that are there, of a size that is not negative. -/
def Spec.Lump.Some : Lump → Prop
  | .pad _ _ _ => True
  | .fields _ _ s _ _ n => 0 ≤ s ∧ n ≠ 0

/-- One field. -/
def Spec.Lump.One : Lump → Prop
  | .pad _ _ _ => True
  | .fields _ _ s _ _ n => 0 ≤ s ∧ n = 1

theorem aligned_pads (w : Cls) (id : Int) (r : List Event) : ∀ (n : Nat) (off : Cls → Int → Nat),
    alignedFrom off (List.replicate n (.padBit w id) ++ r) =
      alignedFrom (fun w' i => off w' i + if w = w' ∧ id = i then n else 0) r := by
  intro n
  induction n with
  | zero => intro off; simp
  | succ n ih =>
    intro off
    rw [List.replicate_succ, List.cons_append, alignedFrom, ih]
    simp only [Event.aligned, Bool.true_and, Event.bits]
    congr 1
    funext w' i
    split <;> omega

theorem aligned_fields (w : Cls) (id s lo hi : Int) (r : List Event) : ∀ (n : Nat) (off : Cls → Int → Nat),
    alignedFrom off (List.replicate n (slotOf w id s lo hi) ++ r) = true → n ≠ 0 →
      (s > 1 → (off w id : Int) % min 8 s = 0) ∧
      alignedFrom (fun w' i => off w' i + if w = w' ∧ id = i then s.toNat * n else 0) r = true := by
  intro n
  induction n with
  | zero => intro off _ h; exact absurd rfl h
  | succ n ih =>
    intro off h _
    rw [List.replicate_succ, List.cons_append, alignedFrom, Bool.and_eq_true] at h
    refine ⟨by simpa only [slotOf, Event.aligned, decide_eq_true_eq] using h.1, ?_⟩
    have h2 := h.2
    simp only [slotOf, Event.bits] at h2
    by_cases hn : n = 0
    · subst hn
      simpa using h2
    · have := (ih _ h2 hn).2
      rw [← this]
      congr 1
      funext w' i
      split
      · rw [Nat.mul_add]; omega
      · omega

theorem slots_fields (f : Fields) : slots f.events =
    List.replicate f.count (slotOf f.way f.id f.attrs.size f.attrs.logMin f.attrs.logMax) := by
  rw [Fields.events, slots_within, slots_replicate _ _ _ rfl]
  rfl

/-- Elements that are aligned stay where they are. -/
theorem laid_slots (bs : List Block) : ∀ (c : Offsets) (off : Cls → Int → Nat), (∀ w i, c w i = off w i) →
    (∀ l ∈ lumps bs, l.Some) → alignedFrom off ((lumps bs).flatMap Lump.slots) = true →
    slots (laid c bs) = (lumps bs).flatMap Lump.slots := by
  induction bs with
  | nil => intros; rfl
  | cons b bs ih =>
    intro c off hc hs ha
    cases b with
    | enter k u =>
      rw [show lumps (.enter k u :: bs) = lumps bs from List.filterMap_cons_none rfl] at hs ha ⊢
      rw [laid, ← ih c off hc hs ha]
      exact List.filterMap_cons_none rfl
    | leave =>
      rw [show lumps (.leave :: bs) = lumps bs from List.filterMap_cons_none rfl] at hs ha ⊢
      rw [laid, ← ih c off hc hs ha]
      exact List.filterMap_cons_none rfl
    | pad w id n =>
      rw [show lumps (.pad w id n :: bs) = .pad w id n :: lumps bs from List.filterMap_cons_some rfl] at hs ha ⊢
      rw [List.flatMap_cons] at ha ⊢
      simp only [Lump.slots] at ha ⊢
      rw [aligned_pads] at ha
      rw [laid, slots_append, slots_replicate _ _ _ rfl, ih _ _ ?_ (fun l hl => hs l (by simp [hl])) ha]
      intro w' i
      simp only [Offsets.add, hc]
      by_cases h : w' = w ∧ i = id
      · rw [if_pos h, if_pos ⟨h.1.symm, h.2.symm⟩]; simp
      · rw [if_neg h, if_neg (fun h' => h ⟨h'.1.symm, h'.2.symm⟩)]; simp
    | value f =>
      rw [show lumps (.value f :: bs) = .fields f.way f.id f.attrs.size f.attrs.logMin f.attrs.logMax f.count :: lumps bs
        from List.filterMap_cons_some rfl] at hs ha ⊢
      rw [List.flatMap_cons] at ha ⊢
      simp only [Lump.slots] at ha ⊢
      obtain ⟨s1, s2⟩ := hs (.fields f.way f.id f.attrs.size f.attrs.logMin f.attrs.logMax f.count) (by simp)
      obtain ⟨a1, a2⟩ := aligned_fields _ _ _ _ _ _ _ _ ha s2
      have hgap : f.gap (c f.way f.id) = 0 := by
        unfold Fields.gap
        split
        · rename_i h
          rw [hc]
          exact Int.emod_eq_zero_of_dvd (Int.dvd_neg.2 (Int.dvd_of_emod_eq_zero (a1 h)))
        · rfl
      rw [laid]
      simp only [hgap]
      rw [slots_append, slots_append, slots_fields, ih _ _ ?_ (fun l hl => hs l (by simp [hl])) a2]
      · rfl
      · intro w' i
        simp only [Offsets.add, hc]
        by_cases h : w' = f.way ∧ i = f.id
        · rw [if_pos h, if_pos ⟨h.1.symm, h.2.symm⟩]
          simp
          rw [Int.max_eq_left s1]
        · rw [if_neg h, if_neg (fun h' => h ⟨h'.1.symm, h'.2.symm⟩)]; simp

/-- Elements with one field, report 0 first, are compiled as they are laid out. -/
theorem recompiled_slots (bs : List Block) : ∀ (c : Offsets) (nz : Int), (∀ l ∈ lumps bs, l.One) → zeroFirst nz (lumps bs) →
    slots (recompiled c nz bs) = slots (laid c bs) := by
  induction bs with
  | nil => intros; rfl
  | cons b bs ih =>
    intro c nz hs hz
    cases b with
    | enter k u =>
      rw [show lumps (.enter k u :: bs) = lumps bs from List.filterMap_cons_none rfl] at hs hz
      have := ih c nz hs hz
      unfold slots at this ⊢
      rw [recompiled, laid, List.filterMap_cons_none rfl, List.filterMap_cons_none rfl, this]
    | leave =>
      rw [show lumps (.leave :: bs) = lumps bs from List.filterMap_cons_none rfl] at hs hz
      have := ih c nz hs hz
      unfold slots at this ⊢
      rw [recompiled, laid, List.filterMap_cons_none rfl, List.filterMap_cons_none rfl, this]
    | pad w id n =>
      rw [show lumps (.pad w id n :: bs) = .pad w id n :: lumps bs from List.filterMap_cons_some rfl] at hs hz
      obtain ⟨z1, z2⟩ := hz
      have := ih (c.add w id n) _ (fun l hl => hs l (by simp [hl])) z2
      rw [recompiled, laid, slots_append, slots_append, this]
      split
      · rename_i h; rw [z1 h, h]
      · rfl
    | value f =>
      rw [show lumps (.value f :: bs) = .fields f.way f.id f.attrs.size f.attrs.logMin f.attrs.logMax f.count :: lumps bs
        from List.filterMap_cons_some rfl] at hs hz
      obtain ⟨z1, z2⟩ := hz
      obtain ⟨-, s2⟩ := hs (.fields f.way f.id f.attrs.size f.attrs.logMin f.attrs.logMax f.count) (by simp)
      have hid : (if f.id = 0 then nz else f.id) = f.id := by
        split
        · rename_i h; rw [z1 h, h]
        · rfl
      have := ih (c.add f.way f.id (f.gap (c f.way f.id) + f.attrs.size)) _ (fun l hl => hs l (by simp [hl])) z2
      rw [recompiled, laid]
      rw [hid] at this ⊢
      have hcomp : slots (f.compiled f.id) = slots f.events := by
        rw [slots_fields]
        unfold Fields.compiled
        split <;> rw [slots_fields]
      rw [slots_append, slots_append, slots_append, slots_append, this, hcomp, s2]
      simp

theorem slots_aligned (es : List Event) : ∀ off, alignedFrom off (slots es) = alignedFrom off es := by
  induction es with
  | nil => intro off; rfl
  | cons e es ih =>
    intro off
    cases e with
    | enter k w => rw [show slots (.enter k w :: es) = slots es from List.filterMap_cons_none rfl, ih]; simp [alignedFrom, Event.aligned, Event.bits]
    | leave => rw [show slots (.leave :: es) = slots es from List.filterMap_cons_none rfl, ih]; simp [alignedFrom, Event.aligned, Event.bits]
    | padBit w i =>
      rw [show slots (.padBit w i :: es) = .padBit w i :: slots es from List.filterMap_cons_some rfl, alignedFrom, ih]; rfl
    | control w f i a s =>
      rw [show slots (.control w f i a s :: es) = .control w 0 i ⟨a.size, a.logMin, a.logMax, 0, 0, 0, 0⟩ [] :: slots es
        from List.filterMap_cons_some rfl, alignedFrom, ih]; rfl

/-! ## Conditions on the stream -/

theorem lump_facts (xs : List SItem) (hp : ∀ i ∈ xs, i.1 ≠ .pop) (hs : ∀ i ∈ xs, i.1 = .reportSize → 0 ≤ i.2)
    (hz : ∀ i ∈ xs, i.1 = .reportID → i.2 ≠ 0) : ∀ (s : Reader) (nz : Int), 0 ≤ s.g .reportSize → (s.g .reportID = 0 → nz = 0) →
    zeroFirst nz ((mainsOf s xs).flatMap MainRec.lumps) ∧ ∀ r ∈ mainsOf s xs, 0 ≤ r.g .reportSize := by
  have same : ∀ (id : Int) (ls r : List Lump), (∀ l ∈ ls, (∃ w n, l = .pad w id n) ∨ ∃ w s lo hi n, l = .fields w id s lo hi n) →
      ∀ nz, (id = 0 → nz = 0) → (∀ nz', (id = 0 → nz' = 0) → zeroFirst nz' r) → zeroFirst nz (ls ++ r) := by
    intro id ls r
    induction ls with
    | nil => intro _ nz h h'; exact h' nz h
    | cons l ls ih =>
      intro hl nz h h'
      have hn : id = 0 → (if id = 0 then nz else id) = 0 := by intro h0; rw [if_pos h0, h h0]
      rcases hl l (by simp) with ⟨w, n, rfl⟩ | ⟨w, s, lo, hi, n, rfl⟩
      · exact ⟨h, ih (fun l hl' => hl l (by simp [hl'])) _ hn h'⟩
      · exact ⟨h, ih (fun l hl' => hl l (by simp [hl'])) _ hn h'⟩
  induction xs with
  | nil => intro s nz _ _; exact ⟨trivial, by simp [mainsOf]⟩
  | cons i xs ih =>
    intro s nz h1 h2
    have hn1 : 0 ≤ (s.next i).g .reportSize := by
      have := hs i (by simp)
      obtain ⟨c, v⟩ := i
      cases c <;> simp_all [Reader.next, Cls.kind]
    have hn2 : ∀ nz' : Int, (s.g .reportID = 0 → nz' = 0) → ((s.next i).g .reportID = 0 → nz' = 0) := by
      have := hz i (by simp)
      obtain ⟨c, v⟩ := i
      cases c <;> simp_all [Reader.next, Cls.kind]
    have ih := fun nz' => ih (fun j hj => hp j (by simp [hj])) (fun j hj => hs j (by simp [hj])) (fun j hj => hz j (by simp [hj]))
      (s.next i) nz' hn1
    refine ⟨?_, ?_⟩
    · rw [mainsOf, List.flatMap_append]
      refine same (s.g .reportID) _ _ ?_ nz h2 fun nz' h' => (ih nz' (hn2 nz' h')).1
      intro l hl
      split at hl
      · simp only [List.flatMap_cons, List.flatMap_nil, List.append_nil] at hl
        unfold MainRec.lumps at hl
        split at hl
        · split at hl
          · exact .inl ⟨_, _, List.mem_singleton.1 hl⟩
          · split at hl
            · exact .inr ⟨_, _, _, _, _, List.mem_singleton.1 hl⟩
            · exact .inr ⟨_, _, _, _, _, (List.mem_replicate.1 hl).2⟩
        · simp at hl
      · simp at hl
    · intro r hr
      rw [mainsOf, List.mem_append] at hr
      rcases hr with hr | hr
      · split at hr
        · simp only [List.mem_cons, List.not_mem_nil, or_false] at hr
          subst hr
          exact h1
        · simp at hr
      · exact (ih 0 fun _ => rfl).2 r hr

/-- What is asked of a stream: nothing is popped, all collections end, no report has ID 0 by an item, buffered bytes are single
fields, and fields start at a multiple of their size (or of 8 bits). -/
structure KeepsPlaces (xs : List SItem) : Prop where
  pops : ∀ i ∈ xs, i.1 ≠ .pop
  ends : complete xs = true
  ids : ∀ i ∈ xs, i.1 = .reportID → i.2 ≠ 0
  buffered : ∀ r ∈ recs .atMain {} xs, r.cls.isData = true → r.isConst = false → r.val / 256 % 2 = 1 → r.g .reportCount = 1
  places : aligned (meaning .atMain xs) = true

theorem keepsPlaces_iff (xs : List SItem) : KeepsPlaces xs ↔ (∀ i ∈ xs, i.1 ≠ .pop) ∧ complete xs = true ∧
    (∀ i ∈ xs, i.1 = .reportID → i.2 ≠ 0) ∧
    (∀ r ∈ recs .atMain {} xs, r.cls.isData = true → r.isConst = false → r.val / 256 % 2 = 1 → r.g .reportCount = 1) ∧
    aligned (meaning .atMain xs) = true :=
  ⟨fun h => ⟨h.1, h.2, h.3, h.4, h.5⟩, fun ⟨a, b, c, d, e⟩ => ⟨a, b, c, d, e⟩⟩

instance (xs : List SItem) : Decidable (KeepsPlaces xs) := decidable_of_iff _ (keepsPlaces_iff xs).symm

theorem one_lump {xs : List SItem} (h : KeepsPlaces xs) (hs : ∀ i ∈ xs, i.1 = .reportSize → 0 ≤ i.2) :
    ∀ l ∈ (mainsOf {} xs).flatMap MainRec.lumps, l.One := by
  intro l hl
  have hl' := hl
  rw [← readings .atMain xs h.pops {} {} (fun _ _ => rfl)] at hl'
  obtain ⟨r, hr, h1⟩ := List.mem_flatMap.1 hl
  obtain ⟨r', hr', h2⟩ := List.mem_flatMap.1 hl'
  have hsize := (lump_facts xs h.pops hs h.ids {} 0 (Int.le_refl 0) (fun _ => rfl)).2 r hr
  cases l with
  | pad w id n => trivial
  | fields w id s lo hi n =>
    refine ⟨?_, ?_⟩
    · unfold MainRec.lumps at h1
      split at h1
      · split at h1
        · simp at h1
        · split at h1
          · simp only [List.mem_singleton, Lump.fields.injEq] at h1
            rw [h1.2.2.1]; exact hsize
          · have := (List.mem_replicate.1 h1).2
            simp only [Lump.fields.injEq] at this
            rw [this.2.2.1]; exact hsize
      · simp at h1
    · unfold MainRec.lumps at h2
      split at h2
      · rename_i hd
        split at h2
        · simp at h2
        · rename_i hc
          split at h2
          · rename_i hb
            simp only [List.mem_singleton, Lump.fields.injEq] at h2
            rw [h2.2.2.2.2.2, h.buffered r' hr' hd (by simpa using hc) hb]
            rfl
          · have := (List.mem_replicate.1 h2).2
            simp only [Lump.fields.injEq] at this
            exact this.2.2.2.2.2
      · simp at h2

theorem kept_places {reg reg' : Registry} {rule : PageRule} {xs : List Item} (hm : ∀ i ∈ xs, i.Made) (hu : KindsOf reg xs)
    (h : KeepsPlaces (keys xs)) {t : Node} (ht : extract reg xs = .ok t) :
    slots (treeMeaning t) = slots (meaning rule (keys xs)) ∧ ∀ items, compile reg' t = .ok items →
      slots (meaning rule (keys items)) = slots (meaning rule (keys xs)) := by
  have hr := recompiled_of (reg' := reg') (rule := rule) hm hu
  have hs : ∀ i ∈ keys xs, i.1 = .reportSize → 0 ≤ i.2 := by
    intro k hk hc
    obtain ⟨i, hi, rfl⟩ := List.mem_map.1 hk
    rcases (hm i hi).nonneg with h' | h'
    · rw [show i.cls = .reportSize from hc] at h'; simp [Cls.signed] at h'
    · exact h'
  cases hb : blocks (arrayUsage reg) (keys xs) with
  | error e => rw [hb] at hr; simp only at hr; rw [hr] at ht; simp at ht
  | ok bs =>
    rw [hb] at hr
    obtain ⟨t', h1, h2, -, h3⟩ := hr
    rw [ht] at h1
    cases h1
    have hl := blocks_slots hb h.ends
    have hone := one_lump h hs
    have hz := (lump_facts (keys xs) h.pops hs h.ids {} 0 (Int.le_refl 0) (fun _ => rfl)).1
    have hal := h.places
    unfold aligned at hal
    rw [← slots_aligned, meaning_slots .atMain _ h.pops] at hal
    rw [← hl] at hone hz hal
    have hsome : ∀ l ∈ lumps bs, l.Some := by
      intro l hl'
      have := hone l hl'
      cases l with
      | pad w id n => trivial
      | fields w id s lo hi n => exact ⟨this.1, by rw [this.2]; decide⟩
    have e1 : slots (laid atStart bs) = slots (meaning rule (keys xs)) := by
      rw [laid_slots bs atStart (fun _ _ => 0) (fun _ _ => rfl) hsome hal, meaning_slots rule _ h.pops, hl]
    refine ⟨by rw [h2, e1], fun items hi => ?_⟩
    rw [h3 items hi, recompiled_slots bs atStart 0 hone hz, e1]

/-- **C82 (partial).** Decompiling keeps every number at its place: the fields and padding bits of the tree are those of the
stream, in order, with their reports, sizes and logical bounds, and so are those of the items it is compiled to.
Arrays that are left with one usage, ranges, strings, units, physical bounds and collections that are lost do no harm.
Missing, and false of the code: the witnesses below, one for each condition of `KeepsPlaces`. -/
theorem C82_stream_partial (reg reg' : Registry) (rule : PageRule) (xs : List Item) (hm : ∀ i ∈ xs, i.Made)
    (hk : ∀ i ∈ xs, i.cls = .usage → kindKnown reg i.val = true) (h : KeepsPlaces (keys xs)) (t : Node)
    (ht : extract reg xs = .ok t) :
    slots (treeMeaning t) = slots (meaning rule (keys xs)) ∧ ∀ items, compile reg' t = .ok items →
      slots (meaning rule (keys items)) = slots (meaning rule (keys xs)) :=
  kept_places hm (kinds_of hk) h ht

theorem slot_frame (e : Event) : e.frame.slot = e.slot := by cases e <;> rfl

theorem slots_of_frames {a b : List Event} (h : frames a = frames b) : slots a = slots b := by
  have key : ∀ l, slots (frames l) = slots l := by
    intro l
    unfold slots frames
    rw [List.filterMap_map]
    congr 1
    funext e
    exact slot_frame e
  rw [← key a, h, key b]

/-- **C82 (partial), bytes.** A document in any format is decompiled and compiled again to bytes, with the default optimization
or without: hosts find every number where it was. -/
theorem C82_document_partial (reg reg' : Registry) (rule : PageRule) (opt : Bool) (f : Formatter.Fmt) (uni : Parser.Uni)
    (d : Formatter.Doc) (t : Node) (b : List UInt8)
    (ht : extract reg (Formatter.deliver f reg uni d).1 = .ok t) (hb : Compiler.main reg' .binary opt t = .ok (.bytes b))
    (h : KeepsPlaces (keys (Formatter.deliver f reg uni d).1)) :
    ∃ ks, readAll b = some ks ∧ slots (meaning rule ks) = slots (meaning rule (keys (Formatter.deliver f reg uni d).1)) := by
  obtain ⟨ks, items, h1, h2, h3⟩ := bytes_frames hb
  refine ⟨ks, h1, ?_⟩
  rw [slots_of_frames (h3 rule)]
  exact (kept_places (fun i hi => (deliver_read f reg uni d i hi).2)
    (read_kinds (fun i hi => (deliver_read f reg uni d i hi).1)) h ht).2 items h2

/-! ## Numbers -/

theorem numbers_slots (w : Way) (id : Int) (es : List Event) : ∀ bs,
    readNumbers (reportOf w id (slots es)) bs = readNumbers (reportOf w id es) bs := by
  induction es with
  | nil => intro bs; rfl
  | cons e es ih =>
    intro bs
    have hn : ∀ e' : Event, e.slot = some e' → slots (e :: es) = e' :: slots es := fun e' h => List.filterMap_cons_some h
    have h0 : e.slot = none → slots (e :: es) = slots es := fun h => List.filterMap_cons_none h
    unfold reportOf at ih ⊢
    cases e with
    | enter k s => rw [h0 rfl, ih, List.filter_cons_of_neg (by simp [Event.inReport])]
    | leave => rw [h0 rfl, ih, List.filter_cons_of_neg (by simp [Event.inReport])]
    | padBit w' r =>
      rw [hn _ rfl]
      by_cases h : (Event.padBit w' r).inReport w id = true
      · rw [List.filter_cons_of_pos h, List.filter_cons_of_pos h, readNumbers, readNumbers, ih]
      · rw [List.filter_cons_of_neg h, List.filter_cons_of_neg h, ih]
    | control w' f r a s =>
      rw [hn _ rfl]
      by_cases h : (Event.control w' f r a s).inReport w id = true
      · rw [List.filter_cons_of_pos h, List.filter_cons_of_pos (by exact h), readNumbers, readNumbers]
        simp only [ih]
      · rw [List.filter_cons_of_neg h, List.filter_cons_of_neg (by exact h), ih]

/-- **C82 (partial), numbers.** Whatever bits are in a report, a host that has the bytes of the recompiled descriptor reads the
same numbers in it as one that has the original. -/
theorem C82_numbers_partial (reg reg' : Registry) (rule : PageRule) (opt : Bool) (f : Formatter.Fmt) (uni : Parser.Uni)
    (d : Formatter.Doc) (t : Node) (b : List UInt8)
    (ht : extract reg (Formatter.deliver f reg uni d).1 = .ok t) (hb : Compiler.main reg' .binary opt t = .ok (.bytes b))
    (h : KeepsPlaces (keys (Formatter.deliver f reg uni d).1)) (w : Way) (id : Int) (bits : List Bool) :
    ∃ ks, readAll b = some ks ∧ readNumbers (reportOf w id (meaning rule ks)) bits =
      readNumbers (reportOf w id (meaning rule (keys (Formatter.deliver f reg uni d).1))) bits := by
  obtain ⟨ks, h1, h2⟩ := C82_document_partial reg reg' rule opt f uni d t b ht hb h
  exact ⟨ks, h1, by rw [← numbers_slots, h2, numbers_slots]⟩

/-! ## Cases -/

/-- A descriptor that loses most of its names: a key array with a range and a single usage, a collection with a string and
another without anything inside, a field with a unit among array usages, a range after another. -/
def namelessItems : List Item :=
  build! [(.usagePage, 1), (.usage, 6), (.strIndex, 4), (.collection, 1), (.push, 0), (.collection, 0), (.endCollection, 0),
    (.reportID, 2), (.usagePage, 7), (.logMin, 0), (.logMax, 5), (.reportSize, 8), (.reportCount, 2),
    (.unit, 0x11), (.usageMin, 4), (.usageMax, 5), (.input, 0),
    (.logMin, -1), (.logMax, 1), (.reportSize, 1), (.reportCount, 2), (.usageMin, 0x90001), (.usageMax, 0x90001),
    (.usageMin, 0x90005), (.usageMax, 0x90005), (.input, 2), (.reportSize, 6), (.reportCount, 1), (.input, 3),
    (.reportID, 3), (.reportSize, 16), (.usage, 0x10030), (.output, 2), (.endCollection, 0)]

example : namelessItems.length = 34 ∧ KeepsPlaces (keys namelessItems) ∧ ¬ Extractable (keys namelessItems) ∧
    (slots (meaning .atMain (keys namelessItems))).length = 11 ∧
    (match extract [] namelessItems with
      | .ok t => (Compiler.main [] .binary true t).toOption.isSome &&
          decide (treeMeaning t ≠ meaning .atMain (keys namelessItems))
      | .error _ => false) = true := by
  refine ⟨?_, ?_, ?_, ?_, ?_⟩ <;> decide +kernel

/-- A stream that compiles after decompiling, to a stream with other slots. -/
def PlacesBreak (rule : PageRule) (cs : List (Cls × Int)) : Bool :=
  match extract [] (build! cs) with
  | .ok t =>
    match compile [] t with
    | .ok items => (build! cs).length == cs.length &&
        decide (slots (meaning rule (keys items)) ≠ slots (meaning rule (keys (build! cs))))
    | .error _ => false
  | .error _ => false

/-- What Push saved is not restored: the field keeps the later size. -/
theorem C82_pop_breaks (rule : PageRule) : PlacesBreak rule [(.usage, 0x10002), (.collection, 1), (.logMin, 0), (.logMax, 1),
    (.reportSize, 8), (.reportCount, 1), (.push, 0), (.reportSize, 16), (.pop, 0), (.usage, 0x10030), (.input, 2),
    (.endCollection, 0)] = true := by cases rule <;> decide +kernel

/-- A byte after three bits is moved to a byte boundary. -/
theorem C82_alignment_breaks (rule : PageRule) : PlacesBreak rule [(.usage, 0x10002), (.collection, 1), (.logMin, 0),
    (.logMax, 1), (.reportSize, 3), (.reportCount, 1), (.usage, 0x10030), (.input, 2), (.reportSize, 8), (.usage, 0x10031),
    (.input, 2), (.endCollection, 0)] = true := by cases rule <;> decide +kernel

/-- Report 0 after report 1 becomes part of it. -/
theorem C82_report_breaks (rule : PageRule) : PlacesBreak rule [(.usage, 0x10002), (.collection, 1), (.logMin, 0), (.logMax, 1),
    (.reportSize, 8), (.reportCount, 1), (.reportID, 1), (.usage, 0x10030), (.input, 2), (.reportID, 0), (.usage, 0x10031),
    (.input, 2), (.endCollection, 0)] = true := by cases rule <;> decide +kernel

/-- Eight buffered fields of 3 bits are counted as one, so the byte after them is moved. -/
theorem C82_buffered_breaks (rule : PageRule) :
    let cs := [(.usage, 0x10002), (.collection, 1), (.logMin, 0), (.logMax, 1), (.reportSize, 3), (.reportCount, 8),
      (.usage, 0x10030), (.input, 258), (.reportSize, 8), (.reportCount, 1), (.usage, 0x10031), (.input, 2),
      (.endCollection, 0)]
    PlacesBreak rule cs = true ∧ aligned (meaning rule (keys (build! cs))) = true := by cases rule <;> decide +kernel

/-- A field after the last collection is lost. -/
theorem C82_trailing_breaks (rule : PageRule) : PlacesBreak rule [(.usage, 0x10002), (.collection, 1), (.logMin, 0),
    (.logMax, 1), (.reportSize, 8), (.reportCount, 1), (.usage, 0x10030), (.input, 2), (.endCollection, 0), (.usage, 0x10031),
    (.input, 2)] = true := by cases rule <;> decide +kernel

end Hrdc
