import Verif.Proofs.Hid
/-!
# Range merging preserves what main items see
-/
namespace Hrdc
open Spec

theorem build_cls (reg : Registry) (c : Cls) (v : PyVal) : (Optimizer.build reg c v).cls = c := by
  unfold Optimizer.build
  split
  · next h => exact (new_cls h).1
  · rfl

theorem build_ival (reg : Registry) (c : Cls) (v : PyVal) (hc : c ≠ .collection) :
    (Optimizer.build reg c v).ival = v.toInt := by
  unfold Optimizer.build
  split
  · next h => exact new_ival h (fun h => absurd h hc)
  · rfl

theorem build_key (reg : Registry) (c : Cls) (v : PyVal) (hc : c ≠ .collection) :
    (Optimizer.build reg c v).key = (c, v.toInt) := by
  simp [Item.key, build_cls, build_ival _ _ _ hc]

theorem toInt_usage (u : UsageC) : (PyVal.usage u).toInt = u.value := rfl

/-- The constructor `build` stands for succeeds on the values the passes give it. -/
theorem build_new (reg : Registry) (c : Cls) (v : PyVal) (h0 : 0 ≤ v.toInt)
    (hc : c.kind = .loc ∨ c = .usagePage ∨ c = .reportCount) :
    Item.new reg c v = .ok (Optimizer.build reg c v) := by
  have : ∃ i, Item.new reg c v = .ok i := by
    unfold Item.new
    cases c <;> simp [Cls.kind] at hc <;>
      simp [Item.baseInit, Cls.signed, h0, toInt_usage, lookup_value]
  obtain ⟨i, hi⟩ := this
  simp [Optimizer.build, hi]

/-- One of the three families of local items, as a component of the host state. -/
structure Family (rule : PageRule) (t : Optimizer.RangeTags) where
  get : Host → Decl
  set : Host → Decl → Host
  /-- the values the family is followed on -/
  ok : Int → Prop
  /-- the states the family is followed from -/
  from' : Host → Prop
  /-- the items that may stand among those of the family -/
  keep : SItem → Prop
  from_step : ∀ (h : Host) (i : SItem), from' h → keep i → from' (h.step rule i)
  from_set : ∀ (h : Host) (d : Decl), from' h → from' (set h d)
  get_set : ∀ (h : Host) (d : Decl), get (set h d) = d
  set_get : ∀ h : Host, set h (get h) = h
  set_set : ∀ (h : Host) (d e : Decl), set (set h d) e = set h e
  set_g : ∀ (h : Host) (d : Decl), (set h d).g = h.g
  lookup : ∀ (h : Host) (v : Int), from' h → ok v →
    h.step rule (t.lookup, v) = set h ((get h).one v)
  min : ∀ (h : Host) (v : Int), from' h → ok v →
    h.step rule (t.min, v) = set h ((get h).setLo v)
  max : ∀ (h : Host) (v : Int), from' h → ok v →
    h.step rule (t.max, v) = set h ((get h).setHi v)
  other : ∀ (h : Host) (i : SItem) (d : Decl), i.1.kind ≠ .main → i.1 ≠ t.lookup → i.1 ≠ t.min → i.1 ≠ t.max →
    (set h d).step rule i = set (h.step rule i) d ∧ get (h.step rule i) = get h
  locals : t.lookup.kind = .loc ∧ t.min.kind = .loc ∧ t.max.kind = .loc
  distinct : t.lookup ≠ t.min ∧ t.lookup ≠ t.max
  /-- completion at a main item leaves these values alone -/
  main_eq : ∀ (h : Host) (d e : Decl) (i : SItem), from' h →
    (∀ f : Int → Int, (∀ v, ok v → f v = v) → d.values f = e.values f) →
    (set h d).main rule i = (set h e).main rule i
  main_step : ∀ (h : Host) (d e : Decl) (i : SItem), i.1.kind = .main →
    (set h d).step rule i = (set h e).step rule i
  fresh : ∀ (h : Host) (i : SItem), i.1.kind = .main → get (h.step rule i) = {}

theorem declare_long (rule : PageRule) (p v : Int) (h : 65536 ≤ v) : rule.declare p v = v := by
  cases rule
  · simp only [PageRule.declare, full]; rw [if_neg (by omega)]
  · rfl

theorem consume_long (rule : PageRule) (p v : Int) (h : 65536 ≤ v) : rule.consume p v = v := by
  cases rule
  · rfl
  · simp only [PageRule.consume, full]; rw [if_neg (by omega)]

/-- Usages of 32 bits. -/
def usageFamily (rule : PageRule) : Family rule Optimizer.usageTags where
  get := Host.usages
  set h d := { h with usages := d }
  ok v := 65536 ≤ v
  from' _ := True
  keep _ := True
  from_step _ _ _ _ := trivial
  from_set _ _ _ := trivial
  get_set _ _ := rfl
  set_get _ := rfl
  set_set _ _ _ := rfl
  set_g _ _ := rfl
  lookup h v _ hv := by simp [Host.step, Optimizer.usageTags, declare_long rule _ v hv]
  min h v _ hv := by simp [Host.step, Optimizer.usageTags, declare_long rule _ v hv]
  max h v _ hv := by simp [Host.step, Optimizer.usageTags, declare_long rule _ v hv]
  other h i d hm h1 h2 h3 := by
    obtain ⟨c, v⟩ := i
    cases c <;> simp_all [Host.step, Cls.kind, Optimizer.usageTags] <;>
      (cases hs : h.stack <;> simp [hs])
  locals := by decide
  distinct := by decide
  main_eq h d e i _ hv := by
    simp only [Host.main, MainRec.mk.injEq, true_and, and_true]
    exact hv _ (fun v hv => consume_long rule _ v hv)
  main_step h d e i hi := by
    obtain ⟨c, v⟩ := i
    cases c <;> simp_all [Host.step, Cls.kind]
  fresh h i hi := by
    obtain ⟨c, v⟩ := i
    cases c <;> simp_all [Host.step, Cls.kind]

/-- The usage page is 0, in force and saved. -/
def PageZero (h : Host) : Prop :=
  h.g .usagePage = 0 ∧ ∀ g ∈ h.stack, g .usagePage = 0

theorem full_zero (v : Int) : full 0 v = v := by
  unfold full; split <;> omega

theorem declare_zero (rule : PageRule) (v : Int) : rule.declare 0 v = v := by
  cases rule
  · exact full_zero v
  · rfl

theorem consume_zero (rule : PageRule) : rule.consume 0 = id := by
  cases rule
  · rfl
  · funext v; exact full_zero v

theorem pageZero_step (rule : PageRule) (h : Host) (i : SItem) (hz : PageZero h)
    (hi : i.1 = .usagePage → i.2 = 0) : PageZero (h.step rule i) := by
  obtain ⟨g, s, u, t, d⟩ := h
  obtain ⟨c, v⟩ := i
  obtain ⟨h1, h2⟩ := hz
  cases c
  case pop => cases s <;> simp_all [Host.step, PageZero]
  all_goals simp_all [Host.step, PageZero]

/-- Usages of any size in streams that stay on page 0. -/
def zeroFamily (rule : PageRule) : Family rule Optimizer.usageTags where
  get := Host.usages
  set h d := { h with usages := d }
  ok _ := True
  from' := PageZero
  keep i := i.1 = .usagePage → i.2 = 0
  from_step h i hz hi := pageZero_step rule h i hz hi
  from_set _ _ h := h
  get_set _ _ := rfl
  set_get _ := rfl
  set_set _ _ _ := rfl
  set_g _ _ := rfl
  lookup h v hz hv := by simp [Host.step, Optimizer.usageTags, hz.1, declare_zero]
  min h v hz hv := by simp [Host.step, Optimizer.usageTags, hz.1, declare_zero]
  max h v hz hv := by simp [Host.step, Optimizer.usageTags, hz.1, declare_zero]
  other h i d hm h1 h2 h3 := (usageFamily rule).other h i d hm h1 h2 h3
  locals := by decide
  distinct := by decide
  main_eq h d e i hz hv := by
    simp only [Host.main, MainRec.mk.injEq, true_and, and_true]
    exact hv _ (fun v hv => by rw [hz.1, consume_zero]; rfl)
  main_step := (usageFamily rule).main_step
  fresh := (usageFamily rule).fresh

/-- String indices. -/
def strFamily (rule : PageRule) : Family rule Optimizer.strTags where
  get := Host.strings
  set h d := { h with strings := d }
  ok _ := True
  from' _ := True
  keep _ := True
  from_step _ _ _ _ := trivial
  from_set _ _ _ := trivial
  get_set _ _ := rfl
  set_get _ := rfl
  set_set _ _ _ := rfl
  set_g _ _ := rfl
  lookup h v _ hv := by simp [Host.step, Optimizer.strTags]
  min h v _ hv := by simp [Host.step, Optimizer.strTags]
  max h v _ hv := by simp [Host.step, Optimizer.strTags]
  other h i d hm h1 h2 h3 := by
    obtain ⟨c, v⟩ := i
    cases c <;> simp_all [Host.step, Cls.kind, Optimizer.strTags] <;>
      (cases hs : h.stack <;> simp [hs])
  locals := by decide
  distinct := by decide
  main_eq h d e i _ hv := by
    simp only [Host.main, MainRec.mk.injEq, true_and, and_true]
    exact hv id (fun v _ => rfl)
  main_step h d e i hi := by
    obtain ⟨c, v⟩ := i
    cases c <;> simp_all [Host.step, Cls.kind]
  fresh h i hi := by
    obtain ⟨c, v⟩ := i
    cases c <;> simp_all [Host.step, Cls.kind]

/-- Designator indices. -/
def desigFamily (rule : PageRule) : Family rule Optimizer.desigTags where
  get := Host.desigs
  set h d := { h with desigs := d }
  ok _ := True
  from' _ := True
  keep _ := True
  from_step _ _ _ _ := trivial
  from_set _ _ _ := trivial
  get_set _ _ := rfl
  set_get _ := rfl
  set_set _ _ _ := rfl
  set_g _ _ := rfl
  lookup h v _ hv := by simp [Host.step, Optimizer.desigTags]
  min h v _ hv := by simp [Host.step, Optimizer.desigTags]
  max h v _ hv := by simp [Host.step, Optimizer.desigTags]
  other h i d hm h1 h2 h3 := by
    obtain ⟨c, v⟩ := i
    cases c <;> simp_all [Host.step, Cls.kind, Optimizer.desigTags] <;>
      (cases hs : h.stack <;> simp [hs])
  locals := by decide
  distinct := by decide
  main_eq h d e i _ hv := by
    simp only [Host.main, MainRec.mk.injEq, true_and, and_true]
    exact hv id (fun v _ => rfl)
  main_step h d e i hi := by
    obtain ⟨c, v⟩ := i
    cases c <;> simp_all [Host.step, Cls.kind]
  fresh h i hi := by
    obtain ⟨c, v⟩ := i
    cases c <;> simp_all [Host.step, Cls.kind]

section
variable {rule : PageRule} {t : Optimizer.RangeTags} (F : Family rule t)

/-- Every item of the family's tags carries a followed value, and the others may stand among them. -/
def Family.Ok (F : Family rule t) (xs : List Item) : Prop :=
  ∀ i ∈ xs, (i.cls = t.lookup ∨ i.cls = t.min ∨ i.cls = t.max → F.ok i.ival) ∧ F.keep i.key

theorem Family.from_after (F : Family rule t) (h : Host) (xs : List Item) (hz : F.from' h)
    (hx : F.Ok xs) : F.from' (h.after rule (keys xs)) := by
  induction xs generalizing h with
  | nil => exact hz
  | cons x xs ih =>
    rw [keys_cons, after_cons]
    exact ih _ (F.from_step _ _ hz (hx x (by simp)).2) (fun i hi => hx i (by simp [hi]))

/-- Single indices appended to a declaration. -/
def Spec.Decl.ones (d : Decl) (l : List Int) : Decl :=
  { d with ranges := d.ranges ++ l.map (fun v => (v, v)) }

theorem ones_nil (d : Decl) : d.ones [] = d := by simp [Decl.ones]
theorem ones_append (d : Decl) (l m : List Int) : d.ones (l ++ m) = (d.ones l).ones m := by
  simp [Decl.ones, List.append_assoc]

/-- The lookups of a segment. -/
def lookups (t : Optimizer.RangeTags) (seg : List Item) : List Item :=
  seg.filter (fun i => i.cls == t.lookup)

theorem notRange_false {i : Item} (h : Optimizer.notRange t i = false) :
    i.cls = t.lookup ∨ i.cls = t.min ∨ i.cls = t.max := by
  simp [Optimizer.notRange] at h
  by_cases h1 : i.cls = t.lookup
  · exact Or.inl h1
  · by_cases h2 : i.cls = t.min
    · exact Or.inr (Or.inl h2)
    · exact Or.inr (Or.inr (h.2 h1 h2))

theorem notRange_true {i : Item} (F : Family rule t) (h : Optimizer.notRange t i = true) :
    i.cls ≠ t.lookup ∧ i.cls ≠ t.min ∧ i.cls ≠ t.max := by
  simp [Optimizer.notRange] at h
  refine ⟨?_, ?_, ?_⟩ <;> intro hc <;> rcases h with h | h
  · exact h (hc ▸ F.locals.1)
  · exact h.1.1 hc
  · exact h (hc ▸ F.locals.2.1)
  · exact h.1.2 hc
  · exact h (hc ▸ F.locals.2.2)
  · exact h.2 hc

/-- Processing a segment that has lookups of the family but neither minimum nor maximum: the other
items act as if alone, and the lookups are recorded in order. -/
theorem after_segment (h : Host) (seg : List Item) (hm : ∀ i ∈ seg, i.cls.kind ≠ .main)
    (hmm : ∀ i ∈ seg, i.cls ≠ t.min ∧ i.cls ≠ t.max) (hok : F.Ok seg) (hz : F.from' h)
    (d : Decl) :
    (F.set h d).after rule (keys seg)
      = F.set (h.after rule (keys (seg.filter (Optimizer.notRange t))))
          (d.ones ((lookups t seg).map Item.ival)) ∧
    F.get (h.after rule (keys (seg.filter (Optimizer.notRange t)))) = F.get h := by
  induction seg generalizing h d with
  | nil => simp [lookups, ones_nil]
  | cons x seg ih =>
    have hm' : ∀ i ∈ seg, i.cls.kind ≠ .main := fun i hi => hm i (by simp [hi])
    have hmm' : ∀ i ∈ seg, i.cls ≠ t.min ∧ i.cls ≠ t.max := fun i hi => hmm i (by simp [hi])
    have hok' : F.Ok seg := fun i hi => hok i (by simp [hi])
    by_cases hx : x.cls = t.lookup
    · have hf : Optimizer.notRange t x = false := by
        simp [Optimizer.notRange, hx, F.locals.1]
      have hl : lookups t (x :: seg) = x :: lookups t seg := by simp [lookups, hx]
      rw [List.filter_cons_of_neg (by simp [hf]), hl]
      have hk : x.key = (t.lookup, x.ival) := by simp [Item.key, hx]
      rw [keys_cons, after_cons, hk, F.lookup _ _ (F.from_set _ _ hz) ((hok x (by simp)).1 (Or.inl hx)), F.set_set,
        F.get_set]
      have := ih h hm' hmm' hok' hz (d.one x.ival)
      refine ⟨?_, this.2⟩
      rw [this.1]
      congr 1
      simp [Decl.ones, Decl.one, List.append_assoc]
    · have hxm := hmm x (by simp)
      have hf : Optimizer.notRange t x = true := by
        simp [Optimizer.notRange, hx, hxm]
      have hl : lookups t (x :: seg) = lookups t seg := by simp [lookups, hx]
      rw [List.filter_cons_of_pos hf, hl, keys_cons, keys_cons, after_cons, after_cons]
      have ho := F.other h x.key d (by simpa using hm x (by simp)) hx hxm.1 hxm.2
      have ho' := F.other h x.key (F.get h) (by simpa using hm x (by simp)) hx hxm.1 hxm.2
      rw [ho.1]
      have := ih (h.step rule x.key) hm' hmm' hok' (F.from_step _ _ hz (hok x (by simp)).2) d
      exact ⟨this.1, by rw [this.2, ho'.2]⟩

end

/-- Consecutive integers starting at `a`. -/
def Consec (a : Int) : List Int → Prop
  | [] => True
  | x :: xs => x = a ∧ Consec (a + 1) xs

theorem upTo_self (a : Int) : upTo a a = [a] := by
  simp [upTo, show (a - a + 1).toNat = 1 by omega, List.range_succ]

theorem upTo_succ (a : Int) (n : Nat) : upTo a (a + n) = (List.range (n + 1)).map (fun (k : Nat) => a + (k : Int)) := by
  unfold upTo
  rw [show (a + n - a + 1).toNat = n + 1 by omega]

theorem consec_append (a : Int) (l : List Int) (x : Int) :
    Consec a (l ++ [x]) ↔ Consec a l ∧ x = a + l.length := by
  induction l generalizing a with
  | nil => simp [Consec]
  | cons y l ih =>
    simp only [List.cons_append, Consec, ih, List.length_cons]
    constructor
    · rintro ⟨h1, h2, h3⟩; exact ⟨⟨h1, h2⟩, by omega⟩
    · rintro ⟨⟨h1, h2⟩, h3⟩; exact ⟨h1, h2, by omega⟩

theorem consec_eq (a : Int) (l : List Int) (h : Consec a l) :
    l = (List.range l.length).map (fun (k : Nat) => a + (k : Int)) := by
  induction l generalizing a with
  | nil => rfl
  | cons x l ih =>
    obtain ⟨rfl, h2⟩ := h
    rw [List.length_cons, List.range_succ_eq_map, List.map_cons, List.map_map]
    congr 1
    · simp
    · conv => lhs; rw [ih _ h2]
      apply List.map_congr_left
      intro k _
      simp; omega

section
variable {rule : PageRule} {t : Optimizer.RangeTags} (F : Family rule t)

/-- What `RangeMerge` knows about the items it holds back: the main item that came last, then the
items after it; while merging, the lookups among them are consecutive, from `minValue` to
`maxValue`. -/
structure RMInv (F : Family rule t) (st : Optimizer.RMState) (h : Host) (ms seg : List Item) :
    Prop where
  pending : st.pending = ms ++ seg
  ms_main : ∀ i ∈ ms, i.cls.kind = .main
  fresh : (F.get (h.after rule (keys ms))).lo = none ∧ (F.get (h.after rule (keys ms))).hi = none
  seg_main : ∀ i ∈ seg, i.cls.kind ≠ .main
  ok : F.Ok seg
  start : F.from' h
  ms_ok : F.Ok ms
  merging : st.merging = true → (∀ i ∈ seg, i.cls ≠ t.min ∧ i.cls ≠ t.max) ∧
    ((lookups t seg = [] ∧ st.minValue = none ∧ st.maxValue = none) ∨
     ∃ lo hi, st.minValue = some lo ∧ st.maxValue = some hi ∧
       Consec lo.toInt ((lookups t seg).map Item.ival) ∧
       hi.toInt + 1 = lo.toInt + (lookups t seg).length ∧ lookups t seg ≠ [])

theorem ones_values (d : Decl) (l : List Int) (f : Int → Int) (hf : ∀ v ∈ l, f v = v) :
    (d.ones l).values f = d.values f ++ l := by
  simp only [Decl.values, Decl.ones, List.flatMap_append]
  congr 1
  induction l with
  | nil => rfl
  | cons x l ih =>
    simp only [List.map_cons, List.flatMap_cons, hf x (by simp), upTo_self]
    rw [ih (fun v hv => hf v (by simp [hv]))]
    rfl

/-- The merged items describe the same indices. -/
theorem merged_after (reg : Registry) (h : Host) (lo hi : PyVal) (L : List Int)
    (hne : L ≠ []) (hc : Consec lo.toInt L) (hhi : hi.toInt + 1 = lo.toInt + L.length)
    (hok : ∀ v ∈ L, F.ok v) (hz : F.from' h) (hfr : (F.get h).lo = none ∧ (F.get h).hi = none) :
    ∃ d, h.after rule (keys (if lo.eqv hi then [Optimizer.build reg t.lookup lo]
         else if hi.toInt - lo.toInt > 1 then
           [Optimizer.build reg t.min lo, Optimizer.build reg t.max hi]
         else [Optimizer.build reg t.lookup lo, Optimizer.build reg t.lookup hi]))
      = F.set h d ∧
      ∀ f : Int → Int, (∀ v, F.ok v → f v = v) → d.values f = ((F.get h).ones L).values f := by
  have hL := consec_eq _ _ hc
  have hlen : 0 < L.length := by cases L with
    | nil => exact absurd rfl hne
    | cons => simp
  have hmem : ∀ k : Nat, k < L.length → lo.toInt + k ∈ L := by
    intro k hk
    rw [hL]
    exact List.mem_map.2 ⟨k, by simpa using hk, rfl⟩
  have hlo : F.ok lo.toInt := by
    have := hok _ (hmem 0 hlen); simpa using this
  have hhi' : F.ok hi.toInt := by
    have := hok _ (hmem (L.length - 1) (by omega))
    rwa [show lo.toInt + ((L.length - 1 : Nat) : Int) = hi.toInt by omega] at this
  have k1 : t.lookup ≠ .collection := by
    intro hc; have := F.locals.1; rw [hc] at this; simp [Cls.kind] at this
  have k2 : t.min ≠ .collection := by
    intro hc; have := F.locals.2.1; rw [hc] at this; simp [Cls.kind] at this
  have k3 : t.max ≠ .collection := by
    intro hc; have := F.locals.2.2; rw [hc] at this; simp [Cls.kind] at this
  by_cases h1 : lo.toInt = hi.toInt
  · refine ⟨(F.get h).one lo.toInt, ?_, ?_⟩
    · rw [if_pos (by simp [PyVal.eqv, h1])]
      simp only [keys_cons, keys_nil, after_cons, after_nil, build_key _ _ _ k1, F.lookup _ _ hz hlo]
    · intro f hf
      have hl1 : L.length = 1 := by omega
      rw [ones_values _ _ _ (fun v hv => hf v (hok v hv)), hL, hl1]
      simp [Decl.one, Decl.values, hf _ hlo, upTo_self]
  · rw [if_neg (by simp [PyVal.eqv, h1])]
    by_cases h2 : hi.toInt - lo.toInt > 1
    · rw [if_pos h2]
      refine ⟨⟨(F.get h).ranges ++ [(lo.toInt, hi.toInt)], none, none⟩, ?_, ?_⟩
      · simp only [keys_cons, keys_nil, after_cons, after_nil, build_key _ _ _ k2,
          build_key _ _ _ k3, F.min _ _ hz hlo, F.max _ _ (F.from_set _ _ hz) hhi', F.get_set,
          F.set_set]
        congr 1
        simp [Decl.setLo, hfr.2, Decl.setHi]
      · intro f hf
        rw [ones_values _ _ _ (fun v hv => hf v (hok v hv)), hL]
        simp only [Decl.values, List.flatMap_append, List.flatMap_cons, List.flatMap_nil,
          List.append_nil, hf _ hlo, hf _ hhi']
        congr 1
        unfold upTo
        rw [show (hi.toInt - lo.toInt + 1).toNat = L.length by omega]
    · rw [if_neg h2]
      refine ⟨((F.get h).one lo.toInt).one hi.toInt, ?_, ?_⟩
      · simp only [keys_cons, keys_nil, after_cons, after_nil, build_key _ _ _ k1,
          F.lookup _ _ hz hlo, F.lookup _ _ (F.from_set _ _ hz) hhi', F.get_set, F.set_set]
      · intro f hf
        have hl2 : L.length = 2 := by omega
        rw [ones_values _ _ _ (fun v hv => hf v (hok v hv)), hL, hl2]
        simp [Decl.one, Decl.values, hf _ hlo, hf _ hhi', upTo_self, List.range_succ]
        omega

theorem rm_out (reg : Registry) (st : Optimizer.RMState) (h : Host) (ms seg : List Item)
    (I : RMInv F st h ms seg) :
    (∀ (m : Item) (ys : List SItem), m.cls.kind = .main →
      recs rule h (keys (st.out reg t) ++ m.key :: ys) = recs rule h (keys st.pending ++ m.key :: ys)
        ∧ (h.after rule (keys (st.out reg t) ++ [m.key])
            = h.after rule (keys st.pending ++ [m.key]))) ∧
    recs rule h (keys (st.out reg t)) = recs rule h (keys st.pending) ∧
    F.from' (h.after rule (keys (st.out reg t))) := by
  have hzp : F.from' (h.after rule (keys st.pending)) := by
    rw [I.pending]
    refine F.from_after _ _ I.start (fun i hi => ?_)
    rcases List.mem_append.1 hi with hi | hi
    · exact I.ms_ok i hi
    · exact I.ok i hi
  unfold Optimizer.RMState.out
  split
  · next lo hi hlo hhi =>
    split
    · next hcond =>
      obtain ⟨hmm, hl⟩ := I.merging hcond.2.2
      have hl' : ∃ lo' hi', st.minValue = some lo' ∧ st.maxValue = some hi' ∧
       Consec lo'.toInt ((lookups t seg).map Item.ival) ∧
       hi'.toInt + 1 = lo'.toInt + (lookups t seg).length ∧ lookups t seg ≠ [] := by
        rcases hl with hl | hl
        · rw [hl.2.1] at hlo; simp at hlo
        · exact hl
      obtain ⟨lo', hi', e1, e2, hc, hlen, hne⟩ := hl'
      rw [hlo] at e1; cases e1
      rw [hhi] at e2; cases e2
      have hfms : ms.filter (Optimizer.notRange t) = ms := by
        rw [List.filter_eq_self]
        intro i hi
        simp [Optimizer.notRange, I.ms_main i hi]
      have hokL : ∀ v ∈ (lookups t seg).map Item.ival, F.ok v := by
        intro v hv
        obtain ⟨i, hi, rfl⟩ := List.mem_map.1 hv
        have := List.mem_filter.1 hi
        exact (I.ok i this.1).1 (Or.inl (by simpa using this.2))
      -- state reached after the main item held back
      have hzm : F.from' (h.after rule (keys ms)) := F.from_after _ _ I.start I.ms_ok
      have hzs : F.from' ((h.after rule (keys ms)).after rule
          (keys (seg.filter (Optimizer.notRange t)))) :=
        F.from_after _ _ hzm (fun i hi => I.ok i (List.mem_filter.1 hi).1)
      have hseg := after_segment F (h.after rule (keys ms)) seg I.seg_main hmm I.ok
        hzm (F.get (h.after rule (keys ms)))
      rw [F.set_get] at hseg
      obtain ⟨d, hd1, hd2⟩ := merged_after F reg
        ((h.after rule (keys ms)).after rule (keys (seg.filter (Optimizer.notRange t)))) lo hi
        ((lookups t seg).map Item.ival) (by simpa using hne) hc (by simpa using hlen) hokL hzs
        (by rw [hseg.2]; exact I.fresh)
      rw [I.pending, List.filter_append, hfms]
      generalize hnew : (if lo.eqv hi = true then [Optimizer.build reg t.lookup lo]
         else if hi.toInt - lo.toInt > 1 then
           [Optimizer.build reg t.min lo, Optimizer.build reg t.max hi]
         else [Optimizer.build reg t.lookup lo, Optimizer.build reg t.lookup hi]) = new at hd1 ⊢
      have hnewm : ∀ i ∈ keys new, i.1.kind ≠ .main := by
        rw [← hnew]
        intro i hi
        have l1 : t.lookup.kind ≠ .main := by rw [F.locals.1]; decide
        have l2 : t.min.kind ≠ .main := by rw [F.locals.2.1]; decide
        have l3 : t.max.kind ≠ .main := by rw [F.locals.2.2]; decide
        repeat' split at hi
        all_goals
          simp only [keys_cons, keys_nil, List.mem_cons, List.not_mem_nil, or_false] at hi
          rcases hi with rfl | rfl <;> simp [build_cls, l1, l2, l3]
      have hsegm : ∀ i ∈ keys seg, i.1.kind ≠ .main := by
        intro i hi
        obtain ⟨j, hj, rfl⟩ := mem_keys.1 hi
        exact I.seg_main j hj
      have hsegm' : ∀ i ∈ keys (seg.filter (Optimizer.notRange t)), i.1.kind ≠ .main := by
        intro i hi
        obtain ⟨j, hj, rfl⟩ := mem_keys.1 hi
        exact I.seg_main j (List.mem_filter.1 hj).1
      have hafter : ∀ m : Item, m.cls.kind = .main →
          (h.after rule (keys (ms ++ seg.filter (Optimizer.notRange t) ++ new))).main rule m.key
            = (h.after rule (keys (ms ++ seg))).main rule m.key ∧
          (h.after rule (keys (ms ++ seg.filter (Optimizer.notRange t) ++ new))).step rule m.key
            = (h.after rule (keys (ms ++ seg))).step rule m.key := by
        intro m hm
        simp only [keys_append, after_append]
        rw [hd1, hseg.1]
        rw [hseg.2] at hd2
        exact ⟨F.main_eq _ _ _ _ hzs (fun f hf => hd2 f hf), F.main_step _ _ _ _ (by simpa using hm)⟩
      have hrecs : recs rule h (keys (ms ++ seg.filter (Optimizer.notRange t) ++ new))
          = recs rule h (keys (ms ++ seg)) := by
        simp only [keys_append, recs_append]
        rw [recs_no_main _ _ _ hnewm, recs_no_main _ _ _ hsegm, recs_no_main _ _ _ hsegm']
        simp
      refine ⟨fun m ys hm => ?_, hrecs, by
        simp only [keys_append, after_append]
        rw [hd1]
        exact F.from_set _ _ hzs⟩
      obtain ⟨ha, hb⟩ := hafter m hm
      constructor
      · rw [recs_append, recs_append, hrecs, recs_cons, recs_cons, ha, hb]
      · rw [after_append, after_append, after_cons, after_cons, after_nil, after_nil, hb]
    · exact ⟨fun _ _ _ => ⟨rfl, rfl⟩, rfl, hzp⟩
  · exact ⟨fun _ _ _ => ⟨rfl, rfl⟩, rfl, hzp⟩

theorem rangeMerge_recs (reg : Registry) (st : Optimizer.RMState) (h : Host)
    (ms seg xs : List Item) (I : RMInv F st h ms seg) (hok : F.Ok xs) :
    recs rule h (keys ((Optimizer.rangeMerge reg t).runFrom st xs))
      = recs rule h (keys (st.pending ++ xs)) := by
  induction xs generalizing st h ms seg with
  | nil =>
    rw [Pass.runFrom_nil, List.append_nil]
    exact (rm_out F reg st h ms seg I).2.1
  | cons x xs ih =>
    have hok' : F.Ok xs := fun i hi => hok i (by simp [hi])
    rw [Pass.runFrom_cons]
    by_cases hx : x.cls.kind = .main
    · have hs : (Optimizer.rangeMerge reg t).step st x = ({ pending := [x] }, st.out reg t) := by
        simp [hx, Optimizer.RMState.note]
      rw [hs]
      obtain ⟨ho, -, hzo⟩ := rm_out F reg st h ms seg I
      simp only [keys_append]
      rw [recs_append]
      have hI' : RMInv F { pending := [x] } (h.after rule (keys (st.out reg t))) [x] [] := by
        refine ⟨rfl, by simp [hx], ?_, by simp, fun i hi => by simp at hi, hzo,
          fun i hi => by simp at hi; subst hi; exact hok _ (by simp), ?_⟩
        · simp only [keys_cons, keys_nil, after_cons, after_nil]
          rw [F.fresh _ _ (by simpa using hx)]
          exact ⟨rfl, rfl⟩
        · intro _; exact ⟨by simp, Or.inl ⟨rfl, rfl, rfl⟩⟩
      rw [ih _ _ [x] [] hI' hok']
      have := (ho x (keys xs) hx).1
      rw [recs_append] at this
      rw [keys_cons, ← this]
      rfl
    · -- the item joins the segment
      have key : ∀ st' : Optimizer.RMState, RMInv F st' h ms (seg ++ [x]) →
          recs rule h (keys ((Optimizer.rangeMerge reg t).runFrom st' xs))
            = recs rule h (keys (st.pending ++ x :: xs)) := by
        intro st' I'
        rw [ih st' h ms (seg ++ [x]) I' hok', I'.pending, I.pending]
        simp [List.append_assoc]
      have hseg' : ∀ i ∈ seg ++ [x], i.cls.kind ≠ .main := by
        intro i hi
        rcases List.mem_append.1 hi with hi | hi
        · exact I.seg_main i hi
        · simp at hi; subst hi; exact hx
      have hok1 : F.Ok (seg ++ [x]) := by
        intro i hi
        rcases List.mem_append.1 hi with hi | hi
        · exact I.ok i hi
        · simp at hi; subst hi; exact hok _ (by simp)
      have hp : st.pending ++ [x] = ms ++ (seg ++ [x]) := by rw [I.pending, List.append_assoc]
      simp only [hx, if_false, List.nil_append]
      apply key
      by_cases hm : st.merging = true
      · by_cases hk : x.cls.kind = .loc
        · obtain ⟨hmm, hl⟩ := I.merging hm
          by_cases h1 : x.cls = t.min ∨ x.cls = t.max
          · simp only [Optimizer.RMState.note, hm, hk, and_self, if_true, h1]
            exact ⟨hp, I.ms_main, I.fresh, hseg', hok1, I.start, I.ms_ok, fun h => by simp at h⟩
          · by_cases h2 : x.cls = t.lookup
            · have hmm' : ∀ i ∈ seg ++ [x], i.cls ≠ t.min ∧ i.cls ≠ t.max := by
                intro i hi
                rcases List.mem_append.1 hi with hi | hi
                · exact hmm i hi
                · simp at hi; subst hi; exact not_or.1 h1
              have hlk : lookups t (seg ++ [x]) = lookups t seg ++ [x] := by
                simp [lookups, h2]
              rcases hl with ⟨hl0, hl1, hl2⟩ | ⟨lo, hi, hl1, hl2, hc, hlen, hne⟩
              · have e : st.note t x = { st with maxValue := some x.val, minValue := some x.val } := by
                  unfold Optimizer.RMState.note; rw [if_pos ⟨hm, hk⟩, if_neg h1, if_pos h2]; simp [hl2]
                rw [e]
                refine ⟨hp, I.ms_main, I.fresh, hseg', hok1, I.start, I.ms_ok, fun _ => ⟨hmm', Or.inr
                  ⟨x.val, x.val, rfl, rfl, ?_, ?_, ?_⟩⟩⟩
                · rw [hlk, hl0]; simp [Consec, Item.ival]
                · rw [hlk, hl0]; simp
                · rw [hlk]; simp
              · by_cases h3 : x.ival = hi.toInt + 1
                · have e : st.note t x = { st with maxValue := some x.val } := by
                    unfold Optimizer.RMState.note; rw [if_pos ⟨hm, hk⟩, if_neg h1, if_pos h2]; simp [hl2, h3]
                  rw [e]
                  refine ⟨hp, I.ms_main, I.fresh, hseg', hok1, I.start, I.ms_ok, fun _ => ⟨hmm', Or.inr
                    ⟨lo, x.val, hl1, rfl, ?_, ?_, ?_⟩⟩⟩
                  · rw [hlk, List.map_append]
                    simp only [List.map_cons, List.map_nil]
                    rw [consec_append]
                    refine ⟨hc, ?_⟩
                    simp only [List.length_map]; omega
                  · rw [hlk]
                    have : x.val.toInt = x.ival := rfl
                    simp only [List.length_append, List.length_cons, List.length_nil]; omega
                  · rw [hlk]; simp
                · have e : st.note t x = { st with merging := false } := by
                    unfold Optimizer.RMState.note; rw [if_pos ⟨hm, hk⟩, if_neg h1, if_pos h2]; simp [hl2, h3]
                  rw [e]
                  exact ⟨hp, I.ms_main, I.fresh, hseg', hok1, I.start, I.ms_ok, fun h => by simp at h⟩
            · simp only [Optimizer.RMState.note, hm, hk, and_self, if_true, h1, if_false, h2]
              have hlk : lookups t (seg ++ [x]) = lookups t seg := by simp [lookups, h2]
              refine ⟨hp, I.ms_main, I.fresh, hseg', hok1, I.start, I.ms_ok, fun _ => ⟨?_, by rw [hlk]; exact hl⟩⟩
              intro i hi
              rcases List.mem_append.1 hi with hi | hi
              · exact hmm i hi
              · simp at hi; subst hi; exact not_or.1 h1
        · simp only [Optimizer.RMState.note, hk, and_false, if_false]
          have hx1 : x.cls ≠ t.lookup := fun h => hk (h ▸ F.locals.1)
          have hx2 : x.cls ≠ t.min := fun h => hk (h ▸ F.locals.2.1)
          have hx3 : x.cls ≠ t.max := fun h => hk (h ▸ F.locals.2.2)
          have hlk : lookups t (seg ++ [x]) = lookups t seg := by simp [lookups, hx1]
          refine ⟨hp, I.ms_main, I.fresh, hseg', hok1, I.start, I.ms_ok, fun h => ⟨?_, by
            rw [hlk]; exact (I.merging h).2⟩⟩
          intro i hi
          rcases List.mem_append.1 hi with hi | hi
          · exact (I.merging h).1 i hi
          · simp at hi; subst hi; exact ⟨hx2, hx3⟩
      · simp only [Optimizer.RMState.note, hm, false_and, if_false]
        exact ⟨hp, I.ms_main, I.fresh, hseg', hok1, I.start, I.ms_ok, fun h => absurd h hm⟩

/-- Range merging leaves the record of every main item unchanged. -/
theorem rangeMerge_run_recs (reg : Registry) (h : Host) (xs : List Item) (hok : F.Ok xs)
    (hz : F.from' h) (hfr : (F.get h).lo = none ∧ (F.get h).hi = none) :
    recs rule h (keys ((Optimizer.rangeMerge reg t).run xs)) = recs rule h (keys xs) := by
  have := rangeMerge_recs F reg {} h [] [] xs
    ⟨rfl, by simp, hfr, by simp, fun i hi => by simp at hi, hz, fun i hi => by simp at hi,
      fun _ => ⟨by simp, Or.inl ⟨rfl, rfl, rfl⟩⟩⟩ hok
  exact this

end

end Hrdc
