import Verif.Props.Registry
/-!
# What of items the optimizer's passes look at

`Proofs/Sig.lean` compares items by class, value and truth.  The passes use the truth value of locals only.
-/
namespace Hrdc
open Optimizer

/-- What the passes look at. -/
def Item.wire (i : Item) : Cls × Int × Bool := (i.cls, i.ival, i.cls.kind != .loc || i.val.truthy)

namespace Wire

theorem sig_eq {x y : Item} : x.wire = y.wire ↔ x.cls = y.cls ∧ x.ival = y.ival ∧
    (x.cls.kind = .loc → x.val.truthy = y.val.truthy) := by
  simp only [Item.wire, Prod.mk.injEq]
  refine and_congr_right fun h => and_congr_right fun _ => ?_
  rw [← h]
  by_cases hc : x.cls.kind = .loc
  · simp [hc]
  · rw [show (x.cls.kind != Kind.loc) = true from by simpa using hc]; simp [hc]

theorem build_sig (reg reg' : Registry) {c : Cls} (hc : plainCls c = true) {v w : PyVal} (h : v.sig = w.sig) :
    (build reg c v).wire = (build reg' c w).wire := by
  have h' := Hrdc.sig_eq.1 (Hrdc.build_sig reg reg' hc h)
  exact sig_eq.2 ⟨h'.1, h'.2.1, fun hl => h'.2.2 (fun e => by rw [e] at hl; simp [Cls.kind] at hl)⟩

/-! ## Passes -/

namespace Pass

/-- Two stages that do the same apart from names. -/
def Sim (p q : Pass) : Prop :=
  ∃ S : p.σ → q.σ → Prop, S p.init q.init ∧
    (∀ s t x y, S s t → x.wire = y.wire →
      S (p.step s x).1 (q.step t y).1 ∧ (p.step s x).2.map Item.wire = (q.step t y).2.map Item.wire) ∧
    ∀ s t, S s t → (p.fin s).map Item.wire = (q.fin t).map Item.wire

theorem feed_sim {p q : Pass} {S : p.σ → q.σ → Prop}
    (hs : ∀ s t x y, S s t → x.wire = y.wire →
      S (p.step s x).1 (q.step t y).1 ∧ (p.step s x).2.map Item.wire = (q.step t y).2.map Item.wire) :
    ∀ (xs ys : List Item) (s : p.σ) (t : q.σ), S s t → xs.map Item.wire = ys.map Item.wire →
      S (p.feed s xs).1 (q.feed t ys).1 ∧ (p.feed s xs).2.map Item.wire = (q.feed t ys).2.map Item.wire
  | [], [], s, t, h, _ => ⟨h, rfl⟩
  | [], _ :: _, _, _, _, h => by simp at h
  | _ :: _, [], _, _, _, h => by simp at h
  | x :: xs, y :: ys, s, t, h, he => by
    simp only [List.map_cons, List.cons.injEq] at he
    have h1 := hs s t x y h he.1
    have h2 := feed_sim hs xs ys _ _ h1.1 he.2
    refine ⟨h2.1, ?_⟩
    simp only [Hrdc.Pass.feed, List.map_append, h1.2, h2.2]

theorem sim_sink : Sim Hrdc.Pass.sink Hrdc.Pass.sink :=
  ⟨fun _ _ => True, trivial, fun _ _ _ _ _ h => ⟨trivial, by simpa [Hrdc.Pass.sink] using h⟩, fun _ _ _ => rfl⟩

theorem sim_wrap {p q r s : Pass} (h1 : Sim p q) (h2 : Sim r s) : Sim (p.wrap r) (q.wrap s) := by
  obtain ⟨S, a1, a2, a3⟩ := h1
  obtain ⟨T, b1, b2, b3⟩ := h2
  refine ⟨fun x y => S x.1 y.1 ∧ T x.2 y.2, ⟨a1, b1⟩, ?_, ?_⟩
  · intro s t x y h he
    have h1 := a2 _ _ _ _ h.1 he
    have h2 := feed_sim b2 _ _ _ _ h.2 h1.2
    exact ⟨⟨h1.1, h2.1⟩, h2.2⟩
  · intro s t h
    have h2 := feed_sim b2 _ _ _ _ h.2 (a3 _ _ h.1)
    simp only [Hrdc.Pass.wrap, List.map_append, h2.2, b3 _ _ h2.1]

end Pass

theorem filter_sig (P : Item → Bool) (hP : ∀ x y : Item, x.cls = y.cls → P x = P y) :
    ∀ (a b : List Item), a.map Item.wire = b.map Item.wire → (a.filter P).map Item.wire = (b.filter P).map Item.wire
  | [], [], _ => rfl
  | [], _ :: _, h => by simp at h
  | _ :: _, [], h => by simp at h
  | x :: a, y :: b, h => by
    simp only [List.map_cons, List.cons.injEq] at h
    have := filter_sig P hP a b h.2
    have hp := hP x y (sig_eq.1 h.1).1
    simp only [List.filter_cons, hp]
    split
    · simp [h.1, this]
    · exact this

theorem erase_sig : ∀ (k : Nat) (a b : List Item), a.map Item.wire = b.map Item.wire →
    (a.eraseIdx k).map Item.wire = (b.eraseIdx k).map Item.wire
  | _, [], [], _ => rfl
  | _, [], _ :: _, h => by simp at h
  | _, _ :: _, [], h => by simp at h
  | 0, x :: a, y :: b, h => by simp at h; simpa using h.2
  | k + 1, x :: a, y :: b, h => by
    simp only [List.map_cons, List.cons.injEq] at h
    simp [h.1, erase_sig k a b h.2]

theorem push_sig {a b : List Item} {x y : Item} (h : a.map Item.wire = b.map Item.wire) (hx : x.wire = y.wire) :
    (a ++ [x]).map Item.wire = (b ++ [y]).map Item.wire := by simp [h, hx]

theorem sim_du : Pass.Sim designatorUniq designatorUniq := by
  refine ⟨fun s t => s.pending.map Item.wire = t.pending.map Item.wire ∧ s.toFilter = t.toFilter, ⟨rfl, rfl⟩, ?_, ?_⟩
  · intro s t x y h he
    have e := sig_eq.1 he
    have hl : s.pending.length = t.pending.length := by simpa using congrArg List.length h.1
    have hp := push_sig h.1 he
    simp only [e.1, e.2.1, h.2, hl]
    split
    · split
      · split
        · exact ⟨⟨hp, rfl⟩, rfl⟩
        · exact ⟨⟨hp, rfl⟩, rfl⟩
      · exact ⟨⟨hp, rfl⟩, rfl⟩
    · refine ⟨⟨rfl, rfl⟩, ?_⟩
      split
      · exact erase_sig _ _ _ hp
      · exact hp
  · intro s t _; rfl

theorem sim_gm : Pass.Sim globalMerge globalMerge := by
  refine ⟨fun s t => ∀ c, (s c).map Item.wire = (t c).map Item.wire, fun _ => rfl, ?_, ?_⟩
  · intro s t x y h he
    have e := sig_eq.1 he
    have hstate : ∀ c, (if c = y.cls then some x else s c).map Item.wire = (if c = y.cls then some y else t c).map Item.wire := by
      intro c
      split
      · simp [he]
      · exact h c
    have hc := h y.cls
    simp only [e.1]
    split
    · cases h1 : s y.cls with
      | none =>
        rw [h1] at hc
        cases h2 : t y.cls with
        | none => exact ⟨hstate, by simp [he]⟩
        | some j => rw [h2] at hc; simp at hc
      | some i =>
        rw [h1] at hc
        cases h2 : t y.cls with
        | none => rw [h2] at hc; simp at hc
        | some j =>
          rw [h2] at hc
          have hij := sig_eq.1 (Option.some.inj hc)
          have hp : i.pyEq x = j.pyEq y := by simp [Item.pyEq, hij, e]
          refine ⟨hstate, ?_⟩
          simp only [hp]
          split <;> simp [he]
    · exact ⟨h, by simp [he]⟩
  · intro s t _; rfl

theorem sim_pm : Pass.Sim physicalMerge physicalMerge := by
  refine ⟨fun s t => s.changed = t.changed ∧ s.pending.map Item.wire = t.pending.map Item.wire, ⟨rfl, rfl⟩, ?_, ?_⟩
  · intro s t x y h he
    have e := sig_eq.1 he
    simp only [e.1, e.2.1, h.1]
    split
    · refine ⟨⟨rfl, rfl⟩, ?_⟩
      split
      · simp only [List.map_append, List.map_cons, List.map_nil, he]
        rw [filter_sig notPhys (by intro a b hab; simp [notPhys, hab]) _ _ h.2]
      · simp [he, h.2]
    · refine ⟨⟨?_, push_sig h.2 he⟩, rfl⟩
      rfl
  · intro s t h; exact h.2

theorem rm_out_sig (reg reg' : Registry) (t : RangeTags) (ht : ∀ c ∈ [t.lookup, t.min, t.max], plainCls c = true)
    (s s' : RMState) (hm : s.merging = s'.merging) (h1 : s.minValue.map PyVal.sig = s'.minValue.map PyVal.sig)
    (h2 : s.maxValue.map PyVal.sig = s'.maxValue.map PyVal.sig)
    (hp : s.pending.map Item.wire = s'.pending.map Item.wire) :
    (s.out reg t).map Item.wire = (s'.out reg' t).map Item.wire := by
  unfold RMState.out
  cases ha : s.minValue with
  | none =>
    rw [ha] at h1
    cases hb : s'.minValue with
    | none => exact hp
    | some v => rw [hb] at h1; simp at h1
  | some lo =>
    rw [ha] at h1
    cases hb : s'.minValue with
    | none => rw [hb] at h1; simp at h1
    | some lo' =>
      rw [hb] at h1
      have hlo := Option.some.inj h1
      cases hc : s.maxValue with
      | none =>
        rw [hc] at h2
        cases hd : s'.maxValue with
        | none => exact hp
        | some v => rw [hd] at h2; simp at h2
      | some hi =>
        rw [hc] at h2
        cases hd : s'.maxValue with
        | none => rw [hd] at h2; simp at h2
        | some hi' =>
          rw [hd] at h2
          have hhi := Option.some.inj h2
          have e1 := vsig_eq.1 hlo
          have e2 := vsig_eq.1 hhi
          simp only [e1, e2, hm, PyVal.eqv]
          split
          · rw [List.map_append, List.map_append,
              filter_sig (notRange t) (by intro a b hab; simp [notRange, hab]) _ _ hp]
            congr 1
            by_cases hq : (lo'.toInt == hi'.toInt) = true
            · have hq' : lo'.toInt = hi'.toInt := by simpa using hq
              simp only [if_pos hq]
              simp [build_sig reg reg' (ht t.lookup (by simp)) hlo, hq']
            · simp only [if_neg hq]
              split
              · simp [build_sig reg reg' (ht t.min (by simp)) hlo, build_sig reg reg' (ht t.max (by simp)) hhi]
              · simp [build_sig reg reg' (ht t.lookup (by simp)) hlo, build_sig reg reg' (ht t.lookup (by simp)) hhi]
          · exact hp

theorem rm_note_sig (t : RangeTags) (s s' : RMState) (x y : Item) (he : x.wire = y.wire) (hm : s.merging = s'.merging)
    (h1 : s.minValue.map PyVal.sig = s'.minValue.map PyVal.sig)
    (h2 : s.maxValue.map PyVal.sig = s'.maxValue.map PyVal.sig)
    (hp : s.pending.map Item.wire = s'.pending.map Item.wire) :
    (s.note t x).merging = (s'.note t y).merging ∧
    (s.note t x).minValue.map PyVal.sig = (s'.note t y).minValue.map PyVal.sig ∧
    (s.note t x).maxValue.map PyVal.sig = (s'.note t y).maxValue.map PyVal.sig ∧
    (s.note t x).pending.map Item.wire = (s'.note t y).pending.map Item.wire := by
  have e := sig_eq.1 he
  unfold RMState.note
  simp only [e.1, hm]
  split
  · next hl =>
    have hv : x.val.sig = y.val.sig := vsig_eq.2 ⟨e.2.1, e.2.2 (by rw [e.1]; exact hl.2)⟩
    split
    · exact ⟨rfl, h1, h2, hp⟩
    · split
      · cases hc : s.maxValue with
        | none =>
          rw [hc] at h2
          cases hd : s'.maxValue with
          | none => simp [hv, hp, hm]
          | some v => rw [hd] at h2; simp at h2
        | some m =>
          rw [hc] at h2
          cases hd : s'.maxValue with
          | none => rw [hd] at h2; simp at h2
          | some m' =>
            rw [hd] at h2
            have e2 := vsig_eq.1 (Option.some.inj h2)
            simp only [e2.1, e.2.1]
            split
            · simp [hv, hp, hm, h1]
            · simp [hp, h1, h2, hc, hd]
      · exact ⟨hm, h1, h2, hp⟩
  · exact ⟨hm, h1, h2, hp⟩

theorem sim_rm (reg reg' : Registry) (t : RangeTags) (ht : ∀ c ∈ [t.lookup, t.min, t.max], plainCls c = true) :
    Pass.Sim (rangeMerge reg t) (rangeMerge reg' t) := by
  refine ⟨fun s s' => s.merging = s'.merging ∧ s.minValue.map PyVal.sig = s'.minValue.map PyVal.sig ∧
    s.maxValue.map PyVal.sig = s'.maxValue.map PyVal.sig ∧ s.pending.map Item.wire = s'.pending.map Item.wire,
    ⟨rfl, rfl, rfl, rfl⟩, ?_, ?_⟩
  · intro s s' x y h he
    have e := sig_eq.1 he
    have hn := rm_note_sig t s s' x y he h.1 h.2.1 h.2.2.1 h.2.2.2
    simp only [e.1]
    split
    · exact ⟨⟨rfl, rfl, rfl, by simp [he]⟩, rm_out_sig reg reg' t ht _ _ hn.1 hn.2.1 hn.2.2.1 hn.2.2.2⟩
    · exact ⟨⟨hn.1, hn.2.1, hn.2.2.1, push_sig h.2.2.2 he⟩, rfl⟩
  · intro s s' h; exact rm_out_sig reg reg' t ht _ _ h.1 h.2.1 h.2.2.1 h.2.2.2

theorem sim_up (reg reg' : Registry) : Pass.Sim (usagePage reg) (usagePage reg') := by
  refine ⟨fun s s' => s = s', rfl, ?_, ?_⟩
  · intro s s' x y h he
    subst h
    have e := sig_eq.1 he
    have hs := split_sig reg reg' (show x.val.toInt = y.val.toInt from e.2.1)
    have h1 := vsig_eq.1 hs.1
    simp only [e.1, h1.1]
    split
    · next hu =>
      refine ⟨rfl, ?_⟩
      have hpl : plainCls y.cls = true := by
        cases hc : y.cls <;> rw [hc] at hu <;> simp [usageLike] at hu <;> rfl
      rw [List.map_append, List.map_append]
      congr 1
      · split
        · rfl
        · simp [build_sig reg reg' (c := .usagePage) rfl hs.1]
      · simp [build_sig reg reg' hpl hs.2]
    · split
      · exact ⟨by simp [e.2.1], by simp [he]⟩
      · exact ⟨rfl, by simp [he]⟩
  · intro s s' _; rfl

structure MMSig (s t : MMState) : Prop where
  before : s.before.map Item.wire = t.before.map Item.wire
  mains : s.mains.map Item.wire = t.mains.map Item.wire
  after : s.after.map Item.wire = t.after.map Item.wire
  bc : s.beforeCount = t.beforeCount
  ac : s.afterCount = t.afterCount
  props : s.props = t.props

theorem flush_sig (reg reg' : Registry) {s t : MMState} (h : MMSig s t) :
    MMSig (s.flush reg).1 (t.flush reg').1 ∧ (s.flush reg).2.map Item.wire = (t.flush reg').2.map Item.wire := by
  refine ⟨⟨h.after, rfl, rfl, rfl, h.ac, h.props⟩, ?_⟩
  simp only [MMState.flush, List.map_append]
  rw [filter_sig notCount (by intro a b hab; simp [notCount, hab]) _ _ h.before]
  congr 1
  have hm := h.mains
  cases h1 : s.mains with
  | nil =>
    rw [h1] at hm
    cases h2 : t.mains with
    | nil => rfl
    | cons y ys => rw [h2] at hm; simp at hm
  | cons x xs =>
    rw [h1] at hm
    cases h2 : t.mains with
    | nil => rw [h2] at hm; simp at hm
    | cons y ys =>
      rw [h2] at hm
      simp only [List.map_cons, List.cons.injEq] at hm
      simp only [h.bc, List.map_cons, List.map_nil, hm.1, build_sig reg reg' (c := .reportCount) rfl rfl]

theorem sim_mm (reg reg' : Registry) : Pass.Sim (mainMerge reg) (mainMerge reg') := by
  refine ⟨MMSig, ⟨rfl, rfl, rfl, rfl, rfl, rfl⟩, ?_, ?_⟩
  · intro s t x y h he
    have e := sig_eq.1 he
    have hpush : MMSig { s with after := s.after ++ [x] } { t with after := t.after ++ [y] } :=
      ⟨h.before, h.mains, push_sig h.after he, h.bc, h.ac, h.props⟩
    have take : ∀ {a b : MMState}, MMSig a b → MMSig
        { a with before := a.before ++ a.after, beforeCount := a.beforeCount + a.afterCount, after := [], mains := a.mains ++ [x] }
        { b with before := b.before ++ b.after, beforeCount := b.beforeCount + b.afterCount, after := [], mains := b.mains ++ [y] } :=
      fun {a b} h => ⟨by simp [h.before, h.after], push_sig h.mains he, rfl, by simp [h.bc, h.ac], h.ac, h.props⟩
    simp only [e.1]
    cases hk : y.cls.kind with
    | loc => exact ⟨hpush, rfl⟩
    | global =>
      by_cases hw : watched y.cls ∧ t.props y.cls ≠ y.ival
      · have hw' : watched y.cls ∧ s.props y.cls ≠ x.ival := by rw [h.props, e.2.1]; exact hw
        simp only [if_pos hw, if_pos hw']
        exact flush_sig reg reg' ⟨h.before, h.mains, push_sig h.after he, h.bc, h.ac, by simp [e.2.1, h.props]⟩
      · have hw' : ¬ (watched y.cls ∧ s.props y.cls ≠ x.ival) := by rw [h.props, e.2.1]; exact hw
        simp only [if_neg hw, if_neg hw']
        split
        · exact ⟨⟨h.before, h.mains, push_sig h.after he, h.bc, e.2.1, h.props⟩, rfl⟩
        · exact ⟨hpush, rfl⟩
    | main =>
      simp only
      split
      · have key : ∀ (a b : MMState) (o o' : List Item), MMSig a b → o.map Item.wire = o'.map Item.wire →
            let r := if a.afterCount ≠ 1 then
              ((MMState.flush reg { a with before := a.before ++ a.after, beforeCount := a.beforeCount + a.afterCount, after := [], mains := a.mains ++ [x] }).1,
               o ++ (MMState.flush reg { a with before := a.before ++ a.after, beforeCount := a.beforeCount + a.afterCount, after := [], mains := a.mains ++ [x] }).2)
              else ({ a with before := a.before ++ a.after, beforeCount := a.beforeCount + a.afterCount, after := [], mains := a.mains ++ [x] }, o)
            let r' := if b.afterCount ≠ 1 then
              ((MMState.flush reg' { b with before := b.before ++ b.after, beforeCount := b.beforeCount + b.afterCount, after := [], mains := b.mains ++ [y] }).1,
               o' ++ (MMState.flush reg' { b with before := b.before ++ b.after, beforeCount := b.beforeCount + b.afterCount, after := [], mains := b.mains ++ [y] }).2)
              else ({ b with before := b.before ++ b.after, beforeCount := b.beforeCount + b.afterCount, after := [], mains := b.mains ++ [y] }, o')
            MMSig r.1 r'.1 ∧ r.2.map Item.wire = r'.2.map Item.wire := by
          intro a b o o' hab ho
          have hf := flush_sig reg reg' (take hab)
          have hac := hab.ac
          by_cases ha : b.afterCount ≠ 1
          · have ha' : a.afterCount ≠ 1 := by rw [hac]; exact ha
            simp only [if_pos ha, if_pos ha']
            exact ⟨hf.1, by rw [List.map_append, List.map_append, ho, hf.2]⟩
          · have ha' : ¬ a.afterCount ≠ 1 := by rw [hac]; exact ha
            simp only [if_neg ha, if_neg ha']
            exact ⟨take hab, ho⟩
        have hm := h.mains
        cases h1 : s.mains with
        | nil =>
          rw [h1] at hm
          cases h2 : t.mains with
          | nil => have := key s t [] [] h rfl; simpa [h1, h2] using this
          | cons m' ms' => rw [h2] at hm; simp at hm
        | cons m ms =>
          rw [h1] at hm
          cases h2 : t.mains with
          | nil => rw [h2] at hm; simp at hm
          | cons m' ms' =>
            rw [h2] at hm
            simp only [List.map_cons, List.cons.injEq] at hm
            have em := sig_eq.1 hm.1
            have hq : x.pyEq m = y.pyEq m' := by simp [Item.pyEq, em, e]
            simp only [hq]
            split
            · have := key s t [] [] h rfl; simpa [h1, h2] using this
            · have hf := flush_sig reg reg' h
              exact key _ _ _ _ hf.1 hf.2
      · exact flush_sig reg reg' hpush
  · intro s t h; simp only [List.map_append, h.before, h.mains, h.after]

theorem sim_new (reg reg' : Registry) (min max : Int) :
    Pass.Sim (new reg min max Pass.sink) (new reg' min max Pass.sink) := by
  unfold new
  generalize sortPasses registry = l
  have : ∀ (l : List PassId) (a b : Pass), Pass.Sim a b → Pass.Sim
      (l.foldl (fun s p => if min < precedence p ∧ precedence p < max then (pass reg p).wrap s else s) a)
      (l.foldl (fun s p => if min < precedence p ∧ precedence p < max then (pass reg' p).wrap s else s) b) := by
    intro l
    induction l with
    | nil => intro a b h; exact h
    | cons p l ih =>
      intro a b h
      simp only [List.foldl_cons]
      refine ih _ _ ?_
      split
      · refine Pass.sim_wrap ?_ h
        cases p with
        | designatorUniq => exact sim_du
        | globalMerge => exact sim_gm
        | mainMerge => exact sim_mm reg reg'
        | physicalMerge => exact sim_pm
        | designatorMerge => exact sim_rm reg reg' _ (by decide)
        | stringMerge => exact sim_rm reg reg' _ (by decide)
        | usageMerge => exact sim_rm reg reg' _ (by decide)
        | usagePage => exact sim_up reg reg'
      · exact h
  exact this l _ _ Pass.sim_sink

/-! ## Readers -/

end Wire
end Hrdc
