import Verif.Proofs.Made
import Verif.Proofs.Command
/-!
# Names of usages have no influence on values
-/
namespace Hrdc
open Optimizer

/-- What of an item does not depend on names.  The truth value of a unit is never looked at. -/
def Item.sig (i : Item) : Cls × Int × Bool := (i.cls, i.ival, i.cls == .unit || i.val.truthy)

/-- What of a value does not depend on its name. -/
def PyVal.sig (v : PyVal) : Int × Bool := (v.toInt, v.truthy)

theorem sig_eq {x y : Item} : x.sig = y.sig ↔ x.cls = y.cls ∧ x.ival = y.ival ∧
    (x.cls ≠ .unit → x.val.truthy = y.val.truthy) := by
  simp only [Item.sig, Prod.mk.injEq]
  refine and_congr_right fun h => and_congr_right fun _ => ?_
  rw [← h]
  by_cases hc : x.cls = .unit
  · simp [hc]
  · rw [show (x.cls == Cls.unit) = false from beq_eq_false_iff_ne.2 hc]; simp [hc]

theorem vsig_eq {x y : PyVal} : x.sig = y.sig ↔ x.toInt = y.toInt ∧ x.truthy = y.truthy := by
  simp [PyVal.sig]

theorem lookup_sig (reg : Registry) (v : PyVal) : (Usage.lookup reg v).value = v.toInt := lookup_value reg v

/-- Classes whose constructor keeps values as they are, or looks them up. -/
def plainCls (c : Cls) : Bool := c.kind == .loc || c == .usagePage || c == .reportCount

theorem new_plain (reg : Registry) {c : Cls} (hc : plainCls c = true) (v : PyVal) :
    Item.new reg c v = if c.signed ∨ v.toInt ≥ 0 then .ok ⟨c, if usageLike c then .usage (Usage.lookup reg v) else v⟩
      else .error .assertion := by
  have hl := lookup_sig reg v
  cases c <;> simp [plainCls, Cls.kind] at hc <;>
    simp [Item.new, Item.baseInit, usageLike, Cls.signed, PyVal.toInt, hl]

theorem build_sig (reg reg' : Registry) {c : Cls} (hc : plainCls c = true) {v w : PyVal} (h : v.sig = w.sig) :
    (build reg c v).sig = (build reg' c w).sig := by
  have h' := vsig_eq.1 h
  unfold build
  rw [new_plain reg hc, new_plain reg' hc, ← h'.1]
  by_cases hn : c.signed ∨ v.toInt ≥ 0
  · simp only [if_pos hn]
    split
    · refine sig_eq.2 ⟨rfl, ?_, fun _ => rfl⟩
      show (Usage.lookup reg v).value = (Usage.lookup reg' w).value
      rw [lookup_sig, lookup_sig, h'.1]
    · simp [sig_eq, Item.ival, h']
  · simp only [if_neg hn]
    simp [sig_eq, Item.ival, h']

/-! ## Passes -/

namespace Pass

/-- Two stages that do the same apart from names. -/
def Sim (p q : Pass) : Prop :=
  ∃ S : p.σ → q.σ → Prop, S p.init q.init ∧
    (∀ s t x y, S s t → x.sig = y.sig →
      S (p.step s x).1 (q.step t y).1 ∧ (p.step s x).2.map Item.sig = (q.step t y).2.map Item.sig) ∧
    ∀ s t, S s t → (p.fin s).map Item.sig = (q.fin t).map Item.sig

theorem feed_sim {p q : Pass} {S : p.σ → q.σ → Prop}
    (hs : ∀ s t x y, S s t → x.sig = y.sig →
      S (p.step s x).1 (q.step t y).1 ∧ (p.step s x).2.map Item.sig = (q.step t y).2.map Item.sig) :
    ∀ (xs ys : List Item) (s : p.σ) (t : q.σ), S s t → xs.map Item.sig = ys.map Item.sig →
      S (p.feed s xs).1 (q.feed t ys).1 ∧ (p.feed s xs).2.map Item.sig = (q.feed t ys).2.map Item.sig
  | [], [], s, t, h, _ => ⟨h, rfl⟩
  | [], _ :: _, _, _, _, h => by simp at h
  | _ :: _, [], _, _, _, h => by simp at h
  | x :: xs, y :: ys, s, t, h, he => by
    simp only [List.map_cons, List.cons.injEq] at he
    have h1 := hs s t x y h he.1
    have h2 := feed_sim hs xs ys _ _ h1.1 he.2
    refine ⟨h2.1, ?_⟩
    simp only [feed, List.map_append, h1.2, h2.2]

theorem sim_sink : Sim sink sink :=
  ⟨fun _ _ => True, trivial, fun _ _ _ _ _ h => ⟨trivial, by simpa [sink] using h⟩, fun _ _ _ => rfl⟩

theorem sim_wrap {p q r s : Pass} (h1 : Sim p q) (h2 : Sim r s) : Sim (p.wrap r) (q.wrap s) := by
  obtain ⟨S, a1, a2, a3⟩ := h1
  obtain ⟨T, b1, b2, b3⟩ := h2
  refine ⟨fun x y => S x.1 y.1 ∧ T x.2 y.2, ⟨a1, b1⟩, ?_, ?_⟩
  · intro s t x y h he
    have h1 := a2 _ _ _ _ h.1 he
    have h2 := feed_sim b2 _ _ _ _ h.2 h1.2
    exact ⟨⟨h1.1, h2.1⟩, h2.2⟩
  · intro s t h
    have h2 := feed_sim b2 _ _ _ _ h.2 (a3 _ _ h.1)
    simp only [wrap, List.map_append, h2.2, b3 _ _ h2.1]

end Pass

theorem filter_sig (P : Item → Bool) (hP : ∀ x y : Item, x.cls = y.cls → P x = P y) :
    ∀ (a b : List Item), a.map Item.sig = b.map Item.sig → (a.filter P).map Item.sig = (b.filter P).map Item.sig
  | [], [], _ => rfl
  | [], _ :: _, h => by simp at h
  | _ :: _, [], h => by simp at h
  | x :: a, y :: b, h => by
    simp only [List.map_cons, List.cons.injEq] at h
    have := filter_sig P hP a b h.2
    have hp := hP x y (sig_eq.1 h.1).1
    simp only [List.filter_cons, hp]
    split
    · simp [h.1, this]
    · exact this

theorem erase_sig : ∀ (k : Nat) (a b : List Item), a.map Item.sig = b.map Item.sig →
    (a.eraseIdx k).map Item.sig = (b.eraseIdx k).map Item.sig
  | _, [], [], _ => rfl
  | _, [], _ :: _, h => by simp at h
  | _, _ :: _, [], h => by simp at h
  | 0, x :: a, y :: b, h => by simp at h; simpa using h.2
  | k + 1, x :: a, y :: b, h => by
    simp only [List.map_cons, List.cons.injEq] at h
    simp [h.1, erase_sig k a b h.2]

theorem push_sig {a b : List Item} {x y : Item} (h : a.map Item.sig = b.map Item.sig) (hx : x.sig = y.sig) :
    (a ++ [x]).map Item.sig = (b ++ [y]).map Item.sig := by simp [h, hx]

theorem sim_du : Pass.Sim designatorUniq designatorUniq := by
  refine ⟨fun s t => s.pending.map Item.sig = t.pending.map Item.sig ∧ s.toFilter = t.toFilter, ⟨rfl, rfl⟩, ?_, ?_⟩
  · intro s t x y h he
    have e := sig_eq.1 he
    have hl : s.pending.length = t.pending.length := by simpa using congrArg List.length h.1
    have hp := push_sig h.1 he
    simp only [e.1, e.2.1, h.2, hl]
    split
    · split
      · split
        · exact ⟨⟨hp, rfl⟩, rfl⟩
        · exact ⟨⟨hp, rfl⟩, rfl⟩
      · exact ⟨⟨hp, rfl⟩, rfl⟩
    · refine ⟨⟨rfl, rfl⟩, ?_⟩
      split
      · exact erase_sig _ _ _ hp
      · exact hp
  · intro s t _; rfl

theorem sim_gm : Pass.Sim globalMerge globalMerge := by
  refine ⟨fun s t => ∀ c, (s c).map Item.sig = (t c).map Item.sig, fun _ => rfl, ?_, ?_⟩
  · intro s t x y h he
    have e := sig_eq.1 he
    have hstate : ∀ c, (if c = y.cls then some x else s c).map Item.sig = (if c = y.cls then some y else t c).map Item.sig := by
      intro c
      split
      · simp [he]
      · exact h c
    have hc := h y.cls
    simp only [e.1]
    split
    · cases h1 : s y.cls with
      | none =>
        rw [h1] at hc
        cases h2 : t y.cls with
        | none => exact ⟨hstate, by simp [he]⟩
        | some j => rw [h2] at hc; simp at hc
      | some i =>
        rw [h1] at hc
        cases h2 : t y.cls with
        | none => rw [h2] at hc; simp at hc
        | some j =>
          rw [h2] at hc
          have hij := sig_eq.1 (Option.some.inj hc)
          have hp : i.pyEq x = j.pyEq y := by simp [Item.pyEq, hij, e]
          refine ⟨hstate, ?_⟩
          simp only [hp]
          split <;> simp [he]
    · exact ⟨h, by simp [he]⟩
  · intro s t _; rfl

theorem sim_pm : Pass.Sim physicalMerge physicalMerge := by
  refine ⟨fun s t => s.changed = t.changed ∧ s.pending.map Item.sig = t.pending.map Item.sig, ⟨rfl, rfl⟩, ?_, ?_⟩
  · intro s t x y h he
    have e := sig_eq.1 he
    simp only [e.1, e.2.1, h.1]
    split
    · refine ⟨⟨rfl, rfl⟩, ?_⟩
      split
      · simp only [List.map_append, List.map_cons, List.map_nil, he]
        rw [filter_sig notPhys (by intro a b hab; simp [notPhys, hab]) _ _ h.2]
      · simp [he, h.2]
    · refine ⟨⟨?_, push_sig h.2 he⟩, rfl⟩
      rfl
  · intro s t h; exact h.2

theorem rm_out_sig (reg reg' : Registry) (t : RangeTags) (ht : ∀ c ∈ [t.lookup, t.min, t.max], plainCls c = true)
    (s s' : RMState) (hm : s.merging = s'.merging) (h1 : s.minValue.map PyVal.sig = s'.minValue.map PyVal.sig)
    (h2 : s.maxValue.map PyVal.sig = s'.maxValue.map PyVal.sig)
    (hp : s.pending.map Item.sig = s'.pending.map Item.sig) :
    (s.out reg t).map Item.sig = (s'.out reg' t).map Item.sig := by
  unfold RMState.out
  cases ha : s.minValue with
  | none =>
    rw [ha] at h1
    cases hb : s'.minValue with
    | none => exact hp
    | some v => rw [hb] at h1; simp at h1
  | some lo =>
    rw [ha] at h1
    cases hb : s'.minValue with
    | none => rw [hb] at h1; simp at h1
    | some lo' =>
      rw [hb] at h1
      have hlo := Option.some.inj h1
      cases hc : s.maxValue with
      | none =>
        rw [hc] at h2
        cases hd : s'.maxValue with
        | none => exact hp
        | some v => rw [hd] at h2; simp at h2
      | some hi =>
        rw [hc] at h2
        cases hd : s'.maxValue with
        | none => rw [hd] at h2; simp at h2
        | some hi' =>
          rw [hd] at h2
          have hhi := Option.some.inj h2
          have e1 := vsig_eq.1 hlo
          have e2 := vsig_eq.1 hhi
          simp only [e1, e2, hm, PyVal.eqv]
          split
          · rw [List.map_append, List.map_append,
              filter_sig (notRange t) (by intro a b hab; simp [notRange, hab]) _ _ hp]
            congr 1
            by_cases hq : (lo'.toInt == hi'.toInt) = true
            · have hq' : lo'.toInt = hi'.toInt := by simpa using hq
              simp only [if_pos hq]
              simp [build_sig reg reg' (ht t.lookup (by simp)) hlo, hq']
            · simp only [if_neg hq]
              split
              · simp [build_sig reg reg' (ht t.min (by simp)) hlo, build_sig reg reg' (ht t.max (by simp)) hhi]
              · simp [build_sig reg reg' (ht t.lookup (by simp)) hlo, build_sig reg reg' (ht t.lookup (by simp)) hhi]
          · exact hp

theorem rm_note_sig (t : RangeTags) (s s' : RMState) (x y : Item) (he : x.sig = y.sig) (hm : s.merging = s'.merging)
    (h1 : s.minValue.map PyVal.sig = s'.minValue.map PyVal.sig)
    (h2 : s.maxValue.map PyVal.sig = s'.maxValue.map PyVal.sig)
    (hp : s.pending.map Item.sig = s'.pending.map Item.sig) :
    (s.note t x).merging = (s'.note t y).merging ∧
    (s.note t x).minValue.map PyVal.sig = (s'.note t y).minValue.map PyVal.sig ∧
    (s.note t x).maxValue.map PyVal.sig = (s'.note t y).maxValue.map PyVal.sig ∧
    (s.note t x).pending.map Item.sig = (s'.note t y).pending.map Item.sig := by
  have e := sig_eq.1 he
  unfold RMState.note
  simp only [e.1, hm]
  split
  · next hl =>
    have hv : x.val.sig = y.val.sig := vsig_eq.2 ⟨e.2.1, e.2.2 fun h => by
      rw [← e.1, h] at hl; simp [Cls.kind] at hl⟩
    split
    · exact ⟨rfl, h1, h2, hp⟩
    · split
      · cases hc : s.maxValue with
        | none =>
          rw [hc] at h2
          cases hd : s'.maxValue with
          | none => simp [hv, hp, hm]
          | some v => rw [hd] at h2; simp at h2
        | some m =>
          rw [hc] at h2
          cases hd : s'.maxValue with
          | none => rw [hd] at h2; simp at h2
          | some m' =>
            rw [hd] at h2
            have e2 := vsig_eq.1 (Option.some.inj h2)
            simp only [e2.1, e.2.1]
            split
            · simp [hv, hp, hm, h1]
            · simp [hp, h1, h2, hc, hd]
      · exact ⟨hm, h1, h2, hp⟩
  · exact ⟨hm, h1, h2, hp⟩

theorem sim_rm (reg reg' : Registry) (t : RangeTags) (ht : ∀ c ∈ [t.lookup, t.min, t.max], plainCls c = true) :
    Pass.Sim (rangeMerge reg t) (rangeMerge reg' t) := by
  refine ⟨fun s s' => s.merging = s'.merging ∧ s.minValue.map PyVal.sig = s'.minValue.map PyVal.sig ∧
    s.maxValue.map PyVal.sig = s'.maxValue.map PyVal.sig ∧ s.pending.map Item.sig = s'.pending.map Item.sig,
    ⟨rfl, rfl, rfl, rfl⟩, ?_, ?_⟩
  · intro s s' x y h he
    have e := sig_eq.1 he
    have hn := rm_note_sig t s s' x y he h.1 h.2.1 h.2.2.1 h.2.2.2
    simp only [e.1]
    split
    · exact ⟨⟨rfl, rfl, rfl, by simp [he]⟩, rm_out_sig reg reg' t ht _ _ hn.1 hn.2.1 hn.2.2.1 hn.2.2.2⟩
    · exact ⟨⟨hn.1, hn.2.1, hn.2.2.1, push_sig h.2.2.2 he⟩, rfl⟩
  · intro s s' h; exact rm_out_sig reg reg' t ht _ _ h.1 h.2.1 h.2.2.1 h.2.2.2

theorem split_sig (reg reg' : Registry) {v w : PyVal} (h : v.toInt = w.toInt) :
    (Usage.split (Usage.lookup reg v)).1.sig = (Usage.split (Usage.lookup reg' w)).1.sig ∧
    (Usage.split (Usage.lookup reg v)).2.sig = (Usage.split (Usage.lookup reg' w)).2.sig := by
  have key : ∀ u : UsageC, (Usage.split u).1.truthy = true ∧ (Usage.split u).2.truthy = true := by
    intro u
    unfold Usage.split
    split <;> exact ⟨rfl, rfl⟩
  simp [vsig_eq, split_fst, split_snd, lookup_sig, h, key]

theorem sim_up (reg reg' : Registry) : Pass.Sim (usagePage reg) (usagePage reg') := by
  refine ⟨fun s s' => s = s', rfl, ?_, ?_⟩
  · intro s s' x y h he
    subst h
    have e := sig_eq.1 he
    have hs := split_sig reg reg' (show x.val.toInt = y.val.toInt from e.2.1)
    have h1 := vsig_eq.1 hs.1
    simp only [e.1, h1.1]
    split
    · next hu =>
      refine ⟨rfl, ?_⟩
      have hpl : plainCls y.cls = true := by
        cases hc : y.cls <;> rw [hc] at hu <;> simp [usageLike] at hu <;> rfl
      rw [List.map_append, List.map_append]
      congr 1
      · split
        · rfl
        · simp [build_sig reg reg' (c := .usagePage) rfl hs.1]
      · simp [build_sig reg reg' hpl hs.2]
    · split
      · exact ⟨by simp [e.2.1], by simp [he]⟩
      · exact ⟨rfl, by simp [he]⟩
  · intro s s' _; rfl

structure MMSig (s t : MMState) : Prop where
  before : s.before.map Item.sig = t.before.map Item.sig
  mains : s.mains.map Item.sig = t.mains.map Item.sig
  after : s.after.map Item.sig = t.after.map Item.sig
  bc : s.beforeCount = t.beforeCount
  ac : s.afterCount = t.afterCount
  props : s.props = t.props

theorem flush_sig (reg reg' : Registry) {s t : MMState} (h : MMSig s t) :
    MMSig (s.flush reg).1 (t.flush reg').1 ∧ (s.flush reg).2.map Item.sig = (t.flush reg').2.map Item.sig := by
  refine ⟨⟨h.after, rfl, rfl, rfl, h.ac, h.props⟩, ?_⟩
  simp only [MMState.flush, List.map_append]
  rw [filter_sig notCount (by intro a b hab; simp [notCount, hab]) _ _ h.before]
  congr 1
  have hm := h.mains
  cases h1 : s.mains with
  | nil =>
    rw [h1] at hm
    cases h2 : t.mains with
    | nil => rfl
    | cons y ys => rw [h2] at hm; simp at hm
  | cons x xs =>
    rw [h1] at hm
    cases h2 : t.mains with
    | nil => rw [h2] at hm; simp at hm
    | cons y ys =>
      rw [h2] at hm
      simp only [List.map_cons, List.cons.injEq] at hm
      simp only [h.bc, List.map_cons, List.map_nil, hm.1, build_sig reg reg' (c := .reportCount) rfl rfl]

theorem sim_mm (reg reg' : Registry) : Pass.Sim (mainMerge reg) (mainMerge reg') := by
  refine ⟨MMSig, ⟨rfl, rfl, rfl, rfl, rfl, rfl⟩, ?_, ?_⟩
  · intro s t x y h he
    have e := sig_eq.1 he
    have hpush : MMSig { s with after := s.after ++ [x] } { t with after := t.after ++ [y] } :=
      ⟨h.before, h.mains, push_sig h.after he, h.bc, h.ac, h.props⟩
    have take : ∀ {a b : MMState}, MMSig a b → MMSig
        { a with before := a.before ++ a.after, beforeCount := a.beforeCount + a.afterCount, after := [], mains := a.mains ++ [x] }
        { b with before := b.before ++ b.after, beforeCount := b.beforeCount + b.afterCount, after := [], mains := b.mains ++ [y] } :=
      fun {a b} h => ⟨by simp [h.before, h.after], push_sig h.mains he, rfl, by simp [h.bc, h.ac], h.ac, h.props⟩
    simp only [e.1]
    cases hk : y.cls.kind with
    | loc => exact ⟨hpush, rfl⟩
    | global =>
      by_cases hw : watched y.cls ∧ t.props y.cls ≠ y.ival
      · have hw' : watched y.cls ∧ s.props y.cls ≠ x.ival := by rw [h.props, e.2.1]; exact hw
        simp only [if_pos hw, if_pos hw']
        exact flush_sig reg reg' ⟨h.before, h.mains, push_sig h.after he, h.bc, h.ac, by simp [e.2.1, h.props]⟩
      · have hw' : ¬ (watched y.cls ∧ s.props y.cls ≠ x.ival) := by rw [h.props, e.2.1]; exact hw
        simp only [if_neg hw, if_neg hw']
        split
        · exact ⟨⟨h.before, h.mains, push_sig h.after he, h.bc, e.2.1, h.props⟩, rfl⟩
        · exact ⟨hpush, rfl⟩
    | main =>
      simp only
      split
      · have key : ∀ (a b : MMState) (o o' : List Item), MMSig a b → o.map Item.sig = o'.map Item.sig →
            let r := if a.afterCount ≠ 1 then
              ((MMState.flush reg { a with before := a.before ++ a.after, beforeCount := a.beforeCount + a.afterCount, after := [], mains := a.mains ++ [x] }).1,
               o ++ (MMState.flush reg { a with before := a.before ++ a.after, beforeCount := a.beforeCount + a.afterCount, after := [], mains := a.mains ++ [x] }).2)
              else ({ a with before := a.before ++ a.after, beforeCount := a.beforeCount + a.afterCount, after := [], mains := a.mains ++ [x] }, o)
            let r' := if b.afterCount ≠ 1 then
              ((MMState.flush reg' { b with before := b.before ++ b.after, beforeCount := b.beforeCount + b.afterCount, after := [], mains := b.mains ++ [y] }).1,
               o' ++ (MMState.flush reg' { b with before := b.before ++ b.after, beforeCount := b.beforeCount + b.afterCount, after := [], mains := b.mains ++ [y] }).2)
              else ({ b with before := b.before ++ b.after, beforeCount := b.beforeCount + b.afterCount, after := [], mains := b.mains ++ [y] }, o')
            MMSig r.1 r'.1 ∧ r.2.map Item.sig = r'.2.map Item.sig := by
          intro a b o o' hab ho
          have hf := flush_sig reg reg' (take hab)
          have hac := hab.ac
          by_cases ha : b.afterCount ≠ 1
          · have ha' : a.afterCount ≠ 1 := by rw [hac]; exact ha
            simp only [if_pos ha, if_pos ha']
            exact ⟨hf.1, by rw [List.map_append, List.map_append, ho, hf.2]⟩
          · have ha' : ¬ a.afterCount ≠ 1 := by rw [hac]; exact ha
            simp only [if_neg ha, if_neg ha']
            exact ⟨take hab, ho⟩
        have hm := h.mains
        cases h1 : s.mains with
        | nil =>
          rw [h1] at hm
          cases h2 : t.mains with
          | nil => have := key s t [] [] h rfl; simpa [h1, h2] using this
          | cons m' ms' => rw [h2] at hm; simp at hm
        | cons m ms =>
          rw [h1] at hm
          cases h2 : t.mains with
          | nil => rw [h2] at hm; simp at hm
          | cons m' ms' =>
            rw [h2] at hm
            simp only [List.map_cons, List.cons.injEq] at hm
            have em := sig_eq.1 hm.1
            have hq : x.pyEq m = y.pyEq m' := by simp [Item.pyEq, em, e]
            simp only [hq]
            split
            · have := key s t [] [] h rfl; simpa [h1, h2] using this
            · have hf := flush_sig reg reg' h
              exact key _ _ _ _ hf.1 hf.2
      · exact flush_sig reg reg' hpush
  · intro s t h; simp only [List.map_append, h.before, h.mains, h.after]

theorem sim_new (reg reg' : Registry) (min max : Int) :
    Pass.Sim (new reg min max Pass.sink) (new reg' min max Pass.sink) := by
  unfold new
  generalize sortPasses registry = l
  have : ∀ (l : List PassId) (a b : Pass), Pass.Sim a b → Pass.Sim
      (l.foldl (fun s p => if min < precedence p ∧ precedence p < max then (pass reg p).wrap s else s) a)
      (l.foldl (fun s p => if min < precedence p ∧ precedence p < max then (pass reg' p).wrap s else s) b) := by
    intro l
    induction l with
    | nil => intro a b h; exact h
    | cons p l ih =>
      intro a b h
      simp only [List.foldl_cons]
      refine ih _ _ ?_
      split
      · refine Pass.sim_wrap ?_ h
        cases p with
        | designatorUniq => exact sim_du
        | globalMerge => exact sim_gm
        | mainMerge => exact sim_mm reg reg'
        | physicalMerge => exact sim_pm
        | designatorMerge => exact sim_rm reg reg' _ (by decide)
        | stringMerge => exact sim_rm reg reg' _ (by decide)
        | usageMerge => exact sim_rm reg reg' _ (by decide)
        | usagePage => exact sim_up reg reg'
      · exact h
  exact this l _ _ Pass.sim_sink

/-! ## Readers -/

/-- The result with names left out. -/
def exSig (x : Except PyErr Item) : Except PyErr (Cls × Int × Bool) := x.map Item.sig

theorem baseInit_sig (c : Cls) {v w : PyVal} (h : v.sig = w.sig) :
    exSig (Item.baseInit c v) = exSig (Item.baseInit c w) := by
  have h' := vsig_eq.1 h
  unfold Item.baseInit
  rw [h'.1]
  split
  · simp [exSig, Except.map, sig_eq, Item.ival, h']
  · rfl

theorem usage_sig (reg reg' : Registry) {v w : PyVal} (h : v.toInt = w.toInt) :
    (PyVal.usage (Usage.lookup reg v)).sig = (PyVal.usage (Usage.lookup reg' w)).sig :=
  vsig_eq.2 ⟨by show (Usage.lookup reg v).value = (Usage.lookup reg' w).value; rw [lookup_sig, lookup_sig, h], rfl⟩

theorem new_sig (reg reg' : Registry) (c : Cls) (v : PyVal) : exSig (Item.new reg c v) = exSig (Item.new reg' c v) := by
  cases c <;> first
    | rfl
    | exact baseInit_sig _ (usage_sig reg reg' rfl)

theorem new_usage_sig (reg reg' : Registry) {c : Cls} (hc : usageLike c = true) {v w : PyVal} (h : v.toInt = w.toInt) :
    exSig (Item.new reg c v) = exSig (Item.new reg' c w) := by
  cases c <;> simp [usageLike] at hc <;> exact baseInit_sig _ (usage_sig reg reg' h)

theorem exSig_cases {x y : Except PyErr Item} (h : exSig x = exSig y) :
    (∃ e, x = .error e ∧ y = .error e) ∨ ∃ i j, x = .ok i ∧ y = .ok j ∧ i.sig = j.sig := by
  cases x with
  | error e => cases y with
    | error e' => simp [exSig, Except.map] at h; subst h; exact .inl ⟨e, rfl, rfl⟩
    | ok j => simp [exSig, Except.map] at h
  | ok i => cases y with
    | error e' => simp [exSig, Except.map] at h
    | ok j => simp [exSig, Except.map] at h; exact .inr ⟨i, j, rfl, rfl, h⟩

theorem parse_sig (reg reg' : Registry) (d : List UInt8) : exSig (Item.parse reg d) = exSig (Item.parse reg' d) := by
  unfold Item.parse
  cases d with
  | nil => rfl
  | cons h r =>
    simp only
    cases Cls.ofKey (h.toNat / 4 % 4) (h.toNat / 16) with
    | none => rfl
    | some c =>
      simp only
      split
      · exact new_sig reg reg' c _
      · cases Item.unpack (Item.payloadLen (h.toNat % 4)) c.signed r with
        | error e => rfl
        | ok v => exact new_sig reg reg' c _

theorem itemParse_sig (reg reg' : Registry) (page : Int) (d : List UInt8) :
    (∃ e, Parser.itemParse reg page d = .error e ∧ Parser.itemParse reg' page d = .error e) ∨
    ∃ p i j, Parser.itemParse reg page d = .ok (p, i) ∧ Parser.itemParse reg' page d = .ok (p, j) ∧ i.sig = j.sig := by
  unfold Parser.itemParse
  rcases exSig_cases (parse_sig reg reg' d) with ⟨e, h1, h2⟩ | ⟨i, j, h1, h2, hs⟩
  · rw [h1, h2]; exact .inl ⟨e, rfl, rfl⟩
  · rw [h1, h2]
    have e := sig_eq.1 hs
    have plain : ∀ {c : Cls}, c ≠ .usagePage → usageLike c = false → i.cls = c → j.cls = c →
        Parser.append reg page i = .ok (page, i) ∧ Parser.append reg' page j = .ok (page, j) := by
      intro c hc hu h1 h2
      unfold Parser.append
      rw [h1, h2]
      cases c <;> simp_all [usageLike]
    have use : ∀ {c : Cls}, usageLike c = true → i.cls = c → j.cls = c →
        (∃ e, Parser.append reg page i = .error e ∧ Parser.append reg' page j = .error e) ∨
        ∃ p i' j', Parser.append reg page i = .ok (p, i') ∧ Parser.append reg' page j = .ok (p, j') ∧ i'.sig = j'.sig := by
      intro c hu h1 h2
      have key : (∃ e, (if i.ival / 65536 = 0 then
            match Item.new reg c (Usage.inpage reg page i.ival) with
            | .ok k => .ok (page, k)
            | .error e => .error e
          else .ok (page, i) : Except PyErr (Int × Item)) = .error e ∧ (if j.ival / 65536 = 0 then
            match Item.new reg' c (Usage.inpage reg' page j.ival) with
            | .ok k => .ok (page, k)
            | .error e => .error e
          else .ok (page, j) : Except PyErr (Int × Item)) = .error e) ∨ ∃ p i' j', (if i.ival / 65536 = 0 then
            match Item.new reg c (Usage.inpage reg page i.ival) with
            | .ok k => .ok (page, k)
            | .error e => .error e
          else .ok (page, i) : Except PyErr (Int × Item)) = .ok (p, i') ∧ (if j.ival / 65536 = 0 then
            match Item.new reg' c (Usage.inpage reg' page j.ival) with
            | .ok k => .ok (page, k)
            | .error e => .error e
          else .ok (page, j) : Except PyErr (Int × Item)) = .ok (p, j') ∧ i'.sig = j'.sig := by
        rw [e.2.1]
        split
        · have hin : (Usage.inpage reg page j.ival).toInt = (Usage.inpage reg' page j.ival).toInt :=
            (vsig_eq.1 (split_sig reg reg' (v := .int _) (w := .int _) rfl).2).1
          rcases exSig_cases (new_usage_sig reg reg' hu hin) with ⟨e, g1, g2⟩ | ⟨a, b, g1, g2, g3⟩
          · rw [g1, g2]; exact .inl ⟨e, rfl, rfl⟩
          · rw [g1, g2]; exact .inr ⟨_, _, _, rfl, rfl, g3⟩
        · exact .inr ⟨_, _, _, rfl, rfl, hs⟩
      unfold Parser.append
      rw [h1, h2]
      cases c <;> simp [usageLike] at hu <;> exact key
    by_cases hu : usageLike i.cls = true
    · exact use hu rfl e.1.symm
    · by_cases hp : i.cls = .usagePage
      · have hp' : j.cls = .usagePage := e.1 ▸ hp
        have h1 : ∀ (r : Registry) (k : Item), k.cls = .usagePage → Parser.append r page k =
            match Item.new r .usagePage (Usage.page k.ival) with
            | .ok j => .ok (k.ival, j)
            | .error e => .error e := by
          intro r k hk
          unfold Parser.append
          rw [hk]
          cases Item.new r .usagePage (Usage.page k.ival) <;> rfl
        show (∃ e, Parser.append reg page i = .error e ∧ Parser.append reg' page j = .error e) ∨
          ∃ p i' j', Parser.append reg page i = .ok (p, i') ∧ Parser.append reg' page j = .ok (p, j') ∧ i'.sig = j'.sig
        rw [h1 reg i hp, h1 reg' j hp', e.2.1]
        rcases exSig_cases (new_sig reg reg' .usagePage (Usage.page j.ival)) with ⟨x, g1, g2⟩ | ⟨a, b, g1, g2, g3⟩
        · rw [g1, g2]; exact .inl ⟨_, rfl, rfl⟩
        · rw [g1, g2]; exact .inr ⟨_, _, _, rfl, rfl, g3⟩
      · have := plain hp (by simpa using hu) rfl e.1.symm
        exact .inr ⟨_, _, _, this.1, this.2, hs⟩

theorem blob_sig (reg reg' : Registry) : ∀ (n : Nat) (page : Int) (b : List UInt8), b.length ≤ n →
    (Parser.blobLoop reg page b).1.map Item.sig = (Parser.blobLoop reg' page b).1.map Item.sig ∧
    (Parser.blobLoop reg page b).2 = (Parser.blobLoop reg' page b).2
  | n, page, [], _ => by simp [Parser.blobLoop]
  | 0, page, x :: t, h => by simp at h
  | n + 1, page, x :: t, h => by
    rw [Parser.blobLoop, Parser.blobLoop]
    rcases itemParse_sig reg reg' page ((x :: t).take (Parser.sliceLen x)) with ⟨e, h1, h2⟩ | ⟨p, i, j, h1, h2, hs⟩
    · rw [h1, h2]; exact ⟨rfl, rfl⟩
    · have hl : 0 < Parser.sliceLen x := by
        unfold Parser.sliceLen; simp only; split
        · exact Nat.succ_pos _
        · omega
      have ih := blob_sig reg reg' n p ((x :: t).drop (Parser.sliceLen x))
        (by simp only [List.length_drop, List.length_cons] at h ⊢; omega)
      rw [h1, h2]
      exact ⟨by simp only [List.map_cons, hs, ih.1], ih.2⟩

theorem deliver_sig (f : Formatter.Fmt) (reg reg' : Registry) (uni : Parser.Uni) (d : Formatter.Doc) :
    (Formatter.deliver f reg uni d).1.map Item.sig = (Formatter.deliver f reg' uni d).1.map Item.sig ∧
    (Formatter.deliver f reg uni d).2 = (Formatter.deliver f reg' uni d).2 := by
  unfold Formatter.deliver
  split
  · exact blob_sig reg reg' _ _ _ (Nat.le_refl _)
  · exact ⟨rfl, rfl⟩
  · exact blob_sig reg reg' _ _ _ (Nat.le_refl _)
  · split
    · exact blob_sig reg reg' _ _ _ (Nat.le_refl _)
    · exact ⟨rfl, rfl⟩
  · exact ⟨rfl, rfl⟩

/-! ## Streamer -/

namespace Streamer

/-- The result with names left out. -/
def Tr.sig {α : Type} (x : Tr α) : List (Cls × Int × Bool) × Except PyErr α := (x.1.map Item.sig, x.2)

theorem Tr.bind_sig {α β : Type} {x y : Tr α} {f g : α → Tr β} (h : x.sig = y.sig) (hf : ∀ a, (f a).sig = (g a).sig) :
    (x.bind f).sig = (y.bind g).sig := by
  obtain ⟨l, a⟩ := x
  obtain ⟨m, b⟩ := y
  simp only [Tr.sig, Prod.mk.injEq] at h
  obtain ⟨h1, rfl⟩ := h
  cases a with
  | error e => simp [Tr.bind, Tr.sig, h1]
  | ok a =>
    have := hf a
    simp only [Tr.sig, Prod.mk.injEq] at this
    simp [Tr.bind, Tr.sig, h1, this]

/-- A constructor call with the names of usages left out. -/
def callSig (x : Cls × PyVal) : Cls × Int × Option PyVal := if usageLike x.1 then (x.1, x.2.toInt, none) else (x.1, 0, some x.2)

theorem emit_sig (reg reg' : Registry) : ∀ (a b : List (Cls × PyVal)), a.map callSig = b.map callSig →
    (emitT reg a).sig = (emitT reg' b).sig
  | [], [], _ => rfl
  | [], _ :: _, h => by simp at h
  | _ :: _, [], h => by simp at h
  | (c, v) :: a, (c', v') :: b, h => by
    simp only [List.map_cons, List.cons.injEq] at h
    have ih := emit_sig reg reg' a b h.2
    have hn : exSig (Item.new reg c v) = exSig (Item.new reg' c' v') := by
      have h1 := h.1
      unfold callSig at h1
      by_cases hu : usageLike c = true <;> by_cases hu' : usageLike c' = true <;> simp [hu, hu'] at h1
      · obtain ⟨rfl, h1⟩ := h1
        exact new_usage_sig reg reg' hu h1
      · obtain ⟨rfl, rfl⟩ := h1
        exact new_sig reg reg' c v
    simp only [Tr.sig, Prod.mk.injEq] at ih
    rcases exSig_cases hn with ⟨e, g1, g2⟩ | ⟨i, j, g1, g2, g3⟩
    · simp [emitT, g1, g2, Tr.sig]
    · simp [emitT, g1, g2, g3, Tr.sig, ih]

theorem emit_same (reg reg' : Registry) (a : List (Cls × PyVal)) : (emitT reg a).sig = (emitT reg' a).sig :=
  emit_sig reg reg' a a rfl

theorem addPad_sig (reg reg' : Registry) (st : State) (w : Way) (pad : Int) :
    (addPadT reg st w pad).sig = (addPadT reg' st w pad).sig := by
  unfold addPadT
  split
  · exact Tr.bind_sig (emit_same reg reg' _) fun _ => Tr.bind_sig rfl fun _ =>
      Tr.bind_sig (emit_same reg reg' _) fun _ => rfl
  · rfl

theorem elems_sig (reg reg' : Registry) (arr : NamedArray) :
    ((arr.elems reg).map (fun u => (Cls.usage, u))).map callSig = ((arr.elems reg').map (fun u => (Cls.usage, u))).map callSig := by
  cases arr with
  | list l => rfl
  | range r =>
    simp only [NamedArray.elems, UsageRange.iter, List.map_map]
    congr 1
    funext i
    simp [callSig, usageLike, PyVal.toInt, lookup_sig]

theorem other_sig (reg reg' : Registry) (v : Value) (named : Bool) :
    (otherCalls reg v named).map callSig = (otherCalls reg' v named).map callSig := by
  unfold otherCalls
  split
  · simp only [List.map_append, elems_sig reg reg']
  · rfl

theorem field_sig (reg reg' : Registry) (st : State) (v : Value) : (fieldT reg st v).sig = (fieldT reg' st v).sig :=
  Tr.bind_sig (emit_same reg reg' _) fun _ => Tr.bind_sig rfl fun _ => Tr.bind_sig (emit_same reg reg' _) fun _ => rfl

theorem value_sig (reg reg' : Registry) (st : State) (v : Value) : (valueT reg st v).sig = (valueT reg' st v).sig := by
  unfold valueT
  refine Tr.bind_sig rfl fun pad => Tr.bind_sig (addPad_sig reg reg' _ _ _) fun st1 => ?_
  split
  · exact Tr.bind_sig (field_sig reg reg' _ _) fun _ => rfl
  · exact Tr.bind_sig (emit_same reg reg' _) fun _ => Tr.bind_sig rfl fun named =>
      Tr.bind_sig (emit_sig reg reg' _ _ (other_sig reg reg' v named)) fun _ =>
      Tr.bind_sig (field_sig reg reg' _ _) fun _ => Tr.bind_sig (emit_same reg reg' _) fun _ => rfl

mutual
theorem node_sig (reg reg' : Registry) (st : State) : ∀ n, (nodeT reg st n).sig = (nodeT reg' st n).sig
  | .value v => by rw [nodeT, nodeT]; exact value_sig reg reg' st v
  | .align w b => by rw [nodeT, nodeT]; exact Tr.bind_sig rfl fun _ => addPad_sig reg reg' _ _ _
  | .padding w s => by rw [nodeT, nodeT]; exact addPad_sig reg reg' _ _ _
  | .report id ms => by
    rw [nodeT, nodeT]; exact Tr.bind_sig (emit_same reg reg' _) fun _ => nodes_sig reg reg' _ ms
  | .top ms => by rw [nodeT, nodeT]; exact nodes_sig reg reg' _ ms
  | .coll k u ms => by
    cases u with
    | none => rw [nodeT, nodeT]
    | some u =>
      rw [nodeT, nodeT]
      exact Tr.bind_sig (emit_same reg reg' _) fun _ => Tr.bind_sig (nodes_sig reg reg' _ ms) fun _ =>
        Tr.bind_sig (emit_same reg reg' _) fun _ => rfl
theorem nodes_sig (reg reg' : Registry) (st : State) : ∀ ns, (nodesT reg st ns).sig = (nodesT reg' st ns).sig
  | [] => by rw [nodesT, nodesT]
  | n :: ns => by rw [nodesT, nodesT]; exact Tr.bind_sig (node_sig reg reg' st n) fun _ => nodes_sig reg reg' _ ns
end

theorem trace_sig (reg reg' : Registry) (n : Node) :
    (trace reg n).1.map Item.sig = (trace reg' n).1.map Item.sig ∧ (trace reg n).2 = (trace reg' n).2 := by
  have h := node_sig reg reg' {} n
  unfold trace
  cases h1 : nodeT reg {} n with
  | mk l a =>
    cases h2 : nodeT reg' {} n with
    | mk m b =>
      rw [h1, h2] at h
      simp only [Tr.sig, Prod.mk.injEq] at h
      obtain ⟨h3, rfl⟩ := h
      cases a <;> exact ⟨h3, rfl⟩

end Streamer

/-! ## Writers -/

theorem bytes_sig {i j : Item} (h : i.sig = j.sig) : i.bytes = j.bytes := by
  have e := sig_eq.1 h
  by_cases hu : i.cls = .unit
  · have hs : ∀ k : Item, k.cls = .unit → k.sizeCode =
        if k.ival.toNat ≠ 0 then
          if Nat.log2 k.ival.toNat + 1 ≤ 8 then 1 else if Nat.log2 k.ival.toNat + 1 ≤ 16 then 2 else 3
        else 1 := by
      intro k hk
      simp only [Item.sizeCode, Item.bitCount, hk, Cls.signed, Cls.optionalValue]
      by_cases h0 : k.ival.toNat = 0
      · by_cases ht : k.val.truthy = true <;> simp [h0, ht]
      · simp [h0]
    unfold Item.bytes
    rw [hs i hu, hs j (e.1 ▸ hu), e.1, e.2.1]
  · unfold Item.bytes Item.sizeCode Item.bitCount
    rw [e.1, e.2.1, e.2.2 hu]

theorem write_sig (g : Formatter.Fmt) (hg : g ≠ .code) (a b : List Item) (h : a.map Item.sig = b.map Item.sig) :
    Formatter.write g a = Formatter.write g b := by
  have hb : ∀ (a b : List Item), a.map Item.sig = b.map Item.sig → Formatter.writeBinary a = Formatter.writeBinary b := by
    intro a
    induction a with
    | nil => intro b h; cases b with
      | nil => rfl
      | cons y b => simp at h
    | cons x a ih => intro b h; cases b with
      | nil => simp at h
      | cons y b =>
        simp only [List.map_cons, List.cons.injEq] at h
        simp only [Formatter.writeBinary, bytes_sig h.1, ih b h.2]
  have hh : ∀ (a b : List Item), a.map Item.sig = b.map Item.sig → Formatter.writeHex a = Formatter.writeHex b := by
    intro a
    induction a with
    | nil => intro b h; cases b with
      | nil => rfl
      | cons y b => simp at h
    | cons x a ih => intro b h; cases b with
      | nil => simp at h
      | cons y b =>
        simp only [List.map_cons, List.cons.injEq] at h
        simp only [Formatter.writeHex, bytes_sig h.1, ih b h.2]
  cases g with
  | binary => simp only [Formatter.write, hb a b h]
  | hex => simp only [Formatter.write, hh a b h]
  | code => exact absurd rfl hg

theorem code_error_sig : ∀ (a b : List Item) (m n : Int), a.map Item.sig = b.map Item.sig →
    (Formatter.writeCode m a).2 = (Formatter.writeCode n b).2
  | [], [], _, _, _ => rfl
  | [], _ :: _, _, _, h => by simp at h
  | _ :: _, [], _, _, h => by simp at h
  | x :: a, y :: b, m, n, h => by
    simp only [List.map_cons, List.cons.injEq] at h
    simp only [Formatter.writeCode, bytes_sig h.1]
    split
    · rfl
    · exact code_error_sig a b _ _ h.2

theorem compare_sig (x : List UInt8) : ∀ (a b : List Item) (k : Nat), a.map Item.sig = b.map Item.sig →
    Command.compareItems x k a = Command.compareItems x k b
  | [], [], _, _ => rfl
  | [], _ :: _, _, h => by simp at h
  | _ :: _, [], _, h => by simp at h
  | i :: a, j :: b, k, h => by
    simp only [List.map_cons, List.cons.injEq] at h
    simp only [Command.compareItems, bytes_sig h.1]
    split
    · rfl
    · split
      · exact compare_sig x a b _ h.2
      · rfl

theorem stage_sim (reg reg' : Registry) (o : Bool) : Pass.Sim (Command.stage reg o) (Command.stage reg' o) := by
  unfold Command.stage
  cases o with
  | false => exact Pass.sim_sink
  | true => exact sim_new reg reg' 0 100

theorem drive_sig {α : Type} {p q : Pass} (hpq : Pass.Sim p q) (out : List Item → α × Option PyErr)
    (ho : ∀ a b, a.map Item.sig = b.map Item.sig → out a = out b) (s t : List Item × Option PyErr)
    (h1 : s.1.map Item.sig = t.1.map Item.sig) (h2 : s.2 = t.2) : Command.drive p out s = Command.drive q out t := by
  obtain ⟨S, a1, a2, a3⟩ := hpq
  have hf := Pass.feed_sim a2 s.1 t.1 _ _ a1 h1
  unfold Command.drive
  simp only [ho _ _ hf.2, h2]
  have h3 : out ((p.feed p.init s.1).2 ++ p.fin (p.feed p.init s.1).1) = out ((q.feed q.init t.1).2 ++ q.fin (q.feed q.init t.1).1) :=
    ho _ _ (by rw [List.map_append, List.map_append, hf.2, a3 _ _ hf.1])
  rw [h3]

end Hrdc
