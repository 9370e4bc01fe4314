import Verif.Spec.Script
import Verif.Model.Compiler
import Verif.Proofs.RangeMerge
import Verif.Props.Compile
import Verif.Proofs.Dumper3
/-!
# Descriptors that differ only in how integers are written

Item streams made from two such descriptors encode to the same bytes, optimized or not.
-/
namespace Hrdc
open Spec
open Spec.Script (Same SameL SameValue sameUsage sameArray)

/-- Lists related element by element. -/
def Each {α β : Type} (R : α → β → Prop) : List α → List β → Prop
  | [], [] => True
  | a :: l, b :: m => R a b ∧ Each R l m
  | _, _ => False

theorem Each.ite {α β : Type} {R : α → β → Prop} (c : Prop) [Decidable c] {a x : List α} {b y : List β}
    (h : Each R a b) (g : Each R x y) : Each R (if c then a else x) (if c then b else y) := by
  split
  · exact h
  · exact g

namespace Each
variable {α β : Type} {R : α → β → Prop}

theorem append : ∀ {a : List α} {b : List β} {c : List α} {d : List β},
    Each R a b → Each R c d → Each R (a ++ c) (b ++ d)
  | [], [], _, _, _, h => h
  | _ :: _, _ :: _, _, _, h1, h2 => ⟨h1.1, append h1.2 h2⟩
  | [], _ :: _, _, _, h, _ => h.elim
  | _ :: _, [], _, _, h, _ => h.elim

theorem length : ∀ {a : List α} {b : List β}, Each R a b → a.length = b.length
  | [], [], _ => rfl
  | _ :: _, _ :: _, h => by simp [length h.2]
  | [], _ :: _, h => h.elim
  | _ :: _, [], h => h.elim

theorem filter {p : α → Bool} {q : β → Bool} (hpq : ∀ a b, R a b → p a = q b) :
    ∀ {l : List α} {m : List β}, Each R l m → Each R (l.filter p) (m.filter q)
  | [], [], _ => trivial
  | a :: l, b :: m, h => by
    simp only [List.filter_cons, hpq a b h.1]
    split
    · exact ⟨h.1, filter hpq h.2⟩
    · exact filter hpq h.2
  | [], _ :: _, h => h.elim
  | _ :: _, [], h => h.elim

theorem eraseIdx : ∀ {l : List α} {m : List β} (k : Nat), Each R l m → Each R (l.eraseIdx k) (m.eraseIdx k)
  | [], [], _, _ => by simp [Each]
  | _ :: _, _ :: _, 0, h => h.2
  | _ :: _, _ :: _, k + 1, h => ⟨h.1, eraseIdx k h.2⟩
  | [], _ :: _, _, h => h.elim
  | _ :: _, [], _, h => h.elim

theorem of_map {γ : Type} {f : α → γ} {g : β → γ} : ∀ {l : List α} {m : List β},
    l.map f = m.map g → Each (fun a b => f a = g b) l m
  | [], [], _ => trivial
  | _ :: _, _ :: _, h => by
    simp only [List.map_cons, List.cons.injEq] at h
    exact ⟨h.1, of_map h.2⟩
  | [], _ :: _, h => by simp at h
  | _ :: _, [], h => by simp at h

theorem map {γ δ : Type} {S : γ → δ → Prop} {f : α → γ} {g : β → δ} (hfg : ∀ a b, R a b → S (f a) (g b)) :
    ∀ {l : List α} {m : List β}, Each R l m → Each S (l.map f) (m.map g)
  | [], [], _ => trivial
  | _ :: _, _ :: _, h => ⟨hfg _ _ h.1, map hfg h.2⟩
  | [], _ :: _, h => h.elim
  | _ :: _, [], h => h.elim

end Each

/-- The same class and the same number; the same truth value where it matters. -/
structure Alike (a b : Item) : Prop where
  cls : a.cls = b.cls
  ival : a.ival = b.ival
  truthy : a.cls.optionalValue = true ∨ a.cls.kind = .loc → a.val.truthy = b.val.truthy

theorem Alike.pyEq {a b c d : Item} (h : Alike a b) (g : Alike c d) : a.pyEq c = b.pyEq d := by
  simp [Item.pyEq, h.cls, h.ival, g.cls, g.ival]

/-- The size code as a function of the bit count. -/
def codeOf (bits : Nat) (opt : Bool) : Nat :=
  if bits = 0 ∧ opt then 0 else if bits ≤ 8 then 1 else if bits ≤ 16 then 2 else 3

/-- The bit count as a function of the magnitude. -/
def bitsOf (m : Nat) (signed t : Bool) : Nat :=
  if m ≠ 0 then Nat.log2 m + (if signed then 1 else 0) + 1 else if t then 1 else 0

theorem bitCount_eq (i : Item) : i.bitCount = bitsOf
    (if i.cls.signed && decide (i.ival < 0) then (-i.ival - 1).toNat else i.ival.toNat) i.cls.signed i.val.truthy := rfl

theorem Alike.bytes {a b : Item} (h : Alike a b) : a.bytes = b.bytes := by
  have hs : a.sizeCode = b.sizeCode := by
    show codeOf a.bitCount a.cls.optionalValue = codeOf b.bitCount b.cls.optionalValue
    have hc := h.cls
    have hi := h.ival
    have key : a.bitCount = b.bitCount ∨ (a.cls.optionalValue = false ∧ a.bitCount ≤ 1 ∧ b.bitCount ≤ 1) := by
      rw [bitCount_eq, bitCount_eq, ← hc, ← hi]
      generalize (if a.cls.signed && decide (a.ival < 0) then (-a.ival - 1).toNat else a.ival.toNat) = m
      unfold bitsOf
      split
      · exact Or.inl rfl
      · cases ho : a.cls.optionalValue with
        | true => rw [h.truthy (Or.inl ho)]; exact Or.inl rfl
        | false =>
          refine Or.inr ⟨rfl, ?_, ?_⟩ <;> split <;> omega
    rw [← hc]
    rcases key with k | ⟨k0, k1, k2⟩
    · rw [k]
    · rw [k0]
      simp only [codeOf, Bool.false_eq_true, and_false, if_false]
      rw [if_pos (by omega), if_pos (by omega)]
  unfold Item.bytes
  rw [hs, h.cls, h.ival]

theorem binary_alike : ∀ {l m : List Item}, Each Alike l m → Formatter.binary l = Formatter.binary m
  | [], [], _ => rfl
  | a :: l, b :: m, h => by
    simp only [Formatter.binary, h.1.bytes, binary_alike h.2]
  | [], _ :: _, h => h.elim
  | _ :: _, [], h => h.elim

theorem hex_alike : ∀ {l m : List Item}, Each Alike l m → Formatter.hex l = Formatter.hex m
  | [], [], _ => rfl
  | a :: l, b :: m, h => by
    simp only [Formatter.hex, h.1.bytes, hex_alike h.2]
  | [], _ :: _, h => h.elim
  | _ :: _, [], h => h.elim

/-- Both fail the same way, or both succeed with related results. -/
def Agree {α β : Type} (R : α → β → Prop) : Except PyErr α → Except PyErr β → Prop
  | .ok a, .ok b => R a b
  | .error e, .error f => e = f
  | _, _ => False

/-- Constructor calls that make alike items. -/
structure CallAlike (p q : Cls × PyVal) : Prop where
  cls : p.1 = q.1
  val : p.2.toInt = q.2.toInt
  coll : p.1 = .collection → 0 ≤ p.2.toInt
  truthy : p.1.kind = .loc → Optimizer.usageLike p.1 = false → p.2.truthy = q.2.truthy

theorem baseInit_agree {c : Cls} {v w : PyVal} (h : v.toInt = w.toInt)
    (ht : c.optionalValue = true ∨ c.kind = .loc → v.truthy = w.truthy) :
    Agree Alike (Item.baseInit c v) (Item.baseInit c w) := by
  unfold Item.baseInit
  rw [h]
  split
  · exact ⟨rfl, h, ht⟩
  · rfl

/-- What a data item stores. -/
def dataVal (v : PyVal) : PyVal :=
  match v with
  | .int i => .named (Item.dataName i) i
  | v => v

theorem new_data (reg : Registry) (c : Cls) (hc : c.isData = true) (v : PyVal) :
    Item.new reg c v = Item.baseInit c (dataVal v) := by
  cases c <;> simp [Cls.isData] at hc <;> cases v <;> rfl

theorem dataVal_toInt (v : PyVal) : (dataVal v).toInt = v.toInt := by cases v <;> rfl
theorem dataVal_truthy (v : PyVal) : (dataVal v).truthy = true := by cases v <;> rfl

/-- What a collection item stores. -/
def collVal (v : PyVal) : PyVal :=
  match v with
  | .int i => if i < 7 then .named (Item.collNames.getD i.toNat []) i else .int i
  | v => v

theorem collVal_toInt (v : PyVal) : (collVal v).toInt = v.toInt := by
  cases v with
  | int i => simp only [collVal]; split <;> rfl
  | _ => rfl

theorem new_coll (reg : Registry) (v : PyVal) (h : 0 ≤ v.toInt) :
    Item.new reg .collection v = Item.baseInit .collection (collVal v) := by
  cases v with
  | int i =>
    simp only [PyVal.toInt] at h
    simp only [new_collection_int, collVal]
    split
    · first | rfl | (rw [if_pos h])
    · rfl
  | _ => rfl

theorem new_agree (reg reg' : Registry) {c d : Cls} {v w : PyVal} (h : CallAlike (c, v) (d, w)) :
    Agree Alike (Item.new reg c v) (Item.new reg' d w) := by
  obtain ⟨hc, hv, hk, ht⟩ := h
  simp only at hc hv hk ht
  subst hc
  by_cases hd : c.isData = true
  · rw [new_data _ _ hd, new_data _ _ hd]
    exact baseInit_agree (by rw [dataVal_toInt, dataVal_toInt, hv]) (fun _ => by rw [dataVal_truthy, dataVal_truthy])
  · by_cases hcc : c = .collection
    · subst hcc
      have h0 := hk rfl
      rw [new_coll _ _ h0, new_coll _ _ (hv ▸ h0)]
      exact baseInit_agree (by rw [collVal_toInt, collVal_toInt, hv]) (fun h => by simp [Cls.optionalValue, Cls.kind] at h)
    · cases c <;> simp [Cls.isData] at hd hcc <;> simp only [Item.new]
      case endCollection | push | pop =>
        rw [hv]
        split
        · exact baseInit_agree rfl (fun _ => rfl)
        · rfl
      case unit =>
        exact baseInit_agree (by rw [usualUnit_toInt, usualUnit_toInt, hv]) (fun h => by simp [Cls.optionalValue, Cls.kind] at h)
      case usage | usageMin | usageMax =>
        exact baseInit_agree (by simp only [toInt_usage, lookup_value, hv]) (fun _ => rfl)
      case desigIndex | desigMin | desigMax | strIndex | strMin | strMax | delimiter =>
        exact baseInit_agree hv (fun _ => ht rfl rfl)
      all_goals exact baseInit_agree hv (fun h => by simp [Cls.optionalValue, Cls.kind] at h)

theorem emit_agree (reg reg' : Registry) : ∀ {l m : List (Cls × PyVal)}, Each CallAlike l m →
    Agree (Each Alike) (Streamer.emit reg l) (Streamer.emit reg' m)
  | [], [], _ => trivial
  | (c, v) :: l, (d, w) :: m, h => by
    have h1 := new_agree reg reg' h.1
    have h2 := emit_agree reg reg' h.2
    simp only [Streamer.emit]
    revert h1 h2
    cases Item.new reg c v <;> cases Item.new reg' d w <;> simp only [Agree, false_implies, implies_true]
    · intro h1 _; exact h1
    · cases Streamer.emit reg l <;> cases Streamer.emit reg' m <;> simp only [false_implies, implies_true]
      · intro _ h; exact h
      · intro a b; exact ⟨a, b⟩
  | [], _ :: _, h => h.elim
  | _ :: _, [], h => h.elim

/-- A call is alike to itself, unless it makes a collection of negative kind. -/
theorem CallAlike.same {p : Cls × PyVal} (h : p.1 ≠ .collection) : CallAlike p p :=
  ⟨rfl, rfl, fun e => absurd e h, fun _ _ => rfl⟩

/-- Equal states and alike items. -/
def Out (a b : Streamer.State × List Item) : Prop := a.1 = b.1 ∧ Each Alike a.2 b.2

theorem addPad_agree (reg reg' : Registry) (st : Streamer.State) (w : Way) (pad : Int) :
    Agree Out (Streamer.addPad reg st w pad) (Streamer.addPad reg' st w pad) := by
  unfold Streamer.addPad
  split
  · have h1 := emit_agree reg reg' (l := [(.reportCount, .int 1), (.reportSize, .int pad)])
      (m := [(.reportCount, .int 1), (.reportSize, .int pad)]) ⟨.same (by simp), .same (by simp), trivial⟩
    have h2 := emit_agree reg reg' (l := [(w.cls, .int 3)]) (m := [(w.cls, .int 3)]) ⟨.same (by cases w <;> simp [Way.cls]), trivial⟩
    revert h1 h2
    cases Streamer.emit reg [(.reportCount, .int 1), (.reportSize, .int pad)] <;>
      cases Streamer.emit reg' [(.reportCount, .int 1), (.reportSize, .int pad)] <;>
      simp only [Agree, false_implies, implies_true]
    · intro h _; exact h
    · cases Streamer.bump st w pad with
      | error e => intros; rfl
      | ok s =>
        cases Streamer.emit reg [(w.cls, .int 3)] <;> cases Streamer.emit reg' [(w.cls, .int 3)] <;>
          simp only [false_implies, implies_true]
        · intro _ h; exact h
        · intro a b; exact ⟨rfl, a.append b⟩
  · exact ⟨rfl, trivial⟩

theorem sameArray_truth {a b : Option NamedArray} (h : sameArray a b) : truthOpt a = truthOpt b := by
  cases a with
  | none => cases b with
    | none => rfl
    | some b => exact h.elim
  | some a => cases b with
    | none => cases a <;> exact h.elim
    | some b =>
      cases a <;> cases b <;> simp only [Spec.Script.sameArray] at h
      · have := congrArg List.length h
        simp only [List.length_map] at this
        simp [truthOpt, NamedArray.truth, NamedArray.len, this]
      · next r s =>
        have : r.rawLen = s.rawLen := by simp [UsageRange.rawLen, h.1, h.2]
        simp only [truthOpt, NamedArray.truth, NamedArray.len, UsageRange.len, this]

theorem sameArray_elems (reg reg' : Registry) {a b : NamedArray} (h : sameArray (some a) (some b)) :
    Each (fun x y : PyVal => x.toInt = y.toInt) (a.elems reg) (b.elems reg') := by
  cases a <;> cases b <;> simp only [sameArray] at h
  · exact Each.of_map h
  · simp only [NamedArray.elems, UsageRange.iter, h.1, h.2]
    apply Each.of_map
    simp [List.map_map, Function.comp_def, toInt_usage, lookup_value]

theorem usageCall {u w : PyVal} (h : u.toInt = w.toInt) : CallAlike (.usage, u) (.usage, w) :=
  ⟨rfl, h, fun e => by simp at e, fun _ e => by simp [Optimizer.usageLike] at e⟩

theorem attrCalls_alike (reg reg' : Registry) {v w : Value} (h : SameValue v w) (named : Bool) :
    Each CallAlike (Streamer.attrCalls reg v named) (Streamer.attrCalls reg' w named) := by
  obtain ⟨-, -, hg, hu, -, -, h1, h2, h3, h4, ha, h5, h6, h7, h8, -⟩ := h
  unfold Streamer.attrCalls
  rw [h1, h2, h3, h4, h6, h7, h8, hg]
  refine Each.append (Each.append (Each.append (Each.append ?_ ?_) ?_) ?_) ?_
  · revert hg hu
    cases hv : v.usage with
    | none => cases hw : w.usage with
      | none => intros; exact trivial
      | some t =>
        simp only [usageGiven]
        intro e _
        rw [if_neg (by rw [← e]; simp)]; exact trivial
    | some u => cases hw : w.usage with
      | none =>
        simp only [usageGiven]
        intro e _
        rw [if_neg (by rw [e]; simp)]; exact trivial
      | some t =>
        simp only [usageGiven]
        intro e hs
        rw [← e]
        split
        · next ht =>
          have := hs ht
          simp only [sameUsage, Option.map_some, Option.some.injEq] at this
          exact ⟨usageCall this, trivial⟩
        · exact trivial
  · cases named with
    | false =>
      simp only
      split <;> exact ⟨.same (by simp), .same (by simp), trivial⟩
    | true =>
      cases hv : v.namedArray with
      | none =>
        cases hw : w.namedArray with
        | none => simp only; split <;> exact ⟨.same (by simp), .same (by simp), trivial⟩
        | some b => rw [hv, hw] at ha; exact ha.elim
      | some a =>
        cases hw : w.namedArray with
        | none => rw [hv, hw] at ha; cases a <;> exact ha.elim
        | some b =>
          rw [hv, hw] at ha
          refine Each.append (Each.append ⟨.same (by simp), .same (by simp), trivial⟩ ?_) ?_
          · split
            · exact ⟨⟨rfl, rfl, fun _ => by simp [PyVal.toInt], fun e => by simp [Cls.kind] at e⟩, trivial⟩
            · exact trivial
          · exact Each.map (fun x y e => usageCall e) (sameArray_elems reg reg' ha)
  · exact ⟨.same (by simp), .same (by simp), ⟨rfl, h5, fun e => by simp at e, fun e => by simp [Cls.kind] at e⟩,
      .same (by simp), trivial⟩
  · split
    · exact ⟨.same (by simp), trivial⟩
    · exact trivial
  · split
    · exact ⟨.same (by simp), trivial⟩
    · exact trivial

theorem value_agree (reg reg' : Registry) (st : Streamer.State) {v w : Value} (h : SameValue v w) :
    Agree Out (Streamer.value reg st v) (Streamer.value reg' st w) := by
  have hat := attrCalls_alike reg reg' h
  obtain ⟨hway, hf, hg, hu, hsz, hal, -, -, -, -, ha, -, -, -, -, hcnt⟩ := h
  have htr := sameArray_truth ha
  have hcf : constFlag v.flags = constFlag w.flags := by simp [constFlag, hf]
  unfold Streamer.value
  simp only [hway, hal, htr, hcf, hsz, hcnt, hg]
  cases Streamer.padFor st w.way w.alignment 0 with
  | error e => rfl
  | ok pad =>
    simp only
    have hp := addPad_agree reg reg' st w.way pad
    revert hp
    cases Streamer.addPad reg st w.way pad with
    | error e => cases Streamer.addPad reg' st w.way pad with
      | error f => exact fun h => h
      | ok p => exact fun h => h.elim
    | ok p => cases Streamer.addPad reg' st w.way pad with
      | error f => exact fun h => h.elim
      | ok q =>
        obtain ⟨s, a⟩ := p
        obtain ⟨s', a'⟩ := q
        rintro ⟨e, hae⟩
        simp only at e hae
        subst e
        simp only
        cases truthOpt w.namedArray with
        | error e => rfl
        | ok named =>
          simp only
          have hb := emit_agree reg reg'
            (l := (if constFlag w.flags then [] else Streamer.attrCalls reg v named) ++
              [(.reportCount, .int w.count), (.reportSize, .int w.size)])
            (m := (if constFlag w.flags then [] else Streamer.attrCalls reg' w named) ++
              [(.reportCount, .int w.count), (.reportSize, .int w.size)])
            (Each.append (Each.ite _ trivial (hat named)) ⟨.same (by simp), .same (by simp), trivial⟩)
          have hc := emit_agree reg reg'
            (l := [(w.way.cls, v.flags)] ++
                (if named && !constFlag w.flags && usageGiven w.usage then [(.endCollection, .int 0)] else []))
            (m := [(w.way.cls, w.flags)] ++
                (if named && !constFlag w.flags && usageGiven w.usage then [(.endCollection, .int 0)] else []))
            (Each.append ⟨⟨rfl, hf, fun e => by cases hw : w.way <;> simp [hw, Way.cls] at e,
              fun e => by cases hw : w.way <;> simp [hw, Way.cls, Cls.kind] at e⟩, trivial⟩
              (Each.ite _ ⟨.same (by simp), trivial⟩ trivial))
          revert hb
          generalize Streamer.emit reg ((if constFlag w.flags then [] else Streamer.attrCalls reg v named) ++
              [(.reportCount, .int w.count), (.reportSize, .int w.size)]) = X
          generalize Streamer.emit reg' ((if constFlag w.flags then [] else Streamer.attrCalls reg' w named) ++
              [(.reportCount, .int w.count), (.reportSize, .int w.size)]) = Y
          intro hb
          cases X with
          | error e => cases Y with
            | error f => exact hb
            | ok y => exact hb.elim
          | ok x => cases Y with
            | error f => exact hb.elim
            | ok y =>
              simp only
              cases Streamer.bump s w.way w.size with
              | error e => rfl
              | ok s2 =>
                simp only
                revert hc
                generalize Streamer.emit reg ([(w.way.cls, v.flags)] ++
                  (if named && !constFlag w.flags && usageGiven w.usage then [(.endCollection, .int 0)] else [])) = X2
                generalize Streamer.emit reg' ([(w.way.cls, w.flags)] ++
                  (if named && !constFlag w.flags && usageGiven w.usage then [(.endCollection, .int 0)] else [])) = Y2
                intro hc
                cases X2 with
                | error e => cases Y2 with
                  | error f => exact hc
                  | ok y => exact hc.elim
                | ok x2 => cases Y2 with
                  | error f => exact hc.elim
                  | ok y2 => exact ⟨rfl, (hae.append hb).append hc⟩

theorem Agree.cases {α β : Type} {R : α → β → Prop} {x : Except PyErr α} {y : Except PyErr β} (h : Agree R x y) :
    (∃ e, x = .error e ∧ y = .error e) ∨ ∃ a b, x = .ok a ∧ y = .ok b ∧ R a b := by
  cases x with
  | error e => cases y with
    | error f => exact Or.inl ⟨e, rfl, by rw [show e = f from h]⟩
    | ok b => exact h.elim
  | ok a => cases y with
    | error f => exact h.elim
    | ok b => exact Or.inr ⟨a, b, rfl, rfl, h⟩

mutual
theorem node_agree (reg reg' : Registry) : ∀ (n : Node) (st : Streamer.State) (m : Node), Same n m →
    (∀ k u, Tok.enter k u ∈ tokens n → 0 ≤ k.toInt) →
    Agree Out (Streamer.node reg st n) (Streamer.node reg' st m)
  | .value v, st, m, h, _ => by
    cases m <;> simp only [Same] at h
    exact value_agree reg reg' st h
  | .align w b, st, m, h, _ => by
    cases m <;> simp only [Same] at h
    obtain ⟨rfl, rfl⟩ := h
    simp only [Streamer.node]
    cases Streamer.padFor st w b 0 with
    | error e => rfl
    | ok pad => exact addPad_agree reg reg' st w pad
  | .padding w s, st, m, h, _ => by
    cases m <;> simp only [Same] at h
    obtain ⟨rfl, rfl⟩ := h
    exact addPad_agree reg reg' st w s
  | .report i ms, st, m, h, hk => by
    cases m <;> simp only [Same] at h
    obtain ⟨rfl, h⟩ := h
    have h1 := emit_agree reg reg' (l := if i ≠ 0 then [(.reportID, .int i)] else [])
      (m := if i ≠ 0 then [(.reportID, .int i)] else []) (Each.ite _ ⟨.same (by simp), trivial⟩ trivial)
    have h2 := nodes_agree reg reg' ms { st with id := i } _ h (fun k u hm => hk k u (by simp [tokens, hm]))
    simp only [Streamer.node]
    rcases h1.cases with ⟨e, hx, hy⟩ | ⟨a, b, hx, hy, hab⟩
    · simp only [hx, hy]; exact rfl
    simp only [hx, hy]
    rcases h2.cases with ⟨e, hx, hy⟩ | ⟨p, q, hx, hy, hpq⟩
    · simp only [hx, hy]; exact rfl
    simp only [hx, hy]
    exact ⟨hpq.1, Each.append hab hpq.2⟩
  | .top ms, st, m, h, hk => by
    cases m <;> simp only [Same] at h
    exact nodes_agree reg reg' ms st _ h (fun k u hm => hk k u (by simp [tokens, hm]))
  | .coll k u ms, st, m, h, hk => by
    cases m <;> simp only [Same] at h
    next l t ns =>
    obtain ⟨hkl, hu, h⟩ := h
    have h2 := nodes_agree reg reg' ms st ns h (fun k u hm => hk k u (by simp [tokens, hm]))
    have h0 := hk k u (by simp [tokens])
    have h3 := emit_agree reg reg' (l := [(.endCollection, .int 0)]) (m := [(.endCollection, .int 0)]) ⟨.same (by simp), trivial⟩
    simp only [Streamer.node]
    cases u with
    | none => cases t with
      | none => rfl
      | some t => simp [sameUsage] at hu
    | some u => cases t with
      | none => simp [sameUsage] at hu
      | some t =>
        simp only [sameUsage, Option.map_some, Option.some.injEq] at hu
        have h1 := emit_agree reg reg' (l := [(.usage, u), (.collection, k)]) (m := [(.usage, t), (.collection, l)])
          ⟨usageCall hu, ⟨rfl, hkl, fun _ => h0, fun e => by simp [Cls.kind] at e⟩, trivial⟩
        rcases h1.cases with ⟨e, hx, hy⟩ | ⟨a, b, hx, hy, hab⟩
        · simp only [hx, hy]; exact rfl
        simp only [hx, hy]
        rcases h2.cases with ⟨e, hx, hy⟩ | ⟨p, q, hx, hy, hpq⟩
        · simp only [hx, hy]; exact rfl
        simp only [hx, hy]
        rcases h3.cases with ⟨e, hx, hy⟩ | ⟨c, d, hx, hy, hcd⟩
        · simp only [hx, hy]; exact rfl
        simp only [hx, hy]
        exact ⟨hpq.1, (Each.append hab hpq.2).append hcd⟩
theorem nodes_agree (reg reg' : Registry) : ∀ (ns : List Node) (st : Streamer.State) (ms : List Node), SameL ns ms →
    (∀ k u, Tok.enter k u ∈ tokensL ns → 0 ≤ k.toInt) →
    Agree Out (Streamer.nodes reg st ns) (Streamer.nodes reg' st ms)
  | [], st, ms, h, _ => by
    cases ms with
    | nil => exact ⟨rfl, trivial⟩
    | cons _ _ => simp only [SameL] at h
  | n :: ns, st, ms, h, hk => by
    cases ms with
    | nil => simp only [SameL] at h
    | cons m ms =>
      simp only [SameL] at h
      have h1 := node_agree reg reg' n st m h.1 (fun k u hm => hk k u (by simp [tokensL, hm]))
      simp only [Streamer.nodes]
      rcases h1.cases with ⟨e, hx, hy⟩ | ⟨p, q, hx, hy, hpq⟩
      · simp only [hx, hy]; exact rfl
      simp only [hx, hy]
      obtain ⟨s, a⟩ := p
      obtain ⟨s', b⟩ := q
      obtain ⟨e, hab⟩ := hpq
      simp only at e hab
      subst e
      have h2 := nodes_agree reg reg' ns s ms h.2 (fun k u hm => hk k u (by simp [tokensL, hm]))
      rcases h2.cases with ⟨e, hx, hy⟩ | ⟨p, q, hx, hy, hpq⟩
      · simp only [hx, hy]; exact rfl
      simp only [hx, hy]
      exact ⟨hpq.1, hab.append hpq.2⟩
end

theorem compile_agree (reg reg' : Registry) {n m : Node} (h : Same n m) (hk : KindsOK n) :
    Agree (Each Alike) (Streamer.compile reg n) (Streamer.compile reg' m) := by
  have := node_agree reg reg' n {} m h hk
  unfold Streamer.compile
  revert this
  cases Streamer.node reg {} n <;> cases Streamer.node reg' {} m <;> simp only [Agree] <;> intro h
  · exact h
  · exact h
  · exact h
  · exact h.2

/-! ## The optimizer -/

theorem run_alike (p q : Pass) (R : p.σ → q.σ → Prop) (h0 : R p.init q.init)
    (hs : ∀ s t x y, R s t → Alike x y → R (p.step s x).1 (q.step t y).1 ∧ Each Alike (p.step s x).2 (q.step t y).2)
    (hf : ∀ s t, R s t → Each Alike (p.fin s) (q.fin t)) {xs ys : List Item} (h : Each Alike xs ys) :
    Each Alike (p.run xs) (q.run ys) := by
  have : ∀ (xs ys : List Item) (s : p.σ) (t : q.σ), R s t → Each Alike xs ys →
      Each Alike (p.runFrom s xs) (q.runFrom t ys) := by
    intro xs
    induction xs with
    | nil =>
      intro ys s t hr h
      cases ys with
      | nil => exact hf s t hr
      | cons y ys => exact h.elim
    | cons x xs ih =>
      intro ys s t hr h
      cases ys with
      | nil => exact h.elim
      | cons y ys =>
        have := hs s t x y hr h.1
        rw [Pass.runFrom, Pass.runFrom]
        exact this.2.append (ih ys _ _ this.1 h.2)
  exact this xs ys _ _ h0 h

theorem build_alike (reg reg' : Registry) {c : Cls} {v w : PyVal} (h : CallAlike (c, v) (c, w))
    (ht : c.optionalValue = true ∨ c.kind = .loc → v.truthy = w.truthy) :
    Alike (Optimizer.build reg c v) (Optimizer.build reg' c w) := by
  have := new_agree reg reg' h
  unfold Optimizer.build
  revert this
  cases Item.new reg c v <;> cases Item.new reg' c w <;> simp only [Agree] <;> intro g
  · exact ⟨rfl, h.val, ht⟩
  · exact g.elim
  · exact g.elim
  · exact g

theorem Alike.last {xs ys : List Item} (h : Each Alike xs ys) {a b : Item} (g : Alike a b) :
    Each Alike (xs ++ [a]) (ys ++ [b]) := h.append ⟨g, trivial⟩

theorem designatorUniq_alike {xs ys : List Item} (h : Each Alike xs ys) :
    Each Alike (Optimizer.designatorUniq.run xs) (Optimizer.designatorUniq.run ys) := by
  refine run_alike Optimizer.designatorUniq Optimizer.designatorUniq
    (fun s t => Each Alike s.pending t.pending ∧ s.toFilter = t.toFilter) ⟨trivial, rfl⟩ ?_
    (fun _ _ _ => trivial) h
  rintro ⟨sp, sf⟩ ⟨tp, tf⟩ x y ⟨h1, h2⟩ hxy
  simp only at h1 h2
  subst h2
  simp only [hxy.cls, hxy.ival, h1.length]
  split
  · split
    · split
      · exact ⟨⟨Alike.last h1 hxy, rfl⟩, trivial⟩
      · exact ⟨⟨Alike.last h1 hxy, rfl⟩, trivial⟩
    · exact ⟨⟨Alike.last h1 hxy, rfl⟩, trivial⟩
  · refine ⟨⟨trivial, rfl⟩, ?_⟩
    simp only
    split
    · exact Each.eraseIdx _ (Alike.last h1 hxy)
    · exact Alike.last h1 hxy

theorem physicalMerge_alike {xs ys : List Item} (h : Each Alike xs ys) :
    Each Alike (Optimizer.physicalMerge.run xs) (Optimizer.physicalMerge.run ys) := by
  refine run_alike Optimizer.physicalMerge Optimizer.physicalMerge
    (fun s t => Each Alike s.pending t.pending ∧ s.changed = t.changed) ⟨trivial, rfl⟩ ?_
    (fun _ _ h => h.1) h
  rintro ⟨sc, sp⟩ ⟨tc, tp⟩ x y ⟨h1, h2⟩ hxy
  simp only at h1 h2
  subst h2
  simp only [hxy.cls, hxy.ival]
  split
  · refine ⟨⟨trivial, rfl⟩, ?_⟩
    refine Alike.last ?_ hxy
    split
    · exact h1.filter (fun a b g => by simp [Optimizer.notPhys, g.cls])
    · exact h1
  · exact ⟨⟨Alike.last h1 hxy, rfl⟩, trivial⟩

/-- Both absent or both present and related. -/
def OptR {α : Type} (R : α → α → Prop) : Option α → Option α → Prop
  | none, none => True
  | some a, some b => R a b
  | _, _ => False

theorem globalMerge_alike {xs ys : List Item} (h : Each Alike xs ys) :
    Each Alike (Optimizer.globalMerge.run xs) (Optimizer.globalMerge.run ys) := by
  refine run_alike Optimizer.globalMerge Optimizer.globalMerge
    (fun s t => ∀ c, OptR Alike (s c) (t c)) ?_ ?_ (fun _ _ _ => trivial) h
  · intro c
    show OptR Alike (Optimizer.globalInit c) (Optimizer.globalInit c)
    cases Optimizer.globalInit c with
    | none => trivial
    | some i => exact ⟨rfl, rfl, fun _ => rfl⟩
  · intro s t x y hr hxy
    simp only [hxy.cls]
    split
    · refine ⟨?_, ?_⟩
      · intro c
        simp only
        split
        · exact hxy
        · exact hr c
      · have hc := hr y.cls
        cases hs : s y.cls with
        | none =>
          cases ht : t y.cls with
          | none => simp [Each, hxy]
          | some b => rw [hs, ht] at hc; exact hc.elim
        | some a =>
          cases ht : t y.cls with
          | none => rw [hs, ht] at hc; exact hc.elim
          | some b =>
            rw [hs, ht] at hc
            have hab : a.pyEq x = b.pyEq y := Alike.pyEq hc hxy
            simp only [hab]
            exact Each.ite (R := Alike) _ (a := [x]) (b := [y]) (x := []) (y := []) ⟨hxy, trivial⟩ trivial
    · exact ⟨hr, hxy, trivial⟩

theorem flush_alike (reg reg' : Registry) {s t : Optimizer.MMState}
    (h1 : Each Alike s.before t.before) (h2 : Each Alike s.mains t.mains) (h3 : s.beforeCount = t.beforeCount) :
    Each Alike (s.flush reg).2 (t.flush reg').2 := by
  unfold Optimizer.MMState.flush
  simp only
  refine Each.append (h1.filter (fun a b g => by simp [Optimizer.notCount, g.cls])) ?_
  revert h2
  cases s.mains <;> cases t.mains <;> simp only [Each, false_implies, implies_true]
  rintro ⟨h2, -⟩
  rw [h3]
  exact ⟨build_alike reg reg' (.same (by simp)) (fun _ => rfl), h2, trivial⟩

/-- States of MainMerge that hold alike items. -/
structure MMR (s t : Optimizer.MMState) : Prop where
  before : Each Alike s.before t.before
  mains : Each Alike s.mains t.mains
  after : Each Alike s.after t.after
  beforeCount : s.beforeCount = t.beforeCount
  afterCount : s.afterCount = t.afterCount
  props : s.props = t.props

theorem MMR.flush (reg reg' : Registry) {s t : Optimizer.MMState} (h : MMR s t) :
    MMR (s.flush reg).1 (t.flush reg').1 ∧ Each Alike (s.flush reg).2 (t.flush reg').2 :=
  ⟨⟨h.after, trivial, trivial, rfl, h.afterCount, h.props⟩, flush_alike reg reg' h.before h.mains h.beforeCount⟩

/-- `append` of a data item, after a possible first flush. -/
def mmTail (reg : Registry) (st : Optimizer.MMState) (o : List Item) (i : Item) : Optimizer.MMState × List Item :=
  let st' := { st with
    before := st.before ++ st.after
    beforeCount := st.beforeCount + st.afterCount
    after := []
    mains := st.mains ++ [i] }
  if st.afterCount ≠ 1 then ((st'.flush reg).1, o ++ (st'.flush reg).2) else (st', o)

/-- The possible first flush. -/
def mmHead (reg : Registry) (st : Optimizer.MMState) (i : Item) : Optimizer.MMState × List Item :=
  match st.mains with
  | m :: _ => if i.pyEq m then (st, []) else st.flush reg
  | [] => (st, [])

theorem mm_data (reg : Registry) (st : Optimizer.MMState) (i : Item) (hd : i.cls.isData = true) :
    (Optimizer.mainMerge reg).step st i = mmTail reg (mmHead reg st i).1 (mmHead reg st i).2 i := by
  have hk : i.cls.kind = .main := by cases hc : i.cls <;> simp [hc, Cls.isData] at hd <;> rfl
  simp only [hk, hd, if_true]
  rfl

theorem MMR.tail (reg reg' : Registry) {s t : Optimizer.MMState} (h : MMR s t) {o p : List Item} (g : Each Alike o p)
    {x y : Item} (hxy : Alike x y) :
    MMR (mmTail reg s o x).1 (mmTail reg' t p y).1 ∧ Each Alike (mmTail reg s o x).2 (mmTail reg' t p y).2 := by
  unfold mmTail
  have hR : MMR { s with
      before := s.before ++ s.after
      beforeCount := s.beforeCount + s.afterCount
      after := []
      mains := s.mains ++ [x] } { t with
      before := t.before ++ t.after
      beforeCount := t.beforeCount + t.afterCount
      after := []
      mains := t.mains ++ [y] } :=
    ⟨h.before.append h.after, Alike.last h.mains hxy, trivial, by simp [h.beforeCount, h.afterCount], h.afterCount, h.props⟩
  by_cases hac : t.afterCount ≠ 1
  · have hac' : s.afterCount ≠ 1 := h.afterCount ▸ hac
    simp only [if_pos hac, if_pos hac']
    have := hR.flush reg reg'
    exact ⟨this.1, g.append this.2⟩
  · have hac' : ¬ s.afterCount ≠ 1 := h.afterCount ▸ hac
    simp only [if_neg hac, if_neg hac']
    exact ⟨hR, g⟩

theorem MMR.head (reg reg' : Registry) {s t : Optimizer.MMState} (h : MMR s t) {x y : Item} (hxy : Alike x y) :
    MMR (mmHead reg s x).1 (mmHead reg' t y).1 ∧ Each Alike (mmHead reg s x).2 (mmHead reg' t y).2 := by
  have hm := h.mains
  unfold mmHead
  revert hm
  cases s.mains <;> cases t.mains <;> simp only [Each, false_implies]
  · exact fun _ => ⟨h, trivial⟩
  · rintro ⟨hm, -⟩
    rw [hxy.pyEq hm]
    split
    · exact ⟨h, trivial⟩
    · exact h.flush reg reg'

theorem mainMerge_alike (reg reg' : Registry) {xs ys : List Item} (h : Each Alike xs ys) :
    Each Alike ((Optimizer.mainMerge reg).run xs) ((Optimizer.mainMerge reg').run ys) := by
  refine run_alike (Optimizer.mainMerge reg) (Optimizer.mainMerge reg') MMR
    ⟨trivial, trivial, trivial, rfl, rfl, rfl⟩ ?_
    (fun _ _ h => (h.before.append h.mains).append h.after) h
  intro s t x y hr hxy
  by_cases hd : y.cls.isData = true
  · rw [mm_data _ _ _ hd, mm_data _ _ _ (hxy.cls ▸ hd)]
    have := hr.head reg reg' hxy
    exact this.1.tail reg reg' this.2 hxy
  simp only [hxy.cls, hxy.ival]
  split
  · exact ⟨⟨hr.before, hr.mains, Alike.last hr.after hxy, hr.beforeCount, hr.afterCount, hr.props⟩, trivial⟩
  · rw [hr.props]
    split
    · exact MMR.flush reg reg' ⟨hr.before, hr.mains, Alike.last hr.after hxy, hr.beforeCount, hr.afterCount, rfl⟩
    · split
      · exact ⟨⟨hr.before, hr.mains, Alike.last hr.after hxy, hr.beforeCount, rfl, rfl⟩, trivial⟩
      · exact ⟨⟨hr.before, hr.mains, Alike.last hr.after hxy, hr.beforeCount, hr.afterCount, rfl⟩, trivial⟩
  · split
    · exact absurd (by assumption) hd
    · exact MMR.flush reg reg' ⟨hr.before, hr.mains, Alike.last hr.after hxy, hr.beforeCount, hr.afterCount, hr.props⟩

/-- Values with the same number and truth value. -/
def ValR (a b : PyVal) : Prop := a.toInt = b.toInt ∧ a.truthy = b.truthy

/-- States of a range merger that hold alike items. -/
structure RMR (s t : Optimizer.RMState) : Prop where
  merging : s.merging = t.merging
  min : OptR ValR s.minValue t.minValue
  max : OptR ValR s.maxValue t.maxValue
  pending : Each Alike s.pending t.pending

/-- The classes of a range merger are local. -/
def LocTags (t : Optimizer.RangeTags) : Prop :=
  t.lookup.kind = .loc ∧ t.min.kind = .loc ∧ t.max.kind = .loc

theorem build_val (reg reg' : Registry) {c : Cls} {v w : PyVal} (hc : c.kind = .loc) (h : ValR v w) :
    Alike (Optimizer.build reg c v) (Optimizer.build reg' c w) :=
  build_alike reg reg' ⟨rfl, h.1, fun e => by simp only at e; rw [e] at hc; simp [Cls.kind] at hc, fun _ _ => h.2⟩ (fun _ => h.2)

theorem RMR.out (reg reg' : Registry) (g : Optimizer.RangeTags) (hg : LocTags g) {s t : Optimizer.RMState} (h : RMR s t) :
    Each Alike (s.out reg g) (t.out reg' g) := by
  obtain ⟨sm, slo, shi, sp⟩ := s
  obtain ⟨tm, tlo, thi, tp⟩ := t
  obtain ⟨h1, h2, h3, h4⟩ := h
  simp only at h1 h2 h3 h4
  subst h1
  unfold Optimizer.RMState.out
  cases slo <;> cases tlo <;> simp only [OptR] at h2
  · exact h4
  · cases shi <;> cases thi <;> simp only [OptR] at h3
    · exact h4
    · simp only [h2.2, h3.2, PyVal.eqv, h2.1, h3.1]
      split
      · refine Each.append (h4.filter (fun a b g => by simp [Optimizer.notRange, g.cls])) ?_
        refine Each.ite _ ?_ (Each.ite _ ?_ ?_)
        · exact ⟨build_val reg reg' hg.1 h2, trivial⟩
        · exact ⟨build_val reg reg' hg.2.1 h2, build_val reg reg' hg.2.2 h3, trivial⟩
        · exact ⟨build_val reg reg' hg.1 h2, build_val reg reg' hg.1 h3, trivial⟩
      · exact h4

theorem RMR.note (g : Optimizer.RangeTags) {s t : Optimizer.RMState} (h : RMR s t) {x y : Item} (hxy : Alike x y) :
    RMR (s.note g x) (t.note g y) := by
  obtain ⟨sm, slo, shi, sp⟩ := s
  obtain ⟨tm, tlo, thi, tp⟩ := t
  obtain ⟨h1, h2, h3, h4⟩ := h
  simp only at h1 h2 h3 h4
  subst h1
  unfold Optimizer.RMState.note
  simp only [hxy.cls, hxy.ival]
  split
  · next hl =>
    split
    · exact ⟨rfl, h2, h3, h4⟩
    · split
      · have hv : ValR x.val y.val := ⟨hxy.ival, hxy.truthy (Or.inr (by rw [hxy.cls]; exact hl.2))⟩
        cases shi <;> cases thi <;> simp only [OptR] at h3
        · exact ⟨rfl, hv, hv, h4⟩
        · simp only [h3.1]
          split
          · exact ⟨rfl, h2, hv, h4⟩
          · exact ⟨rfl, h2, h3, h4⟩
      · exact ⟨rfl, h2, h3, h4⟩
  · exact ⟨rfl, h2, h3, h4⟩

theorem rangeMerge_alike (reg reg' : Registry) (g : Optimizer.RangeTags) (hg : LocTags g) {xs ys : List Item}
    (h : Each Alike xs ys) :
    Each Alike ((Optimizer.rangeMerge reg g).run xs) ((Optimizer.rangeMerge reg' g).run ys) := by
  refine run_alike (Optimizer.rangeMerge reg g) (Optimizer.rangeMerge reg' g) RMR
    ⟨rfl, trivial, trivial, trivial⟩ ?_ (fun _ _ h => h.out reg reg' g hg) h
  intro s t x y hr hxy
  simp only [hxy.cls]
  have hn := hr.note g hxy
  split
  · exact ⟨⟨rfl, trivial, trivial, hxy, trivial⟩, hn.out reg reg' g hg⟩
  · exact ⟨⟨hn.merging, hn.min, hn.max, Alike.last hr.pending hxy⟩, trivial⟩

theorem split_toInt (u : UsageC) : (Usage.split u).1.toInt = u.value / 65536 ∧ (Usage.split u).2.toInt = u.value % 65536 := by
  unfold Usage.split
  split
  · exact ⟨rfl, rfl⟩
  · exact ⟨rfl, rfl⟩

theorem split_truthy (u : UsageC) : (Usage.split u).2.truthy = true := by
  unfold Usage.split
  split <;> rfl

theorem usagePage_alike (reg reg' : Registry) {xs ys : List Item} (h : Each Alike xs ys) :
    Each Alike ((Optimizer.usagePage reg).run xs) ((Optimizer.usagePage reg').run ys) := by
  refine run_alike (Optimizer.usagePage reg) (Optimizer.usagePage reg') (fun s t => s = t) rfl ?_ (fun _ _ _ => trivial) h
  rintro s _ x y rfl hxy
  have hv : x.val.toInt = y.val.toInt := hxy.ival
  simp only [hxy.cls, hxy.ival, (split_toInt _).1, lookup_value, hv]
  split
  · next hu =>
    refine ⟨rfl, Each.append ?_ ⟨?_, trivial⟩⟩
    · split
      · exact trivial
      · exact ⟨build_alike reg reg' ⟨rfl, by simp [(split_toInt _).1, lookup_value, hv], fun e => by simp at e,
          fun e => by simp [Cls.kind] at e⟩ (fun e => by simp [Cls.kind, Cls.optionalValue] at e), trivial⟩
    · refine build_alike reg reg' ⟨rfl, by simp [(split_toInt _).2, lookup_value, hv], ?_, ?_⟩ ?_
      · intro e
        simp only at e
        rw [e] at hu
        simp [Optimizer.usageLike] at hu
      · intro _ _
        rw [split_truthy, split_truthy]
      · intro _
        rw [split_truthy, split_truthy]
  · split
    · exact ⟨rfl, hxy, trivial⟩
    · exact ⟨rfl, hxy, trivial⟩

theorem pass_alike (reg reg' : Registry) (p : Optimizer.PassId) {xs ys : List Item} (h : Each Alike xs ys) :
    Each Alike ((Optimizer.pass reg p).run xs) ((Optimizer.pass reg' p).run ys) := by
  cases p
  · exact designatorUniq_alike h
  · exact globalMerge_alike h
  · exact mainMerge_alike reg reg' h
  · exact physicalMerge_alike h
  · exact rangeMerge_alike reg reg' _ ⟨rfl, rfl, rfl⟩ h
  · exact rangeMerge_alike reg reg' _ ⟨rfl, rfl, rfl⟩ h
  · exact rangeMerge_alike reg reg' _ ⟨rfl, rfl, rfl⟩ h
  · exact usagePage_alike reg reg' h

theorem optimize_alike (reg reg' : Registry) {xs ys : List Item} (h : Each Alike xs ys) :
    Each Alike (Optimizer.optimize reg xs) (Optimizer.optimize reg' ys) := by
  rw [optimize_eq, optimize_eq]
  exact pass_alike reg reg' .usagePage <| pass_alike reg reg' .usageMerge <|
    pass_alike reg reg' .designatorMerge <| pass_alike reg reg' .stringMerge <|
    pass_alike reg reg' .globalMerge <| pass_alike reg reg' .physicalMerge <|
    pass_alike reg reg' .mainMerge <| pass_alike reg reg' .designatorUniq h

/-- Descriptors that are the same compile to the same bytes, optimized or not, whatever usages are
registered. -/
theorem same_bytes (reg reg' : Registry) {n m : Node} (h : Same n m) (hk : KindsOK n) (f : Formatter.Fmt)
    (hf : f ≠ .code) (opt : Bool) : Compiler.main reg f opt n = Compiler.main reg' f opt m := by
  have := compile_agree reg reg' h hk
  unfold Compiler.main
  revert this
  cases Streamer.compile reg n <;> cases Streamer.compile reg' m <;> simp only [Agree, false_implies, implies_true]
  · intro e; rw [e]
  · next l m =>
    intro g
    have : Each Alike (if opt = true then Optimizer.optimize reg l else l)
        (if opt = true then Optimizer.optimize reg' m else m) := by
      split
      · exact optimize_alike reg reg' g
      · exact g
    cases f
    · simp only [Formatter.render, binary_alike this]
    · simp only [Formatter.render, hex_alike this]
    · exact absurd rfl hf

end Hrdc
