import Verif.Spec.Data
import Verif.Props.Apart
/-!
# C80: hosts read the values devices put in reports
-/
namespace Hrdc
open Spec Streamer Optimizer

/-! ## Numbers -/

theorem lowBits_length (n : Nat) (x : Int) : (lowBits n x).length = n := by
  induction n generalizing x with
  | zero => rfl
  | succ n ih => simp [lowBits, ih]

theorem unsignedOf_lowBits (n : Nat) (x : Int) : unsignedOf (lowBits n x) = x % 2 ^ n := by
  induction n generalizing x with
  | zero => simp [lowBits, unsignedOf]
  | succ n ih =>
    rw [lowBits, unsignedOf, ih]
    have h1 : x % 2 ^ (n + 1) = x % 2 + 2 * (x / 2 % 2 ^ n) := by
      have hp : (0 : Int) < 2 ^ n := Int.pow_pos (by decide)
      rw [Int.pow_succ]
      generalize (2 : Int) ^ n = p at hp ⊢
      have hq := Int.mul_ediv_add_emod (x / 2) p
      have h0 := Int.emod_nonneg (x / 2) (show p ≠ 0 by omega)
      have h1 := Int.emod_lt_of_pos (x / 2) hp
      have hx : x = (x % 2 + 2 * (x / 2 % p)) + p * 2 * (x / 2 / p) := by
        have : p * 2 * (x / 2 / p) = 2 * (p * (x / 2 / p)) := by
          rw [Int.mul_comm p 2, Int.mul_assoc]
        omega
      rw [hx, Int.add_mul_emod_self_left, ← hx, Int.emod_eq_of_lt (by omega) (by omega)]
    rw [h1]
    rcases Int.emod_two_eq x with h | h <;> simp [h]

theorem lowBits_last (n : Nat) (x : Int) : (lowBits (n + 1) x).getLast? = some (decide (x / 2 ^ n % 2 = 1)) := by
  induction n generalizing x with
  | zero => simp [lowBits]
  | succ n ih =>
    rw [lowBits, List.getLast?_cons, ih]
    simp only [Option.getD_some, Option.some.injEq, decide_eq_decide]
    rw [Int.pow_succ, Int.mul_comm, Int.ediv_ediv_of_nonneg (by decide)]

theorem numberOf_unsigned (n : Nat) (x : Int) (h0 : 0 ≤ x) (h1 : x < 2 ^ n) : numberOf false (lowBits n x) = x := by
  simp only [numberOf, Bool.false_eq_true, false_and, if_false]
  rw [unsignedOf_lowBits, Int.emod_eq_of_lt h0 h1]

theorem numberOf_signed (n : Nat) (x : Int) (h0 : -2 ^ n ≤ 2 * x) (h1 : 2 * x < 2 ^ n) :
    numberOf true (lowBits n x) = x := by
  cases n with
  | zero =>
    simp only [Int.pow_zero] at h0 h1
    have : x = 0 := by omega
    subst this
    simp [numberOf, lowBits, unsignedOf]
  | succ n =>
    have hp : (0 : Int) < 2 ^ n := Int.pow_pos (by decide)
    have hs : (2 : Int) ^ (n + 1) = 2 * 2 ^ n := by rw [Int.pow_succ, Int.mul_comm]
    simp only [numberOf, true_and]
    rw [lowBits_last, lowBits_length, unsignedOf_lowBits, hs]
    generalize (2 : Int) ^ n = p at *
    rw [hs] at h0 h1
    by_cases hx : 0 ≤ x
    · have hd : x / p = 0 := Int.ediv_eq_zero_of_lt hx (by omega)
      rw [hd, if_neg (by decide), Int.emod_eq_of_lt hx (by omega)]
    · have hd : x / p = -1 := by
        have h2 : (x + p) / p = 0 := Int.ediv_eq_zero_of_lt (by omega) (by omega)
        have h3 : (x + 1 * p) / p = x / p + 1 := Int.add_mul_ediv_right x 1 (by omega)
        rw [Int.one_mul] at h3
        omega
      rw [hd, if_pos (by decide)]
      have h4 : x % (2 * p) = x + 2 * p := by
        rw [← Int.add_emod_right x (2 * p), Int.emod_eq_of_lt (by omega) (by omega)]
      rw [h4]; omega

/-! ## Reading -/

theorem read_pads (c : Cls) (id : Int) (r : List Event) (bs t : List Bool) :
    readReport (List.replicate bs.length (.padBit c id) ++ r) (bs ++ t) = readReport r t := by
  induction bs with
  | nil => rfl
  | cons b bs ih =>
    rw [List.length_cons, List.replicate_succ, List.cons_append, readReport]
    simp only [List.cons_append, List.length_cons, List.drop_succ_cons, List.drop_zero]
    rw [if_neg (by omega)]
    exact ih

/-- The numbers an element has room for are read as they are. -/
theorem field_number {v : Value} {x : Int}
    (h : if v.logicalMin.getD 0 < 0 then -2 ^ v.size.toNat ≤ 2 * x ∧ 2 * x < 2 ^ v.size.toNat
      else 0 ≤ x ∧ x < 2 ^ v.size.toNat) :
    numberOf (decide (v.logicalMin.getD 0 < 0)) (lowBits v.size.toNat x) = x := by
  by_cases hl : v.logicalMin.getD 0 < 0
  · rw [if_pos hl] at h
    rw [decide_eq_true hl]
    exact numberOf_signed _ _ h.1 h.2
  · rw [if_neg hl] at h
    rw [decide_eq_false hl]
    exact numberOf_unsigned _ _ h.1 h.2

theorem exactAttrs_own (v : Value) : (exactAttrs v).size = v.size ∧ (exactAttrs v).logMin = v.logicalMin.getD 0 := by
  unfold exactAttrs
  split <;> exact ⟨rfl, rfl⟩

theorem read_fields (v : Value) (id : Int) (what : Nat → List Selector) (f : Int → Reading) (r : List Event)
    (hf : ∀ k x, f x = if bitSet v.flags.toInt 1 then .value ((what k).head?.bind Selector.usage) x
      else .choice (usageAt ((what k).map Selector.usage) (x - v.logicalMin.getD 0)))
    (ks : List Nat) (xs : List Int) (t : List Bool) (hl : xs.length = ks.length)
    (hx : ∀ x ∈ xs, if v.logicalMin.getD 0 < 0 then -2 ^ v.size.toNat ≤ 2 * x ∧ 2 * x < 2 ^ v.size.toNat
        else 0 ≤ x ∧ x < 2 ^ v.size.toNat) :
    readReport ((ks.map fun k => Event.control v.way.cls v.flags.toInt id (exactAttrs v) (what k)) ++ r)
      (xs.flatMap (lowBits v.size.toNat) ++ t) = (readReport r t).map (fun p => (xs.map f ++ p.1, p.2)) := by
  induction xs generalizing ks with
  | nil =>
    cases ks with
    | nil => simp
    | cons => simp at hl
  | cons x xs ih =>
    cases ks with
    | nil => simp at hl
    | cons k ks =>
      rw [List.forall_mem_cons] at hx
      have IH := ih ks (by simpa using hl) hx.2
      obtain ⟨e1, e2⟩ := exactAttrs_own v
      rw [List.map_cons, List.cons_append, readReport, e1, e2, List.flatMap_cons, List.append_assoc]
      have hlen := lowBits_length v.size.toNat x
      rw [if_neg (by rw [List.length_append, hlen]; omega)]
      have ht : (lowBits v.size.toNat x ++ (xs.flatMap (lowBits v.size.toNat) ++ t)).take v.size.toNat
          = lowBits v.size.toNat x := by
        rw [List.take_append_of_le_length (by omega), List.take_of_length_le (by omega)]
      have hd : (lowBits v.size.toNat x ++ (xs.flatMap (lowBits v.size.toNat) ++ t)).drop v.size.toNat
          = xs.flatMap (lowBits v.size.toNat) ++ t := by
        rw [List.drop_append_of_le_length (by omega), List.drop_eq_nil_of_le (by omega), List.nil_append]
      rw [ht, hd, IH, field_number hx.1, ← hf k x]
      cases readReport r t <;> simp

/-- The report's part of what a leaf of it compiles to. -/
def leafIn (id : Int) : Leaf → List Event
  | .value v =>
    if bitSet v.flags.toInt 0 then List.replicate (v.size.toNat * v.count.toNat) (.padBit v.way.cls id)
    else exactFields id v
  | _ => []

theorem report_leaf (id c : Int) (l : Leaf) : reportOf l.way id (exactLeaf id c l) =
    List.replicate (padBefore c l).toNat (.padBit l.way.cls id) ++ leafIn id l := by
  unfold exactLeaf
  have hp : ∀ k w, reportOf w id (List.replicate k (.padBit w.cls id)) = List.replicate k (Event.padBit w.cls id) := by
    intro k w
    unfold reportOf
    rw [List.filter_eq_self]
    intro e he
    rw [(List.mem_replicate.1 he).2]
    simp [Event.inReport, way_cls]
  have hf : ∀ v : Value, reportOf v.way id (exactFields id v) = exactFields id v := by
    intro v
    unfold reportOf
    rw [List.filter_eq_self]
    intro e he
    unfold exactFields at he
    obtain ⟨k, -, rfl⟩ := List.mem_map.1 he
    simp [Event.inReport, way_cls]
  have happ : ∀ w (a b : List Event), reportOf w id (a ++ b) = reportOf w id a ++ reportOf w id b :=
    fun w a b => List.filter_append ..
  rw [happ, hp]
  congr 1
  cases l with
  | align w b => rfl
  | padding w s => rfl
  | value v =>
    simp only [ownEvents, exactEvents, leafIn, Leaf.way]
    have hc : constFlag v.flags = bitSet v.flags.toInt 0 := rfl
    rw [hc]
    by_cases h : bitSet v.flags.toInt 0 = true
    · rw [if_pos h, if_pos h, hp]
    · rw [if_neg h, if_neg h]
      split
      · exact hf v
      · split
        · rw [List.cons_append, ← hf v]
          have : ∀ (e : Event) (es : List Event), Event.inReport v.way id e = false →
              reportOf v.way id (e :: es) = reportOf v.way id es := by
            intro e es he; simp [reportOf, he]
          rw [this _ _ rfl, happ, hf, hf, this .leave [] rfl]
          exact List.append_nil _
        · exact hf v

/-- A named array is an Array field. -/
def Spec.PlainArray : Leaf → Prop
  | .value v => arrayUsages v.namedArray ≠ [] → bitSet v.flags.toInt 1 = false
  | _ => True

theorem pick_toList (o : Option Int) (k : Nat) : pick o.toList k = o := by
  cases o with
  | none => rfl
  | some u => cases k <;> simp [pick]

theorem read_leaf (junk : Nat → Bool) (id c : Int) (off : Nat) (l : Leaf) (xs : List Int) (P t : List Bool)
    (r : List Event) (hp : P.length = (padBefore c l).toNat) (hh : holds (l, xs)) (ha : PlainArray l) :
    readReport (reportOf l.way id (exactLeaf id c l) ++ r) (P ++ elementBits junk off xs l ++ t) =
      (readReport r t).map (fun p => (saidBy (l, xs) ++ p.1, p.2)) := by
  rw [report_leaf, ← hp, List.append_assoc, List.append_assoc, read_pads]
  cases l with
  | align w b => simp [leafIn, elementBits, saidBy]
  | padding w b => simp [leafIn, elementBits, saidBy]
  | value v =>
    simp only [leafIn, elementBits, saidBy]
    by_cases h : bitSet v.flags.toInt 0 = true
    · rw [if_pos h, if_pos h, if_pos h]
      have := read_pads v.way.cls id r ((List.range (v.size.toNat * v.count.toNat)).map fun k => junk (off + k)) t
      rw [List.length_map, List.length_range] at this
      rw [this]
      simp
    · rw [if_neg h, if_neg h, if_neg h]
      obtain ⟨hl, hx⟩ := hh.resolve_left h
      have hsel : ∀ us : List Int, (us.map (fun u => selectorOf v (some u))).map Selector.usage = us.map some := by
        intro us; simp [selectorOf]
      have hu : ∀ o, (selectorOf v o).usage = o := fun o => rfl
      unfold exactFields
      by_cases hn : arrayUsages v.namedArray = []
      · have hfu : fieldUsages v = (usageOf v.usage).toList := by simp [fieldUsages, hn]
        rw [read_fields v id _ (fun x => if bitSet v.flags.toInt 1 then .value (usageOf v.usage) x
            else .choice (usageAt ((usageOf v.usage).toList.map some) (x - v.logicalMin.getD 0))) r ?_ _ xs t
            (by simpa using hl) hx]
        · simp only [hn]
          by_cases hv : bitSet v.flags.toInt 1 = true <;> simp [hv]
        · intro k x
          by_cases hv : bitSet v.flags.toInt 1 = true
          · simp [hv, hfu, pick_toList, hu]
          · simp only [hv, hfu, hsel, Bool.false_eq_true, if_false]
      · have hfu : fieldUsages v = arrayUsages v.namedArray := by simp [fieldUsages, hn]
        have hv : bitSet v.flags.toInt 1 = false := ha hn
        rw [read_fields v id _ (fun x => .choice (usageAt ((arrayUsages v.namedArray).map some) (x - v.logicalMin.getD 0)))
            r ?_ _ xs t (by simpa using hl) hx]
        · cases hau : arrayUsages v.namedArray with
          | nil => exact absurd hau hn
          | cons u us => rfl
        · intro k x
          simp only [hv, hfu, hsel, Bool.false_eq_true, if_false]

/-- The compiler and the device leave the same room before an element, and stay in step. -/
theorem laid_step (A : Nat) (off : Nat) (c : Int) (l : Leaf) (hd : (A : Int) ∣ off - c) (h2 : LeafFit A l)
    (h5 : ∀ v, l = .value v → 0 ≤ v.size ∧ 0 ≤ v.count) (h6 : ∀ w s, l = .padding w s → 0 ≤ s) :
    (room off l).1 = (padBefore c l).toNat ∧
      (A : Int) ∣ ((off + (room off l).1 + (room off l).2 : Nat) : Int) - (c + padBefore c l + ownBits l) := by
  have miss : ∀ b : Int, (b > 1 → b ∣ (A : Int)) → missing b off = (if b > 1 then (-c) % b else 0).toNat := by
    intro b hb
    unfold missing
    by_cases hb1 : b > 1
    · rw [if_pos hb1, if_pos hb1]
      congr 1
      have : b ∣ (-(off : Int)) - (-c) := by
        have := Int.dvd_trans (hb hb1) hd
        rw [show (-(off : Int)) - (-c) = -(off - c) by omega]
        exact Int.dvd_neg.2 this
      exact Int.emod_eq_emod_iff_emod_sub_eq_zero.2 (Int.emod_eq_zero_of_dvd this)
    · rw [if_neg hb1, if_neg hb1]; rfl
  have hpad : (room off l).1 = (padBefore c l).toNat := by
    cases l with
    | value v => exact miss _ h2.1
    | align w b => exact miss _ h2
    | padding w s => rfl
  have hnn : 0 ≤ padBefore c l := by
    have pos : ∀ b : Int, 0 ≤ if b > 1 then (-c) % b else 0 := by
      intro b
      split
      · exact Int.emod_nonneg _ (by omega)
      · omega
    cases l with
    | value v => exact pos _
    | align w b => exact pos _
    | padding w s => exact h6 w s rfl
  have hnext : (A : Int) ∣ ((off + (room off l).1 + (room off l).2 : Nat) : Int) - (c + padBefore c l + ownBits l) := by
    have e : (((room off l).1 : Nat) : Int) = padBefore c l := by rw [hpad, Int.toNat_of_nonneg hnn]
    cases l with
    | value v =>
      obtain ⟨p1, p2⟩ := h5 v rfl
      have e2 : (((room off (.value v)).2 : Nat) : Int) = v.size * v.count := by
        simp only [room]
        rw [Int.natCast_mul, Int.toNat_of_nonneg p1, Int.toNat_of_nonneg p2]
      have e3 : v.size * (v.count - 1) = v.size * v.count - v.size := by rw [Int.mul_sub, Int.mul_one]
      have := Int.dvd_add hd h2.2
      simp only [ownBits]
      rw [e3] at this
      push_cast
      rw [e, e2]
      rw [show (off : Int) + padBefore c (.value v) + v.size * v.count - (c + padBefore c (.value v) + v.size)
        = off - c + (v.size * v.count - v.size) by omega]
      exact this
    | align w b =>
      have e2 : (room off (.align w b)).2 = 0 := rfl
      simp only [ownBits]
      push_cast
      rw [e, e2]
      rw [show (off : Int) + padBefore c (.align w b) + (0 : Nat) - (c + padBefore c (.align w b) + 0) = off - c by omega]
      exact hd
    | padding w b =>
      have e2 : (room off (.padding w b)).2 = 0 := rfl
      simp only [ownBits]
      push_cast
      rw [e, e2]
      rw [show (off : Int) + padBefore c (.padding w b) + (0 : Nat) - (c + padBefore c (.padding w b) + 0) = off - c by omega]
      exact hd
  exact ⟨hpad, hnext⟩

/-- Elements laid out by the compiler are where the device puts them. -/
theorem read_laid (junk : Nat → Bool) (w : Way) (id : Int) (A : Nat) (t : List Bool) (data : List (Leaf × List Int)) :
    ∀ (off : Nat) (c : Int), (A : Int) ∣ off - c → (∀ d ∈ data, d.1.way = w ∧ LeafFit A d.1 ∧ PlainArray d.1 ∧ holds d ∧
      (∀ v, d.1 = .value v → 0 ≤ v.size ∧ 0 ≤ v.count) ∧ ∀ w s, d.1 = .padding w s → 0 ≤ s) →
    readReport (laidIn w id c (data.map Prod.fst)) (fillReport junk off data ++ t) = some (data.flatMap saidBy, t) := by
  induction data with
  | nil => intro off c _ _; rfl
  | cons d data ih =>
    intro off c hd h
    obtain ⟨l, xs⟩ := d
    rw [List.forall_mem_cons] at h
    obtain ⟨⟨h1, h2, h3, h4, h5, h6⟩, hrest⟩ := h
    simp only at h1 h2 h3 h5 h6
    subst h1
    obtain ⟨hpad, hnext⟩ := laid_step A off c l hd h2 h5 h6
    rw [List.map_cons, laidIn, fillReport]
    have := ih _ _ hnext hrest
    rw [List.append_assoc]
    rw [read_leaf junk id c _ l xs _ _ _ (by simp [hpad]) h4 h3, this]
    simp

theorem elementsTok_mem (w : Way) (id : Int) (ts : List Tok) : ∀ (ids : List Int) (l : Leaf), l ∈ elementsTok w id ids ts →
    l.way = w ∧ Tok.leaf l ∈ ts := by
  induction ts with
  | nil => intro ids l h; simp [elementsTok] at h
  | cons t ts ih =>
    intro ids l h
    cases t with
    | report i => exact ⟨(ih _ l h).1, List.mem_cons_of_mem _ (ih _ l h).2⟩
    | endReport => exact ⟨(ih _ l h).1, List.mem_cons_of_mem _ (ih _ l h).2⟩
    | enter k u => exact ⟨(ih _ l h).1, List.mem_cons_of_mem _ (ih _ l h).2⟩
    | leave => exact ⟨(ih _ l h).1, List.mem_cons_of_mem _ (ih _ l h).2⟩
    | leaf m =>
      rw [elementsTok, List.mem_append] at h
      rcases h with h | h
      · split at h
        · rename_i hm
          simp only [List.mem_singleton] at h
          subst h
          exact ⟨hm.1, by simp⟩
        · simp at h
      · exact ⟨(ih _ l h).1, List.mem_cons_of_mem _ (ih _ l h).2⟩

theorem elementsOf_mem {w : Way} {id : Int} {n : Node} {l : Leaf} (h : l ∈ elementsOf w id 0 n) :
    l.way = w ∧ Tok.leaf l ∈ tokens n := by
  have := elementsTok_node w id n [] []
  simp only [List.append_nil, elementsTok, List.headD_nil] at this
  rw [← this] at h
  exact elementsTok_mem w id _ _ l h

theorem sane_leaf (ts : List Tok) : ∀ (c : Count) (last : Int) (l : Leaf), Sane c last ts → Tok.leaf l ∈ ts →
    (∀ v, l = .value v → 0 ≤ v.size ∧ 0 ≤ v.count) ∧ ∀ w s, l = .padding w s → 0 ≤ s := by
  induction ts with
  | nil => intro c last l _ h; simp at h
  | cons t ts ih =>
    intro c last l hs h
    cases t with
    | report i => exact ih _ _ l hs (by simpa using h)
    | endReport => exact ih _ _ l hs (by simpa using h)
    | enter k u => exact ih _ _ l hs (by simpa using h)
    | leave => exact ih _ _ l hs (by simpa using h)
    | leaf m =>
      obtain ⟨h1, h2, h3⟩ := hs
      rcases List.mem_cons.1 h with h | h
      · cases h
        refine ⟨h2, ?_⟩
        rintro w s rfl
        exact h1
      · exact ih _ _ l h3 h

/-- **C80 (partial).** A device fills a report element by element, as the descriptor says, with any numbers the fields have
room for and anything in the padding; a host that knows the compiled descriptor reads exactly the numbers and choices put
in, each with its usage, and no bit is left.  Missing, and false: elements after the end of a `Report`
(`C80_after_report_breaks`), values of several fields in front of larger alignments (`C80_count_breaks`), and named arrays
with a usage (`C80_array_breaks`). -/
theorem C80_read_partial (reg : Registry) (rule : PageRule) (w : Way) (id : Int) (n : Node) (items : List Item)
    (h : compile reg n = .ok items) (hr : ReportsLast n) (A : Nat) (data : List (Leaf × List Int))
    (hd : data.map Prod.fst = elementsOf w id 0 n)
    (hh : ∀ d ∈ data, holds d) (hf : ∀ d ∈ data, LeafFit A d.1) (ha : ∀ d ∈ data, PlainArray d.1)
    (junk : Nat → Bool) (t : List Bool) :
    readReport (reportOf w id (meaning rule (keys items))) (fillReport junk 0 data ++ t) =
      some (data.flatMap saidBy, t) := by
  rw [compile_report rule w id h hr, ← hd]
  refine read_laid junk w id A t data 0 0 (by simp) fun d hd' => ?_
  have hm : d.1 ∈ elementsOf w id 0 n := by rw [← hd]; exact List.mem_map_of_mem hd'
  obtain ⟨h1, h2⟩ := elementsOf_mem hm
  obtain ⟨h3, h4⟩ := sane_leaf _ _ _ _ (compile_exact rule h).2 h2
  exact ⟨h1, hf d hd', ha d hd', hh d hd', h3, h4⟩

/-- What a host finds in the bytes written is what it finds in the items, optimized or not. -/
theorem bytes_meaning {reg : Registry} {rule : PageRule} {opt : Bool} {n : Node} {b : List UInt8}
    (h : Compiler.main reg .binary opt n = .ok (.bytes b))
    (ho : opt = true → OptTree n ∧ (rule = .atUsage ∨ pagesFit none 0 (tokens n) = true)) :
    ∃ ks items, readAll b = some ks ∧ compile reg n = .ok items ∧ meaning rule ks = meaning rule (keys items) := by
  obtain ⟨items, h1, h2⟩ := compile_bytes h
  refine ⟨_, items, h2, h1, ?_⟩
  cases opt
  · rfl
  · obtain ⟨h3, h4⟩ := ho rfl
    have e := (C30_optimized_exact_partial reg 0 100 n items h1 h3).1
    rcases h4 with rfl | h4
    · exact e
    · show meaning rule (keys (optimize reg items)) = _
      rw [meaning_steady rule .atUsage _ (compiled_steady h1 h3 h4), (compile_exact rule h1).1,
        ← (compile_exact .atUsage h1).1]
      exact e

/-- **C80 (partial).** The same from the bytes written, optimized or not.  Missing, optimized: as for `C79_bytes_partial`. -/
theorem C80_bytes_partial (reg : Registry) (rule : PageRule) (opt : Bool) (w : Way) (id : Int) (n : Node)
    (b : List UInt8) (h : Compiler.main reg .binary opt n = .ok (.bytes b)) (hr : ReportsLast n)
    (ho : opt = true → OptTree n ∧ (rule = .atUsage ∨ pagesFit none 0 (tokens n) = true))
    (A : Nat) (data : List (Leaf × List Int)) (hd : data.map Prod.fst = elementsOf w id 0 n)
    (hh : ∀ d ∈ data, holds d) (hf : ∀ d ∈ data, LeafFit A d.1) (ha : ∀ d ∈ data, PlainArray d.1)
    (junk : Nat → Bool) (t : List Bool) :
    ∃ ks, readAll b = some ks ∧
      readReport (reportOf w id (meaning rule ks)) (fillReport junk 0 data ++ t) = some (data.flatMap saidBy, t) := by
  obtain ⟨ks, items, h1, h2, h3⟩ := bytes_meaning h ho
  exact ⟨ks, h1, by rw [h3]; exact C80_read_partial reg rule w id n items h2 hr A data hd hh hf ha junk t⟩

instance : DecidablePred holds := fun d => by
  obtain ⟨l, xs⟩ := d
  cases l <;> unfold holds <;> infer_instance

instance (A : Nat) : DecidablePred (LeafFit A) := fun l => by
  cases l <;> unfold LeafFit <;> infer_instance

instance : DecidablePred PlainArray := fun l => by
  cases l <;> unfold PlainArray <;> infer_instance

/-- Two buttons, a choice among three keys, an axis. -/
def dataTree : Node :=
  app [.report 1 [.value (mk (button 1)), .value (mk (button 2)),
    .value (mk {
      way := .input, usage := none, size := 8, logicalMin := some 1,
      namedArray := some (.list [.int 0x70004, .int 0x70005, .int 0x70006]) }), .padding .input 3,
    .value (mk (axis 0x10030))]]

/-- Its report: buttons 1 and 0, the second key, and -5. -/
def dataOf : List (Leaf × List Int) :=
  (elementsOf .input 1 0 dataTree).zip [[1], [0], [2], [], [-5]]

/-- Case of C80. -/
theorem C80_case : dataOf.map Prod.fst = elementsOf .input 1 0 dataTree ∧ dataOf.length = 5 ∧
    (Compiler.main [] .binary true dataTree).toOption.isSome ∧ ReportsLast dataTree ∧ OptTree dataTree ∧
    (∀ d ∈ dataOf, holds d) ∧ (∀ d ∈ dataOf, LeafFit 8 d.1) ∧ (∀ d ∈ dataOf, PlainArray d.1) ∧
    dataOf.flatMap saidBy = [.value (some 0x90001) 1, .value (some 0x90002) 0, .choice (some 0x70005), .value (some 0x10030) (-5)] ∧
    fillReport (fun _ => false) 0 dataOf = [true, false, false, false, false, false, false, false,
      false, true, false, false, false, false, false, false, false, false, false, false, false, false, false, false,
      true, true, false, true, true, true, true, true] := by
  refine ⟨rfl, rfl, by decide +kernel, by decide +kernel, by decide +kernel, by decide +kernel, by decide +kernel,
    by decide +kernel, by decide +kernel, by decide +kernel⟩

/-- Whether a descriptor compiles, all numbers have room, and a host does not read them in a report filled with them. -/
def DataBreaks (rule : PageRule) (w : Way) (id : Int) (n : Node) (xs : List (List Int)) : Bool :=
  match compile [] n with
  | .ok items =>
    decide (∀ d ∈ (elementsOf w id 0 n).zip xs, holds d) && decide (xs.length = (elementsOf w id 0 n).length) &&
    decide (readReport (reportOf w id (meaning rule (keys items)))
      (fillReport (fun _ => false) 0 ((elementsOf w id 0 n).zip xs)) ≠
        some (((elementsOf w id 0 n).zip xs).flatMap saidBy, []))
  | _ => false

/-- Left out of C80, and false: a button after a `Report` is not in report 0. -/
theorem C80_after_report_breaks (rule : PageRule) :
    DataBreaks rule .input 0 (app [.report 1 [.value (mk (button 1))], .value (mk (button 2))]) [[1]] = true := by
  cases rule <;> decide +kernel

/-- Left out of C80, and false: after two fields of one bit an axis is not where its alignment says. -/
theorem C80_count_breaks (rule : PageRule) :
    DataBreaks rule .input 0 (app [.value (mk { button 1 with count := 2 }), .value (mk (axis 0x10030))]) [[1, 0], [5]]
      = true := by
  cases rule <;> decide +kernel

/-- A choice among two keys, with a usage. -/
def choiceTree : Node :=
  app [.value (mk {
    way := .input, usage := some (.int 0x10006), size := 8, logicalMin := some 1,
    namedArray := some (.list [.int 0x70004, .int 0x70005]) })]

/-- Left out of C80, and false: the choice of a named array with a usage is read as the value of its first usage. -/
theorem C80_array_breaks (rule : PageRule) : DataBreaks rule .input 0 choiceTree [[2]] = true := by
  cases rule <;> decide +kernel

end Hrdc
