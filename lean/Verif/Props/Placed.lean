import Verif.Spec.Placed
import Verif.Props.Frame2
/-!
# C80, exactly

What devices have to do to be understood, for every descriptor that compiles.
-/
namespace Hrdc
open Spec Streamer Optimizer

theorem padAt_eq (c : Int) (l : Leaf) : padAt c l = (padBefore c l).toNat := by
  cases l <;> simp only [padAt, padBefore] <;> split <;> rfl

theorem bitsAfter_eq (c : Int) (l : Leaf) (h : 0 ≤ padBefore c l) : bitsAfter c l = c + padBefore c l + ownBits l := by
  cases l <;> simp only [bitsAfter, padAt_eq, ownBits] <;> omega

/-- The compiled report is its elements, each after its padding. -/
theorem placed_report (w : Way) (id : Int) (ts : List Tok) : ∀ (c : Count) (last host : Int), Sane c last ts →
    reportOf w id (exact c last host ts) =
      (placesFrom w id c last host ts).flatMap fun p => List.replicate p.2 (.padBit w.cls id) ++ leafIn id p.1 := by
  induction ts with
  | nil => intros; rfl
  | cons t ts ih =>
    intro c last host hs
    cases t with
    | report i => exact ih c i _ hs
    | endReport => exact ih c last host hs
    | enter k u =>
      show reportOf w id (_ :: _) = _
      rw [show reportOf w id (Event.enter (wrapKind k).toInt ⟨u.map PyVal.toInt, 0, 0⟩ :: exact c last host ts) =
        reportOf w id (exact c last host ts) from List.filter_cons_of_neg (by simp [Event.inReport]), ih c last host hs]
      rfl
    | leave =>
      show reportOf w id (_ :: _) = _
      rw [show reportOf w id (Event.leave :: exact c last host ts) =
        reportOf w id (exact c last host ts) from List.filter_cons_of_neg (by simp [Event.inReport]), ih c last host hs]
      rfl
    | leaf l =>
      obtain ⟨h1, -, h2⟩ := hs
      have hc : (fun w' i => if w' = l.way ∧ i = last then bitsAfter (c w' i) l else c w' i) = c.add last l := by
        funext w' i
        unfold Count.add
        by_cases h : w' = l.way ∧ i = last
        · rw [if_pos h, if_pos h, h.1, h.2, bitsAfter_eq _ _ h1]
        · rw [if_neg h, if_neg h]
      rw [exact, placesFrom, hc, List.flatMap_append, ← ih _ last host h2]
      have : ∀ a b, reportOf w id (a ++ b) = reportOf w id a ++ reportOf w id b := fun a b => by simp [reportOf]
      rw [this]
      congr 1
      by_cases h : l.way = w ∧ host = id
      · rw [if_pos h]
        obtain ⟨rfl, rfl⟩ := h
        rw [report_leaf, padAt_eq]
        simp
      · rw [if_neg h, exactLeaf_apart w id host _ l h]
        rfl

theorem placesFrom_mem (w : Way) (id : Int) (ts : List Tok) : ∀ (c : Count) (cur host : Int) (p : Leaf × Nat),
    p ∈ placesFrom w id c cur host ts → p.1.way = w ∧ Tok.leaf p.1 ∈ ts := by
  induction ts with
  | nil => intro c cur host p h; simp [placesFrom] at h
  | cons t ts ih =>
    intro c cur host p h
    cases t with
    | leaf l =>
      rw [placesFrom, List.mem_append] at h
      rcases h with h | h
      · split at h
        · rename_i hl
          rw [List.mem_singleton.1 h]
          exact ⟨hl.1, by simp⟩
        · simp at h
      · exact ⟨(ih _ _ _ p h).1, List.mem_cons_of_mem _ (ih _ _ _ p h).2⟩
    | report i => exact ⟨(ih _ _ _ p h).1, List.mem_cons_of_mem _ (ih _ _ _ p h).2⟩
    | endReport => exact ⟨(ih _ _ _ p h).1, List.mem_cons_of_mem _ (ih _ _ _ p h).2⟩
    | enter k u => exact ⟨(ih _ _ _ p h).1, List.mem_cons_of_mem _ (ih _ _ _ p h).2⟩
    | leave => exact ⟨(ih _ _ _ p h).1, List.mem_cons_of_mem _ (ih _ _ _ p h).2⟩

/-! ## Reading -/

theorem numbers_own (junk : Nat → Bool) (id : Int) (off : Nat) (l : Leaf) (xs : List Int) (t : List Bool) (r : List Event)
    (hh : holds (l, xs)) : readNumbers (leafIn id l ++ r) (elementBits junk off xs l ++ t) =
      (readNumbers r t).map (fun p => (numbersIn (l, xs) ++ p.1, p.2)) := by
  cases l with
  | align w b => simp [leafIn, elementBits, numbersIn]
  | padding w b => simp [leafIn, elementBits, numbersIn]
  | value v =>
    simp only [leafIn, elementBits, numbersIn]
    by_cases h : bitSet v.flags.toInt 0 = true
    · rw [if_pos h, if_pos h, if_pos h]
      have := numbers_pads v.way.cls id r ((List.range (v.size.toNat * v.count.toNat)).map fun k => junk (off + k)) t
      rw [List.length_map, List.length_range] at this
      rw [this]
      simp
    · rw [if_neg h, if_neg h, if_neg h]
      obtain ⟨hl, hx⟩ := hh.resolve_left h
      unfold exactFields
      exact numbers_fields v id _ r _ xs t (by simpa using hl) hx

theorem numbers_placed (junk : Nat → Bool) (w : Way) (id : Int) (t : List Bool) (data : List ((Leaf × Nat) × List Int)) :
    ∀ off, (∀ d ∈ data, d.1.1.way = w ∧ holds (d.1.1, d.2)) →
    readNumbers ((data.map Prod.fst).flatMap fun p => List.replicate p.2 (.padBit w.cls id) ++ leafIn id p.1)
      (fillPlaced junk off data ++ t) = some (data.flatMap fun d => numbersIn (d.1.1, d.2), t) := by
  induction data with
  | nil => intro off _; rfl
  | cons d data ih =>
    intro off h
    obtain ⟨⟨l, p⟩, xs⟩ := d
    rw [List.forall_mem_cons] at h
    obtain ⟨⟨rfl, h2⟩, hr⟩ := h
    have := ih (off + p + (room 0 l).2) hr
    rw [List.map_cons, List.flatMap_cons, fillPlaced, List.append_assoc, List.append_assoc, List.append_assoc]
    have h3 := numbers_pads l.way.cls id (leafIn id l ++ ((data.map Prod.fst).flatMap fun p =>
      List.replicate p.2 (.padBit l.way.cls id) ++ leafIn id p.1)) ((List.range p).map fun k => junk (off + k))
      (elementBits junk (off + p) xs l ++ (fillPlaced junk (off + p + (room 0 l).2) data ++ t))
    rw [List.length_map, List.length_range] at h3
    rw [h3, numbers_own _ _ _ _ _ _ _ h2, this]
    rfl

/-- Fields read one by one, the usages depending on their places. -/
theorem told_fields (v : Value) (id : Int) (what : Nat → List Selector) (f : Nat → Int → Reading) (r : List Event)
    (hf : ∀ k x, f k x = if bitSet v.flags.toInt 1 then .value ((what k).head?.bind Selector.usage) x
      else .choice (usageAt ((what k).map Selector.usage) (x - v.logicalMin.getD 0)))
    (ks : List Nat) (xs : List Int) (t : List Bool) (hl : xs.length = ks.length)
    (hx : ∀ x ∈ xs, if v.logicalMin.getD 0 < 0 then -2 ^ v.size.toNat ≤ 2 * x ∧ 2 * x < 2 ^ v.size.toNat
        else 0 ≤ x ∧ x < 2 ^ v.size.toNat) :
    readReport ((ks.map fun k => Event.control v.way.cls v.flags.toInt id (exactAttrs v) (what k)) ++ r)
      (xs.flatMap (lowBits v.size.toNat) ++ t) =
        (readReport r t).map (fun p => ((ks.zip xs).map (fun q => f q.1 q.2) ++ p.1, p.2)) := by
  induction xs generalizing ks with
  | nil =>
    cases ks with
    | nil => simp
    | cons => simp at hl
  | cons x xs ih =>
    cases ks with
    | nil => simp at hl
    | cons k ks =>
      rw [List.forall_mem_cons] at hx
      have IH := ih ks (by simpa using hl) hx.2
      obtain ⟨e1, e2⟩ := exactAttrs_own v
      rw [List.map_cons, List.cons_append, readReport, e1, e2, List.flatMap_cons, List.append_assoc]
      have hlen := lowBits_length v.size.toNat x
      rw [if_neg (by rw [List.length_append, hlen]; omega)]
      have ht : (lowBits v.size.toNat x ++ (xs.flatMap (lowBits v.size.toNat) ++ t)).take v.size.toNat
          = lowBits v.size.toNat x := by
        rw [List.take_append_of_le_length (by omega), List.take_of_length_le (by omega)]
      have hd : (lowBits v.size.toNat x ++ (xs.flatMap (lowBits v.size.toNat) ++ t)).drop v.size.toNat
          = xs.flatMap (lowBits v.size.toNat) ++ t := by
        rw [List.drop_append_of_le_length (by omega), List.drop_eq_nil_of_le (by omega), List.nil_append]
      rw [ht, hd, IH, field_number hx.1, ← hf k x]
      cases readReport r t <;> simp

theorem told_own (junk : Nat → Bool) (id : Int) (off : Nat) (l : Leaf) (xs : List Int) (t : List Bool) (r : List Event)
    (hh : holds (l, xs)) : readReport (leafIn id l ++ r) (elementBits junk off xs l ++ t) =
      (readReport r t).map (fun p => (toldBy (l, xs) ++ p.1, p.2)) := by
  cases l with
  | align w b => simp [leafIn, elementBits, toldBy]
  | padding w b => simp [leafIn, elementBits, toldBy]
  | value v =>
    simp only [leafIn, elementBits, toldBy]
    by_cases h : bitSet v.flags.toInt 0 = true
    · rw [if_pos h, if_pos h, if_pos h]
      have := read_pads v.way.cls id r ((List.range (v.size.toNat * v.count.toNat)).map fun k => junk (off + k)) t
      rw [List.length_map, List.length_range] at this
      rw [this]
      simp
    · rw [if_neg h, if_neg h, if_neg h]
      obtain ⟨hl, hx⟩ := hh.resolve_left h
      have hsel : ∀ us : List Int, (us.map (fun u => selectorOf v (some u))).map Selector.usage = us.map some := by
        intro us; simp [selectorOf]
      have hu : ∀ o, (selectorOf v o).usage = o := fun o => rfl
      unfold exactFields
      rw [told_fields v id _ (fun k x => if bitSet v.flags.toInt 1 then .value (pick (fieldUsages v) k) x
          else .choice (usageAt ((fieldUsages v).map some) (x - v.logicalMin.getD 0))) _ ?_ _ xs _ (by simpa using hl) hx]
      · congr 1
        funext p
        congr 2
        by_cases hv : bitSet v.flags.toInt 1 = true
        · simp [hv, fieldUsages]
        · simp only [hv, Bool.false_eq_true, if_false, fieldUsages]
          have : ∀ (g : Int → Reading) (xs : List Int) (ks : List Nat), xs.length = ks.length →
              (ks.zip xs).map (fun q => g q.2) = xs.map g := by
            intro g xs
            induction xs with
            | nil => intro ks _; simp
            | cons x xs ih =>
              intro ks hk
              cases ks with
              | nil => simp at hk
              | cons k ks => simp [ih ks (by simpa using hk)]
          exact this (fun x => .choice (usageAt (List.map some
            (if arrayUsages v.namedArray = [] then (usageOf v.usage).toList else arrayUsages v.namedArray))
            (x - v.logicalMin.getD 0))) xs (List.range v.count.toNat) (by simpa using hl)
      · intro k x
        by_cases hv : bitSet v.flags.toInt 1 = true
        · simp [hv, hu]
        · simp only [hv, hsel, Bool.false_eq_true, if_false]

theorem told_placed (junk : Nat → Bool) (w : Way) (id : Int) (t : List Bool) (data : List ((Leaf × Nat) × List Int)) :
    ∀ off, (∀ d ∈ data, d.1.1.way = w ∧ holds (d.1.1, d.2)) →
    readReport ((data.map Prod.fst).flatMap fun p => List.replicate p.2 (.padBit w.cls id) ++ leafIn id p.1)
      (fillPlaced junk off data ++ t) = some (data.flatMap fun d => toldBy (d.1.1, d.2), t) := by
  induction data with
  | nil => intro off _; rfl
  | cons d data ih =>
    intro off h
    obtain ⟨⟨l, p⟩, xs⟩ := d
    rw [List.forall_mem_cons] at h
    obtain ⟨⟨rfl, h2⟩, hr⟩ := h
    have := ih (off + p + (room 0 l).2) hr
    rw [List.map_cons, List.flatMap_cons, fillPlaced, List.append_assoc, List.append_assoc, List.append_assoc]
    have h3 := read_pads l.way.cls id (leafIn id l ++ ((data.map Prod.fst).flatMap fun p =>
      List.replicate p.2 (.padBit l.way.cls id) ++ leafIn id p.1)) ((List.range p).map fun k => junk (off + k))
      (elementBits junk (off + p) xs l ++ (fillPlaced junk (off + p + (room 0 l).2) data ++ t))
    rw [List.length_map, List.length_range] at h3
    rw [h3, told_own _ _ _ _ _ _ _ h2, this]
    rfl

/-- **C80 (exact).** For every descriptor that compiles, with or without the default optimization, and every report: a device
that fills the elements where the code puts them is understood by a host that has only the bytes.  The host reads all numbers
and takes exactly the bits filled; when optimizing keeps the meaning it is told each number with its usage. -/
theorem C80_exact (reg : Registry) (rule : PageRule) (opt : Bool) (w : Way) (id : Int) (n : Node)
    (b : List UInt8) (h : Compiler.main reg .binary opt n = .ok (.bytes b))
    (data : List ((Leaf × Nat) × List Int)) (hd : data.map Prod.fst = placesOf w id n)
    (hh : ∀ d ∈ data, holds (d.1.1, d.2)) (junk : Nat → Bool) (t : List Bool) :
    ∃ ks, readAll b = some ks ∧
      readNumbers (reportOf w id (meaning rule ks)) (fillPlaced junk 0 data ++ t) =
        some (data.flatMap fun d => numbersIn (d.1.1, d.2), t) ∧
      ((opt = true → OptTree n ∧ (rule = .atUsage ∨ pagesFit none 0 (tokens n) = true)) →
        readReport (reportOf w id (meaning rule ks)) (fillPlaced junk 0 data ++ t) =
          some (data.flatMap fun d => toldBy (d.1.1, d.2), t)) := by
  obtain ⟨items, h1, h2⟩ := compile_bytes h
  obtain ⟨hex, hsane⟩ := compile_exact rule h1
  have hlaid : reportOf w id (meaning rule (keys items)) = (data.map Prod.fst).flatMap fun p =>
      List.replicate p.2 (.padBit w.cls id) ++ leafIn id p.1 := by
    rw [hex, placed_report w id (tokens n) _ 0 0 hsane, hd]
    rfl
  have hall : ∀ d ∈ data, d.1.1.way = w ∧ holds (d.1.1, d.2) := by
    intro d hd'
    have hm : d.1 ∈ placesOf w id n := by rw [← hd]; exact List.mem_map_of_mem hd'
    exact ⟨(placesFrom_mem w id _ _ _ _ _ hm).1, hh d hd'⟩
  refine ⟨_, h2, ?_, fun ho => ?_⟩
  · have hfr : frames (meaning rule (keys (if opt then optimize reg items else items))) =
        frames (meaning rule (keys items)) := by
      cases opt
      · rfl
      · exact C81_compile reg 0 100 rule n items h1
    rw [numbers_of_frames hfr, hlaid]
    exact numbers_placed junk w id t data 0 hall
  · obtain ⟨ks, items', e1, e2, e3⟩ := bytes_meaning h ho
    rw [h2] at e1
    rw [h1] at e2
    cases e1; cases e2
    rw [e3, hlaid]
    exact told_placed junk w id t data 0 hall

/-- **C79 (exact).** For all descriptors that compile: a report, whatever is in the others, is its elements where the code puts
them; descriptors that agree on these have the same fields in it, with the default optimization or without, and with their
names where optimizing keeps the meaning.  No condition on the end of reports or on `Report(0)`. -/
theorem C79_exact (reg reg' : Registry) (rule : PageRule) (opt opt' : Bool) (w : Way) (id : Int) (n m : Node)
    (b c : List UInt8)
    (hn : Compiler.main reg .binary opt n = .ok (.bytes b)) (hm : Compiler.main reg' .binary opt' m = .ok (.bytes c))
    (he : placesOf w id n = placesOf w id m) :
    ∃ ks ls, readAll b = some ks ∧ readAll c = some ls ∧
      frames (reportOf w id (meaning rule ks)) = frames (reportOf w id (meaning rule ls)) ∧
      ((opt = true → OptTree n ∧ (rule = .atUsage ∨ pagesFit none 0 (tokens n) = true)) →
        (opt' = true → OptTree m ∧ (rule = .atUsage ∨ pagesFit none 0 (tokens m) = true)) →
        reportOf w id (meaning rule ks) = reportOf w id (meaning rule ls)) := by
  obtain ⟨ks, is, h1, h2, h3⟩ := bytes_frames hn
  obtain ⟨ls, js, g1, g2, g3⟩ := bytes_frames hm
  have same : reportOf w id (meaning rule (keys is)) = reportOf w id (meaning rule (keys js)) := by
    obtain ⟨e1, s1⟩ := compile_exact rule h2
    obtain ⟨e2, s2⟩ := compile_exact rule g2
    rw [e1, e2, placed_report w id (tokens n) _ 0 0 s1, placed_report w id (tokens m) _ 0 0 s2]
    exact congrArg _ he
  refine ⟨ks, ls, h1, g1, ?_, fun on om => ?_⟩
  · rw [frames_report, frames_report, h3, g3, ← frames_report, ← frames_report, same]
  · obtain ⟨ks', is', a1, a2, a3⟩ := bytes_meaning (rule := rule) hn on
    obtain ⟨ls', js', b1, b2, b3⟩ := bytes_meaning (rule := rule) hm om
    rw [h1] at a1; rw [h2] at a2; rw [g1] at b1; rw [g2] at b2
    cases a1; cases a2; cases b1; cases b2
    rw [a3, b3, same]

/-! ## Devices that follow the tree -/

theorem room_own (off : Nat) (l : Leaf) : (room off l).2 = (room 0 l).2 := by cases l <;> rfl

theorem fill_intended (junk : Nat → Bool) (data : List (Leaf × List Int)) : ∀ off,
    fillReport junk off data = fillPlaced junk off ((intended off (data.map Prod.fst)).zip (data.map Prod.snd)) := by
  induction data with
  | nil => intro off; rfl
  | cons d data ih =>
    intro off
    obtain ⟨l, xs⟩ := d
    rw [fillReport, ih, List.map_cons, List.map_cons, intended, List.zip_cons_cons, fillPlaced, ← room_own off]

theorem intended_fst (ls : List Leaf) : ∀ off, (intended off ls).map Prod.fst = ls ∧ (intended off ls).length = ls.length := by
  induction ls with
  | nil => intro off; exact ⟨rfl, rfl⟩
  | cons l ls ih => intro off; simp [intended, ih]

theorem told_said {d : Leaf × List Int} (hh : holds d) (ha : PlainArray d.1) : toldBy d = saidBy d := by
  obtain ⟨l, xs⟩ := d
  cases l with
  | align w b => rfl
  | padding w b => rfl
  | value v =>
    simp only [toldBy, saidBy]
    by_cases h : bitSet v.flags.toInt 0 = true
    · rw [if_pos h, if_pos h]
    · rw [if_neg h, if_neg h]
      obtain ⟨hl, -⟩ := hh.resolve_left h
      by_cases hn : arrayUsages v.namedArray = []
      · rw [if_pos hn]
        simp only [hn]
        split
        · have : ∀ (xs : List Int) (ks : List Nat), xs.length = ks.length →
              (ks.zip xs).map (fun q => Reading.value (pick (usageOf v.usage).toList q.1) q.2) =
                xs.map (Reading.value (usageOf v.usage)) := by
            intro xs
            induction xs with
            | nil => intro ks _; simp
            | cons x xs ih =>
              intro ks hk
              cases ks with
              | nil => simp at hk
              | cons k ks => rw [List.zip_cons_cons, List.map_cons, List.map_cons, ih ks (by simpa using hk), pick_toList]
          exact this xs (List.range v.count.toNat) (by simpa using hl)
        · rfl
      · rw [if_neg hn, if_neg (by rw [ha hn]; decide)]
        cases hau : arrayUsages v.namedArray with
        | nil => exact absurd hau hn
        | cons u us => rfl

/-- **C80 (partial), by layout.** A test on the tree for one report: if the code puts its elements where their alignments
do, a device that follows the tree is understood.  The conditions of `C80_bytes_partial` and `C80_numbers_partial` on values of
several fields and on elements outside of reports are special cases.  Missing, and false of the code for some: other
layouts (`C80_after_report_breaks`, `C80_count_breaks`). -/
theorem C80_layout_partial (reg : Registry) (rule : PageRule) (opt : Bool) (w : Way) (id : Int) (n : Node)
    (b : List UInt8) (h : Compiler.main reg .binary opt n = .ok (.bytes b))
    (hp : placesOf w id n = intended 0 (elementsOf w id 0 n))
    (data : List (Leaf × List Int)) (hd : data.map Prod.fst = elementsOf w id 0 n)
    (hh : ∀ d ∈ data, holds d) (junk : Nat → Bool) (t : List Bool) :
    ∃ ks, readAll b = some ks ∧
      readNumbers (reportOf w id (meaning rule ks)) (fillReport junk 0 data ++ t) = some (data.flatMap numbersIn, t) ∧
      ((opt = true → OptTree n ∧ (rule = .atUsage ∨ pagesFit none 0 (tokens n) = true)) → (∀ d ∈ data, PlainArray d.1) →
        readReport (reportOf w id (meaning rule ks)) (fillReport junk 0 data ++ t) = some (data.flatMap saidBy, t)) := by
  have hlen : ((data.map Prod.snd).length) = (intended 0 (data.map Prod.fst)).length := by
    rw [(intended_fst _ 0).2]; simp
  have hz : ∀ (ls : List (Leaf × Nat)) (ds : List (Leaf × List Int)), ls.map Prod.fst = ds.map Prod.fst →
      (ls.zip (ds.map Prod.snd)).map (fun d => (d.1.1, d.2)) = ds ∧ (ls.zip (ds.map Prod.snd)).map Prod.fst = ls := by
    intro ls
    induction ls with
    | nil => intro ds h; cases ds with
      | nil => exact ⟨rfl, rfl⟩
      | cons => simp at h
    | cons l ls ih =>
      intro ds h
      cases ds with
      | nil => simp at h
      | cons d ds =>
        rw [List.map_cons, List.map_cons, List.cons.injEq] at h
        obtain ⟨e1, e2⟩ := ih ds h.2
        constructor <;> simp [e1, e2, h.1]
  obtain ⟨z1, z2⟩ := hz (intended 0 (data.map Prod.fst)) data (intended_fst _ 0).1
  have hflat : ∀ {β : Type} (f : Leaf × List Int → List β),
      (((intended 0 (data.map Prod.fst)).zip (data.map Prod.snd)).flatMap fun d => f (d.1.1, d.2)) = data.flatMap f := by
    intro β f
    have h2 := congrArg (List.flatMap f) z1
    rw [List.flatMap_map] at h2
    exact h2
  obtain ⟨ks, h1, h2, h3⟩ := C80_exact reg rule opt w id n b h
    ((intended 0 (data.map Prod.fst)).zip (data.map Prod.snd)) (by rw [z2, hp, hd])
    (fun d hd' => by
      have : (d.1.1, d.2) ∈ data := by
        have := List.mem_map_of_mem (f := fun d : (Leaf × Nat) × List Int => (d.1.1, d.2)) hd'
        rw [z1] at this
        exact this
      exact hh _ this) junk t
  rw [hflat numbersIn, ← fill_intended] at h2
  rw [hflat toldBy, ← fill_intended] at h3
  refine ⟨ks, h1, h2, fun ho ha => ?_⟩
  rw [h3 ho, flatMap_same fun d hd' => told_said (hh d hd') (ha d hd')]

/-! ## Cases -/

/-- An axis and then two bits in report 1, and an output after the report. -/
def evenTree : Node :=
  app [.report 1 [.value (mk (axis 0x10030)), .value (mk { button 1 with count := 2 })],
    .value (mk { button 2 with way := .output })]

example : (Compiler.main [] .binary true evenTree).toOption.isSome ∧ ¬ ReportsLast evenTree ∧
    (∀ A, ∃ l ∈ elementsOf .input 1 0 evenTree, ¬ LeafFit A l) ∧
    placesOf .input 1 evenTree = intended 0 (elementsOf .input 1 0 evenTree) ∧
    (placesOf .input 1 evenTree).length = 2 ∧ (placesOf .output 1 evenTree).length = 1 ∧
    (∀ d ∈ (elementsOf .input 1 0 evenTree).zip [[-5], [1, 0]], holds d) := by
  refine ⟨by decide +kernel, by decide +kernel, ?_, rfl, rfl, rfl, by decide +kernel⟩
  intro A
  by_cases hA : (A : Int) ∣ 1
  · refine ⟨_, List.mem_cons_self .., fun h => ?_⟩
    have h8 : (8 : Int) ∣ A := h.1 (by decide +kernel)
    exact absurd (Int.dvd_trans h8 hA) (by decide)
  · exact ⟨_, List.mem_cons_of_mem _ (List.mem_cons_self ..), fun h => hA h.2⟩

/-- Report 1 with another report and another direction added, `Report(0)` among them. -/
example :
    let n := app [.report 1 [.value (mk (axis 0x10030))]]
    let m := app [.report 2 [.value (mk (button 3))], .report 1 [.value (mk (axis 0x10030))],
      .report 0 [.value (mk { button 2 with way := .output })]]
    placesOf .input 1 n = placesOf .input 1 m ∧ ¬ NoZeroReport m ∧ (Compiler.main [] .binary true n).toOption.isSome ∧
    (Compiler.main [] .binary true m).toOption.isSome := by
  refine ⟨rfl, ?_, by decide +kernel, by decide +kernel⟩
  unfold NoZeroReport
  decide +kernel

/-- The descriptor of `C80_count_breaks`: the axis is where the code puts it. -/
example :
    let n := app [.value (mk { button 1 with count := 2 }), .value (mk (axis 0x10030))]
    (placesOf .input 0 n).map Prod.snd = [0, 7] ∧ (intended 0 (elementsOf .input 0 0 n)).map Prod.snd = [0, 6] ∧
    fillPlaced (fun _ => false) 0 ((placesOf .input 0 n).zip [[1, 0], [5]]) =
      [true, false, false, false, false, false, false, false, false, true, false, true, false, false, false, false, false] := by
  decide +kernel

end Hrdc
