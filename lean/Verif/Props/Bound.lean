import Verif.Proofs.Sums
/-!
# C58: how much longer optimizing can make a stream

`C58_never_longer_partial` has conditions.  Here there are none: whatever passes are selected, the two costs the witnesses of
C58 show (a page written apart from the usage, a ReportCount for each of the fields that shared one) are the only ones.
-/
namespace Hrdc.Spec

/-- Bytes it may cost to write a usage as a page and an id: a whole one of 5 bytes takes one more if neither the page nor the
id fits a byte; an id alone gets a page of 2 bytes. -/
def splitCost (v : Int) : Nat := if v < 65536 then 2 else if v < 16777216 ∨ v % 65536 < 256 then 0 else 1

/-- The sum of these over the usages of a stream. -/
def splitBytes : List SItem → Nat
  | [] => 0
  | (.usage, v) :: r | (.usageMin, v) :: r | (.usageMax, v) :: r => splitCost v + splitBytes r
  | _ :: r => splitBytes r

/-- Bytes of a ReportCount. -/
def countSize (n : Int) : Nat := if n < 256 then 2 else if n < 65536 then 3 else 5

/-- Bytes of the ReportCounts missing for every Input, Output and Feature item to have its own; `own` tells there is one since
the last such item, `n` is the count in force. -/
def countBytes (own : Bool) (n : Int) : List SItem → Nat
  | [] => 0
  | k :: r =>
    if k.1.isData then (if own then 0 else countSize n) + countBytes false n r
    else if k.1 = .reportCount then countBytes true k.2 r
    else countBytes own n r

end Hrdc.Spec

namespace Hrdc
open Spec Item Optimizer Streamer

theorem countSize_uw (n : Int) : countSize n = uw n := by
  unfold countSize uw
  repeat' split
  all_goals omega

/-! ## `MainMerge` -/

theorem paid_more {b : Bool} {C : Nat} {st : MMState} (h : MMPaid b C st) :
    MMPaid true (C + if b then 0 else uw st.afterCount) st := by
  refine ⟨Nat.le_trans h.held (by omega), ?_, h.zero⟩
  intro _
  cases b with
  | true => have := h.next rfl; simpa using this
  | false => have := h.held; simp; omega

theorem mm_bound_from (reg : Registry) (xs : List Item) (b : Bool) (C : Nat) (st : MMState)
    (h : MMPaid b C st) (n : Int) (hn : st.afterCount = n) :
    total ((mainMerge reg).runFrom st xs) ≤ st.size + C + total xs + countBytes b n (keys xs) := by
  induction xs generalizing b C st n with
  | nil => simp [Pass.runFrom, MMState.size]; omega
  | cons x xs ih =>
    rw [Pass.runFrom_cons, total_append, total_cons]
    have hkeys : keys (x :: xs) = (x.cls, x.ival) :: keys xs := rfl
    rw [hkeys, countBytes]
    have hpushsize : ({ st with after := st.after ++ [x] } : MMState).size = st.size + weight x := by
      simp [MMState.size]; omega
    by_cases hd : x.cls.isData = true
    · rw [if_pos hd]
      obtain ⟨q, o, hqo, hst'⟩ := mm_step_data reg st x hd
      have h := paid_more h
      have hq : ∃ C', MMPaid true C' q ∧ total o + q.size + C' ≤ st.size + (C + if b then 0 else uw st.afterCount) ∧
          q.afterCount = st.afterCount := by
        rcases hqo with ⟨rfl, rfl, -⟩ | ⟨rfl, rfl, -⟩
        · exact ⟨_, h, by simp, rfl⟩
        · obtain ⟨C', p1, p2⟩ := flush_paid reg h
          exact ⟨C', p1, p2, rfl⟩
      obtain ⟨C', hq, hqs, hqa⟩ := hq
      have htake := take_paid hq x
      have hts : (MMState.take q x).size = q.size + weight x := by
        simp [MMState.size, MMState.take]; omega
      rw [hst', countSize_uw, ← hn]
      split
      · obtain ⟨C2, h2, h2s⟩ := flush_paid reg (st := MMState.take q x) htake
        have := ih false C2 _ h2 st.afterCount hqa
        simp only [total_append]
        omega
      · have := ih false C' _ htake st.afterCount hqa
        rw [hts] at this
        simp only
        omega
    · rw [if_neg hd]
      cases hk : x.cls.kind with
      | loc =>
        have hr : x.cls ≠ .reportCount := by intro e; rw [e] at hk; simp [Cls.kind] at hk
        have := ih b C _ (push_paid h x) n hn
        simp only [hr, if_false, hk, total_nil]
        omega
      | main =>
        have hr : x.cls ≠ .reportCount := by intro e; rw [e] at hk; simp [Cls.kind] at hk
        obtain ⟨C2, h2, h2s⟩ := flush_paid reg (push_paid h x)
        have := ih b C2 _ h2 n hn
        simp only [hk, hd, hr, if_false, Bool.false_eq_true]
        omega
      | global =>
        simp only [hk]
        by_cases hr : x.cls = .reportCount
        · have hw : watched Cls.reportCount = false := rfl
          simp only [hr, hw, Bool.false_eq_true, false_and, if_false, if_true]
          have hp : MMPaid true C { st with after := st.after ++ [x], afterCount := x.ival } := by
            refine ⟨h.held, ?_, h.zero⟩
            intro _
            have h1 := h.held
            have h2 := rcs_single x
            rw [if_pos hr] at h2
            simp only [MMState.need, rcs_append] at h1 ⊢
            omega
          have := ih true C _ hp x.ival rfl
          rw [total_nil]
          have e : ({ st with after := st.after ++ [x], afterCount := x.ival } : MMState).size
              = st.size + weight x := by simp [MMState.size]; omega
          omega
        · simp only [hr, if_false]
          split
          · have hp : ∀ p, MMPaid b C { st with after := st.after ++ [x], props := p } :=
              fun p => ⟨(push_paid h x).held, (push_paid h x).next, (push_paid h x).zero⟩
            obtain ⟨C2, h2, h2s⟩ := flush_paid reg (hp (fun c => if c = x.cls then x.ival else st.props c))
            have := ih b C2 _ h2 n hn
            have e : ∀ p, ({ st with after := st.after ++ [x], props := p } : MMState).size
              = st.size + weight x := fun _ => hpushsize
            rw [e] at h2s
            omega
          · have := ih b C _ (push_paid h x) n hn
            simp only [total_nil]
            omega

theorem mm_bound (reg : Registry) (xs : List Item) :
    total ((mainMerge reg).run xs) ≤ total xs + countBytes false 0 (keys xs) := by
  have := mm_bound_from reg xs false 0 {} ⟨by simp [MMState.need], by simp, by simp⟩ 0 rfl
  simpa [Pass.run, MMState.size] using this

theorem countBytes_filter (b : Bool) (n : Int) (ks : List SItem) :
    countBytes b n (ks.filter isCounting) = countBytes b n ks := by
  induction ks generalizing b n with
  | nil => rfl
  | cons k ks ih =>
    by_cases hd : k.1.isData = true
    · have : isCounting k = true := by simp [isCounting, hd]
      simp [this, countBytes, hd, ih]
    · by_cases hr : k.1 = .reportCount
      · have : isCounting k = true := by simp [isCounting, hr]
        rw [List.filter_cons, if_pos this]
        simp [countBytes, hr, Cls.isData, ih]
      · have : isCounting k = false := by simp [isCounting, hr, hd]
        simp [this, countBytes, hd, hr, ih]

theorem countBytes_du (xs : List Item) :
    countBytes false 0 (keys (designatorUniq.run xs)) = countBytes false 0 (keys xs) := by
  have hv := du_view isCounting (fun k hk => by
    revert hk; unfold isCounting; cases k.1 <;> simp [Cls.kind, Cls.isData]) xs
  have hf : ∀ ys, countBytes false 0 (keys ys) = countBytes false 0 (view isCounting ys) := by
    intro ys; exact (countBytes_filter false 0 (keys ys)).symm
  rw [hf, hv, ← hf]

/-! ## The other passes -/

/-- What splitting the item may cost. -/
def cost (i : Item) : Nat := if usageLike i.cls = true then splitCost i.ival else 0

/-- Bytes an item takes, and those splitting it may cost. -/
def costly (i : Item) : Nat := weight i + cost i

theorem splitBytes_sum (xs : List Item) : splitBytes (keys xs) = sumOf cost xs := by
  induction xs with
  | nil => rfl
  | cons x xs ih =>
    have hkeys : keys (x :: xs) = (x.cls, x.ival) :: keys xs := rfl
    rw [hkeys, sum_cons, ← ih]
    unfold cost
    cases h : x.cls <;> simp [splitBytes, usageLike]

theorem costly_sum (xs : List Item) : sumOf costly xs = total xs + sumOf cost xs := by
  induction xs with
  | nil => rfl
  | cons x xs ih => simp [ih, costly]; omega

theorem cost_view (xs : List Item) : sumOf cost xs = splitBytes (view (fun k => usageLike k.1) xs) := by
  rw [← splitBytes_sum]
  unfold view
  generalize keys xs = ks
  induction ks with
  | nil => rfl
  | cons k ks ih =>
    obtain ⟨c, v⟩ := k
    rw [List.filter_cons]
    cases c <;> simp [splitBytes, usageLike, ih]

theorem mm_cost (reg : Registry) (xs : List Item) : sumOf cost ((mainMerge reg).run xs) = sumOf cost xs := by
  rw [cost_view, cost_view, mm_view _ (fun k h => ?_) reg xs]
  rcases h with h | h
  · revert h; cases k.1 <;> simp [Cls.isData, usageLike]
  · simp [h, usageLike]

theorem rm_costly (reg : Registry) (t : RangeTags) (ht : t.Sized) (hu : RangeTags.Uniform t) (xs : List Item) :
    sumOf costly ((rangeMerge reg t).run xs) ≤ sumOf costly xs := by
  obtain ⟨-, hmin, hmax⟩ := hu
  have hcls : ∀ c ∈ [t.lookup, t.min, t.max], usageLike c = usageLike t.lookup := by
    intro c hc
    simp only [List.mem_cons, List.not_mem_nil, or_false] at hc
    rcases hc with rfl | rfl | rfl
    · rfl
    · exact hmin
    · exact hmax
  refine rm_sum reg t ht (fun v => uw v + if usageLike t.lookup = true then splitCost v else 0) ?_ ?_ xs
  · intro c hc v
    have h := ht c hc
    unfold costly cost
    rw [weight_build reg c v h.1 h.2.1 h.2.2.1, build_cls, build_ival _ _ _ h.1, hcls c hc]
  · intro x hx
    have h := ht t.lookup (by simp)
    unfold costly cost
    rw [weight_unsigned (by rw [hx]; exact h.2.1) (by rw [hx]; exact h.2.2.1), hx]

theorem up_costly (reg : Registry) (xs : List Item)
    (hx : ∀ i ∈ xs, usageLike i.cls = true → 0 ≤ i.ival ∧ i.ival < 4294967296) :
    total ((Optimizer.usagePage reg).run xs) ≤ sumOf costly xs := by
  suffices ∀ st, total ((Optimizer.usagePage reg).runFrom st xs) ≤ sumOf costly xs from this _
  induction xs with
  | nil => intro st; simp [Pass.runFrom]
  | cons x xs ih =>
    intro st
    rw [Pass.runFrom_cons, total_append, sum_cons]
    have h1 := ih (fun i hi => hx i (by simp [hi])) ((Optimizer.usagePage reg).step st x).1
    suffices total ((Optimizer.usagePage reg).step st x).2 ≤ costly x by omega
    have hx := hx x (by simp)
    by_cases hu : usageLike x.cls = true
    · simp only [hu, if_true]
      have hcls : x.cls ≠ .collection ∧ x.cls.signed = false ∧ x.cls.optionalValue = false := by
        revert hu; cases x.cls <;> simp [usageLike, Cls.signed, Cls.optionalValue]
      have hn := hx hu
      have hv : (Usage.lookup reg x.val).value = x.ival := lookup_value reg x.val
      have hv1 := split_fst (Usage.lookup reg x.val)
      have hv2 := split_snd (Usage.lookup reg x.val)
      rw [hv] at hv1 hv2
      have w0 := weight_unsigned hcls.2.1 hcls.2.2
      have w1 := weight_build reg .usagePage (Usage.split (Usage.lookup reg x.val)).1 (by simp) rfl rfl
      have w2 := weight_build reg x.cls (Usage.split (Usage.lookup reg x.val)).2 hcls.1 hcls.2.1 hcls.2.2
      have hb : uw (x.ival / 65536) + uw (x.ival % 65536) ≤ uw x.ival + splitCost x.ival := by
        unfold uw splitCost
        repeat' split
        all_goals omega
      have hc : costly x = uw x.ival + splitCost x.ival := by
        unfold costly cost
        rw [w0, if_pos hu]
      rw [hv1] at w1
      rw [hv2] at w2
      rw [hc]
      split <;> simp [w1, w2] <;> omega
    · simp only [hu, if_false, Bool.false_eq_true]
      unfold costly
      split <;> simp

theorem binary_mem {xs : List Item} {b : List UInt8} (h : Formatter.binary xs = .ok b) :
    ∀ i ∈ xs, ∃ d, i.bytes = .ok d := by
  induction xs generalizing b with
  | nil => simp
  | cons i l ih =>
    obtain ⟨b1, b2, h1, h2, rfl⟩ := binary_ok h
    intro j hj
    rcases List.mem_cons.1 hj with rfl | hj
    · exact ⟨b1, h1⟩
    · exact ih h2 j hj

theorem usage_range {i : Item} {d : List UInt8} (h : i.bytes = .ok d) (hu : usageLike i.cls = true) :
    0 ≤ i.ival ∧ i.ival < 4294967296 := by
  have hs : i.cls.signed = false ∧ i.cls.optionalValue = false := by
    revert hu; cases i.cls <;> simp [usageLike, Cls.signed, Cls.optionalValue]
  obtain ⟨-, h1 | ⟨p, h1, h2, -⟩⟩ := bytes_ok h
  · have : i.sizeCode ≠ 0 := by unfold sizeCode; simp [hs.2]; repeat' split
                                all_goals simp
    exact absurd h1.1 this
  · rw [hs.1] at h2
    unfold pack at h2
    simp only [Bool.false_eq_true, if_false] at h2
    split at h2
    · rename_i hr
      refine ⟨hr.1, ?_⟩
      rcases payloadLen_cases h1 with e | e | e <;> rw [e] at hr <;> have := hr.2 <;> simp at this <;> omega
    · simp at h2

/-- **C58, how much.** Whatever passes are selected, the optimized stream is no longer than the one in which every field has
a ReportCount of its own, but for at most 2 bytes for each usage without a page, and 1 for each with a page and an id above
255. -/
theorem C58_bound (reg : Registry) (min max : Int) (xs : List Item) (b b' : List UInt8)
    (h : Formatter.binary xs = .ok b)
    (h' : Formatter.binary ((new reg min max Pass.sink).run xs) = .ok b') :
    b'.length ≤ b.length + countBytes false 0 (keys xs) + splitBytes (keys xs) := by
  have hr : ∀ i ∈ xs, usageLike i.cls = true → 0 ≤ i.ival ∧ i.ival < 4294967296 := by
    intro i hi hu
    obtain ⟨d, hd⟩ := binary_mem h i hi
    exact usage_range hd hu
  rw [binary_total h, binary_total h', splitBytes_sum]
  clear h h'
  rw [new_run]
  let R : List Item → Prop := fun ys => ∀ i ∈ ys, usageLike i.cls = true → 0 ≤ i.ival ∧ i.ival < 4294967296
  let K := countBytes false 0 (keys xs)
  let P : List Item → Prop := fun ys => sumOf costly ys ≤ sumOf costly xs + K ∧ R ys
  have h0 : (sumOf costly (stage reg min max .designatorUniq xs) ≤ sumOf costly xs ∧
      R (stage reg min max .designatorUniq xs)) ∧
      countBytes false 0 (keys (stage reg min max .designatorUniq xs)) = K :=
    stage_pres reg min max .designatorUniq
      (fun ys => (sumOf costly ys ≤ sumOf costly xs ∧ R ys) ∧ countBytes false 0 (keys ys) = K)
      (fun ys h => ⟨⟨Nat.le_trans (du_sum ys) h.1.1, keeps_du _ ys h.1.2⟩, (countBytes_du ys).trans h.2⟩)
      ⟨⟨Nat.le_refl _, hr⟩, rfl⟩
  have h1 : P (stage reg min max .mainMerge (stage reg min max .designatorUniq xs)) := by
    obtain ⟨⟨a1, a2⟩, a3⟩ := h0
    rw [stage]
    split
    · refine ⟨?_, usages_mm (P := fun v => 0 ≤ v ∧ v < 4294967296) reg _ a2⟩
      have m1 := mm_bound reg (stage reg min max .designatorUniq xs)
      have m2 := mm_cost reg (stage reg min max .designatorUniq xs)
      rw [costly_sum] at a1 ⊢
      simp only [pass]
      omega
    · exact ⟨by omega, a2⟩
  have h2 := stage_pres reg min max .physicalMerge P
    (fun ys h => ⟨Nat.le_trans (pm_sum ys) h.1, keeps_pm _ ys h.2⟩) h1
  have h3 := stage_pres reg min max .globalMerge P
    (fun ys h => ⟨Nat.le_trans (gm_sum ys) h.1, keeps_gm _ ys h.2⟩) h2
  have h4 := stage_pres reg min max .stringMerge P
    (fun ys h => ⟨Nat.le_trans (rm_costly reg _ sized_str uniform_str ys) h.1, usages_rm (P := fun v => 0 ≤ v ∧ v < 4294967296) reg _ uniform_str ys h.2⟩) h3
  have h5 := stage_pres reg min max .designatorMerge P
    (fun ys h => ⟨Nat.le_trans (rm_costly reg _ sized_desig uniform_desig ys) h.1, usages_rm (P := fun v => 0 ≤ v ∧ v < 4294967296) reg _ uniform_desig ys h.2⟩) h4
  have h6 := stage_pres reg min max .usageMerge P
    (fun ys h => ⟨Nat.le_trans (rm_costly reg _ sized_usage uniform_usage ys) h.1, usages_rm (P := fun v => 0 ≤ v ∧ v < 4294967296) reg _ uniform_usage ys h.2⟩) h5
  have h7 : total (stage reg min max .usagePage (stage reg min max .usageMerge (stage reg min max .designatorMerge
      (stage reg min max .stringMerge (stage reg min max .globalMerge (stage reg min max .physicalMerge
      (stage reg min max .mainMerge (stage reg min max .designatorUniq xs)))))))) ≤ sumOf costly xs + K := by
    rw [stage]
    split
    · exact Nat.le_trans (up_costly reg _ h6.2) h6.1
    · have := h6.1
      rw [costly_sum] at this
      omega
  rw [costly_sum] at h7
  omega

/-! ## Compiled trees -/

theorem counted_bytes {b : Bool} {ks : List SItem} (h : counted b ks = true) (n : Int) : countBytes b n ks = 0 := by
  induction ks generalizing b n with
  | nil => rfl
  | cons k ks ih =>
    rw [counted] at h
    rw [countBytes]
    split
    · next hd =>
      rw [if_pos hd] at h
      simp only [Bool.and_eq_true] at h
      rw [ih h.2, h.1]; rfl
    · next hd =>
      rw [if_neg hd] at h
      split
      · next hr => rw [if_pos hr] at h; exact ih h _
      · next hr => rw [if_neg hr] at h; exact ih h _

theorem splitBytes_append (a b : List SItem) : splitBytes (a ++ b) = splitBytes a + splitBytes b := by
  induction a with
  | nil => simp [splitBytes]
  | cons k a ih =>
    obtain ⟨c, v⟩ := k
    cases c <;> simp [splitBytes, ih] <;> omega

theorem splitBytes_usages (us : List Int) :
    splitBytes (us.map (fun u => ((.usage, u) : SItem))) = (us.map splitCost).sum := by
  induction us with
  | nil => rfl
  | cons u us ih => simp [splitBytes, ih]

theorem splitBytes_way (w : Way) (a : Int) (r : List SItem) : splitBytes ((w.cls, a) :: r) = splitBytes r := by
  cases w <;> rfl

theorem splitBytes_val (v : Value) :
    splitBytes (valKeys v) = ((tokUsages (.leaf (.value v))).map splitCost).sum := by
  unfold valKeys
  split
  · next hc => simp [splitBytes, splitBytes_way, tokUsages, hc]
  · next hc =>
    unfold fieldKeys
    have h1 : ∀ (p : Prop) [Decidable p] (k : SItem), usageLike k.1 = false →
        splitBytes (if p then [] else [k]) = 0 ∧ splitBytes (if p then [k] else []) = 0 := by
      intro p _ k hk
      obtain ⟨c, a⟩ := k
      split <;> refine ⟨?_, ?_⟩ <;> first | rfl | (cases c <;> simp [usageLike] at hk <;> rfl)
    simp only [splitBytes_append, splitBytes_usages]
    rw [(h1 (v.designator = 0) (.desigIndex, v.designator) rfl).1, (h1 (v.string = 0) (.strIndex, v.string) rfl).1,
      (h1 (wrapped v = true) (.collection, 2) rfl).2, (h1 (wrapped v = true) (.endCollection, 0) rfl).2]
    simp [splitBytes, splitBytes_way, tokUsages, hc]

theorem splitBytes_tree (c : Count) (last : Int) (ts : List Tok) :
    splitBytes (treeKeys c last ts) = ((ts.flatMap tokUsages).map splitCost).sum := by
  induction ts generalizing c last with
  | nil => rfl
  | cons t ts ih =>
    rw [List.flatMap_cons, List.map_append, List.sum_append]
    cases t with
    | report i =>
      rw [treeKeys, splitBytes_append, ih]
      split <;> simp [splitBytes, tokUsages]
    | endReport => rw [treeKeys, ih]; simp [tokUsages]
    | enter k u =>
      rw [treeKeys]
      simp only [splitBytes, ih]
      simp [tokUsages]
    | leave =>
      rw [treeKeys]
      simp only [splitBytes, ih]
      simp [tokUsages]
    | leaf l =>
      rw [treeKeys, splitBytes_append, ih]
      unfold leafKeys
      rw [splitBytes_append]
      have hp : ∀ w n, splitBytes (padKeys w n) = 0 := by
        intro w n
        unfold padKeys
        split
        · rfl
        · simp [splitBytes, splitBytes_way]
      rw [hp]
      cases l with
      | value v => simp [ownKeys, splitBytes_val]
      | align => simp [ownKeys, splitBytes, tokUsages]
      | padding => simp [ownKeys, splitBytes, tokUsages]

/-- **C58, how much, trees.** Optimizing a compiled descriptor, with any selection of passes, adds at most 2 bytes for each
usage in the tree without a page, and 1 for each with a page and an id above 255. -/
theorem C58_compiled_bound {reg : Registry} {n : Node} {items : List Item} (min max : Int)
    (h : compile reg n = .ok items) {b b' : List UInt8} (hb : Formatter.binary items = .ok b)
    (hb' : Formatter.binary ((new reg min max Pass.sink).run items) = .ok b') :
    b'.length ≤ b.length + (((tokens n).flatMap tokUsages).map splitCost).sum := by
  have h1 := C58_bound reg min max items b b' hb hb'
  rw [compile_keys h, counted_bytes (counted_tree _ _ _ _), splitBytes_tree] at h1
  omega

/-- **C58, how much, the command.** -/
theorem C58_command_bound {reg : Registry} {n : Node} {b b' : List UInt8}
    (hb : Compiler.main reg .binary false n = .ok (.bytes b))
    (hb' : Compiler.main reg .binary true n = .ok (.bytes b')) :
    b'.length ≤ b.length + (((tokens n).flatMap tokUsages).map splitCost).sum := by
  unfold Compiler.main at hb hb'
  cases hc : compile reg n with
  | error e => rw [hc] at hb; simp at hb
  | ok items =>
    rw [hc] at hb hb'
    simp only [Bool.false_eq_true, if_false, if_true] at hb hb'
    have hr : ∀ (xs : List Item) (d : List UInt8), Formatter.render .binary xs = .ok (.bytes d) →
        Formatter.binary xs = .ok d := by
      intro xs d h
      simp only [Formatter.render] at h
      cases hx : Formatter.binary xs with
      | error e => rw [hx] at h; simp [Except.map] at h
      | ok d' => rw [hx] at h; simp [Except.map] at h; rw [h]
    exact C58_compiled_bound 0 100 hc (hr _ _ hb) (hr _ _ hb')

/-! ## Examples -/

/-- The bound is reached: by a whole usage, by an id alone, and by a field without a ReportCount; not by `sharedCount`. -/
example :
    (let xs : List Item := [⟨.usage, .int 0xff000100⟩, ⟨.collection, .int 1⟩, ⟨.endCollection, .int 0⟩]
     encLen xs = some 8 ∧ encLen (optimize [] xs) = some 9 ∧ countBytes false 0 (keys xs) + splitBytes (keys xs) = 1) ∧
    (let xs : List Item := [⟨.usage, .int 2⟩, ⟨.collection, .int 1⟩, ⟨.endCollection, .int 0⟩]
     encLen xs = some 5 ∧ encLen (optimize [] xs) = some 7 ∧ countBytes false 0 (keys xs) + splitBytes (keys xs) = 2) ∧
    (let xs : List Item := [⟨.input, .int 1⟩, ⟨.endCollection, .int 0⟩]
     encLen xs = some 3 ∧ encLen (optimize [] xs) = some 5 ∧ countBytes false 0 (keys xs) + splitBytes (keys xs) = 2) ∧
    encLen sharedCount = some 15 ∧ encLen (optimize [] sharedCount) = some 17 ∧ countBytes false 0 (keys sharedCount) = 10 := by
  decide +kernel

end Hrdc
