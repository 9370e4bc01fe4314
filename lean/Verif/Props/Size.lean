import Verif.Proofs.Size
import Verif.Props.Compile3
import Verif.Props.Redundancy
/-!
# Property C58: optimizing a compiled descriptor never makes it longer
-/
namespace Hrdc
open Spec Item Optimizer Streamer

/-! ## What the passes before the last do to usages -/

theorem usages_mm {P : Int → Prop} (reg : Registry) (xs : List Item)
    (hx : ∀ i ∈ xs, usageLike i.cls = true → P i.ival) :
    ∀ i ∈ (mainMerge reg).run xs, usageLike i.cls = true → P i.ival := by
  let u : SItem → Bool := fun k => usageLike k.1
  have hv : view u ((mainMerge reg).run xs) = view u xs := mm_view u (fun k h => by
    rcases h with h | h
    · simp only [u]; revert h; cases k.1 <;> simp [Cls.isData, usageLike]
    · simp [u, h, usageLike]) reg xs
  intro i hi hu
  have : i.key ∈ view u ((mainMerge reg).run xs) := by
    unfold view
    rw [List.mem_filter]
    exact ⟨List.mem_map.mpr ⟨i, hi, rfl⟩, hu⟩
  rw [hv] at this
  unfold view at this
  rw [List.mem_filter] at this
  obtain ⟨j, hj, e⟩ := List.mem_map.1 this.1
  have e1 : j.cls = i.cls := congrArg Prod.fst e
  have e2 : j.ival = i.ival := congrArg Prod.snd e
  rw [← e2]
  exact hx j hj (by rw [e1]; exact hu)

theorem usages_rm {P : Int → Prop} (reg : Registry) (t : RangeTags) (ht : RangeTags.Uniform t)
    (xs : List Item) (hx : ∀ i ∈ xs, usageLike i.cls = true → P i.ival) :
    ∀ i ∈ (rangeMerge reg t).run xs, usageLike i.cls = true → P i.ival := by
  obtain ⟨htags, htmin, htmax⟩ := ht
  let Q : Item → Prop := fun i => usageLike i.cls = true → P i.ival
  let L : Option PyVal → Prop := fun o => ∀ v, o = some v → usageLike t.lookup = true → P v.toInt
  let I : RMState → Prop := fun st => (∀ i ∈ st.pending, Q i) ∧ L st.minValue ∧ L st.maxValue
  have hbuild : ∀ c ∈ [t.lookup, t.min, t.max], ∀ v : PyVal,
      (usageLike t.lookup = true → P v.toInt) → Q (build reg c v) := by
    intro c hc v hv
    have h3 := htags c hc
    show usageLike _ = true → P _
    rw [build_cls, build_ival _ _ _ h3.2.2.1]
    intro hu
    apply hv
    simp only [List.mem_cons, List.not_mem_nil, or_false] at hc
    rcases hc with rfl | rfl | rfl
    · exact hu
    · rw [← htmin]; exact hu
    · rw [← htmax]; exact hu
  have hout : ∀ st : RMState, I st → ∀ y ∈ st.out reg t, Q y := by
    intro st hst y hy
    unfold RMState.out at hy
    split at hy
    · next lo hi hlo hhi =>
      have blo := fun c hc => hbuild c hc lo (hst.2.1 lo hlo)
      have bhi := fun c hc => hbuild c hc hi (hst.2.2 hi hhi)
      split at hy
      · rcases List.mem_append.1 hy with hy | hy
        · exact hst.1 y (List.mem_filter.1 hy).1
        · split at hy
          · simp at hy; subst hy; exact blo _ (by simp)
          · split at hy
            · simp only [List.mem_cons, List.not_mem_nil, or_false] at hy
              rcases hy with rfl | rfl
              · exact blo _ (by simp)
              · exact bhi _ (by simp)
            · simp only [List.mem_cons, List.not_mem_nil, or_false] at hy
              rcases hy with rfl | rfl
              · exact blo _ (by simp)
              · exact bhi _ (by simp)
      · exact hst.1 y hy
    · exact hst.1 y hy
  have hnote : ∀ st x, I st → Q x → L (RMState.note t st x).minValue ∧
      L (RMState.note t st x).maxValue ∧ (RMState.note t st x).pending = st.pending := by
    intro st x hst hx
    unfold RMState.note
    split
    · split
      · exact ⟨hst.2.1, hst.2.2, rfl⟩
      · split
        · next hlk =>
          have hv : L (some x.val) := by
            intro v hv hu
            cases hv
            exact hx (by rw [hlk]; exact hu)
          split
          · exact ⟨hv, hv, rfl⟩
          · split
            · exact ⟨hst.2.1, hv, rfl⟩
            · exact ⟨hst.2.1, hst.2.2, rfl⟩
        · exact ⟨hst.2.1, hst.2.2, rfl⟩
    · exact ⟨hst.2.1, hst.2.2, rfl⟩
  apply Pass.runFrom_all _ Q I
  · intro st x hst hx
    have hn := hnote st x hst hx
    by_cases hk : x.cls.kind = .main
    · simp only [hk, if_true]
      refine ⟨⟨by intro i hi; simp at hi; subst hi; exact hx, by intro v hv; simp at hv,
        by intro v hv; simp at hv⟩, hout _ ⟨by rw [hn.2.2]; exact hst.1, hn.1, hn.2.1⟩⟩
    · simp only [hk, if_false]
      refine ⟨⟨?_, hn.1, hn.2.1⟩, by simp⟩
      intro i hi
      rcases List.mem_append.1 hi with hi | hi
      · exact hst.1 i hi
      · simp at hi; subst hi; exact hx
  · exact hout
  · exact ⟨by intro i hi; simp at hi, by intro v hv; simp at hv, by intro v hv; simp at hv⟩
  · exact hx

/-! ## Counts of its own for every field -/

/-- Data items and report counts. -/
def isCounting (k : SItem) : Bool := k.1.isData || k.1 == .reportCount

theorem counted_filter (b : Bool) (ks : List SItem) : counted b (ks.filter isCounting) = counted b ks := by
  induction ks generalizing b with
  | nil => rfl
  | cons k ks ih =>
    by_cases hd : k.1.isData = true
    · have : isCounting k = true := by simp [isCounting, hd]
      simp [this, counted, hd, ih]
    · by_cases hr : k.1 = .reportCount
      · have : isCounting k = true := by simp [isCounting, hr]
        rw [List.filter_cons, if_pos this]
        simp [counted, hr, Cls.isData, ih]
      · have : isCounting k = false := by simp [isCounting, hr, hd]
        simp [this, counted, hd, hr, ih]

theorem counted_du (xs : List Item) (h : counted false (keys xs) = true) :
    counted false (keys (designatorUniq.run xs)) = true := by
  have hv := du_view isCounting (fun k hk => by
    revert hk; unfold isCounting; cases k.1 <;> simp [Cls.kind, Cls.isData]) xs
  have hf : ∀ ys, counted false (keys ys) = counted false (view isCounting ys) := by
    intro ys; exact (counted_filter false (keys ys)).symm
  rw [hf, hv, ← hf]
  exact h

/-- **C58 (partial).** Whatever passes are selected, a stream in which every field has a ReportCount of its own
and usages are full and narrow (`Spec.Narrow`: page below 256 or id below 256) never gets longer.
Missing, and false of the code: the three `_longer` theorems. -/
theorem C58_never_longer_partial (reg : Registry) (min max : Int) (xs : List Item) (b b' : List UInt8)
    (hc : counted false (keys xs) = true) (hu : ∀ i ∈ xs, usageLike i.cls = true → Narrow i.ival)
    (h : Formatter.binary xs = .ok b)
    (h' : Formatter.binary ((new reg min max Pass.sink).run xs) = .ok b') : b'.length ≤ b.length := by
  rw [binary_total h, binary_total h']
  clear h h'
  rw [new_run]
  let P : List Item → Prop := fun ys => total ys ≤ total xs ∧ ∀ i ∈ ys, usageLike i.cls = true → Narrow i.ival
  have h0 : P (stage reg min max .designatorUniq xs) ∧
      counted false (keys (stage reg min max .designatorUniq xs)) = true :=
    stage_pres reg min max .designatorUniq (fun ys => P ys ∧ counted false (keys ys) = true)
      (fun ys h => ⟨⟨Nat.le_trans (du_total ys) h.1.1, keeps_du _ ys h.1.2⟩, counted_du ys h.2⟩)
      ⟨⟨Nat.le_refl _, hu⟩, hc⟩
  have h1 : P (stage reg min max .mainMerge (stage reg min max .designatorUniq xs)) := by
    rw [stage]
    split
    · exact ⟨Nat.le_trans (mm_total reg _ h0.2) h0.1.1, usages_mm reg _ h0.1.2⟩
    · exact h0.1
  have h2 := stage_pres reg min max .physicalMerge P
    (fun ys h => ⟨Nat.le_trans (pm_total ys) h.1, keeps_pm _ ys h.2⟩) h1
  have h3 := stage_pres reg min max .globalMerge P
    (fun ys h => ⟨Nat.le_trans (gm_total ys) h.1, keeps_gm _ ys h.2⟩) h2
  have h4 := stage_pres reg min max .stringMerge P
    (fun ys h => ⟨Nat.le_trans (rm_total reg _ sized_str ys) h.1, usages_rm reg _ uniform_str ys h.2⟩) h3
  have h5 := stage_pres reg min max .designatorMerge P
    (fun ys h => ⟨Nat.le_trans (rm_total reg _ sized_desig ys) h.1, usages_rm reg _ uniform_desig ys h.2⟩) h4
  have h6 := stage_pres reg min max .usageMerge P
    (fun ys h => ⟨Nat.le_trans (rm_total reg _ sized_usage ys) h.1, usages_rm reg _ uniform_usage ys h.2⟩) h5
  rw [stage]
  split
  · exact Nat.le_trans (up_total reg _ h6.2) h6.1
  · exact h6.1

/-! ## Compiled trees -/

theorem counted_append (b : Bool) (xs ys : List SItem) (h : counted b xs = true) (hy : ∀ b, counted b ys = true) :
    counted b (xs ++ ys) = true := by
  induction xs generalizing b with
  | nil => exact hy b
  | cons k xs ih =>
    simp only [List.cons_append, counted] at h ⊢
    split
    · next hd => rw [if_pos hd] at h; simp only [Bool.and_eq_true] at h ⊢; exact ⟨h.1, ih _ h.2⟩
    · next hd =>
      rw [if_neg hd] at h
      split
      · next hr => rw [if_pos hr] at h; exact ih _ h
      · next hr => rw [if_neg hr] at h; exact ih _ h

theorem counted_none (b : Bool) (xs : List SItem) (h : ∀ k ∈ xs, isCounting k = false) : counted b xs = true := by
  rw [← counted_filter, List.filter_eq_nil_iff.2 (fun k hk => by simp [h k hk])]
  rfl

theorem way_counting (w : Way) : w.cls.isData = true := by cases w <;> rfl

theorem counted_field (b : Bool) (n m s : Int) (w : Way) :
    counted b [(.reportCount, n), (.reportSize, m), (w.cls, s)] = true := by
  simp [counted, way_counting, Cls.isData]

theorem counted_val (b : Bool) (v : Value) : counted b (valKeys v) = true := by
  unfold valKeys
  split
  · exact counted_field _ _ _ _ _
  · rw [List.append_assoc]
    refine counted_append _ _ _ ?_ (fun b => ?_)
    · apply counted_none
      intro k hk
      simp only [List.mem_append, List.mem_map, List.mem_cons, List.not_mem_nil, or_false] at hk
      rcases hk with (⟨u, -, rfl⟩ | rfl | rfl) | hk
      · rfl
      · rfl
      · rfl
      · split at hk
        · simp at hk; subst hk; rfl
        · simp at hk
    · refine counted_append _ _ _ ?_ (fun b => ?_)
      · unfold fieldKeys
        refine counted_append _ _ _ ?_ (fun b => counted_field _ _ _ _ _)
        apply counted_none
        intro k hk
        simp only [List.mem_append, List.mem_map, List.mem_cons, List.not_mem_nil, or_false] at hk
        rcases hk with ((⟨u, -, rfl⟩ | rfl | rfl | rfl | rfl) | hk) | hk
        · rfl
        · rfl
        · rfl
        · rfl
        · rfl
        · split at hk
          · simp at hk
          · simp at hk; subst hk; rfl
        · split at hk
          · simp at hk
          · simp at hk; subst hk; rfl
      · split <;> rfl

theorem counted_tree (c : Count) (last : Int) (ts : List Tok) (b : Bool) :
    counted b (treeKeys c last ts) = true := by
  induction ts generalizing c last b with
  | nil => rfl
  | cons t ts ih =>
    cases t with
    | report i =>
      rw [treeKeys]
      refine counted_append _ _ _ ?_ (fun b => ih _ _ b)
      split <;> rfl
    | endReport => exact ih _ _ b
    | enter k u =>
      rw [treeKeys]
      simp only [counted, Cls.isData, Bool.false_eq_true, if_false, reduceCtorEq]
      exact ih _ _ b
    | leave =>
      rw [treeKeys]
      simp only [counted, Cls.isData, Bool.false_eq_true, if_false, reduceCtorEq]
      exact ih _ _ b
    | leaf l =>
      rw [treeKeys]
      refine counted_append _ _ _ ?_ (fun b => ih _ _ b)
      unfold leafKeys
      refine counted_append _ _ _ ?_ (fun b => ?_)
      · unfold padKeys
        split
        · rfl
        · exact counted_field _ _ _ _ _
      · cases l with
        | value v => exact counted_val b v
        | align => rfl
        | padding => rfl

/-- **C58 (partial).** Optimizing a compiled descriptor, with any selection of passes, never makes it longer:
every usage in the tree has a page, and the page or the id is below 256.
Missing, and false of the code: other usages (`C58_wide_usage_longer`, `C58_short_usage_longer`). -/
theorem C58_compiled_partial {reg : Registry} {n : Node} {items : List Item} (min max : Int)
    (h : compile reg n = .ok items) (hu : ∀ t ∈ tokens n, ∀ u ∈ tokUsages t, Narrow u)
    {b b' : List UInt8} (hb : Formatter.binary items = .ok b)
    (hb' : Formatter.binary ((new reg min max Pass.sink).run items) = .ok b') : b'.length ≤ b.length := by
  have hkeys := compile_keys h
  refine C58_never_longer_partial reg min max items b b' (by rw [hkeys]; exact counted_tree _ _ _ _) ?_ hb hb'
  have hplain := treeKeys_plain (tokens n) (fun _ _ => 0) 0 ((tokens n).flatMap tokUsages)
    (fun t ht u hu => List.mem_flatMap.2 ⟨t, ht, hu⟩)
  intro i hi hul
  have hp := hplain i.key (by rw [← hkeys]; exact List.mem_map.2 ⟨i, hi, rfl⟩)
  have hm : i.ival ∈ (tokens n).flatMap tokUsages := by
    have e1 : i.key.1 = i.cls := rfl
    have e2 : i.key.2 = i.ival := rfl
    cases hc : i.cls <;> rw [hc] at hul <;> simp [usageLike] at hul <;>
      simp only [Plain, e1, e2, hc] at hp
    exact hp
  obtain ⟨t, ht, hut⟩ := List.mem_flatMap.1 hm
  exact hu t ht _ hut

/-- **C58 (partial).** The same of the command: the document written is never longer than the one written
with `-N`.
Missing: as in `C58_compiled_partial`. -/
theorem C58_command_partial {reg : Registry} {n : Node} {b b' : List UInt8}
    (hu : ∀ t ∈ tokens n, ∀ u ∈ tokUsages t, Narrow u)
    (hb : Compiler.main reg .binary false n = .ok (.bytes b))
    (hb' : Compiler.main reg .binary true n = .ok (.bytes b')) : b'.length ≤ b.length := by
  unfold Compiler.main at hb hb'
  cases hc : compile reg n with
  | error e => rw [hc] at hb; simp at hb
  | ok items =>
    rw [hc] at hb hb'
    simp only [Bool.false_eq_true, if_false, if_true] at hb hb'
    have hr : ∀ (xs : List Item) (d : List UInt8), Formatter.render .binary xs = .ok (.bytes d) →
        Formatter.binary xs = .ok d := by
      intro xs d h
      simp only [Formatter.render] at h
      cases hx : Formatter.binary xs with
      | error e => rw [hx] at h; simp [Except.map] at h
      | ok d' => rw [hx] at h; simp [Except.map] at h; rw [h]
    exact C58_compiled_partial 0 100 hc hu (hr _ _ hb) (hr _ _ hb')

/-- **C57.** The optimized stream of a compiled descriptor never sets a global, UsagePage included, to
the value it has (or to its HID default when it was not set). -/
theorem C57_compiled {reg : Registry} {n : Node} {items : List Item}
    (h : compile reg n = .ok items) (pre post : List Item) (i : Item)
    (ho : optimize reg items = pre ++ i :: post) (hg : i.cls.kind = .global) :
    lastSet i.cls (hidDefault i.cls) pre ≠ some i.ival := by
  have hkeys := compile_keys h
  have hplain := treeKeys_plain (tokens n) (fun _ _ => 0) 0 ((tokens n).flatMap tokUsages)
    (fun t ht u hu => List.mem_flatMap.2 ⟨t, ht, hu⟩)
  have hitem : ∀ j ∈ items, j.cls ≠ .push ∧ j.cls ≠ .pop ∧ j.cls ≠ .usagePage := by
    intro j hj
    have hp := hplain j.key (by rw [← hkeys]; exact List.mem_map.2 ⟨j, hj, rfl⟩)
    refine ⟨?_, ?_, ?_⟩ <;> intro e <;> simp [Plain, Item.key, e] at hp
  have hpp : ∀ j ∈ optimize reg items, j.cls ≠ .push ∧ j.cls ≠ .pop := by
    let P : SItem → Bool := fun k => k.1 == .push || k.1 == .pop
    have hP : ∀ k : SItem, k.1 ≠ .push → k.1 ≠ .pop → P k = false := by
      intro k h1 h2; simp [P, h1, h2]
    have hloc : ∀ k : SItem, k.1.kind = .loc → P k = false := by
      intro k hk; apply hP <;> intro e <;> rw [e] at hk <;> simp [Cls.kind] at hk
    have hnil : ∀ ys : List Item, (∀ j ∈ ys, j.cls ≠ .push ∧ j.cls ≠ .pop) ↔ view P ys = [] := by
      intro ys
      constructor
      · intro hy; exact view_all_false P ys (fun j hj => hP _ (hy j hj).1 (hy j hj).2)
      · intro hy j hj
        have : P j.key = false := by
          by_cases hpj : P j.key = true
          · have : j.key ∈ view P ys := by
              unfold view
              rw [List.mem_filter]
              exact ⟨List.mem_map.mpr ⟨j, hj, rfl⟩, hpj⟩
            rw [hy] at this; simp at this
          · simpa using hpj
        simpa [P, Item.key] using this
    rw [optimize_eq, hnil, up_view P (fun k h => by
      rcases h with h | h
      · exact hloc k h
      · apply hP <;> rw [h] <;> simp), rm_view P hloc reg _ local_usage, rm_view P hloc reg _ local_desig,
      rm_view P hloc reg _ local_str, ← hnil]
    apply keeps_gm
    apply keeps_pm
    rw [hnil, mm_view P (fun k h => by
      apply hP <;> intro e <;> rw [e] at h <;> simp [Cls.isData] at h), du_view P hloc, ← hnil]
    exact fun j hj => ⟨(hitem j hj).1, (hitem j hj).2.1⟩
  have hi := hpp i (by rw [ho]; simp)
  by_cases hu : i.cls = .usagePage
  · have := C57_no_redundant_page_partial reg items pre post i (fun j hj => (hitem j hj).2.2) ho hu
    rw [hu]
    exact this
  · exact C57_no_redundant_global reg items pre post i ho hg hi.1 hi.2 hu

/-! ## What the hypotheses leave out -/

/-- Encoded length, for the examples. -/
def encLen (xs : List Item) : Option Nat :=
  match Formatter.binary xs with
  | .ok b => some b.length
  | .error _ => none

/-- A vendor page with an id of two bytes takes one byte more. -/
theorem C58_wide_usage_longer :
    encLen [⟨.usage, .int 0xff000100⟩, ⟨.collection, .int 1⟩, ⟨.endCollection, .int 0⟩] = some 8 ∧
    encLen (optimize [] [⟨.usage, .int 0xff000100⟩, ⟨.collection, .int 1⟩, ⟨.endCollection, .int 0⟩]) = some 9 := by
  decide +kernel

/-- A usage id alone gets a page (of value 0) written before it. -/
theorem C58_short_usage_longer :
    encLen [⟨.usage, .int 2⟩, ⟨.collection, .int 1⟩, ⟨.endCollection, .int 0⟩] = some 5 ∧
    encLen (optimize [] [⟨.usage, .int 2⟩, ⟨.collection, .int 1⟩, ⟨.endCollection, .int 0⟩]) = some 7 := by
  decide +kernel

/-- Fields sharing a ReportCount: two alike, one not, and so on. -/
def sharedCount : List Item :=
  [⟨.reportCount, .int 1⟩, ⟨.input, .int 1⟩, ⟨.input, .int 1⟩, ⟨.input, .int 2⟩, ⟨.input, .int 1⟩, ⟨.input, .int 1⟩,
    ⟨.input, .int 2⟩, ⟨.endCollection, .int 0⟩]

/-- Fields sharing a ReportCount, as in descriptors already optimized, may get several. -/
theorem C58_shared_count_longer :
    counted false (keys sharedCount) = false ∧ encLen sharedCount = some 15 ∧
    encLen (optimize [] sharedCount) = some 17 := by
  decide +kernel

/-- The hypotheses of `C58_never_longer_partial` are met by a stream that gets shorter. -/
example : counted false (keys mergeSample) = true ∧
    (∀ i ∈ mergeSample, usageLike i.cls = true → Narrow i.ival) ∧
    encLen mergeSample = some 44 ∧ encLen (optimize [] mergeSample) = some 29 := by decide +kernel

/-- Those of `C58_command_partial` are met by a tree whose document gets shorter. -/
example : (∀ t ∈ tokens sampleTree, ∀ u ∈ tokUsages t, Narrow u) ∧
    (match Compiler.main [] .binary false sampleTree, Compiler.main [] .binary true sampleTree with
      | .ok (.bytes b), .ok (.bytes b') => decide (b'.length < b.length)
      | _, _ => false) = true := by decide +kernel

end Hrdc
