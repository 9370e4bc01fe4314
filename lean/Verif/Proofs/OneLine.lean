import Verif.Props.Formats
import Verif.Props.Passes5
import Verif.Props.Compile
/-!
# Names without newlines
-/
namespace Hrdc
open Spec Optimizer

/-- The value is shown on one line. -/
def Plain (i : Item) : Prop := '\n' ∉ i.val.str

theorem build_plain {reg : Registry} (hreg : reg.oneLine) (c : Cls) {v : PyVal} (hv : '\n' ∉ v.str) :
    Plain (build reg c v) := by
  unfold build
  split
  · rename_i i hi; exact new_val_nl hreg hv hi
  · exact hv

theorem split_fst_nl {u : UsageC} (h : '\n' ∉ u.name) : '\n' ∉ (Usage.split u).1.str := by
  unfold Usage.split
  split
  · rename_i p n hs
    simp only [PyVal.str]
    unfold Usage.splitName at hs
    split at hs
    · simp only [Option.some.injEq, Prod.mk.injEq] at hs
      rw [← hs.1]
      intro hm
      exact h ((List.takeWhile_sublist _).subset hm)
    · simp at hs
  · exact page_nl _

theorem plain_up {reg : Registry} (hreg : reg.oneLine) (xs : List Item) (hx : ∀ i ∈ xs, Plain i) :
    ∀ i ∈ (usagePage reg).run xs, Plain i := by
  apply Pass.runFrom_all _ Plain (fun _ => True)
  · intro st x _ hx
    refine ⟨trivial, ?_⟩
    have hl := lookup_nl hreg hx
    by_cases hu : usageLike x.cls = true
    · simp only [hu, if_true]
      intro y hy
      rcases List.mem_append.1 hy with hy | hy
      · split at hy
        · simp at hy
        · simp at hy; subst hy
          exact build_plain hreg _ (split_fst_nl hl)
      · simp at hy; subst hy
        exact build_plain hreg _ (split_nl hl)
    · simp only [hu, if_false, Bool.false_eq_true]
      split
      · intro y hy; simp at hy; subst hy; exact hx
      · intro y hy; simp at hy; subst hy; exact hx
  · intro st _ y hy; simp at hy
  · trivial
  · exact hx

theorem plain_rm {reg : Registry} (hreg : reg.oneLine) (t : RangeTags) (xs : List Item) (hx : ∀ i ∈ xs, Plain i) :
    ∀ i ∈ (rangeMerge reg t).run xs, Plain i := by
  let L : Option PyVal → Prop := fun o => ∀ v, o = some v → '\n' ∉ v.str
  let I : RMState → Prop := fun st => (∀ i ∈ st.pending, Plain i) ∧ L st.minValue ∧ L st.maxValue
  have hout : ∀ st : RMState, I st → ∀ y ∈ st.out reg t, Plain y := by
    intro st hst y hy
    unfold RMState.out at hy
    split at hy
    · next lo hi hlo hhi =>
      have blo := fun c => build_plain hreg c (hst.2.1 lo hlo)
      have bhi := fun c => build_plain hreg c (hst.2.2 hi hhi)
      split at hy
      · rcases List.mem_append.1 hy with hy | hy
        · exact hst.1 y (List.mem_filter.1 hy).1
        · split at hy
          · simp at hy; subst hy; exact blo _
          · split at hy
            · simp only [List.mem_cons, List.not_mem_nil, or_false] at hy
              rcases hy with rfl | rfl
              · exact blo _
              · exact bhi _
            · simp only [List.mem_cons, List.not_mem_nil, or_false] at hy
              rcases hy with rfl | rfl
              · exact blo _
              · exact bhi _
      · exact hst.1 y hy
    · exact hst.1 y hy
  have hnote : ∀ st x, I st → Plain x → L (RMState.note t st x).minValue ∧
      L (RMState.note t st x).maxValue ∧ (RMState.note t st x).pending = st.pending := by
    intro st x hst hx
    unfold RMState.note
    split
    · next hk =>
      split
      · exact ⟨hst.2.1, hst.2.2, rfl⟩
      · split
        · have hv : L (some x.val) := by
            intro v hv
            cases hv
            exact hx
          split
          · exact ⟨hv, hv, rfl⟩
          · split
            · exact ⟨hst.2.1, hv, rfl⟩
            · exact ⟨hst.2.1, hst.2.2, rfl⟩
        · exact ⟨hst.2.1, hst.2.2, rfl⟩
    · exact ⟨hst.2.1, hst.2.2, rfl⟩
  apply Pass.runFrom_all _ Plain I
  · intro st x hst hx
    have hn := hnote st x hst hx
    by_cases hk : x.cls.kind = .main
    · simp only [hk, if_true]
      refine ⟨⟨by intro i hi; simp at hi; subst hi; exact hx, by intro v hv; simp at hv,
        by intro v hv; simp at hv⟩, hout _ ⟨by rw [hn.2.2]; exact hst.1, hn.1, hn.2.1⟩⟩
    · simp only [hk, if_false]
      refine ⟨⟨?_, hn.1, hn.2.1⟩, by simp⟩
      intro i hi
      rcases List.mem_append.1 hi with hi | hi
      · exact hst.1 i hi
      · simp at hi; subst hi; exact hx
  · exact hout
  · exact ⟨by intro i hi; simp at hi, by intro v hv; simp at hv, by intro v hv; simp at hv⟩
  · exact hx

/-- What `MainMerge` holds back is shown on one line. -/
def MMPlain (st : MMState) : Prop := ∀ i ∈ st.before ++ st.mains ++ st.after, Plain i

theorem plain_flush {reg : Registry} (hreg : reg.oneLine) (st : MMState) (h : MMPlain st) :
    MMPlain (st.flush reg).1 ∧ ∀ i ∈ (st.flush reg).2, Plain i := by
  constructor
  · intro i hi
    simp [MMState.flush] at hi
    exact h i (by simp [hi])
  · intro i hi
    simp only [MMState.flush, List.mem_append] at hi
    rcases hi with hi | hi
    · exact h i (by simp [(List.mem_filter.1 hi).1])
    · cases hm : st.mains with
      | nil => rw [hm] at hi; simp at hi
      | cons m ms =>
        rw [hm] at hi
        simp only [List.mem_cons, List.not_mem_nil, or_false] at hi
        rcases hi with rfl | rfl
        · exact build_plain hreg _ (int_nl _)
        · exact h i (by simp [hm])

theorem plain_mm {reg : Registry} (hreg : reg.oneLine) (xs : List Item) (hx : ∀ i ∈ xs, Plain i) :
    ∀ i ∈ (mainMerge reg).run xs, Plain i := by
  apply Pass.runFrom_all _ Plain MMPlain
  · intro st x hst hx
    have hpush : MMPlain (MMState.push st x) := by
      intro i hi
      simp only [MMState.push] at hi
      rw [← List.append_assoc] at hi
      rcases List.mem_append.1 hi with hi | hi
      · exact hst i hi
      · simp at hi; subst hi; exact hx
    have htake : ∀ q : MMState, MMPlain q → MMPlain (MMState.take q x) := by
      intro q hq i hi
      simp only [MMState.take, List.append_nil, List.mem_append, List.mem_singleton] at hi
      rcases hi with (hi | hi) | hi | hi
      · exact hq i (by simp [hi])
      · exact hq i (by simp [hi])
      · exact hq i (by simp [hi])
      · subst hi; exact hx
    by_cases hd : x.cls.isData = true
    · obtain ⟨q, o, hqo, hst'⟩ := mm_step_data reg st x hd
      have hq : MMPlain q ∧ ∀ i ∈ o, Plain i := by
        rcases hqo with ⟨rfl, rfl, -⟩ | ⟨rfl, rfl, -⟩
        · exact ⟨hst, by simp⟩
        · exact plain_flush hreg st hst
      rw [hst']
      split
      · have := plain_flush hreg _ (htake q hq.1)
        refine ⟨this.1, ?_⟩
        intro y hy
        rcases List.mem_append.1 hy with hy | hy
        · exact hq.2 y hy
        · exact this.2 y hy
      · exact ⟨htake q hq.1, hq.2⟩
    · cases hk : x.cls.kind with
      | loc => simp only [hk]; exact ⟨hpush, by simp⟩
      | global =>
        simp only [hk]
        split
        · exact plain_flush hreg _ hpush
        · split
          · exact ⟨hpush, by simp⟩
          · exact ⟨hpush, by simp⟩
      | main =>
        simp only [hk, hd, if_false, Bool.false_eq_true]
        exact plain_flush hreg _ hpush
  · intro st h; exact h
  · intro i hi; simp at hi
  · exact hx

theorem optimizer_plain {reg : Registry} (hreg : reg.oneLine) (min max : Int) (xs : List Item)
    (h : ∀ i ∈ xs, Plain i) : ∀ i ∈ (new reg min max Pass.sink).run xs, Plain i := by
  let Q : List Item → Prop := fun ys => ∀ i ∈ ys, Plain i
  have hall : ∀ p ys, Q ys → Q ((pass reg p).run ys) := by
    intro p ys hy
    cases p with
    | designatorUniq => exact keeps_du _ ys hy
    | globalMerge => exact keeps_gm _ ys hy
    | mainMerge => exact plain_mm hreg ys hy
    | physicalMerge => exact keeps_pm _ ys hy
    | designatorMerge => exact plain_rm hreg _ ys hy
    | stringMerge => exact plain_rm hreg _ ys hy
    | usageMerge => exact plain_rm hreg _ ys hy
    | usagePage => exact plain_up hreg ys hy
  rw [new_run]
  have hs := fun p {ys} hy => stage_pres reg min max p Q (hall p) (xs := ys) hy
  exact hs _ (hs _ (hs _ (hs _ (hs _ (hs _ (hs _ (hs _ h)))))))

/-! ## Descriptors -/

/-- Constants a token carries. -/
def Spec.tokVals : Tok → List PyVal
  | .enter k u => k :: u.toList
  | .leaf (.value v) => v.flags :: v.unit :: v.usage.toList ++
      (match v.namedArray with
        | some (.list l) => l
        | _ => [])
  | _ => []

namespace Streamer

theorem emit_plain {reg : Registry} (hreg : reg.oneLine) {cs : List (Cls × PyVal)} {is : List Item}
    (h : emit reg cs = .ok is) (hc : ∀ c ∈ cs, '\n' ∉ c.2.str) : ∀ i ∈ is, Plain i := by
  induction cs generalizing is with
  | nil => simp only [emit, Except.ok.injEq] at h; subst h; simp
  | cons c cs ih =>
    obtain ⟨c, v⟩ := c
    obtain ⟨i, t, rfl, hi, ht⟩ := emit_cons_ok h
    intro x hx
    rcases List.mem_cons.1 hx with rfl | hx
    · exact new_val_nl hreg (hc (c, v) (by simp)) hi
    · exact ih ht (fun y hy => hc y (by simp [hy])) x hx

theorem addPad_plain {reg : Registry} (hreg : reg.oneLine) {st st' : State} {w : Way} {pad : Int} {is : List Item}
    (h : addPad reg st w pad = .ok (st', is)) : ∀ i ∈ is, Plain i := by
  unfold addPad at h
  split at h
  · split at h
    · simp at h
    · rename_i a ha
      split at h
      · simp at h
      · split at h
        · simp at h
        · rename_i b hb
          simp only [Except.ok.injEq, Prod.mk.injEq] at h
          rw [← h.2]
          intro i hi
          rcases List.mem_append.1 hi with hi | hi
          · exact emit_plain hreg ha (by simp [int_nl]) i hi
          · exact emit_plain hreg hb (by simp [int_nl]) i hi
  · simp only [Except.ok.injEq, Prod.mk.injEq] at h
    rw [← h.2]; simp

theorem attr_plain {reg : Registry} (hreg : reg.oneLine) (v : Value) (named : Bool)
    (hv : ∀ x ∈ tokVals (.leaf (.value v)), '\n' ∉ x.str) : ∀ c ∈ attrCalls reg v named, '\n' ∉ c.2.str := by
  have hlog : '\n' ∉ tx "Logical" := by decide
  unfold attrCalls
  simp only [List.forall_mem_append]
  refine ⟨⟨⟨⟨?_, ?_⟩, ?_⟩, ?_⟩, ?_⟩
  · cases hu : v.usage with
    | none => simp
    | some u =>
      have := hv u (by simp [tokVals, hu])
      simp only
      split <;> simp [this]
  · split
    · rename_i arr harr
      simp only [List.forall_mem_append]
      refine ⟨⟨by simp [int_nl], ?_⟩, ?_⟩
      · split <;> simp [PyVal.str, hlog]
      · intro c hc
        obtain ⟨x, hx, rfl⟩ := List.mem_map.1 hc
        cases arr with
        | list l => exact hv x (by simp [tokVals, harr]; exact Or.inr (Or.inr (Or.inr hx)))
        | range r =>
          simp only [NamedArray.elems, UsageRange.iter, List.map_map, List.mem_map, Function.comp] at hx
          obtain ⟨k, -, rfl⟩ := hx
          exact lookup_nl hreg (int_nl k)
    · split <;> simp [orZero, int_nl]
  · simp [orZero, int_nl, hv v.unit (by simp [tokVals])]
  · split <;> simp [int_nl]
  · split <;> simp [int_nl]

theorem value_plain {reg : Registry} (hreg : reg.oneLine) {st st' : State} {v : Value} {is : List Item}
    (hv : ∀ x ∈ tokVals (.leaf (.value v)), '\n' ∉ x.str)
    (h : value reg st v = .ok (st', is)) : ∀ i ∈ is, Plain i := by
  unfold value at h
  split at h
  · simp at h
  · split at h
    · simp at h
    · rename_i st1 a ha
      split at h
      · simp at h
      · rename_i named hn
        simp only at h
        split at h
        · simp at h
        · rename_i b hb
          split at h
          · simp at h
          · split at h
            · simp at h
            · rename_i c hc
              simp only [Except.ok.injEq, Prod.mk.injEq] at h
              rw [← h.2]
              intro i hi
              rcases List.mem_append.1 hi with hi | hi
              · rcases List.mem_append.1 hi with hi | hi
                · exact addPad_plain hreg ha i hi
                · refine emit_plain hreg hb ?_ i hi
                  rw [List.forall_mem_append]
                  refine ⟨?_, by simp [int_nl]⟩
                  split
                  · simp
                  · exact attr_plain hreg v named hv
              · refine emit_plain hreg hc ?_ i hi
                rw [List.forall_mem_append]
                refine ⟨by simpa using hv v.flags (by simp [tokVals]), ?_⟩
                split <;> simp [int_nl]

theorem tok_plain {reg : Registry} (hreg : reg.oneLine) {st st' : State} {t : Tok} {is : List Item}
    (hv : ∀ x ∈ tokVals t, '\n' ∉ x.str) (h : tok reg st t = .ok (st', is)) : ∀ i ∈ is, Plain i := by
  cases t with
  | report id =>
    simp only [tok] at h
    split at h
    · simp at h
    · rename_i a ha
      simp only [Except.ok.injEq, Prod.mk.injEq] at h
      rw [← h.2]
      refine emit_plain hreg ha ?_
      split <;> simp [int_nl]
  | endReport =>
    simp only [tok, Except.ok.injEq, Prod.mk.injEq] at h
    rw [← h.2]; simp
  | enter k u =>
    cases u with
    | none => simp [tok] at h
    | some u =>
      simp only [tok] at h
      split at h
      · simp at h
      · rename_i a ha
        simp only [Except.ok.injEq, Prod.mk.injEq] at h
        rw [← h.2]
        refine emit_plain hreg ha ?_
        simp [hv k (by simp [tokVals]), hv u (by simp [tokVals])]
  | leave =>
    simp only [tok] at h
    split at h
    · simp at h
    · rename_i a ha
      simp only [Except.ok.injEq, Prod.mk.injEq] at h
      rw [← h.2]
      exact emit_plain hreg ha (by simp [int_nl])
  | leaf l =>
    cases l with
    | value v => exact value_plain hreg hv h
    | align w b =>
      simp only [tok] at h
      split at h
      · simp at h
      · exact addPad_plain hreg h
    | padding w s => exact addPad_plain hreg h

theorem toks_plain {reg : Registry} (hreg : reg.oneLine) {st st' : State} {ts : List Tok} {is : List Item}
    (hv : ∀ t ∈ ts, ∀ x ∈ tokVals t, '\n' ∉ x.str) (h : toks reg st ts = .ok (st', is)) : ∀ i ∈ is, Plain i := by
  induction ts generalizing st is with
  | nil => simp only [toks, Except.ok.injEq, Prod.mk.injEq] at h; rw [← h.2]; simp
  | cons t ts ih =>
    simp only [toks] at h
    split at h
    · simp at h
    · rename_i st1 a ha
      split at h
      · simp at h
      · rename_i st2 b hb
        simp only [Except.ok.injEq, Prod.mk.injEq] at h
        obtain ⟨rfl, rfl⟩ := h
        intro i hi
        rcases List.mem_append.1 hi with hi | hi
        · exact tok_plain hreg (hv t (by simp)) ha i hi
        · exact ih (fun t' h' => hv t' (by simp [h'])) hb i hi

theorem compile_plain {reg : Registry} (hreg : reg.oneLine) {n : Node} {items : List Item}
    (hv : ∀ t ∈ tokens n, ∀ x ∈ tokVals t, '\n' ∉ x.str) (h : compile reg n = .ok items) : ∀ i ∈ items, Plain i := by
  obtain ⟨st, hst⟩ := compile_toks h
  exact toks_plain hreg hv hst

end Streamer
end Hrdc
