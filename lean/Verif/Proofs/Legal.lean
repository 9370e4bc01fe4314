import Verif.Spec.Legal
import Verif.Proofs.Compile2
import Verif.Props.Encoding
/-!
# Compilation succeeds on legal descriptors only
-/
namespace Hrdc
open Spec
namespace Streamer

theorem emit_ok_iff (reg : Registry) (cs : List (Cls × PyVal)) :
    (∃ is, emit reg cs = .ok is) ↔ ∀ p ∈ cs, ∃ i, Item.new reg p.1 p.2 = .ok i := by
  induction cs with
  | nil => simp [emit]
  | cons p cs ih =>
    obtain ⟨c, v⟩ := p
    simp only [emit, List.mem_cons, forall_eq_or_imp]
    rw [← ih]
    cases hn : Item.new reg c v with
    | error e => simp
    | ok i =>
      cases he : emit reg cs with
      | error e => simp
      | ok is => simp

/-- Calls with a legal value. -/
def callLegal (p : Cls × PyVal) : Prop :=
  (Spec.isSigned p.1 ∨ 0 ≤ keptValue p.1 p.2) ∧ (p.1 = .endCollection ∨ p.1 = .push ∨ p.1 = .pop → p.2.toInt = 0)

theorem emit_legal (reg : Registry) (cs : List (Cls × PyVal)) :
    (∃ is, emit reg cs = .ok is) ↔ ∀ p ∈ cs, callLegal p := by
  rw [emit_ok_iff]
  exact forall_congr' fun p => imp_congr_right fun _ => (C05_construct reg p.1 p.2).1

theorem kept_of_ne {c : Cls} (h : c ≠ .collection) (v : PyVal) : keptValue c v = v.toInt := by
  cases v with
  | int k => simp [keptValue, h, PyVal.toInt]
  | named => rfl
  | usage => rfl

theorem call_unsigned {c : Cls} (v : PyVal) (h : c ≠ .collection ∧ ¬ Spec.isSigned c ∧ c ≠ .endCollection ∧
    c ≠ .push ∧ c ≠ .pop) : callLegal (c, v) ↔ 0 ≤ v.toInt := by
  simp [callLegal, kept_of_ne h.1, h.2]

theorem call_signed {c : Cls} (v : PyVal) (h : Spec.isSigned c) : callLegal (c, v) ↔ True := by
  have : ¬ (c = .endCollection ∨ c = .push ∨ c = .pop) := by
    rintro (rfl | rfl | rfl) <;> simp [Spec.isSigned] at h
  simp [callLegal, h, this]

theorem call_coll (k : PyVal) : callLegal (.collection, k) ↔ 0 ≤ keptValue .collection k := by
  simp [callLegal, Spec.isSigned]

theorem call_end : callLegal (.endCollection, .int 0) ↔ True := by
  simp [callLegal, Spec.isSigned, keptValue, PyVal.toInt]

theorem call_way (w : Way) (v : PyVal) : callLegal (w.cls, v) ↔ 0 ≤ v.toInt :=
  call_unsigned v (by cases w <;> simp [Way.cls, Spec.isSigned])

theorem call_logical : callLegal (.collection, .named (tx "Logical") 2) ↔ True := by
  simp [callLegal, Spec.isSigned, keptValue, PyVal.toInt]

theorem slot_ok (st : State) (h0 : 0 ≤ st.id) : (∃ k, slot st = .ok k) ↔ st.id < 256 := by
  unfold slot
  split
  · simp; omega
  · split
    · omega
    · simp; omega

theorem bump_legal (st : State) (w : Way) (n : Int) (h0 : 0 ≤ st.id) :
    (∃ st', bump st w n = .ok st') ↔ st.id < 256 := by
  rw [← slot_ok st h0]
  unfold bump
  cases slot st <;> simp

theorem bump_id {st st' : State} {w : Way} {n : Int} (h : bump st w n = .ok st') : st'.id = st.id := by
  unfold bump at h
  split at h
  · simp at h
  · cases h; rfl

theorem addPad_legal (reg : Registry) (st : State) (w : Way) (pad : Int) (h0 : 0 ≤ st.id) :
    ((∃ p, addPad reg st w pad = .ok p) ↔ pad = 0 ∨ (0 < pad ∧ st.id < 256)) ∧
    ∀ p, addPad reg st w pad = .ok p → p.1.id = st.id := by
  unfold addPad
  by_cases hp : pad = 0
  · simp [hp]
  · rw [if_pos hp]
    have h1 := emit_legal reg [(.reportCount, .int 1), (.reportSize, .int pad)]
    have h2 := bump_legal st w pad h0
    have h3 := emit_legal reg [(w.cls, .int 3)]
    simp only [List.mem_cons, List.not_mem_nil, or_false, forall_eq_or_imp, forall_eq] at h1 h3
    rw [call_unsigned _ (by simp [Spec.isSigned]), call_unsigned _ (by simp [Spec.isSigned])] at h1
    rw [call_way] at h3
    simp only [PyVal.toInt] at h1 h3
    cases he : emit reg [(.reportCount, .int 1), (.reportSize, .int pad)] with
    | error e =>
      rw [he] at h1
      simp at h1
      simp [hp]
      omega
    | ok a =>
      rw [he] at h1
      simp only [Except.ok.injEq, exists_eq', true_iff] at h1
      cases hb : bump st w pad with
      | error e =>
        rw [hb] at h2
        simp at h2
        simp [hp]
        omega
      | ok st' =>
        rw [hb] at h2
        simp only [Except.ok.injEq, exists_eq', true_iff] at h2
        cases hw : emit reg [(w.cls, .int 3)] with
        | error e => rw [hw] at h3; simp at h3
        | ok b =>
          simp only [Except.ok.injEq, exists_eq', true_iff, forall_eq']
          exact ⟨Or.inr ⟨by omega, h2⟩, bump_id hb⟩

theorem padFor_legal (st : State) (w : Way) (a : Int) (h0 : 0 ≤ st.id) :
    ((∃ p, padFor st w a 0 = .ok p) ↔ a ≤ 1 ∨ st.id < 256) ∧ ∀ p, padFor st w a 0 = .ok p → 0 ≤ p := by
  unfold padFor
  by_cases ha : a > 1
  · rw [if_pos ha]
    have hs := slot_ok st h0
    cases hk : slot st with
    | error e =>
      rw [hk] at hs
      simp at hs
      simp
      omega
    | ok k =>
      rw [hk] at hs
      simp at hs
      simp only [Except.ok.injEq, exists_eq', true_iff, forall_eq']
      refine ⟨Or.inr hs, ?_⟩
      have := Int.emod_lt_of_pos (st.size w k) (show 0 < a by omega)
      split <;> omega
  · rw [if_neg ha]
    simp
    omega

theorem array_legal (o : Option NamedArray) : (∃ b, truthOpt o = .ok b) ↔ arrayLegal o = true := by
  cases o with
  | none => simp [truthOpt, arrayLegal]
  | some a =>
    cases a with
    | list l => simp [truthOpt, arrayLegal, NamedArray.truth, NamedArray.len]
    | range r =>
      simp only [truthOpt, arrayLegal, NamedArray.truth, NamedArray.len, UsageRange.len, UsageRange.rawLen,
        decide_eq_true_eq]
      by_cases h : r.max.toInt - r.min.toInt + 1 < 0
      · simp only [h, if_true]
        simp; omega
      · simp only [h, if_false]
        simp; omega

theorem attr_legal (reg : Registry) (v : Value) (named : Bool) (hn : truthOpt v.namedArray = .ok named) :
    (∀ p ∈ attrCalls reg v named, callLegal p) ↔
      (∀ u ∈ (usageOf v.usage).toList ++ arrayUsages v.namedArray, 0 ≤ u) ∧ 0 ≤ v.unit.toInt ∧
        0 ≤ v.designator ∧ 0 ≤ v.string := by
  have hus := NamedArray.truth_eq hn
  have htail : (∀ p ∈ [(Cls.logMin, orZero v.logicalMin), (.logMax, orZero v.logicalMax),
      (.unit, v.unit), (.unitExp, .int v.unitExponent)], callLegal p) ↔ 0 ≤ v.unit.toInt := by
    simp only [List.mem_cons, List.not_mem_nil, or_false, forall_eq_or_imp, forall_eq]
    rw [call_signed _ (by simp [Spec.isSigned]), call_signed _ (by simp [Spec.isSigned]),
      call_unsigned _ (by simp [Spec.isSigned]), call_signed _ (by simp [Spec.isSigned])]
    simp
  have hopt : ∀ (c : Cls) (x : Int), (c = .desigIndex ∨ c = .strIndex) →
      ((∀ p ∈ (if x ≠ 0 then [(c, PyVal.int x)] else []), callLegal p) ↔ 0 ≤ x) := by
    intro c x hc
    by_cases hx : x = 0
    · simp [hx]
    · rw [if_pos hx]
      simp only [List.mem_cons, List.not_mem_nil, or_false, forall_eq]
      rw [call_unsigned _ (by rcases hc with rfl | rfl <;> simp [Spec.isSigned])]
      rfl
  have hs1 : ∀ x, callLegal (.physMin, x) := fun x => (call_signed x (by simp [Spec.isSigned])).2 trivial
  have hs2 : ∀ x, callLegal (.physMax, x) := fun x => (call_signed x (by simp [Spec.isSigned])).2 trivial
  unfold attrCalls
  simp only [List.forall_mem_append]
  refine Iff.trans (and_congr (and_congr (and_congr (and_congr (c := ∀ u ∈ (usageOf v.usage).toList, 0 ≤ u)
    (d := ∀ u ∈ arrayUsages v.namedArray, 0 ≤ u) ?_ ?_) htail)
    (hopt _ _ (.inl rfl))) (hopt _ _ (.inr rfl))) ?_
  · cases hu : v.usage with
    | none => simp [usageOf]
    | some u =>
      have := call_unsigned (c := .usage) u (by simp [Spec.isSigned])
      by_cases ht : u.truthy = true
      · simp [usageOf, ht, this]
      · simp [usageOf, ht]
  · cases named with
    | false =>
      rw [show arrayUsages v.namedArray = [] by simpa using hus.symm]
      simp only [List.not_mem_nil, false_implies, implies_true, iff_true]
      intro p hp
      split at hp <;> simp at hp <;> rcases hp with rfl | rfl <;> first | exact hs1 _ | exact hs2 _
    | true =>
      cases harr : v.namedArray with
      | none => rw [harr] at hus; simp [arrayUsages] at hus
      | some arr =>
        have hel := NamedArray.elems_toInt reg arr
        simp only
        rw [← hel]
        constructor
        · intro h u hu
          obtain ⟨x, hx, rfl⟩ := List.mem_map.1 hu
          have := h (.usage, x) (by
            apply List.mem_append_right
            exact List.mem_map.2 ⟨x, hx, rfl⟩)
          rwa [call_unsigned x (by simp [Spec.isSigned])] at this
        · intro h p hp
          simp only [List.mem_append, List.mem_map, List.mem_cons, List.not_mem_nil, or_false] at hp
          rcases hp with ((rfl | rfl) | hp) | ⟨x, hx, rfl⟩
          · exact hs1 _
          · exact hs2 _
          · split at hp
            · simp at hp; subst hp; exact call_logical.2 trivial
            · simp at hp
          · rw [call_unsigned x (by simp [Spec.isSigned])]
            exact h _ (List.mem_map.2 ⟨x, hx, rfl⟩)
  · simp only [and_assoc]

theorem value_legal (reg : Registry) (st : State) (v : Value) (h0 : 0 ≤ st.id) :
    ((∃ p, value reg st v = .ok p) ↔ st.id < 256 ∧ valueLegal v = true) ∧
    ∀ p, value reg st v = .ok p → p.1.id = st.id := by
  have hL : valueLegal v = true ↔ arrayLegal v.namedArray = true ∧ 0 ≤ v.size ∧ 0 ≤ v.count ∧ 0 ≤ v.flags.toInt ∧
      (constFlag v.flags = true ∨ ((∀ u ∈ (usageOf v.usage).toList ++ arrayUsages v.namedArray, 0 ≤ u) ∧
        0 ≤ v.unit.toInt ∧ 0 ≤ v.designator ∧ 0 ≤ v.string)) := by
    simp only [valueLegal, Bool.and_eq_true, Bool.or_eq_true, decide_eq_true_eq, List.all_eq_true, constFlag, and_assoc]
  unfold value
  have hpf := padFor_legal st v.way v.alignment h0
  cases hp : padFor st v.way v.alignment 0 with
  | error e =>
    rw [hp] at hpf
    simp at hpf
    simp
    omega
  | ok pad =>
    rw [hp] at hpf
    simp only [Except.ok.injEq, exists_eq', true_iff, forall_eq'] at hpf
    have hap := addPad_legal reg st v.way pad h0
    simp only
    cases ha : addPad reg st v.way pad with
    | error e =>
      rw [ha] at hap
      simp at hap
      simp
      intro h
      exfalso
      omega
    | ok q =>
      obtain ⟨st1, a⟩ := q
      have hid : st1.id = st.id := hap.2 _ ha
      simp only
      have hta := array_legal v.namedArray
      cases ht : truthOpt v.namedArray with
      | error e =>
        rw [ht] at hta
        simp at hta
        simp [hL, hta]
      | ok named =>
        rw [ht] at hta
        simp only [Except.ok.injEq, exists_eq', true_iff] at hta
        simp only
        have he1 := emit_legal reg ((if constFlag v.flags then [] else attrCalls reg v named) ++
            [(.reportCount, .int v.count), (.reportSize, .int v.size)])
        have hat := attr_legal reg v named ht
        have hc1 : (∀ p ∈ (if constFlag v.flags then [] else attrCalls reg v named) ++
            [(Cls.reportCount, PyVal.int v.count), (.reportSize, .int v.size)], callLegal p) ↔
            (constFlag v.flags = true ∨ ((∀ u ∈ (usageOf v.usage).toList ++ arrayUsages v.namedArray, 0 ≤ u) ∧
              0 ≤ v.unit.toInt ∧ 0 ≤ v.designator ∧ 0 ≤ v.string)) ∧ 0 ≤ v.count ∧ 0 ≤ v.size := by
          rw [List.forall_mem_append]
          refine and_congr ?_ ?_
          · by_cases hc : constFlag v.flags = true
            · simp [hc]
            · simp only [hc, if_false, Bool.false_eq_true, false_or]
              exact hat
          · simp only [List.mem_cons, List.not_mem_nil, or_false, forall_eq_or_imp, forall_eq]
            rw [call_unsigned _ (by simp [Spec.isSigned]), call_unsigned _ (by simp [Spec.isSigned])]
            rfl
        rw [hc1] at he1
        generalize hcs : ((if constFlag v.flags then [] else attrCalls reg v named) ++
            [(Cls.reportCount, PyVal.int v.count), (.reportSize, .int v.size)]) = cs at he1 ⊢
        cases hem : emit reg cs with
        | error e =>
          rw [hem] at he1
          simp only [reduceCtorEq, exists_false, false_iff] at he1
          simp only [reduceCtorEq, exists_false, false_iff, false_implies, implies_true, and_true]
          rw [hL]
          intro ⟨_, _, h2, h3, _, h5⟩
          exact he1 ⟨h5, h3, h2⟩
        | ok b =>
          rw [hem] at he1
          simp only [Except.ok.injEq, exists_eq', true_iff] at he1
          simp only
          have hb := bump_legal st1 v.way v.size (by rw [hid]; exact h0)
          cases hbu : bump st1 v.way v.size with
          | error e =>
            rw [hbu] at hb
            simp at hb
            simp only [reduceCtorEq, exists_false, false_iff, false_implies, implies_true, and_true]
            intro h
            omega
          | ok st2 =>
            rw [hbu] at hb
            simp only [Except.ok.injEq, exists_eq', true_iff] at hb
            simp only
            have he2 := emit_legal reg ([(v.way.cls, v.flags)] ++
                (if named && !constFlag v.flags && usageGiven v.usage then [(.endCollection, .int 0)] else []))
            have hc2 : (∀ p ∈ [(v.way.cls, v.flags)] ++
                (if named && !constFlag v.flags && usageGiven v.usage then [(Cls.endCollection, PyVal.int 0)] else []),
                callLegal p) ↔ 0 ≤ v.flags.toInt := by
              rw [List.forall_mem_append]
              simp only [List.mem_cons, List.not_mem_nil, or_false, forall_eq]
              rw [call_way]
              refine and_iff_left ?_
              intro p hp
              split at hp
              · simp at hp; subst hp; exact call_end.2 trivial
              · simp at hp
            rw [hc2] at he2
            generalize hds : ([(v.way.cls, v.flags)] ++
                (if named && !constFlag v.flags && usageGiven v.usage then [(Cls.endCollection, PyVal.int 0)] else [])) = ds
              at he2 ⊢
            cases hem2 : emit reg ds with
            | error e =>
              rw [hem2] at he2
              simp only [reduceCtorEq, exists_false, false_iff] at he2
              simp only [reduceCtorEq, exists_false, false_iff, false_implies, implies_true, and_true]
              rw [hL]
              intro ⟨_, _, _, _, h4, _⟩
              exact he2 h4
            | ok c =>
              rw [hem2] at he2
              simp only [Except.ok.injEq, exists_eq', true_iff] at he2
              simp only [Except.ok.injEq, exists_eq', true_iff, forall_eq']
              refine ⟨⟨by omega, ?_⟩, ?_⟩
              · rw [hL]; exact ⟨hta, he1.2.2, he1.2.1, he2, he1.1⟩
              · rw [bump_id hbu, hid]

theorem toks_legal (reg : Registry) (ts : List Tok) (st : State) (h0 : 0 ≤ st.id) :
    (∃ p, toks reg st ts = .ok p) ↔ legal st.id ts = true := by
  induction ts generalizing st with
  | nil => simp [toks, legal]
  | cons t ts ih =>
    have hstep : ∀ (Q : Prop) (id : Int), ((∃ p, tok reg st t = .ok p) ↔ Q) →
        (∀ p, tok reg st t = .ok p → p.1.id = id ∧ 0 ≤ id) →
        ((∃ p, toks reg st (t :: ts) = .ok p) ↔ Q ∧ legal id ts = true) := by
      intro Q id hQ hid
      simp only [toks]
      cases ht : tok reg st t with
      | error e =>
        rw [ht] at hQ
        simp at hQ
        simp [hQ]
      | ok q =>
        obtain ⟨st1, a⟩ := q
        rw [ht] at hQ
        simp only [Except.ok.injEq, exists_eq', true_iff] at hQ
        obtain ⟨e1, e2⟩ := hid _ ht
        have := ih st1 (by rw [e1]; exact e2)
        simp only at e1
        rw [e1] at this
        rw [← this]
        simp only
        cases toks reg st1 ts with
        | error e => simp
        | ok p => simp [hQ]
    cases t with
    | report i =>
      have he := emit_legal reg (if i ≠ 0 then [(.reportID, .int i)] else [])
      have hc : (∀ p ∈ (if i ≠ 0 then [(Cls.reportID, PyVal.int i)] else []), callLegal p) ↔ 0 ≤ i := by
        by_cases hi : i = 0
        · simp [hi]
        · rw [if_pos hi]
          simp only [List.mem_cons, List.not_mem_nil, or_false, forall_eq]
          rw [call_unsigned _ (by simp [Spec.isSigned])]
          rfl
      rw [hc] at he
      have := hstep (0 ≤ i) i (by
        rw [← he]
        simp only [tok]
        cases emit reg (if i ≠ 0 then [(.reportID, .int i)] else []) <;> simp) (by
        intro p hp
        simp only [tok] at hp
        cases hem : emit reg (if i ≠ 0 then [(.reportID, .int i)] else []) with
        | error e => rw [hem] at hp; simp at hp
        | ok a =>
          rw [hem] at hp
          simp only [Except.ok.injEq] at hp
          subst hp
          exact ⟨rfl, he.1 ⟨a, hem⟩⟩)
      rw [this]
      simp [legal]
    | endReport =>
      have := hstep True st.id (by simp [tok]) (by intro p hp; simp [tok] at hp; subst hp; exact ⟨rfl, h0⟩)
      rw [this]
      simp [legal]
    | enter k u =>
      cases u with
      | none =>
        have := hstep False st.id (by simp [tok]) (by intro p hp; simp [tok] at hp)
        rw [this]
        simp [legal]
      | some u =>
        have he := emit_legal reg [(.usage, u), (.collection, k)]
        simp only [List.mem_cons, List.not_mem_nil, or_false, forall_eq_or_imp, forall_eq] at he
        rw [call_unsigned _ (by simp [Spec.isSigned]), call_coll] at he
        have := hstep (0 ≤ u.toInt ∧ 0 ≤ keptValue .collection k) st.id (by
          rw [← he]
          simp only [tok]
          cases emit reg [(.usage, u), (.collection, k)] <;> simp) (by
          intro p hp
          simp only [tok] at hp
          cases hem : emit reg [(.usage, u), (.collection, k)] with
          | error e => rw [hem] at hp; simp at hp
          | ok a => rw [hem] at hp; simp only [Except.ok.injEq] at hp; subst hp; exact ⟨rfl, h0⟩)
        rw [this]
        simp [legal, and_assoc]
    | leave =>
      have he := emit_legal reg [(.endCollection, .int 0)]
      simp only [List.mem_cons, List.not_mem_nil, or_false, forall_eq] at he
      rw [call_end] at he
      have := hstep True st.id (by
        rw [← he]
        simp only [tok]
        cases emit reg [(.endCollection, .int 0)] <;> simp) (by
        intro p hp
        simp only [tok] at hp
        cases hem : emit reg [(.endCollection, .int 0)] with
        | error e => rw [hem] at hp; simp at hp
        | ok a => rw [hem] at hp; simp only [Except.ok.injEq] at hp; subst hp; exact ⟨rfl, h0⟩)
      rw [this]
      simp [legal]
    | leaf l =>
      cases l with
      | value v =>
        have hv := value_legal reg st v h0
        have := hstep _ st.id (by simp only [tok]; exact hv.1) (fun p hp => ⟨hv.2 p hp, h0⟩)
        rw [this]
        simp [legal]
      | align w b =>
        have hpf := padFor_legal st w b h0
        have := hstep (b ≤ 1 ∨ st.id < 256) st.id (by
          rw [← hpf.1]
          simp only [tok]
          cases hp : padFor st w b 0 with
          | error e => simp
          | ok pad =>
            have h1 := hpf.2 pad hp
            have h2 := hpf.1.1 ⟨pad, hp⟩
            have hap := (addPad_legal reg st w pad h0).1
            simp only [Except.ok.injEq, exists_eq', iff_true]
            rw [hap]
            rcases h2 with h2 | h2
            · left
              unfold padFor at hp
              rw [if_neg (by omega)] at hp
              simpa using hp.symm
            · omega) (by
          intro p hp
          simp only [tok] at hp
          cases hpad : padFor st w b 0 with
          | error e => rw [hpad] at hp; simp at hp
          | ok pad => rw [hpad] at hp; exact ⟨(addPad_legal reg st w pad h0).2 p hp, h0⟩)
        rw [this]
        simp [legal]
      | padding w s =>
        have hap := addPad_legal reg st w s h0
        have := hstep _ st.id (by simp only [tok]; exact hap.1) (fun p hp => ⟨hap.2 p hp, h0⟩)
        rw [this]
        simp [legal]

end Streamer

end Hrdc
