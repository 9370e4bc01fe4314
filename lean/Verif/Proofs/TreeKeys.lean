import Verif.Proofs.Exact
/-!
# The item stream of a compiled tree, as tags and values
-/
namespace Hrdc
open Spec
namespace Streamer

/-- Items of `pad` bits of padding. -/
def padKeys (w : Way) (pad : Int) : List SItem :=
  if pad = 0 then [] else [(.reportCount, 1), (.reportSize, pad), (w.cls, 3)]

/-- The physical bounds sent for a value. -/
def physOf (v : Value) : Int × Int :=
  if arrayUsages v.namedArray ≠ [] ∨ (v.physicalMin = v.logicalMin ∧ v.physicalMax = v.logicalMax) then (0, 0)
  else (v.physicalMin.getD 0, v.physicalMax.getD 0)

/-- The value is put in a Logical collection. -/
def wrapped (v : Value) : Bool :=
  !constFlag v.flags && !(arrayUsages v.namedArray).isEmpty && (usageOf v.usage).isSome

/-- Items of a value following its usage, physical bounds and collection, up to its data item. -/
def fieldKeys (v : Value) : List SItem :=
  (arrayUsages v.namedArray).map (fun u => (.usage, u)) ++
  [(.logMin, v.logicalMin.getD 0), (.logMax, v.logicalMax.getD 0), (.unit, v.unit.toInt),
    (.unitExp, v.unitExponent)] ++
  (if v.designator = 0 then [] else [(.desigIndex, v.designator)]) ++
  (if v.string = 0 then [] else [(.strIndex, v.string)]) ++
  [(.reportCount, v.count), (.reportSize, v.size), (v.way.cls, v.flags.toInt)]

/-- Items of a value without its padding. -/
def valKeys (v : Value) : List SItem :=
  if constFlag v.flags then [(.reportCount, v.count), (.reportSize, v.size), (v.way.cls, v.flags.toInt)]
  else
    (usageOf v.usage).toList.map (fun u => (.usage, u)) ++
    [(.physMin, (physOf v).1), (.physMax, (physOf v).2)] ++
    (if wrapped v then [(.collection, 2)] else []) ++ fieldKeys v ++
    (if wrapped v then [(.endCollection, 0)] else [])

/-- Items of a leaf without its padding. -/
def ownKeys : Leaf → List SItem
  | .value v => valKeys v
  | .align _ _ => []
  | .padding _ _ => []

/-- Items of a leaf when `c` bits have been counted. -/
def leafKeys (c : Int) (l : Leaf) : List SItem := padKeys l.way (padBefore c l) ++ ownKeys l

/-- Items of a list of tokens. -/
def treeKeys (c : Count) (last : Int) : List Tok → List SItem
  | [] => []
  | .report i :: r => (if i = 0 then [] else [(.reportID, i)]) ++ treeKeys c i r
  | .endReport :: r => treeKeys c last r
  | .enter k u :: r => (.usage, (u.map PyVal.toInt).getD 0) :: (.collection, (wrapKind k).toInt) :: treeKeys c last r
  | .leave :: r => (.endCollection, 0) :: treeKeys c last r
  | .leaf l :: r => leafKeys (c l.way last) l ++ treeKeys (c.add last l) last r

/-- The items of a value. -/
theorem valueCalls_keys (reg : Registry) (v : Value) (named : Bool)
    (hn : truthOpt v.namedArray = .ok named) :
    ck (valueCalls reg v named ++
      (if named && !constFlag v.flags && usageGiven v.usage then [(.endCollection, .int 0)] else []))
      = valKeys v := by
  have hus := NamedArray.truth_eq hn
  unfold valKeys valueCalls
  by_cases hc : constFlag v.flags = true
  · simp [hc]
  · have hc' : constFlag v.flags = false := by simpa using hc
    simp only [hc', Bool.false_eq_true, if_false, Bool.not_false, Bool.and_true]
    have hopt : ∀ (c : Cls) (x : Int), ck (if x ≠ 0 then [(c, PyVal.int x)] else [])
        = if x = 0 then [] else [(c, x)] := by
      intro c x; by_cases h : x = 0 <;> simp [h]
    have huse : ck (match v.usage with
        | some u => if u.truthy then [(Cls.usage, u)] else []
        | none => []) = (usageOf v.usage).toList.map (fun u => (Cls.usage, u)) := by
      cases hu : v.usage with
      | none => rfl
      | some u => by_cases ht : u.truthy = true <;> simp [usageOf, ht]
    cases named with
    | false =>
      have he : arrayUsages v.namedArray = [] := by simpa using hus.symm
      have hw : wrapped v = false := by simp [wrapped, he]
      simp only [Bool.false_and, Bool.false_eq_true, if_false, List.append_nil, hw, attrCalls, fieldKeys, he,
        List.map_nil, List.nil_append]
      simp only [ck_append, huse, hopt, List.append_assoc]
      congr 1
      by_cases hp : v.physicalMin = v.logicalMin ∧ v.physicalMax = v.logicalMax
      · simp [physOf, hp]
      · simp [physOf, hp, he]
    | true =>
      have hne : arrayUsages v.namedArray ≠ [] := by
        intro h0; rw [h0] at hus; simp at hus
      cases harr : v.namedArray with
      | none => rw [harr] at hne; exact absurd rfl hne
      | some arr =>
        have hel : ck ((arr.elems reg).map (fun u => (Cls.usage, u)))
            = (arrayUsages v.namedArray).map (fun u => (Cls.usage, u)) := by
          rw [harr, ← NamedArray.elems_toInt reg arr]
          simp [ck]
        have hw : wrapped v = usageGiven v.usage := by
          rw [usageOf_given]; simp [wrapped, hc', hne]
        simp only [Bool.true_and, hw, attrCalls, harr, fieldKeys, physOf]
        rw [harr] at hel hne
        simp only [ck_append, huse, hopt, hel, List.append_assoc]
        congr 1
        by_cases hu : usageGiven v.usage = true
        · simp [hu, hne]
          rfl
        · simp [hu, hne]

theorem leaf_keys {reg : Registry} {st st' : State} {l : Leaf} {is : List Item} {c : Count}
    (hk : tok reg st (.leaf l) = .ok (st', is)) (h0 : 0 ≤ st.id) (hc : Same st c) :
    keys is = leafKeys (c l.way st.id) l := by
  cases l with
  | padding w s =>
    simp only [tok] at hk
    have hp := addPad_ok hk h0
    rw [hp.2.2.2.1]
    simp only [leafKeys, ownKeys, padKeys, padBefore, Leaf.way, List.append_nil]
    rfl
  | align w b =>
    simp only [tok] at hk
    split at hk
    · simp at hk
    · rename_i pad hpad
      have hp := addPad_ok hk h0
      have hpd := padFor_exact hpad h0 hc
      rw [hp.2.2.2.1, hpd]; simp only [leafKeys, ownKeys, padKeys, padBefore, Leaf.way, List.append_nil]
      rfl
  | value v =>
    simp only [tok] at hk
    obtain ⟨pad, st1, a, b, named, hpad, ha, rfl, hn, -, kb, -⟩ := value_ok hk h0
    have hp := addPad_ok ha h0
    have hpd := padFor_exact hpad h0 hc
    rw [keys_append, hp.2.2.2.1, kb, valueCalls_keys reg v named hn, hpd]
    simp only [leafKeys, ownKeys, padKeys, padBefore, Leaf.way]
    rfl

theorem toks_keys {reg : Registry} (ts : List Tok) (st st' : State) (c : Count) (is : List Item)
    (hk : toks reg st ts = .ok (st', is))
    (h0 : 0 ≤ st.id) (hc : Same st c) : keys is = treeKeys c st.id ts := by
  induction ts generalizing st c is with
  | nil => simp only [toks, Except.ok.injEq, Prod.mk.injEq] at hk; rw [← hk.2]; rfl
  | cons t ts ih =>
    simp only [toks] at hk
    split at hk
    · simp at hk
    · rename_i st1 a ha
      split at hk
      · simp at hk
      · rename_i st2 b hb
        simp only [Except.ok.injEq, Prod.mk.injEq] at hk
        obtain ⟨rfl, rfl⟩ := hk
        rw [keys_append]
        cases t with
        | report i =>
          simp only [tok] at ha
          split at ha
          · simp at ha
          · rename_i d hcc
            simp only [Except.ok.injEq, Prod.mk.injEq] at ha
            obtain ⟨rfl, rfl⟩ := ha
            have hkc := emit_keys hcc (by
              intro x hx; split at hx <;> simp at hx; subst hx; simp)
            have hi0 : 0 ≤ i := by
              by_cases hi : i = 0
              · omega
              · rw [if_pos hi] at hcc
                obtain ⟨j, t', rfl, hj, -⟩ := emit_cons_ok hcc
                have := (new_cls hj).2
                rw [new_ival hj (by simp)] at this
                simpa [Cls.signed] using this
            rw [treeKeys, hkc, ih _ c b hb hi0 hc]
            by_cases hi : i = 0 <;> simp [hi]
        | endReport =>
          simp only [tok, Except.ok.injEq, Prod.mk.injEq] at ha
          obtain ⟨rfl, rfl⟩ := ha
          rw [treeKeys, ih st c b hb h0 hc]
          rfl
        | enter k u =>
          cases u with
          | none => simp [tok] at ha
          | some u =>
            simp only [tok] at ha
            split at ha
            · simp at ha
            · rename_i d hcc
              simp only [Except.ok.injEq, Prod.mk.injEq] at ha
              obtain ⟨rfl, rfl⟩ := ha
              obtain ⟨hcc, hk0⟩ := emit_wrap hcc
              rw [emit_keys hcc (by simp [hk0]), treeKeys, ih st c b hb h0 hc]
              rfl
        | leave =>
          simp only [tok] at ha
          split at ha
          · simp at ha
          · rename_i d hcc
            simp only [Except.ok.injEq, Prod.mk.injEq] at ha
            obtain ⟨rfl, rfl⟩ := ha
            rw [emit_keys hcc (by simp), treeKeys, ih st c b hb h0 hc]
            rfl
        | leaf l =>
          obtain ⟨-, -, -, e4, e5, -⟩ := leaf_exact (h := {}) .atUsage ha h0 hc ⟨rfl, rfl, rfl, rfl⟩
          rw [treeKeys, leaf_keys ha h0 hc, ih st1 _ b hb (by rw [e4]; exact h0) e5, e4]

/-- The items of a compiled tree. -/
theorem compile_keys {reg : Registry} {n : Node} {items : List Item}
    (h : compile reg n = .ok items) :
    keys items = treeKeys (fun _ _ => 0) 0 (tokens n) := by
  obtain ⟨st, hst⟩ := compile_toks h
  exact toks_keys (tokens n) {} st _ items hst (by decide) (fun _ _ _ _ => rfl)

end Streamer
end Hrdc
