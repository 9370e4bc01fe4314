import Verif.Proofs.Compile2
import Verif.Proofs.Wrap
/-!
# What the compiler's output describes, exactly, for every tree

`Proofs.Compile2` shows that compiled trees mean what `Spec.Descriptor` says, for trees outside the
compiler's defects.  Here every tree is covered, at the price of a description that follows the
code: fields of named arrays that have a usage, the sizes the streamer counts, the report in force.
-/
namespace Hrdc
open Spec
namespace Streamer

/-- Usages declared for the data item of a value. -/
def fieldUsages (v : Value) : List Int :=
  if arrayUsages v.namedArray = [] then (usageOf v.usage).toList else arrayUsages v.namedArray

/-- Attributes of a compiled value. -/
def exactAttrs (v : Value) : Attrs :=
  if arrayUsages v.namedArray ≠ [] ∨ (v.physicalMin = v.logicalMin ∧ v.physicalMax = v.logicalMax) ∨
      (v.physicalMin.getD 0 = 0 ∧ v.physicalMax.getD 0 = 0) then
    { attrsOf v with physMin := v.logicalMin.getD 0, physMax := v.logicalMax.getD 0 }
  else attrsOf v

/-- The fields of a compiled value that is not constant. -/
def exactFields (id : Int) (v : Value) : List Event :=
  (List.range v.count.toNat).map (fun k => .control v.way.cls v.flags.toInt id (exactAttrs v)
    (if bitSet v.flags.toInt 1 then [selectorOf v (pick (fieldUsages v) k)]
     else (fieldUsages v).map (fun u => selectorOf v (some u))))

/-- What the items of a value describe. -/
def exactEvents (id : Int) (v : Value) : List Event :=
  if constFlag v.flags then
    List.replicate (v.size.toNat * v.count.toNat) (.padBit v.way.cls id)
  else if arrayUsages v.namedArray = [] then exactFields id v
  else match usageOf v.usage with
    | some u => .enter 2 ⟨some u, 0, 0⟩ :: exactFields id v ++ [.leave]
    | none => exactFields id v

theorem array_tail_after (rule : PageRule) (reg : Registry) (h : Host) (hc : Clean h) (v : Value)
    (arr : NamedArray) (ha : v.namedArray = some arr) :
    h.after rule (ck ((arr.elems reg).map (fun u => (Cls.usage, u)) ++ attrTail v)) =
      attrHost h (arrayUsages v.namedArray) (h.g .physMin) (h.g .physMax) v := by
  obtain ⟨g, stack, usages, strings, desigs⟩ := h
  obtain ⟨h1, h2, h3, h4⟩ := hc
  simp only at h1 h2 h3 h4
  subst h1 h2 h3
  have hk : ck ((arr.elems reg).map (fun u => (Cls.usage, u)))
      = (arr.elems reg).map (fun u => (Cls.usage, u.toInt)) := by
    simp [ck]
  rw [ck_append, after_append, hk, after_usages _ _ h4]
  rw [attrTail_after rule _ v (arrayUsages v.namedArray) (g .physMin) (g .physMax) rfl rfl _ rfl rfl]
  · rfl
  · rw [ha, ← NamedArray.elems_toInt reg arr, List.map_map]
    rfl

theorem array_tail_no_main (reg : Registry) (v : Value) (arr : NamedArray) :
    ∀ i ∈ ck ((arr.elems reg).map (fun u => (Cls.usage, u)) ++ attrTail v), i.1.kind ≠ .main := by
  intro i hi
  obtain ⟨c, hc, rfl⟩ := List.mem_map.1 hi
  have hopt : ∀ (p : Prop) [Decidable p] (x : Cls × PyVal), c ∈ (if p then [x] else []) → c = x := by
    intro p _ x hx; split at hx <;> simp_all
  simp only [attrTail, List.mem_append] at hc
  rcases hc with hc | (hc | hc) | hc
  · obtain ⟨u, -, rfl⟩ := List.mem_map.1 hc
    simp [Cls.kind]
  · simp at hc; rcases hc with rfl | rfl | rfl | rfl <;> simp [Cls.kind]
  · rw [hopt _ _ hc]; simp [Cls.kind]
  · rw [hopt _ _ hc]; simp [Cls.kind]

/-- The fields of a data item met in state `attrHost`. -/
theorem fields_exact (rule : PageRule) (h : Host) (hp : h.g .usagePage = 0) (v : Value) (pm px : Int)
    (hconst : constFlag v.flags = false)
    (hphys : (pm = 0 ∧ px = 0 ∧ exactAttrs v =
        { attrsOf v with physMin := v.logicalMin.getD 0, physMax := v.logicalMax.getD 0 }) ∨
      (¬ (pm = 0 ∧ px = 0) ∧ pm = v.physicalMin.getD 0 ∧ px = v.physicalMax.getD 0 ∧
        exactAttrs v = attrsOf v)) :
    eventsFrom rule (attrHost h (fieldUsages v) pm px v)
      [(.reportCount, v.count), (.reportSize, v.size), (v.way.cls, v.flags.toInt)]
      = exactFields (h.g .reportID) v := by
  rw [tail_events]
  obtain ⟨g', hg, g1, g2, g3, g4, g5, g6, g7, g8, g9⟩ := attrHost_main rule h hp (fieldUsages v) pm px v
  have hb : bitSet v.flags.toInt 0 = false := hconst
  rw [hg, data_events _ v.way rfl]
  rw [show (MainRec.mk v.way.cls v.flags.toInt g' (fieldUsages v) (if v.string ≠ 0 then [v.string] else [])
      (if v.designator ≠ 0 then [v.designator] else [])).isConst = false by
    simp only [MainRec.isConst]; rw [← bitSet_zero]; exact hb]
  simp only [Bool.false_eq_true, if_false, g2, g3]
  unfold exactFields
  apply List.map_congr_left
  intro k _
  have ha : (MainRec.mk v.way.cls v.flags.toInt g' (fieldUsages v) (if v.string ≠ 0 then [v.string] else [])
      (if v.designator ≠ 0 then [v.designator] else [])).attrs = exactAttrs v := by
    simp only [MainRec.attrs, g1, g4, g5, g6, g7, g8, g9]
    rcases hphys with ⟨h1, h2, h3⟩ | ⟨h0, h1, h2, h3⟩
    · rw [h3, h1, h2]; simp [attrsOf]
    · rw [h3, if_neg h0, if_neg h0, h1, h2]; rfl
  have hw : (MainRec.mk v.way.cls v.flags.toInt g' (fieldUsages v) (if v.string ≠ 0 then [v.string] else [])
      (if v.designator ≠ 0 then [v.designator] else [])).what k =
      if bitSet v.flags.toInt 1 then [selectorOf v (pick (fieldUsages v) k)]
        else (fieldUsages v).map (fun u => selectorOf v (some u)) := by
    simp only [MainRec.what, MainRec.isVar, ← bitSet_one, what_selector]
    split
    · rfl
    · exact range_selectors v _
  rw [ha, hw]

/-- The items of any value in a clean host state. -/
theorem value_exact (rule : PageRule) (reg : Registry) (v : Value) (named : Bool)
    (hn : truthOpt v.namedArray = .ok named) (h : Host) (hc : Clean h) :
    let ks := ck (valueCalls reg v named ++
      (if named && !constFlag v.flags && usageGiven v.usage then [(.endCollection, .int 0)] else []))
    eventsFrom rule h ks = exactEvents (h.g .reportID) v ∧ Clean (h.after rule ks) ∧
      (h.after rule ks).g .reportID = h.g .reportID := by
  intro ks
  have hus := NamedArray.truth_eq hn
  have htail : ck [(Cls.reportCount, .int v.count), (.reportSize, .int v.size), (v.way.cls, v.flags)]
      = [(.reportCount, v.count), (.reportSize, v.size), (v.way.cls, v.flags.toInt)] := rfl
  by_cases hconst : constFlag v.flags = true
  · have hks : ks = [(.reportCount, v.count), (.reportSize, v.size), (v.way.cls, v.flags.toInt)] := by
      simp only [ks, valueCalls, hconst, if_true, List.nil_append]
      simp
    rw [hks, tail_events, tail_after]
    refine ⟨?_, ⟨rfl, rfl, rfl, by simpa using hc.2.2.2⟩, by simp⟩
    rw [data_events _ v.way rfl]
    have h1 : (Host.main rule { h with g := fun c => if c = .reportSize then v.size else
          if c = .reportCount then v.count else h.g c } (v.way.cls, v.flags.toInt)).isConst = true := by
      simp only [MainRec.isConst, Host.main]
      rw [← bitSet_zero]; exact hconst
    simp only [h1, if_true, exactEvents, hconst]
    rfl
  · have hconst' : constFlag v.flags = false := by simpa using hconst
    cases named with
    | false =>
      have he : arrayUsages v.namedArray = [] := by simpa using hus.symm
      have hks : ks = ck (attrCalls reg v false) ++
          [(.reportCount, v.count), (.reportSize, v.size), (v.way.cls, v.flags.toInt)] := by
        simp [ks, valueCalls, hconst']
      have hfu : fieldUsages v = (usageOf v.usage).toList := by simp [fieldUsages, he]
      rw [hks, eventsFrom_append, eventsFrom_no_main _ _ _ (attr_no_main reg v false (by simp)),
        List.nil_append, after_append, attr_after_plain rule reg h hc v, ← hfu, tail_after]
      refine ⟨?_, ⟨rfl, rfl, rfl, by simpa [attrHost] using hc.2.2.2⟩, by simp [attrHost]⟩
      rw [fields_exact rule h hc.2.2.2 v _ _ hconst']
      · simp [exactEvents, hconst', he]
      · unfold exactAttrs
        by_cases hp : v.physicalMin = v.logicalMin ∧ v.physicalMax = v.logicalMax
        · left; simp [hp]
        · by_cases hz : v.physicalMin.getD 0 = 0 ∧ v.physicalMax.getD 0 = 0
          · left; simp [hp, hz]
          · right
            simp only [if_neg hp, he, ne_eq, not_true_eq_false, false_or]
            exact ⟨hz, trivial, trivial, by rw [if_neg (by simp only [hp, hz]; simp)]⟩
    | true =>
      have hne : arrayUsages v.namedArray ≠ [] := by
        intro h0; rw [h0] at hus; simp at hus
      have hfu : fieldUsages v = arrayUsages v.namedArray := by simp [fieldUsages, hne]
      cases harr : v.namedArray with
      | none => rw [harr] at hn; simp [truthOpt] at hn
      | some arr =>
        by_cases hu : usageGiven v.usage = true
        · -- with a Logical collection
          cases huo : v.usage with
          | none => rw [huo] at hu; simp [usageGiven] at hu
          | some u =>
            have hut : u.truthy = true := by rw [huo] at hu; exact hu
            have huo' : usageOf v.usage = some u.toInt := by rw [huo]; simp [usageOf, hut]
            have hks : ks = [(.usage, u.toInt), (.physMin, 0), (.physMax, 0), (.collection, 2)] ++
                (ck ((arr.elems reg).map (fun u => (Cls.usage, u)) ++ attrTail v) ++
                ([(.reportCount, v.count), (.reportSize, v.size), (v.way.cls, v.flags.toInt)] ++
                [(.endCollection, 0)])) := by
              have e : attrCalls reg v true = [(.usage, u), (.physMin, .int 0), (.physMax, .int 0),
                  (.collection, .named (tx "Logical") 2)] ++
                  ((arr.elems reg).map (fun u => (Cls.usage, u)) ++ attrTail v) := by
                unfold attrCalls attrTail
                rw [harr, huo]
                simp [usageGiven, hut]
              simp only [ks, valueCalls, hconst', Bool.false_eq_true, if_false, hu, e]
              simp only [Bool.not_false, Bool.and_self, if_true, ck_append, List.append_assoc]
              rfl
            let h1 : Host := ⟨fun c => if c = .physMax then 0 else if c = .physMin then 0 else h.g c,
              h.stack, {}, {}, {}⟩
            have hcl1 : Clean h1 := ⟨rfl, rfl, rfl, hc.2.2.2⟩
            obtain ⟨c1, c2, c3, c4⟩ := hc
            have hev1 : eventsFrom rule h [(.usage, u.toInt), (.physMin, 0), (.physMax, 0), (.collection, 2)]
                = [.enter 2 ⟨some u.toInt, 0, 0⟩] := by
              rw [eventsFrom_cons_of_not_main _ _ _ _ (by simp [Cls.kind]),
                eventsFrom_cons_of_not_main _ _ _ _ (by simp [Cls.kind]),
                eventsFrom_cons_of_not_main _ _ _ _ (by simp [Cls.kind]),
                eventsFrom_cons_main _ _ _ _ (by simp [Cls.kind])]
              simp [Host.step, Host.main, MainRec.events, MainRec.selector, c1, c2, c3, c4,
                Decl.one, declare_zero, consume_zero, Decl.values, upTo_self, pick]
            have haf1 : h.after rule [(.usage, u.toInt), (.physMin, 0), (.physMax, 0), (.collection, 2)]
                = h1 := by
              simp only [after_cons, after_nil, Host.step, h1]
            rw [hks, eventsFrom_append, hev1, after_append, haf1, eventsFrom_append,
              eventsFrom_no_main _ _ _ (array_tail_no_main reg v arr), List.nil_append, after_append,
              array_tail_after rule reg h1 hcl1 v arr harr, eventsFrom_append, after_append, ← hfu,
              tail_after]
            refine ⟨?_, ⟨rfl, rfl, rfl, by simpa [attrHost, h1, Host.step] using c4⟩, by simp [attrHost, h1, Host.step]⟩
            rw [fields_exact rule h1 hcl1.2.2.2 v _ _ hconst']
            · have hl : eventsFrom rule ⟨fun c => if c = .reportSize then v.size else
                  if c = .reportCount then v.count else
                  (attrHost h1 (fieldUsages v) (h1.g .physMin) (h1.g .physMax) v).g c,
                  (attrHost h1 (fieldUsages v) (h1.g .physMin) (h1.g .physMax) v).stack, {}, {}, {}⟩
                  [(.endCollection, 0)] = [.leave] := by
                rw [eventsFrom_cons_main _ _ _ _ (by simp [Cls.kind])]
                simp [Host.main, MainRec.events]
              rw [hl]
              simp only [exactEvents, hconst', Bool.false_eq_true, if_false, hne, huo']
              rfl
            · left; simp [h1, exactAttrs, hne]
        · have hu' : usageGiven v.usage = false := by simpa using hu
          have hks : ks = ck (attrCalls reg v true) ++
              [(.reportCount, v.count), (.reportSize, v.size), (v.way.cls, v.flags.toInt)] := by
            simp [ks, valueCalls, hconst', hu']
          rw [hks, eventsFrom_append, eventsFrom_no_main _ _ _ (attr_no_main reg v true (fun _ => hu')),
            List.nil_append, after_append, attr_after_array rule reg h hc v arr harr hu', ← hfu, tail_after]
          refine ⟨?_, ⟨rfl, rfl, rfl, by simpa [attrHost] using hc.2.2.2⟩, by simp [attrHost]⟩
          rw [fields_exact rule h hc.2.2.2 v _ _ hconst']
          · have huo : usageOf v.usage = none := by
              rw [usageOf_given] at hu'
              simpa using hu'
            simp only [exactEvents, hconst', Bool.false_eq_true, if_false, hne, huo]
          · left; simp [exactAttrs, hne]

/-! ## Whole trees -/

/-- Bits the streamer has counted, by direction and report. -/
abbrev Count := Way → Int → Int

/-- Bits of padding in front of a leaf when `c` bits have been counted. -/
def padBefore (c : Int) : Leaf → Int
  | .value v => if v.alignment > 1 then (-c) % v.alignment else 0
  | .align _ b => if b > 1 then (-c) % b else 0
  | .padding _ s => s

/-- What the streamer counts for a leaf: one field of a value. -/
def ownBits : Leaf → Int
  | .value v => v.size
  | _ => 0

/-- What a leaf compiles to, without its padding. -/
def ownEvents (id : Int) : Leaf → List Event
  | .value v => exactEvents id v
  | _ => []

/-- What a leaf compiles to in report `id` when `c` bits have been counted. -/
def exactLeaf (id c : Int) (l : Leaf) : List Event :=
  List.replicate (padBefore c l).toNat (.padBit l.way.cls id) ++ ownEvents id l

/-- Counts after a leaf. -/
def Count.add (c : Count) (id : Int) (l : Leaf) : Count := fun w i =>
  if w = l.way ∧ i = id then c w i + padBefore (c w i) l + ownBits l else c w i

/-- What a list of tokens compiles to.  `last` is the report entered last, under which bits are
counted; `lastNZ` the last one other than 0, under which a host puts the fields. -/
def exact (c : Count) (last lastNZ : Int) : List Tok → List Event
  | [] => []
  | .report i :: r => exact c i (if i = 0 then lastNZ else i) r
  | .endReport :: r => exact c last lastNZ r
  | .enter k u :: r => .enter (wrapKind k).toInt ⟨u.map PyVal.toInt, 0, 0⟩ :: exact c last lastNZ r
  | .leave :: r => .leave :: exact c last lastNZ r
  | .leaf l :: r => exactLeaf lastNZ (c l.way last) l ++ exact (c.add last l) last lastNZ r

/-- State and counts agree on the reports there are. -/
def Same (st : State) (c : Count) : Prop := ∀ w (k : Int), 0 ≤ k → k < 256 → st.size w k.toNat = c w k

theorem neg_emod (c a : Int) (ha : a > 1) : (if c % a ≠ 0 then a - c % a else 0) = (-c) % a := by
  rw [Int.neg_emod]
  by_cases h : c % a = 0
  · simp [h, Int.dvd_iff_emod_eq_zero]
  · rw [if_pos h, if_neg (by rw [Int.dvd_iff_emod_eq_zero]; exact h)]
    omega

theorem same_add {st st' : State} {c : Count} {l : Leaf} {n : Int} (hc : Same st c) (h0 : 0 ≤ st.id)
    (hs : ∀ w k, st'.size w k = st.plus l.way n w k)
    (hn : n = padBefore (c l.way st.id) l + ownBits l) : Same st' (c.add st.id l) := by
  intro w k hk0 hk
  rw [hs]
  simp only [Count.add, State.plus]
  by_cases h : w = l.way ∧ k = st.id
  · obtain ⟨rfl, rfl⟩ := h
    simp only [true_and, if_true, hc _ _ hk0 hk, hn]
    omega
  · rw [if_neg h, if_neg (by intro hh; apply h; refine ⟨hh.1, by omega⟩), hc _ _ hk0 hk]
    simp

theorem padFor_exact {st : State} {w : Way} {a d pad : Int} {c : Count}
    (h : padFor st w a d = .ok pad) (h0 : 0 ≤ st.id) (hc : Same st c) :
    pad = if a > 1 then (-(c w st.id)) % a else d := by
  unfold padFor at h
  split at h
  · rename_i ha
    split at h
    · simp at h
    · rename_i k hk
      obtain ⟨rfl, hlt⟩ := slot_nonneg hk h0
      simp only [Except.ok.injEq] at h
      rw [if_pos ha, ← h, hc w st.id h0 hlt]
      exact neg_emod _ _ ha
  · rename_i ha
    simp only [Except.ok.injEq] at h
    rw [if_neg ha, h]

theorem leaf_exact {reg : Registry} {st st' : State} {l : Leaf} {is : List Item} {c : Count}
    (rule : PageRule) {h : Host} (hk : tok reg st (.leaf l) = .ok (st', is)) (h0 : 0 ≤ st.id)
    (hc : Same st c) (hcl : Clean h) :
    eventsFrom rule h (keys is) = exactLeaf (h.g .reportID) (c l.way st.id) l ∧
    Clean (h.after rule (keys is)) ∧ (h.after rule (keys is)).g .reportID = h.g .reportID ∧
    st'.id = st.id ∧ Same st' (c.add st.id l) ∧ 0 ≤ padBefore (c l.way st.id) l ∧
    (∀ v, l = .value v → 0 ≤ v.size ∧ 0 ≤ v.count) := by
  cases l with
  | padding w s =>
    simp only [tok] at hk
    have hp := addPad_ok hk h0
    have he := pad_events rule h hcl w s hp.1
    rw [hp.2.2.2.1]
    refine ⟨?_, he.2.1, he.2.2, hp.2.1, ?_, hp.1, by simp⟩
    · rw [he.1]; simp [exactLeaf, ownEvents, padBefore, Leaf.way]
    · exact same_add hc h0 hp.2.2.1 (by simp [padBefore, ownBits])
  | align w b =>
    simp only [tok] at hk
    split at hk
    · simp at hk
    · rename_i pad hpad
      have hp := addPad_ok hk h0
      have he := pad_events rule h hcl w pad hp.1
      have hpd := padFor_exact hpad h0 hc
      rw [hp.2.2.2.1]
      refine ⟨?_, he.2.1, he.2.2, hp.2.1, ?_, ?_, by simp⟩
      · rw [he.1, hpd]; simp [exactLeaf, ownEvents, padBefore, Leaf.way]
      · exact same_add hc h0 hp.2.2.1 (by simp [padBefore, ownBits, hpd, Leaf.way])
      · simp only [padBefore, Leaf.way]; rw [← hpd]; exact hp.1
  | value v =>
    simp only [tok] at hk
    obtain ⟨pad, st1, a, b, named, hpad, ha, rfl, hn, -, kb, hs0, hc0, hid', hlt, hsz⟩ := value_ok hk h0
    have hp := addPad_ok ha h0
    have he := pad_events rule h hcl v.way pad hp.1
    have hpd := padFor_exact hpad h0 hc
    obtain ⟨e1, e2, e3⟩ := value_exact rule reg v named hn
      (h.after rule (if pad = 0 then [] else [(.reportCount, 1), (.reportSize, pad), (v.way.cls, 3)])) he.2.1
    rw [keys_append, hp.2.2.2.1, kb, eventsFrom_append, after_append]
    refine ⟨?_, e2, ?_, hid', ?_, ?_, ?_⟩
    · rw [he.1, e1, he.2.2, hpd]; simp [exactLeaf, ownEvents, padBefore, Leaf.way]
    · rw [e3, he.2.2]
    · exact same_add hc h0 hsz (by simp [padBefore, ownBits, hpd, Leaf.way])
    · simp only [padBefore, Leaf.way]; rw [← hpd]; exact hp.1
    · intro v' hv'; cases hv'; exact ⟨hs0, hc0⟩

/-- Counts after a list of tokens, with the reports entered last. -/
def countAfter (c : Count) (last lastNZ : Int) : List Tok → Count × Int × Int
  | [] => (c, last, lastNZ)
  | .report i :: r => countAfter c i (if i = 0 then lastNZ else i) r
  | .leaf l :: r => countAfter (c.add last l) last lastNZ r
  | _ :: r => countAfter c last lastNZ r

theorem exact_append (c : Count) (last lastNZ : Int) (xs ys : List Tok) :
    exact c last lastNZ (xs ++ ys) = exact c last lastNZ xs ++
      exact (countAfter c last lastNZ xs).1 (countAfter c last lastNZ xs).2.1
        (countAfter c last lastNZ xs).2.2 ys := by
  induction xs generalizing c last lastNZ with
  | nil => rfl
  | cons x xs ih => cases x <;> simp [exact, countAfter, ih]

/-- Facts about all leaves met: paddings, sizes and counts are not negative. -/
def Sane (c : Count) (last : Int) : List Tok → Prop
  | [] => True
  | .report i :: r => Sane c i r
  | .endReport :: r => Sane c last r
  | .enter _ _ :: r => Sane c last r
  | .leave :: r => Sane c last r
  | .leaf l :: r => 0 ≤ padBefore (c l.way last) l ∧ (∀ v, l = .value v → 0 ≤ v.size ∧ 0 ≤ v.count) ∧
      Sane (c.add last l) last r

theorem toks_exact {reg : Registry} (rule : PageRule) (ts : List Tok) (lastNZ : Int)
    (st st' : State) (c : Count) (h : Host) (is : List Item) (hk : toks reg st ts = .ok (st', is))
    (h0 : 0 ≤ st.id) (hz : h.g .reportID = lastNZ) (hcl : Clean h) (hc : Same st c) :
    eventsFrom rule h (keys is) = exact c st.id lastNZ ts ∧ Sane c st.id ts := by
  induction ts generalizing lastNZ st c h is with
  | nil => simp only [toks, Except.ok.injEq, Prod.mk.injEq] at hk; rw [← hk.2]; exact ⟨rfl, trivial⟩
  | cons t ts ih =>
    simp only [toks] at hk
    split at hk
    · simp at hk
    · rename_i st1 a ha
      split at hk
      · simp at hk
      · rename_i st2 b hb
        simp only [Except.ok.injEq, Prod.mk.injEq] at hk
        obtain ⟨rfl, rfl⟩ := hk
        rw [keys_append, eventsFrom_append]
        cases t with
        | report i =>
          simp only [tok] at ha
          split at ha
          · simp at ha
          · rename_i d hcc
            simp only [Except.ok.injEq, Prod.mk.injEq] at ha
            obtain ⟨rfl, rfl⟩ := ha
            have hkc := emit_keys hcc (by
              intro x hx; split at hx <;> simp at hx; subst hx; simp)
            have hi0 : 0 ≤ i := by
              by_cases hi : i = 0
              · omega
              · rw [if_pos hi] at hcc
                obtain ⟨j, t', rfl, hj, -⟩ := emit_cons_ok hcc
                have := (new_cls hj).2
                rw [new_ival hj (by simp)] at this
                simpa [Cls.signed] using this
            rw [exact, Sane, hkc]
            have hev : eventsFrom rule h (ck (if i ≠ 0 then [(Cls.reportID, PyVal.int i)] else [])) = [] := by
              apply eventsFrom_no_main
              intro x hx; split at hx <;> simp at hx; subst hx; simp [Cls.kind]
            rw [hev, List.nil_append]
            refine ih (if i = 0 then lastNZ else i) _ c _ b hb hi0 ?_ ?_ hc
            · by_cases hi : i = 0
              · simp [hi, hz]
              · simp [hi, Host.step]
            · by_cases hi : i = 0
              · simpa [hi] using hcl
              · simp only [hi, ne_eq, not_false_eq_true, if_true, ck_cons, ck_nil, after_cons, after_nil]
                exact ⟨hcl.1, hcl.2.1, hcl.2.2.1, hcl.2.2.2⟩
        | endReport =>
          simp only [tok, Except.ok.injEq, Prod.mk.injEq] at ha
          obtain ⟨rfl, rfl⟩ := ha
          rw [exact, Sane]
          simp only [keys_nil, eventsFrom_nil, List.nil_append, after_nil]
          exact ih lastNZ st c h b hb h0 hz hcl hc
        | enter k u =>
          cases u with
          | none => simp [tok] at ha
          | some u =>
            simp only [tok] at ha
            split at ha
            · simp at ha
            · rename_i d hcc
              simp only [Except.ok.injEq, Prod.mk.injEq] at ha
              obtain ⟨rfl, rfl⟩ := ha
              obtain ⟨hcc, hk0⟩ := emit_wrap hcc
              rw [emit_keys hcc (by simp [hk0])]
              rw [exact, Sane]
              have : eventsFrom rule h (ck [(Cls.usage, u), (Cls.collection, wrapKind k)])
                  = [.enter (wrapKind k).toInt ⟨some u.toInt, 0, 0⟩] := by
                obtain ⟨c1, c2, c3, c4⟩ := hcl
                simp only [ck_cons, ck_nil]
                rw [eventsFrom_cons_of_not_main _ _ _ _ (by simp [Cls.kind]),
                  eventsFrom_cons_main _ _ _ _ (by simp [Cls.kind])]
                simp [Host.step, Host.main, MainRec.events, MainRec.selector, c1, c2, c3, c4,
                  Decl.one, declare_zero, consume_zero, Decl.values, upTo_self, pick]
              rw [this]
              have := ih lastNZ st c (h.after rule (ck [(Cls.usage, u), (Cls.collection, wrapKind k)])) b hb h0
                hz ⟨rfl, rfl, rfl, hcl.2.2.2⟩ hc
              refine ⟨?_, this.2⟩
              rw [this.1]
              rfl
        | leave =>
          simp only [tok] at ha
          split at ha
          · simp at ha
          · rename_i d hcc
            simp only [Except.ok.injEq, Prod.mk.injEq] at ha
            obtain ⟨rfl, rfl⟩ := ha
            rw [emit_keys hcc (by simp)]
            rw [exact, Sane]
            have : eventsFrom rule h (ck [(Cls.endCollection, PyVal.int 0)]) = [.leave] := by
              simp only [ck_cons, ck_nil]
              rw [eventsFrom_cons_main _ _ _ _ (by simp [Cls.kind])]
              simp [Host.main, MainRec.events]
            rw [this]
            have := ih lastNZ st c (h.after rule (ck [(Cls.endCollection, PyVal.int 0)])) b hb h0
              hz ⟨rfl, rfl, rfl, hcl.2.2.2⟩ hc
            refine ⟨?_, this.2⟩
            rw [this.1]
            rfl
        | leaf l =>
          obtain ⟨e1, e2, e3, e4, e5, e6, e7⟩ := leaf_exact rule ha h0 hc hcl
          rw [exact, Sane, e1, hz]
          have := ih lastNZ st1 _ _ b hb (by rw [e4]; exact h0) (by rw [e3]; exact hz) e2 e5
          rw [e4] at this
          exact ⟨by rw [this.1], e6, e7, this.2⟩

/-- What a compiled tree describes, for every tree that compiles. -/
theorem compile_exact {reg : Registry} (rule : PageRule) {n : Node} {items : List Item}
    (h : compile reg n = .ok items) :
    meaning rule (keys items) = exact (fun _ _ => 0) 0 0 (tokens n) ∧
      Sane (fun _ _ => 0) 0 (tokens n) := by
  obtain ⟨st, hst⟩ := compile_toks h
  exact toks_exact rule (tokens n) 0 {} st _ {} items hst (by decide) rfl ⟨rfl, rfl, rfl, rfl⟩
    (fun _ _ _ _ => rfl)

end Streamer
end Hrdc
