import Verif.Props.Decompile
import Verif.Props.Commands
import Verif.Props.Naming
import Verif.Proofs.Extract4
/-!
# Property C67: messages among the script
-/
namespace Hrdc
open Spec

/-- Specification: the numbers are consecutive. -/
def Spec.consecutive (us : List Int) : Bool := us == upTo (us.headD 0) (us.headD 0 + us.length - 1)

/-- Specification: the line printed for a main item.  Arrays with flags 0 that list one usage for each logical
value are expected to list consecutive ones, at least two. -/
def Spec.MainRec.message (r : MainRec) : Text :=
  if r.cls.isData && !r.isConst && r.val == 0 && r.full then
    if r.usages.length < 2 then tx "Cannot create range from array with less than 2 elements\n"
    else if consecutive r.usages then []
    else tx "Noncontiguous values\n"
  else []

namespace Extractor

theorem fromArray_iff (arr : List PyVal) : (∃ ur, UsageRange.fromArray arr = .ok ur) ↔
    2 ≤ (arr.map PyVal.toInt).length ∧ consecutive (arr.map PyVal.toInt) = true := by
  constructor
  · rintro ⟨ur, h⟩
    have h1 := (C48_from_array [] arr).1.1 ⟨ur, h⟩
    refine ⟨by simpa using h1.1, ?_⟩
    have h2 := range_upTo [] h
    rw [← h2]
    unfold consecutive
    have hpos : (ur.max.toInt - ur.min.toInt + 1).toNat ≠ 0 := by
      intro h0
      have : (upTo ur.min.toInt ur.max.toInt).length = 0 := by simp [upTo, h0]
      rw [h2] at this
      simp at this
      rw [this] at h1
      simp at h1
    have hlen : (upTo ur.min.toInt ur.max.toInt).length = (ur.max.toInt - ur.min.toInt + 1).toNat := by simp [upTo]
    have hhead : (upTo ur.min.toInt ur.max.toInt).headD 0 = ur.min.toInt := by
      unfold upTo
      obtain ⟨k, hk⟩ := Nat.exists_eq_succ_of_ne_zero hpos
      rw [hk, List.range_succ_eq_map]
      simp
    rw [hlen, hhead]
    have : ur.min.toInt + ((ur.max.toInt - ur.min.toInt + 1).toNat : Int) - 1 = ur.max.toInt := by omega
    rw [this]
    simp
  · rintro ⟨h1, h2⟩
    refine (C48_from_array [] arr).1.2 ⟨by simpa using h1, ?_⟩
    intro k hk
    simp only [consecutive, beq_iff_eq] at h2
    have hg : ∀ j, (hj : j < arr.length) → arr[j].toInt = (arr.map PyVal.toInt).headD 0 + (j : Int) := by
      intro j hj
      have hj' : j < (arr.map PyVal.toInt).length := by simpa using hj
      have : (arr.map PyVal.toInt)[j]'hj' = arr[j].toInt := by simp
      rw [← this]
      have h3 := congrArg (fun l => l[j]?) h2
      simp only [upTo, List.getElem?_eq_getElem hj'] at h3
      rw [List.getElem?_map] at h3
      have hj2 : j < ((arr.map PyVal.toInt).headD 0 + ((arr.map PyVal.toInt).length : Int) - 1
          - (arr.map PyVal.toInt).headD 0 + 1).toNat := by omega
      rw [List.getElem?_eq_getElem (by simpa using hj2)] at h3
      simpa using h3
    rw [hg (k + 1) hk, hg k (by omega)]
    omega

/-- What is printed for a data item of a stream a decompiler can be expected to read. -/
theorem says_message (reg : Registry) {r : MainRec} {st : State} {ops : List (Int × Bool)}
    (A : AtMain r st ops) {i : Item} (hd : i.cls.isData = true) (hr : r.cls = i.cls) (hv : r.val = i.ival)
    (hok : dataOK (ops.head?.map (·.1)) r = true) : st.says reg i = r.message := by
  have hnum : ∀ c, st.num c = r.g c := A.g
  have hbit0 : bitSet i.ival 0 = r.isConst := by rw [bitSet_zero, MainRec.isConst, hv]
  unfold State.says MainRec.message
  rw [hbit0]
  cases hconst : r.isConst with
  | true => simp
  | false =>
    simp only [dataOK, hconst, Bool.false_or, Bool.and_eq_true] at hok
    obtain ⟨hok1, -⟩ := hok
    have hlen : (st.usages.length : Int) = r.usages.length := by rw [A.usages]; simp
    have hfull : ((st.usages.length : Int) = st.num .logMax - st.num .logMin + 1) ↔ r.full = true := by
      simp [MainRec.full, hnum, hlen]
    have htest : st.namedTest reg i = .ok false := by
      unfold State.namedTest
      split
      · rename_i hc
        rw [hnum, hfull] at hc
        simp only [hc.1, hc.2, BEq.rfl, Bool.and_self, Bool.not_true, Bool.false_or] at hok1
        have hlev := A.levels
        cases ops with
        | nil => simp at hok1
        | cons o ops =>
          obtain ⟨k, b⟩ := o
          simp only [Corr] at hlev
          obtain ⟨⟨k', u, hh, rfl⟩, -, -⟩ := hlev
          simp at hok1
          unfold inArrayCollection
          rw [hh]
          simp only
          rw [if_neg, if_neg hok1.1]
          rintro ⟨h1, h2⟩
          rcases hok1.2 with h | h
          · exact h h2
          · exact h (by rw [hv]; exact h1)
      · rfl
    rw [htest]
    simp only [Bool.false_eq_true, if_false, Bool.not_false, Bool.and_true]
    have hdr : r.cls.isData = true := by rw [hr]; exact hd
    by_cases ha : r.val = 0 ∧ r.full = true
    · rw [if_pos ⟨by rw [← hv]; exact ha.1, hfull.2 ha.2⟩, if_pos (by simp [hdr, ha])]
      have he := array_elems reg A
      have hi := fromArray_iff ((List.range st.usages.length).filterMap (st.usage reg))
      rw [he] at hi
      have hl : ((List.range st.usages.length).filterMap (st.usage reg)).length = r.usages.length := by
        rw [← he]; simp
      cases hf : UsageRange.fromArray ((List.range st.usages.length).filterMap (st.usage reg)) with
      | ok ur =>
        have := hi.1 ⟨ur, hf⟩
        simp only
        rw [if_neg (by omega), if_pos this.2]
      | error e =>
        simp only [rangeMessage, hl]
        have hno : ¬ (2 ≤ r.usages.length ∧ consecutive r.usages = true) := by
          intro h
          obtain ⟨ur, hu⟩ := hi.2 h
          rw [hf] at hu
          simp at hu
        by_cases h2 : r.usages.length < 2
        · rw [if_pos h2, if_pos h2]; decide +kernel
        · rw [if_neg h2, if_neg h2, if_neg (fun h => hno ⟨by omega, h⟩)]; decide +kernel
    · rw [if_neg (by rintro ⟨h1, h2⟩; exact ha ⟨by rw [hv]; exact h1, hfull.1 h2⟩)]
      rw [if_neg (by simp only [hdr, Bool.true_and, Bool.and_eq_true, beq_iff_eq]; exact ha)]

theorem dataOK_of_walk {ops o : List (Int × Bool)} {r : MainRec} (hd : r.cls.isData = true)
    (hw : walkStep ops r = some o) : dataOK (ops.head?.map (·.1)) r = true := by
  unfold walkStep at hw
  split at hw
  · rename_i hc; rw [hc] at hd; simp [Cls.isData] at hd
  · rename_i hc; rw [hc] at hd; simp [Cls.isData] at hd
  · split at hw
    · assumption
    · simp at hw

theorem trace_sim (reg : Registry) (rest : Text) (xs : List Item) (hm : ∀ i ∈ xs, i.Made)
    (hp : ∀ i ∈ xs, i.cls ≠ .push ∧ i.cls ≠ .pop) :
    ∀ (h : Host) (st : State) (ops ops' : List (Int × Bool)) (mu ms md : Met), Sim h st ops mu ms md →
      Ranges mu ms md (keys xs) → walk ops (recs .atMain h (keys xs)) = some ops' →
      (trace reg rest st xs).1 = (recs .atMain h (keys xs)).flatMap MainRec.message := by
  induction xs with
  | nil => intro h st ops ops' mu ms md S R hw; rfl
  | cons i xs ih =>
    intro h st ops ops' mu ms md S R hw
    have ih' := ih (fun j hj => hm j (by simp [hj])) (fun j hj => hp j (by simp [hj]))
    rw [keys_cons] at R hw ⊢
    rw [recs_cons] at hw ⊢
    by_cases hk : i.cls.kind = .main
    · have hk' : i.key.1.kind = .main := hk
      rw [if_pos hk'] at hw ⊢
      simp only [List.cons_append, List.nil_append] at hw ⊢
      rw [walk] at hw
      split at hw
      · simp at hw
      rename_i ops1 hw1
      obtain ⟨st1, -, h1, h2, -⟩ := step_main reg S hk (hm i (by simp)) hw1 (fun _ => True) trivial (fun _ _ _ => trivial)
      rw [trace, h1]
      simp only [List.flatMap_cons]
      rw [ih' _ st1 ops1 ops' {} {} {} h2 (ranges_main R hk') hw]
      congr 1
      unfold stepSays
      split
      · rename_i hd
        refine says_message reg (sim_main S i.key) hd rfl rfl ?_
        exact dataOK_of_walk hd hw1
      · rename_i hd
        have hcls : (h.main .atMain i.key).cls = i.cls := rfl
        unfold MainRec.message
        rw [if_neg (by rw [hcls]; simp [hd])]
    · have hk' : ¬ i.key.1.kind = .main := hk
      rw [if_neg hk'] at hw ⊢
      simp only [List.nil_append] at hw ⊢
      obtain ⟨st1, mu1, ms1, md1, h1, h2, h3, -⟩ := sim_other reg S R hk (hm i (by simp)) (hp i (by simp))
      rw [trace, h1]
      simp only
      rw [ih' _ st1 ops ops' mu1 ms1 md1 h2 h3 hw]
      have : stepSays reg st i = [] := by
        unfold stepSays
        rw [if_neg]
        intro hd
        obtain ⟨c, v⟩ := i
        cases c <;> simp [Cls.isData, Cls.kind] at hd hk
      rw [this, List.nil_append]

theorem says_nil (reg : Registry) (st : State) (i : Item) (h : i.ival ≠ 0) : st.says reg i = [] := by
  unfold State.says
  split
  · rfl
  · split
    · rw [if_neg (by rintro ⟨h0, -⟩; exact h h0)]
    · rfl

theorem trace_quiet (reg : Registry) (rest : Text) (xs : List Item) (hx : ∀ i ∈ xs, i.cls.isData = true → i.ival ≠ 0) :
    ∀ st, (∃ s, runFrom reg st xs = .ok s) → (trace reg rest st xs).1 = [] := by
  induction xs with
  | nil => intro st _; rfl
  | cons i xs ih =>
    intro st hs
    rw [trace]
    rw [runFrom] at hs
    cases he : step reg st i with
    | error e => rw [he] at hs; simp at hs
    | ok st' =>
      rw [he] at hs
      simp only
      rw [ih (fun j hj => hx j (by simp [hj])) st' hs, List.append_nil]
      unfold stepSays
      split
      · rename_i hd
        exact says_nil reg _ i (hx i (by simp) hd)
      · rfl

end Extractor

open Extractor

/-- What the command prints is what the extractor does. -/
theorem decompile_printed (reg : Registry) (uni : Parser.Uni) (decode : List UInt8 → Option Text) (rest : Text)
    (f : Formatter.Fmt) (c : Command.Channel) (content : List UInt8) (d : Formatter.Doc)
    (hd : Command.input decode c f content = .ok d) :
    (Command.decompile reg uni decode rest (fmtName f) c content).printed =
      (trace reg rest {} (Formatter.deliver f reg uni d).1).1 := by
  unfold Command.decompile
  simp only [name_ok, hd]
  split
  · rfl
  · rfl
  · split <;> rfl

/-- **C67 (partial).** On standard output too the script is all there is, when nothing raises and no data item of
the input has the value 0 (an array with all other flags 0). -/
theorem C67_quiet_partial (reg : Registry) (uni : Parser.Uni) (decode : List UInt8 → Option Text) (rest : Text)
    (f : Formatter.Fmt) (c : Command.Channel) (content : List UInt8) (d : Formatter.Doc)
    (hd : Command.input decode c f content = .ok d)
    (hx : ∀ i ∈ (Formatter.deliver f reg uni d).1, i.cls.isData = true → i.ival ≠ 0)
    (he : (Command.decompile reg uni decode rest (fmtName f) c content).err = none) :
    let r := Command.decompile reg uni decode rest (fmtName f) c content
    r.output .std = r.output .file := by
  intro r
  have : r.printed = [] := by
    simp only [r, decompile_printed reg uni decode rest f c content d hd]
    refine trace_quiet reg rest _ hx {} ?_
    unfold Command.decompile at he
    simp only [name_ok, hd, trace_snd] at he
    cases hr : runFrom reg {} (Formatter.deliver f reg uni d).1 with
    | error e => rw [hr] at he; simp at he
    | ok st => exact ⟨st, rfl⟩
  simp only [Command.Decompiled.output, this, List.nil_append]

/-- **C67 (partial), exact.** On documents a decompiler can be expected to read, standard output is a line for each
array of usages that are not at least two and consecutive, and the script after them. -/
theorem C67_messages_partial (reg : Registry) (uni : Parser.Uni) (decode : List UInt8 → Option Text) (rest : Text)
    (f : Formatter.Fmt) (c : Command.Channel) (content : List UInt8) (d : Formatter.Doc) (xs : List Item)
    (hi : Command.input decode c f content = .ok d) (hd : Formatter.deliver f reg uni d = (xs, none))
    (he : Extractable (keys xs)) :
    let r := Command.decompile reg uni decode rest (fmtName f) c content
    r.err = none ∧ r.output .std = (recs .atMain {} (keys xs)).flatMap MainRec.message ++ r.output .file ∧
      (r.output .std = r.output .file ↔ ∀ m ∈ recs .atMain {} (keys xs), m.message = []) := by
  intro r
  have hread := deliver_read f reg uni d
  rw [hd] at hread
  have hm : ∀ i ∈ xs, i.Made := fun i hi => (hread i hi).2
  have ht : (trace reg rest {} xs).1 = (recs .atMain {} (keys xs)).flatMap MainRec.message :=
    trace_sim reg rest xs hm (fun i hi => he.noPush i.key (List.mem_map_of_mem hi)) {} {} [] [] {} {} {} sim_init
      ⟨he.usages, he.strings, he.desigs⟩ he.closed
  have hp : r.printed = (recs .atMain {} (keys xs)).flatMap MainRec.message := by
    simp only [r, decompile_printed reg uni decode rest f c content d hi, hd]
    exact ht
  have herr : r.err = none := by
    rcases C67_decompiler_partial reg uni decode rest (fmtName f) c content with ⟨p, e, -, h2⟩ | ⟨p, t, h, -⟩
    · exfalso
      obtain ⟨n, h1, -⟩ := extract_ok reg xs hm he (fun _ => True) trivial (fun _ _ _ _ _ => trivial)
      unfold Command.decompiler at h2
      simp only [name_ok, hi, main_delivered reg f uni d xs hd, h1] at h2
      obtain ⟨t, -, h3⟩ := C67_dump reg n (by
        intro v hv
        exact (extract_from (fun i hi => (hread i hi).1) h1 _ (mem_leaves.1 hv)).made)
      rw [h3] at h2
      simp at h2
    · simp only [r, h]
  refine ⟨herr, ?_, ?_⟩
  · simp only [Command.Decompiled.output, hp]
  · simp only [Command.Decompiled.output, hp]
    constructor
    · intro h m hmem
      have : (recs .atMain {} (keys xs)).flatMap MainRec.message = [] := by
        have := congrArg List.length h
        simp only [List.length_append] at this
        exact List.eq_nil_of_length_eq_zero (by omega)
      exact List.flatMap_eq_nil_iff.1 this m hmem
    · intro h
      rw [List.flatMap_eq_nil_iff.2 h, List.nil_append]

/-- Bytes of an array of two usages that are not consecutive, X and Z. -/
def xzBytes : List UInt8 := [5, 1, 9, 2, 0xa1, 1, 0x15, 0, 0x25, 1, 0x75, 8, 0x95, 1, 9, 0x30, 9, 0x32, 0x81, 0, 0xc0]

theorem xz_parse : ∃ xs, Parser.blobParse [] xzBytes = (xs, none) ∧ Extractable (keys xs) ∧
    (recs .atMain {} (keys xs)).flatMap MainRec.message = tx "Noncontiguous values\n" := by
  have h : (Parser.blobParse [] xzBytes).2 = none ∧ Extractable (keys (Parser.blobParse [] xzBytes).1) ∧
      (recs .atMain {} (keys (Parser.blobParse [] xzBytes).1)).flatMap MainRec.message = tx "Noncontiguous values\n" := by
    rw [Parser.blobParse, blobSteps_eq _ 40 _ _ (by decide)]
    decide +kernel
  exact ⟨_, by rw [← h.1], h.2⟩

/-- **C67 is false of the code**: without a file named for the output, the line `Noncontiguous values` comes
before the script, which is no Python any more.  No exception is raised. -/
theorem C67_message_breaks (uni : Parser.Uni) (decode : List UInt8 → Option Text) (rest : Text) :
    let r := Command.decompile [] uni decode rest (tx "binary") .std xzBytes
    r.err = none ∧ (∃ body, r.output .file = scriptHead ++ body ++ scriptFoot) ∧
      r.output .std = tx "Noncontiguous values\n" ++ r.output .file := by
  intro r
  obtain ⟨xs, h1, h2, h3⟩ := xz_parse
  obtain ⟨h4, h5, -⟩ := C67_messages_partial [] uni decode rest .binary .std xzBytes (.bytes xzBytes) xs rfl h1 h2
  rw [h3] at h5
  refine ⟨h4, ?_, h5⟩
  rcases C67_whole_partial [] uni decode rest (tx "binary") .std xzBytes with ⟨-, e, h⟩ | ⟨b, h, -⟩
  · exact absurd (h.symm.trans h4) (by simp)
  · exact ⟨b, h⟩

/-- **C67 is false of the code**: when an item makes the decompiler raise, standard output gets a description of
the decompiler's state.  An End Collection with no collection open. -/
theorem C67_exception_breaks (uni : Parser.Uni) (decode : List UInt8 → Option Text) (rest : Text) :
    let r := Command.decompile [] uni decode rest (tx "binary") .std [5, 1, 0xc0]
    r.output .file = [] ∧ (∃ e, r.err = some e) ∧
      r.output .std = tx "Exception while appending item EndCollection\n" ++ rest := by
  intro r
  have hp : Parser.blobParse [] [5, 1, 0xc0] = ([⟨.usagePage, .named (tx "GenericDesktop") 1⟩, ⟨.endCollection, .int 0⟩], none) := by
    rw [Parser.blobParse, blobSteps_eq _ 20 _ _ (by decide)]; decide +kernel
  have hpr : r.printed = tx "Exception while appending item EndCollection\n" ++ rest := by
    simp only [r]
    rw [show tx "binary" = fmtName .binary from rfl,
      decompile_printed [] uni decode rest .binary .std [5, 1, 0xc0] (.bytes [5, 1, 0xc0]) rfl]
    simp only [Formatter.deliver, hp]
    rfl
  rcases C67_whole_partial [] uni decode rest (tx "binary") .std [5, 1, 0xc0] with ⟨h, e, h'⟩ | ⟨b, -, h⟩
  · have h : r.script = [] := h
    refine ⟨h, ⟨e, h'⟩, ?_⟩
    simp only [Command.Decompiled.output, hpr, h, List.append_nil]
  · exfalso
    unfold Command.decompile at h
    rw [show tx "binary" = fmtName .binary from rfl] at h
    have hi : Command.input decode .std .binary [5, 1, 0xc0] = .ok (.bytes [5, 1, 0xc0]) := rfl
    simp only [name_ok, hi, Formatter.deliver, hp, trace_snd] at h
    have : ∃ e, runFrom [] {} [⟨.usagePage, .named (tx "GenericDesktop") 1⟩, ⟨.endCollection, .int 0⟩] = .error e := ⟨_, rfl⟩
    obtain ⟨e, he⟩ := this
    rw [he] at h
    simp at h

/-- The conditions of `C67_quiet_partial` are met by a mouse. -/
example : (match Parser.blobParse [] mouse with
    | (xs, none) => xs.all (fun i => !i.cls.isData || i.ival != 0) && decide (Extractable (keys xs))
    | _ => false) = true := by
  rw [Parser.blobParse, blobSteps_eq _ 60 0 mouse (by decide)]
  decide +kernel

/-! ## What can be printed at all -/

/-- Specification: lines about arrays of usages. -/
def Spec.ArrayLines (t : Text) : Prop := ∃ ms : List Text, t = ms.flatten ∧
  ∀ m ∈ ms, m = tx "Cannot create range from array with less than 2 elements\n" ∨ m = tx "Noncontiguous values\n"

theorem arrayLines_nil : ArrayLines [] := ⟨[], rfl, by simp⟩

theorem arrayLines_append {s t : Text} (hs : ArrayLines s) (ht : ArrayLines t) : ArrayLines (s ++ t) := by
  obtain ⟨a, rfl, ha⟩ := hs
  obtain ⟨b, rfl, hb⟩ := ht
  refine ⟨a ++ b, by simp, fun m hm => ?_⟩
  rcases List.mem_append.1 hm with h | h
  · exact ha m h
  · exact hb m h

theorem stepSays_lines (reg : Registry) (st : State) (i : Item) : ArrayLines (stepSays reg st i) := by
  unfold stepSays
  split
  · unfold State.says
    split
    · exact arrayLines_nil
    · split
      · split
        · split
          · exact arrayLines_nil
          · refine ⟨[_], (List.flatten_singleton).symm, ?_⟩
            intro m hm
            simp only [List.mem_singleton] at hm
            subst hm
            unfold rangeMessage
            split
            · exact Or.inl (by decide +kernel)
            · exact Or.inr (by decide +kernel)
        · exact arrayLines_nil
      · exact arrayLines_nil
  · exact arrayLines_nil

theorem trace_lines (reg : Registry) (rest : Text) (xs : List Item) : ∀ st,
    ((∃ st', runFrom reg st xs = .ok st') ∧ ArrayLines (trace reg rest st xs).1) ∨
    ∃ pre i post s e, xs = pre ++ i :: post ∧ (∃ st', runFrom reg st pre = .ok st') ∧
      runFrom reg st (pre ++ [i]) = .error e ∧ runFrom reg st xs = .error e ∧ ArrayLines s ∧
      (trace reg rest st xs).1 = s ++ tx "Exception while appending item " ++ line i.key i.val.str ++ ['\n'] ++ rest := by
  induction xs with
  | nil => intro st; exact Or.inl ⟨⟨st, rfl⟩, arrayLines_nil⟩
  | cons i xs ih =>
    intro st
    have hl := stepSays_lines reg st i
    cases h : step reg st i with
    | error e =>
      refine Or.inr ⟨[], i, xs, stepSays reg st i, e, rfl, ⟨st, rfl⟩, ?_, ?_, hl, ?_⟩
      · simp [runFrom, h]
      · simp [runFrom, h]
      · simp only [trace, h, exceptionText, str_line, List.append_assoc]
    | ok st' =>
      rcases ih st' with ⟨⟨st2, h1⟩, h2⟩ | ⟨pre, j, post, s, e, h1, ⟨st2, h2⟩, h3, h4, h5, h6⟩
      · refine Or.inl ⟨⟨st2, by simp [runFrom, h, h1]⟩, ?_⟩
        simp only [trace, h]
        exact arrayLines_append hl h2
      · refine Or.inr ⟨i :: pre, j, post, stepSays reg st i ++ s, e, by simp [h1], ⟨st2, by simp [runFrom, h, h2]⟩,
          by simp [runFrom, h, h3], by simp [runFrom, h, h4], arrayLines_append hl h5, ?_⟩
        simp only [trace, h, h6, List.append_assoc]

/-- **C67, what is printed.** Whatever the input, the decompiler prints nothing but lines about arrays of usages before it
writes the script.  Only when an item makes it raise, a last line with this item and the description of the state follow, and
nothing is written. -/
theorem C67_printed (reg : Registry) (uni : Parser.Uni) (decode : List UInt8 → Option Text) (rest : Text)
    (f : Formatter.Fmt) (c : Command.Channel) (content : List UInt8) (d : Formatter.Doc)
    (hd : Command.input decode c f content = .ok d) :
    let r := Command.decompile reg uni decode rest (fmtName f) c content
    ArrayLines r.printed ∨
    ∃ pre i post s e, (Formatter.deliver f reg uni d).1 = pre ++ i :: post ∧ (∃ st, runFrom reg {} pre = .ok st) ∧
      runFrom reg {} (pre ++ [i]) = .error e ∧ r.err = some e ∧ r.script = [] ∧ ArrayLines s ∧
      r.printed = s ++ tx "Exception while appending item " ++ line i.key i.val.str ++ ['\n'] ++ rest := by
  intro r
  have hp : r.printed = (trace reg rest {} (Formatter.deliver f reg uni d).1).1 :=
    decompile_printed reg uni decode rest f c content d hd
  rcases trace_lines reg rest (Formatter.deliver f reg uni d).1 {} with ⟨-, h⟩ | ⟨pre, i, post, s, e, h1, h2, h3, h4, h5, h6⟩
  · exact Or.inl (by rw [hp]; exact h)
  · refine Or.inr ⟨pre, i, post, s, e, h1, h2, h3, ?_, ?_, h5, by rw [hp]; exact h6⟩
    all_goals
      simp only [r, Command.decompile, name_ok, hd, trace_snd, h4]

/-- The second case: an item after one that prints a line. -/
example : (trace [] [] {} [⟨.usage, .int 0x10002⟩, ⟨.collection, .int 1⟩, ⟨.reportSize, .int 8⟩,
    ⟨.reportCount, .int 1⟩, ⟨.usage, .int 0x10030⟩, ⟨.logMin, .int 0⟩, ⟨.logMax, .int 0⟩, ⟨.input, .int 0⟩,
    ⟨.endCollection, .int 0⟩, ⟨.endCollection, .int 3⟩]).1 =
      tx "Cannot create range from array with less than 2 elements\n" ++
        tx "Exception while appending item EndCollection (3)\n" := by
  decide +kernel

end Hrdc
