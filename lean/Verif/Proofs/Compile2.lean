import Verif.Proofs.Compile
/-!
# Compiled streams describe the tree
-/
namespace Hrdc
open Spec
namespace Streamer

theorem slot_nonneg {st : State} {k : Nat} (h : slot st = .ok k) (h0 : 0 ≤ st.id) :
    k = st.id.toNat ∧ st.id < 256 := by
  unfold slot at h
  split at h
  · simp only [Except.ok.injEq] at h; omega
  · rw [if_neg (by omega)] at h; simp at h

/-- Numbers of bits recorded after adding `n` in direction `w`. -/
def State.plus (st : State) (w : Way) (n : Int) (w' : Way) (k : Nat) : Int :=
  st.size w' k + if w' = w ∧ k = st.id.toNat then n else 0

theorem bump_ok {st st' : State} {w : Way} {n : Int} (h : bump st w n = .ok st') (h0 : 0 ≤ st.id) :
    st'.id = st.id ∧ st.id < 256 ∧ ∀ w' k, st'.size w' k = st.plus w n w' k := by
  unfold bump at h
  split at h
  · simp at h
  · rename_i k hk
    simp only [Except.ok.injEq] at h
    obtain ⟨rfl, hlt⟩ := slot_nonneg hk h0
    subst h
    refine ⟨rfl, hlt, fun w' k' => ?_⟩
    simp only [State.plus]
    split
    · rename_i h; rw [h.1, h.2]
    · simp

theorem addPad_ok {reg : Registry} {st st' : State} {w : Way} {pad : Int} {is : List Item}
    (h : addPad reg st w pad = .ok (st', is)) (h0 : 0 ≤ st.id) :
    0 ≤ pad ∧ st'.id = st.id ∧ (∀ w' k, st'.size w' k = st.plus w pad w' k) ∧
    keys is = (if pad = 0 then [] else [(.reportCount, 1), (.reportSize, pad), (w.cls, 3)]) ∧
    (∀ i ∈ is, i.Made) := by
  unfold addPad at h
  split at h
  · rename_i hp
    split at h
    · simp at h
    · rename_i a ha
      split at h
      · simp at h
      · rename_i st1 hb
        split at h
        · simp at h
        · rename_i b hbb
          simp only [Except.ok.injEq, Prod.mk.injEq] at h
          obtain ⟨rfl, rfl⟩ := h
          have h1 := bump_ok hb h0
          have hw : w.cls ≠ .collection := by cases w <;> simp [Way.cls]
          have ka := emit_keys ha (by simp)
          have kb := emit_keys hbb (by simp [hw])
          refine ⟨?_, h1.1, h1.2.2, ?_, ?_⟩
          · obtain ⟨i, t, rfl, -, ht⟩ := emit_cons_ok ha
            obtain ⟨j, t', rfl, hj, -⟩ := emit_cons_ok ht
            have := (new_cls hj).2
            rw [new_ival hj (by simp)] at this
            simpa [Cls.signed] using this
          · rw [keys_append, ka, kb, if_neg hp]; rfl
          · intro i hi
            rcases List.mem_append.1 hi with hi | hi
            · exact emit_made ha i hi
            · exact emit_made hbb i hi
  · rename_i hp
    simp only [Except.ok.injEq, Prod.mk.injEq] at h
    obtain ⟨rfl, rfl⟩ := h
    have hp : pad = 0 := by simpa using hp
    subst hp
    refine ⟨by omega, rfl, fun w' k => by simp [State.plus], by simp, by simp⟩

theorem pad_events (rule : PageRule) (h : Host) (hc : Clean h) (w : Way) (pad : Int) (h0 : 0 ≤ pad) :
    eventsFrom rule h (if pad = 0 then [] else [(.reportCount, 1), (.reportSize, pad), (w.cls, 3)])
      = List.replicate pad.toNat (.padBit w.cls (h.g .reportID)) ∧
    Clean (h.after rule (if pad = 0 then [] else [(.reportCount, 1), (.reportSize, pad), (w.cls, 3)])) ∧
    (h.after rule (if pad = 0 then [] else [(.reportCount, 1), (.reportSize, pad), (w.cls, 3)])).g
      .reportID = h.g .reportID := by
  by_cases hp : pad = 0
  · subst hp; simp [hc]
  · simp only [hp, if_false]
    refine ⟨?_, ?_, ?_⟩
    · rw [eventsFrom_cons_of_not_main _ _ _ _ (by simp [Cls.kind]),
        eventsFrom_cons_of_not_main _ _ _ _ (by simp [Cls.kind]),
        eventsFrom_cons_main _ _ _ _ (way_kind _), data_events _ w rfl]
      simp [Host.main, MainRec.isConst, Host.step]
    · rw [after_cons, after_cons, after_cons, step_way]
      exact ⟨rfl, rfl, rfl, hc.2.2.2⟩
    · rw [after_cons, after_cons, after_cons, step_way]
      rfl

/-- A value compiled: padding, then its own items. -/
theorem value_ok {reg : Registry} {st st' : State} {v : Value} {is : List Item}
    (h : value reg st v = .ok (st', is)) (h0 : 0 ≤ st.id) :
    ∃ pad st1 a b named, padFor st v.way v.alignment 0 = .ok pad ∧
      addPad reg st v.way pad = .ok (st1, a) ∧ is = a ++ b ∧
      truthOpt v.namedArray = .ok named ∧ (∀ i ∈ b, i.Made) ∧
      keys b = ck (valueCalls reg v named ++
        (if named && !constFlag v.flags && usageGiven v.usage then [(.endCollection, .int 0)] else [])) ∧
      0 ≤ v.size ∧ 0 ≤ v.count ∧ st'.id = st.id ∧ st.id < 256 ∧
      ∀ w' k, st'.size w' k = st.plus v.way (pad + v.size) w' k := by
  unfold value at h
  split at h
  · simp at h
  · rename_i pad hpad
    split at h
    · simp at h
    · rename_i st1 a ha
      split at h
      · simp at h
      · rename_i named hn
        simp only at h
        split at h
        · simp at h
        · rename_i b hb
          split at h
          · simp at h
          · rename_i st2 hst2
            split at h
            · simp at h
            · rename_i c hc
              simp only [Except.ok.injEq, Prod.mk.injEq] at h
              obtain ⟨rfl, rfl⟩ := h
              have hpa := addPad_ok ha h0
              have hbu := bump_ok hst2 (by rw [hpa.2.1]; exact h0)
              have hw : v.way.cls ≠ .collection := by cases v.way <;> simp [Way.cls]
              have hcol : ∀ x ∈ (if constFlag v.flags = true then [] else attrCalls reg v named),
                  x.1 = .collection → 0 ≤ x.2.toInt := by
                intro x hx hxc
                split at hx
                · simp at hx
                · unfold attrCalls at hx
                  simp only [List.mem_append] at hx
                  have hopt : ∀ (p : Prop) [Decidable p] (y : Cls × PyVal),
                      x ∈ (if p then [y] else []) → x = y := by
                    intro p _ y hy; split at hy <;> simp_all
                  rcases hx with (((hx | hx) | hx) | hx) | hx
                  · split at hx
                    · rw [hopt _ _ hx] at hxc; simp at hxc
                    · simp at hx
                  · split at hx
                    · simp only [List.mem_append] at hx
                      rcases hx with (hx | hx) | hx
                      · simp at hx; rcases hx with rfl | rfl <;> simp at hxc
                      · rw [hopt _ _ hx]; decide
                      · obtain ⟨u, -, rfl⟩ := List.mem_map.1 hx
                        simp at hxc
                    · split at hx <;> (simp at hx; rcases hx with rfl | rfl <;> simp at hxc)
                  · simp at hx; rcases hx with rfl | rfl | rfl | rfl <;> simp at hxc
                  · rw [hopt _ _ hx] at hxc; simp at hxc
                  · rw [hopt _ _ hx] at hxc; simp at hxc
              have kb := emit_keys hb (by
                intro x hx
                rcases List.mem_append.1 hx with hx | hx
                · exact hcol x hx
                · simp at hx; rcases hx with rfl | rfl <;> simp)
              have kc := emit_keys hc (by
                intro x hx
                rcases List.mem_append.1 hx with hx | hx
                · simp at hx; subst hx; simp [hw]
                · split at hx <;> simp at hx; subst hx; simp)
              have hnn : 0 ≤ v.size ∧ 0 ≤ v.count := by
                have hm := emit_made hb
                have e1 : (Cls.reportCount, v.count) ∈ keys b := by rw [kb]; simp
                have e2 : (Cls.reportSize, v.size) ∈ keys b := by rw [kb]; simp
                obtain ⟨i, hi, hik⟩ := mem_keys.1 e1
                obtain ⟨j, hj, hjk⟩ := mem_keys.1 e2
                have n1 := (hm i hi).nonneg
                have n2 := (hm j hj).nonneg
                rw [show i.cls = .reportCount from congrArg Prod.fst hik,
                  show i.ival = v.count from congrArg Prod.snd hik] at n1
                rw [show j.cls = .reportSize from congrArg Prod.fst hjk,
                  show j.ival = v.size from congrArg Prod.snd hjk] at n2
                simp [Cls.signed] at n1 n2
                exact ⟨n2, n1⟩
              refine ⟨pad, st1, a, b ++ c, named, hpad, ha, by simp, hn, ?_, ?_, hnn.1, hnn.2,
                by rw [hbu.1, hpa.2.1], by rw [← hpa.2.1]; exact hbu.2.1, ?_⟩
              · intro i hi
                rcases List.mem_append.1 hi with hi | hi
                · exact emit_made hb i hi
                · exact emit_made hc i hi
              · rw [keys_append, kb, kc]
                simp [valueCalls]
              · intro w' k
                rw [hbu.2.2 w' k]
                simp only [State.plus, hpa.2.1, hpa.2.2.1 w' k]
                split <;> omega

theorem pad_missing {a t : Int} {off : Nat} (ha : a > 1) (hd : a ∣ (off : Int) - t) :
    (if t % a ≠ 0 then a - t % a else 0) = (missing a off : Int) := by
  have he : (off : Int) % a = t % a :=
    Int.emod_eq_emod_iff_emod_sub_eq_zero.2 (Int.emod_eq_zero_of_dvd hd)
  have hpos := Int.emod_nonneg (-(off : Int)) (show a ≠ 0 by omega)
  unfold missing
  rw [if_pos ha, Int.toNat_of_nonneg hpos, Int.neg_emod, he]
  have hdv : a ∣ (off : Int) ↔ t % a = 0 := by rw [Int.dvd_iff_emod_eq_zero, he]
  by_cases h : t % a = 0
  · simp [h, hdv.2 h]
  · rw [if_pos h, if_neg (fun hh => h (hdv.1 hh))]
    omega

/-- What the streamer has counted agrees with the true layout up to multiples of `A`. -/
def Counted (A : Nat) (st : State) (off : Layout) : Prop :=
  ∀ w (k : Int), 0 ≤ k → k < 256 → (A : Int) ∣ (off w k : Int) - st.size w k.toNat

/-- Alignment of a leaf divides `A`, which divides the size of all but its first field. -/
def LeafFit (A : Nat) : Leaf → Prop
  | .value v => (v.alignment > 1 → v.alignment ∣ (A : Int)) ∧ (A : Int) ∣ v.size * (v.count - 1)
  | .align _ b => b > 1 → b ∣ (A : Int)
  | .padding _ _ => True

/-- A value of the constructor, and not a named array with a usage. -/
def LeafOK : Leaf → Prop
  | .value v => v.Made ∧ (arrayUsages v.namedArray ≠ [] → usageOf v.usage = none)
  | _ => True

theorem padFor_ok {A : Nat} {st : State} {w : Way} {a d pad : Int} {off : Layout}
    (h : padFor st w a d = .ok pad) (h0 : 0 ≤ st.id) (hc : Counted A st off)
    (hd : a > 1 → a ∣ (A : Int)) :
    pad = if a > 1 then (missing a (off w st.id) : Int) else d := by
  unfold padFor at h
  split at h
  · rename_i ha
    split at h
    · simp at h
    · rename_i k hk
      obtain ⟨rfl, hlt⟩ := slot_nonneg hk h0
      simp only [Except.ok.injEq] at h
      rw [if_pos ha, ← h]
      exact pad_missing ha (Int.dvd_trans (hd ha) (hc w st.id h0 hlt))
  · rename_i ha
    simp only [Except.ok.injEq] at h
    rw [if_neg ha, h]

theorem usageOf_given (o : Option PyVal) : usageGiven o = (usageOf o).isSome := by
  cases o with
  | none => rfl
  | some u => by_cases h : u.truthy = true <;> simp [usageGiven, usageOf, h]

theorem missing_one {a : Int} (h : ¬ a > 1) (off : Nat) : missing a off = 0 := by
  simp [missing, h]

/-- Both counts after a leaf. -/
theorem counted_add {A : Nat} {st st' : State} {off : Layout} {l : Leaf} {n : Int}
    (hc : Counted A st off) (h0 : 0 ≤ st.id)
    (hs : ∀ w k, st'.size w k = st.plus l.way n w k)
    (hn : (A : Int) ∣ ((room (off l.way st.id) l).1 : Int) + (room (off l.way st.id) l).2 - n) :
    Counted A st' (off.add st.id l) := by
  intro w k hk0 hk
  rw [hs]
  simp only [Layout.add, State.plus]
  by_cases h : w = l.way ∧ k = st.id
  · obtain ⟨rfl, rfl⟩ := h
    simp only [true_and, if_true]
    have := Int.dvd_add (hc l.way st.id hk0 hk) hn
    have e : ((off l.way st.id + (room (off l.way st.id) l).1 + (room (off l.way st.id) l).2 : Nat) : Int)
        - (st.size l.way st.id.toNat + n)
      = ((off l.way st.id : Int) - st.size l.way st.id.toNat)
        + (((room (off l.way st.id) l).1 : Int) + (room (off l.way st.id) l).2 - n) := by
      push_cast; omega
    rw [e]; exact this
  · rw [if_neg h, if_neg (by intro hh; apply h; refine ⟨hh.1, by omega⟩)]
    simpa using hc w k hk0 hk

/-- A leaf compiled in a clean host state describes itself. -/
theorem leaf_ok {A : Nat} {reg : Registry} {st st' : State} {l : Leaf} {is : List Item} {off : Layout}
    (rule : PageRule) {h : Host} (hk : tok reg st (.leaf l) = .ok (st', is)) (h0 : 0 ≤ st.id)
    (hc : Counted A st off) (hf : LeafFit A l) (ho : LeafOK l) (hcl : Clean h)
    (hid : h.g .reportID = st.id) :
    eventsFrom rule h (keys is) = leafEvents st.id (off l.way st.id) l ∧
    Clean (h.after rule (keys is)) ∧ (h.after rule (keys is)).g .reportID = st.id ∧
    st'.id = st.id ∧ Counted A st' (off.add st.id l) := by
  cases l with
  | padding w s =>
    simp only [tok] at hk
    have hp := addPad_ok hk h0
    have he := pad_events rule h hcl w s hp.1
    rw [hp.2.2.2.1]
    refine ⟨?_, he.2.1, by rw [he.2.2, hid], hp.2.1, ?_⟩
    · rw [he.1, hid]; simp [leafEvents_eq, room, Leaf.way]
    · refine counted_add hc h0 hp.2.2.1 ?_
      simp only [room, Int.toNat_of_nonneg hp.1]
      simp
  | align w b =>
    simp only [tok] at hk
    split at hk
    · simp at hk
    · rename_i pad hpad
      have hp := addPad_ok hk h0
      have he := pad_events rule h hcl w pad hp.1
      have hpd := padFor_ok hpad h0 hc hf
      have hpm : pad = (missing b (off w st.id) : Int) := by
        rw [hpd]; split
        · rfl
        · rename_i hb; rw [missing_one hb]; rfl
      rw [hp.2.2.2.1]
      refine ⟨?_, he.2.1, by rw [he.2.2, hid], hp.2.1, ?_⟩
      · rw [he.1, hid, hpm]; simp [leafEvents_eq, room, Leaf.way]
      · refine counted_add hc h0 hp.2.2.1 ?_
        simp only [room, Leaf.way, hpm]
        simp
  | value v =>
    simp only [tok] at hk
    obtain ⟨pad, st1, a, b, named, hpad, ha, rfl, hn, -, kb, hs0, hc0, hid', hlt, hsz⟩ := value_ok hk h0
    have hp := addPad_ok ha h0
    have he := pad_events rule h hcl v.way pad hp.1
    have hpd := padFor_ok hpad h0 hc hf.1
    have hpm : pad = (missing v.alignment (off v.way st.id) : Int) := by
      rw [hpd]; split
      · rfl
      · rename_i hb; rw [missing_one hb]; rfl
    have hnu : named = true → usageGiven v.usage = false := by
      intro hnt
      rw [usageOf_given, ho.2 ?_]; rfl
      intro h0
      have := NamedArray.truth_eq hn
      rw [h0, hnt] at this; simp at this
    have hno : (named && !constFlag v.flags && usageGiven v.usage) = false := by
      cases named with
      | false => rfl
      | true => rw [hnu rfl]; simp
    rw [hno] at kb
    simp only [Bool.false_eq_true, if_false, List.append_nil] at kb
    obtain ⟨e1, e2, e3⟩ := value_events rule reg v ho.1 named hn hnu
      (h.after rule (if pad = 0 then [] else [(.reportCount, 1), (.reportSize, pad), (v.way.cls, 3)])) he.2.1
    rw [keys_append, hp.2.2.2.1, kb, eventsFrom_append, after_append]
    refine ⟨?_, e2, ?_, hid', ?_⟩
    · rw [he.1, e1, he.2.2, hid, hpm]
      simp [leafEvents_eq, room, Leaf.way]
    · rw [e3, he.2.2, hid]
    · refine counted_add hc h0 hsz ?_
      simp only [room, Leaf.way, hpm]
      rw [show ((missing v.alignment (off v.way st.id) : Int) + ((v.size.toNat * v.count.toNat : Nat) : Int)
          - ((missing v.alignment (off v.way st.id) : Int) + v.size)) = v.size * (v.count - 1) by
        rw [Int.natCast_mul, Int.toNat_of_nonneg hs0, Int.toNat_of_nonneg hc0, Int.mul_sub]
        omega]
      exact hf.2

theorem toks_events {A : Nat} {reg : Registry} (rule : PageRule) (ts : List Tok) (ids : List Int)
    (last lastNZ : Int) (st st' : State) (off : Layout) (h : Host) (is : List Item)
    (hk : toks reg st ts = .ok (st', is))
    (hr : ∀ t ∈ leafIds ids last lastNZ ts, t.1 = t.2.1 ∧ t.1 = t.2.2)
    (hf : ∀ l, Tok.leaf l ∈ ts → LeafFit A l ∧ LeafOK l)
    (hkind : ∀ k u, Tok.enter k u ∈ ts → 0 ≤ k.toInt)
    (h0 : 0 ≤ st.id) (hl : st.id = last) (hz : h.g .reportID = lastNZ) (hcl : Clean h)
    (hc : Counted A st off) :
    eventsFrom rule h (keys is) = place off (inScope ids ts) := by
  induction ts generalizing ids last lastNZ st off h is with
  | nil => simp only [toks, Except.ok.injEq, Prod.mk.injEq] at hk; rw [← hk.2]; rfl
  | cons t ts ih =>
    simp only [toks] at hk
    split at hk
    · simp at hk
    · rename_i st1 a ha
      split at hk
      · simp at hk
      · rename_i st2 b hb
        simp only [Except.ok.injEq, Prod.mk.injEq] at hk
        obtain ⟨rfl, rfl⟩ := hk
        have hf' : ∀ l, Tok.leaf l ∈ ts → LeafFit A l ∧ LeafOK l := fun l hl => hf l (by simp [hl])
        have hkind' : ∀ k u, Tok.enter k u ∈ ts → 0 ≤ k.toInt := fun k u h => hkind k u (by simp [h])
        rw [keys_append, eventsFrom_append]
        cases t with
        | report i =>
          simp only [tok] at ha
          split at ha
          · simp at ha
          · rename_i c hcc
            simp only [Except.ok.injEq, Prod.mk.injEq] at ha
            obtain ⟨rfl, rfl⟩ := ha
            have hkc := emit_keys hcc (by
              intro x hx; split at hx <;> simp at hx; subst hx; simp)
            have hi0 : 0 ≤ i := by
              by_cases hi : i = 0
              · omega
              · rw [if_pos hi] at hcc
                obtain ⟨j, t', rfl, hj, -⟩ := emit_cons_ok hcc
                have := (new_cls hj).2
                rw [new_ival hj (by simp)] at this
                simpa [Cls.signed] using this
            simp only [leafIds] at hr
            rw [inScope, hkc]
            have hev : eventsFrom rule h (ck (if i ≠ 0 then [(Cls.reportID, PyVal.int i)] else [])) = [] := by
              apply eventsFrom_no_main
              intro x hx; split at hx <;> simp at hx; subst hx; simp [Cls.kind]
            rw [hev, List.nil_append]
            refine ih (i :: ids) i (if i = 0 then lastNZ else i) _ off _ b hb hr hf' hkind' hi0 rfl ?_ ?_ hc
            · by_cases hi : i = 0
              · simp [hi, hz]
              · simp [hi, Host.step]
            · by_cases hi : i = 0
              · simpa [hi] using hcl
              · simp only [hi, ne_eq, not_false_eq_true, if_true, ck_cons, ck_nil, after_cons, after_nil]
                exact ⟨hcl.1, hcl.2.1, hcl.2.2.1, hcl.2.2.2⟩
        | endReport =>
          simp only [tok, Except.ok.injEq, Prod.mk.injEq] at ha
          obtain ⟨rfl, rfl⟩ := ha
          simp only [leafIds] at hr
          rw [inScope]
          simp only [keys_nil, eventsFrom_nil, List.nil_append, after_nil]
          exact ih ids.tail last lastNZ st off h b hb hr hf' hkind' h0 hl hz hcl hc
        | enter k u =>
          cases u with
          | none => simp [tok] at ha
          | some u =>
            simp only [tok] at ha
            split at ha
            · simp at ha
            · rename_i c hcc
              simp only [Except.ok.injEq, Prod.mk.injEq] at ha
              obtain ⟨rfl, rfl⟩ := ha
              have hk0 := hkind k _ (List.mem_cons_self ..)
              rw [emit_keys hcc (by simp [hk0])]
              simp only [leafIds] at hr
              rw [inScope, place]
              have : eventsFrom rule h (ck [(Cls.usage, u), (Cls.collection, k)])
                  = [.enter k.toInt ⟨some u.toInt, 0, 0⟩] := by
                obtain ⟨c1, c2, c3, c4⟩ := hcl
                simp only [ck_cons, ck_nil]
                rw [eventsFrom_cons_of_not_main _ _ _ _ (by simp [Cls.kind]),
                  eventsFrom_cons_main _ _ _ _ (by simp [Cls.kind])]
                simp [Host.step, Host.main, MainRec.events, MainRec.selector, c1, c2, c3, c4,
                  Decl.one, declare_zero, consume_zero, Decl.values, upTo_self, pick]
              rw [this]
              simp only [List.cons_append, List.nil_append, Option.map_some]
              congr 1
              exact ih ids last lastNZ st off _ b hb hr hf' hkind' h0 hl hz
                ⟨rfl, rfl, rfl, hcl.2.2.2⟩ hc
        | leave =>
          simp only [tok] at ha
          split at ha
          · simp at ha
          · rename_i c hcc
            simp only [Except.ok.injEq, Prod.mk.injEq] at ha
            obtain ⟨rfl, rfl⟩ := ha
            rw [emit_keys hcc (by simp)]
            simp only [leafIds] at hr
            rw [inScope, place]
            have : eventsFrom rule h (ck [(Cls.endCollection, PyVal.int 0)]) = [.leave] := by
              simp only [ck_cons, ck_nil]
              rw [eventsFrom_cons_main _ _ _ _ (by simp [Cls.kind])]
              simp [Host.main, MainRec.events]
            rw [this]
            simp only [List.cons_append, List.nil_append]
            congr 1
            exact ih ids last lastNZ st off _ b hb hr hf' hkind' h0 hl hz
              ⟨rfl, rfl, rfl, hcl.2.2.2⟩ hc
        | leaf l =>
          simp only [leafIds, List.mem_cons, forall_eq_or_imp] at hr
          obtain ⟨⟨r1, r2⟩, hr⟩ := hr
          have hll := hf l (by simp)
          have hid : h.g .reportID = st.id := by rw [hz, hl, ← r1, r2]
          obtain ⟨e1, e2, e3, e4, e5⟩ := leaf_ok rule ha h0 hc hll.1 hll.2 hcl hid
          rw [inScope, place, e1]
          have hh : ids.headD 0 = st.id := by rw [hl]; exact r1
          rw [hh]
          congr 1
          refine ih ids last lastNZ st1 _ _ b hb hr hf' hkind' (by rw [e4]; exact h0)
            (by rw [e4]; exact hl) ?_ e2 e5
          rw [e3, ← hz, hid]

end Streamer
end Hrdc
