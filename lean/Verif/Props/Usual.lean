import Verif.Props.OptExact
import Verif.Props.Pages
import Verif.Proofs.Read
/-!
# What the optimizer does to descriptors that begin the usual way

A page, a 16-bit usage and a collection: `05 01 09 02 a1 01` and the like.
-/
namespace Hrdc
open Spec Optimizer

/-- The stream begins with page `p`, usage `u` and collection `k`. -/
def Begins (p u k : Int) (xs : List Item) : Prop :=
  ∃ a b c rest, xs = a :: b :: c :: rest ∧ a.key = (.usagePage, p) ∧ b.key = (.usage, u) ∧ c.key = (.collection, k)

theorem key_parts {i : Item} {k : SItem} (h : i.key = k) : i.cls = k.1 ∧ i.ival = k.2 := by
  subst h; exact ⟨rfl, rfl⟩

theorem begins_du {p u k : Int} {xs : List Item} (h : Begins p u k xs) : Begins p u k (designatorUniq.run xs) := by
  obtain ⟨a, b, c, rest, rfl, ha, hb, hc⟩ := h
  refine ⟨a, b, c, designatorUniq.runFrom {} rest, ?_, ha, hb, hc⟩
  simp [Pass.run, Pass.runFrom, (key_parts ha).1, (key_parts hb).1, (key_parts hc).1, Cls.kind]

theorem mm_first_three (reg : Registry) {a b c : Item} (ha : notCount a = true) (hb : notCount b = true) (hc : notCount c = true)
    (rest : List Item) : ∀ (st : MMState) (more : List Item), st.before = a :: b :: c :: more →
      ∃ r, (mainMerge reg).runFrom st rest = a :: b :: c :: r := by
  have flush : ∀ (st : MMState) (more : List Item), st.before = a :: b :: c :: more →
      ∃ r, (st.flush reg).2 = a :: b :: c :: r := by
    intro st more h
    exact ⟨_, by simp [MMState.flush, h, ha, hb, hc]; rfl⟩
  induction rest with
  | nil => intro st more h; exact ⟨more ++ (st.mains ++ st.after), by simp [Pass.runFrom, h]⟩
  | cons x rest ih =>
    intro st more h
    have go : ∀ (q : MMState × List Item), (∃ r, q.2 = a :: b :: c :: r) ∨ (q.2 = [] ∧ ∃ more', q.1.before = a :: b :: c :: more') →
        ∃ r, q.2 ++ (mainMerge reg).runFrom q.1 rest = a :: b :: c :: r := by
      rintro ⟨s, o⟩ (⟨r, h1⟩ | ⟨h1, m, h2⟩)
      · simp only at h1; subst h1; exact ⟨_, rfl⟩
      · simp only at h1 h2; subst h1; simpa using ih s m h2
    rw [Pass.runFrom]
    apply go
    simp only
    split
    · exact .inr ⟨rfl, more, h⟩
    · split
      · exact .inl (flush _ more h)
      · split
        · exact .inr ⟨rfl, more, h⟩
        · exact .inr ⟨rfl, more, h⟩
    · split
      · cases hmains : st.mains with
        | nil =>
          simp only
          split
          · obtain ⟨r, hr⟩ := flush { st with
              before := st.before ++ st.after
              beforeCount := st.beforeCount + st.afterCount
              after := []
              mains := st.mains ++ [x] } (more ++ st.after) (by simp [h])
            exact .inl ⟨r, by simpa using hr⟩
          · exact .inr ⟨rfl, more ++ st.after, by simp [h]⟩
        | cons m ms =>
          simp only
          by_cases he : x.pyEq m = true
          · simp only [he, if_true]
            split
            · obtain ⟨r, hr⟩ := flush { st with
                before := st.before ++ st.after
                beforeCount := st.beforeCount + st.afterCount
                after := []
                mains := st.mains ++ [x] } (more ++ st.after) (by simp [h])
              rw [hmains] at hr
              exact .inl ⟨r, by simpa [hmains] using hr⟩
            · exact .inr ⟨rfl, more ++ st.after, by simp [h]⟩
          · simp only [he]
            obtain ⟨r, hr⟩ := flush st more h
            by_cases h1 : (MMState.flush reg st).fst.afterCount = 1
            · exact .inl ⟨r, by simp [h1, hr]⟩
            · exact .inl ⟨_, by simp [h1, hr]; rfl⟩
      · exact .inl (flush _ more h)

theorem begins_mm (reg : Registry) {p u k : Int} {xs : List Item} (h : Begins p u k xs) :
    Begins p u k ((mainMerge reg).run xs) := by
  obtain ⟨a, b, c, rest, rfl, ha, hb, hc⟩ := h
  obtain ⟨r, hr⟩ := mm_first_three reg (a := a) (b := b) (c := c) (by simp [notCount, (key_parts ha).1]) (by simp [notCount, (key_parts hb).1])
    (by simp [notCount, (key_parts hc).1]) rest { before := [a, b, c] } [] rfl
  refine ⟨a, b, c, r, ?_, ha, hb, hc⟩
  rw [← hr]
  simp [Pass.run, Pass.runFrom, (key_parts ha).1, (key_parts hb).1, (key_parts hc).1, Cls.kind, watched, Cls.isData, MMState.flush]

theorem begins_pm {p u k : Int} {xs : List Item} (h : Begins p u k xs) : Begins p u k (physicalMerge.run xs) := by
  obtain ⟨a, b, c, rest, rfl, ha, hb, hc⟩ := h
  refine ⟨a, b, c, physicalMerge.runFrom {} rest, ?_, ha, hb, hc⟩
  simp [Pass.run, Pass.runFrom, (key_parts ha).1, (key_parts hb).1, (key_parts hc).1, Cls.kind, rangeTag, notPhys]

theorem begins_gm {p u k : Int} {xs : List Item} (h : Begins p u k xs) : Begins p u k (globalMerge.run xs) := by
  obtain ⟨a, b, c, rest, rfl, ha, hb, hc⟩ := h
  refine ⟨a, b, c, globalMerge.runFrom (fun d => if d = .usagePage then some a else globalInit d) rest, ?_, ha, hb, hc⟩
  simp [Pass.run, Pass.runFrom, (key_parts ha).1, (key_parts hb).1, (key_parts hc).1, Cls.kind, globalInit]

theorem rm_first_main (reg : Registry) (t : RangeTags) {c : Item} (hc : c.cls.kind = .main) (rest : List Item) :
    ∀ (st : RMState) (more : List Item), st.pending = c :: more → ∃ r, (rangeMerge reg t).runFrom st rest = c :: r := by
  have out : ∀ (st : RMState) (more : List Item), st.pending = c :: more → ∃ r, st.out reg t = c :: r := by
    intro st more h
    unfold RMState.out
    split
    · split
      · exact ⟨_, by rw [h, List.filter_cons_of_pos (by simp [notRange, hc])]; rfl⟩
      · exact ⟨more, h⟩
    · exact ⟨more, h⟩
  have note : ∀ (st : RMState) (i : Item), (st.note t i).pending = st.pending := by
    intro st i
    unfold RMState.note
    split
    · split
      · rfl
      · split
        · split
          · rfl
          · split <;> rfl
        · rfl
    · rfl
  induction rest with
  | nil => intro st more h; exact out st more h
  | cons x rest ih =>
    intro st more h
    rw [Pass.runFrom]
    simp only
    split
    · obtain ⟨r, hr⟩ := out (st.note t x) more (by rw [note]; exact h)
      exact ⟨r ++ _, by simp only; rw [hr]; rfl⟩
    · exact ih _ (more ++ [x]) (by simp [h])

theorem begins_rm (reg : Registry) (t : RangeTags)
    (hu : t.lookup = .usage ∨ (t.lookup ≠ .usage ∧ t.min ≠ .usage ∧ t.max ≠ .usage))
    (hm : t.min ≠ .usage ∧ t.max ≠ .usage)
    {p u k : Int} {xs : List Item} (h : Begins p u k xs) : Begins p u k ((rangeMerge reg t).run xs) := by
  obtain ⟨a, b, c, rest, rfl, ha, hb, hc⟩ := h
  have ca := (key_parts ha).1
  have cb := (key_parts hb).1
  have cc := (key_parts hc).1
  obtain ⟨r, hr⟩ := rm_first_main reg t (c := c) (by rw [cc]; rfl) rest { pending := [c] } [] rfl
  have n1 : ∀ st : RMState, st.note t a = st := by intro st; simp [RMState.note, ca, Cls.kind]
  have n3 : ∀ st : RMState, st.note t c = st := by intro st; simp [RMState.note, cc, Cls.kind]
  have eq : (rangeMerge reg t).run (a :: b :: c :: rest)
      = ({ RMState.note t { pending := [a] } b with pending := [a, b] } : RMState).out reg t ++ c :: r := by
    rw [← hr]
    simp [Pass.run, Pass.runFrom, ca, cb, cc, Cls.kind, n1, n3]
  rw [eq]
  rcases hu with hu | hu
  · have hn : RMState.note t { pending := [a] } b = { minValue := some b.val, maxValue := some b.val, pending := [a] } := by
      simp [RMState.note, cb, hu, Cls.kind, hm.1.symm, hm.2.symm]
    rw [hn]
    by_cases hv : b.val.truthy = true
    · have : b.val.eqv b.val = true := by simp [PyVal.eqv]
      refine ⟨a, build reg .usage b.val, c, r, ?_, ha, ?_, hc⟩
      · have hn1 : notRange t a = true := by simp [notRange, ca, Cls.kind]
        have hn2 : notRange t b = false := by simp [notRange, cb, hu, Cls.kind]
        simp [RMState.out, hv, this, hn1, hn2, hu]
      · rw [build_key _ _ _ (by decide), ← hb, Item.key, cb]; rfl
    · exact ⟨a, b, c, r, by simp [RMState.out, hv], ha, hb, hc⟩
  · have hn : RMState.note t { pending := [a] } b = { pending := [a] } := by
      simp [RMState.note, cb, hu.1.symm, hu.2.1.symm, hu.2.2.symm, Cls.kind]
    rw [hn]
    exact ⟨a, b, c, r, by simp [RMState.out], ha, hb, hc⟩

/-- The first four items the optimizer writes. -/
theorem begins_optimize (reg : Registry) {p u k : Int} (hp : p ≠ 0) (hu : 0 ≤ u) (hu' : u < 65536) {xs : List Item}
    (h : Begins p u k xs) :
    ∃ r, keys (optimize reg xs) = (.usagePage, p) :: (.usagePage, 0) :: (.usage, u) :: (.collection, k) :: r := by
  rw [optimize_eq]
  have h := begins_rm reg usageTags (by decide) (by decide)
    (begins_rm reg desigTags (by decide) (by decide)
    (begins_rm reg strTags (by decide) (by decide)
    (begins_gm (begins_pm (begins_mm reg (begins_du h))))))
  obtain ⟨a, b, c, rest, e, ha, hb, hc⟩ := h
  rw [e]
  have ca := (key_parts ha).1
  have cb := (key_parts hb).1
  have cc := (key_parts hc).1
  have hv : b.val.toInt = u := (key_parts hb).2
  have hsp : (Usage.split (Usage.lookup reg b.val)).1.toInt = 0 := by
    rw [split_fst, lookup_value, hv]; omega
  have hsu : (Usage.split (Usage.lookup reg b.val)).2.toInt = u := by
    rw [split_snd, lookup_value, hv]; omega
  have hap : a.ival ≠ 0 := by rw [(key_parts ha).2]; exact hp
  refine ⟨keys ((usagePage reg).runFrom (some 0) rest), ?_⟩
  simp [Pass.run, Pass.runFrom, ca, cb, cc, usageLike, hsp, hap, ha, hc, build_key, hsu]

theorem meaning_begins (rule : PageRule) (p q u k : Int) (r : List SItem) :
    (meaning rule ((.usagePage, p) :: (.usagePage, q) :: (.usage, u) :: (.collection, k) :: r)).head?
      = some (.enter k ⟨some (full q u), 0, 0⟩) := by
  cases rule <;>
    simp [meaning, eventsFrom, recs, Host.step, Host.main, Cls.kind, MainRec.events, MainRec.selector, pick, Decl.one, Decl.values,
      PageRule.declare, PageRule.consume, upTo]

theorem meaning_begins1 (rule : PageRule) (p u k : Int) (r : List SItem) :
    (meaning rule ((.usagePage, p) :: (.usage, u) :: (.collection, k) :: r)).head?
      = some (.enter k ⟨some (full p u), 0, 0⟩) := by
  cases rule <;>
    simp [meaning, eventsFrom, recs, Host.step, Host.main, Cls.kind, MainRec.events, MainRec.selector, pick, Decl.one, Decl.values,
      PageRule.declare, PageRule.consume, upTo]

/-- Left out of C25, and false of every descriptor that begins the usual way: after a page other than 0, a 16-bit usage
and a collection, whatever follows, the optimized stream opens the collection for the usage of the same number on page
0, for both sorts of hosts. -/
theorem C25_usual_breaks (reg : Registry) (rule : PageRule) (xs : List Item) (p u k : Int) (rest : List SItem)
    (hx : keys xs = (.usagePage, p) :: (.usage, u) :: (.collection, k) :: rest)
    (hp : p ≠ 0) (hu : 0 ≤ u) (hu' : u < 65536) :
    (meaning rule (keys xs)).head? = some (.enter k ⟨some (p * 65536 + u), 0, 0⟩) ∧
    (meaning rule (keys (optimize reg xs))).head? = some (.enter k ⟨some u, 0, 0⟩) ∧
    meaning rule (keys (optimize reg xs)) ≠ meaning rule (keys xs) := by
  have h : Begins p u k xs := by
    match xs, hx with
    | [_], hx | [_, _], hx => simp at hx
    | a :: b :: c :: r, hx =>
      simp only [keys_cons, List.cons.injEq] at hx
      exact ⟨a, b, c, r, rfl, hx.1, hx.2.1, hx.2.2.1⟩
  obtain ⟨r, hr⟩ := begins_optimize reg hp hu hu' h
  have h1 : (meaning rule (keys xs)).head? = some (.enter k ⟨some (p * 65536 + u), 0, 0⟩) := by
    rw [hx, meaning_begins1, full, if_pos hu']
  have h2 : (meaning rule (keys (optimize reg xs))).head? = some (.enter k ⟨some u, 0, 0⟩) := by
    rw [hr, meaning_begins, full, if_pos hu']; simp
  refine ⟨h1, h2, fun e => ?_⟩
  rw [e, h1] at h2
  simp at h2
  omega

/-- Left out of C25: `converter -O` breaks every document, in any format, whose items begin that way. -/
theorem C25_usual_converter_breaks (f g : Formatter.Fmt) (reg : Registry) (uni : Parser.Uni) (d d' : Formatter.Doc)
    (l : List Item) (p u k : Int) (rest : List SItem) (hl : Formatter.deliver f reg uni d = (l, none))
    (hx : keys l = (.usagePage, p) :: (.usage, u) :: (.collection, k) :: rest)
    (hp : p ≠ 0) (hu : 0 ≤ u) (hu' : u < 65536) (hd : Converter.optimized f .binary reg uni d = .ok d') :
    ∃ b ks', d' = .bytes b ∧ readAll b = some ks' ∧ ∀ rule, meaning rule ks' ≠ meaning rule (keys l) := by
  have hm : ∀ i ∈ l, i.Made := by
    have := deliver_read f reg uni d
    rw [hl] at this
    exact fun i hi => (this i hi).2
  simp only [Converter.optimized, hl, Formatter.render] at hd
  cases hb : Formatter.binary (optimize reg l) with
  | error e => rw [hb] at hd; simp [Except.map] at hd
  | ok b =>
    rw [hb] at hd
    simp [Except.map] at hd
    exact ⟨b, _, hd.symm, readAll_binary (optimize_made reg l hm) hb,
      fun rule => (C25_usual_breaks reg rule l p u k rest hx hp hu hu').2.2⟩

/-- A mouse of two buttons, as found in the field, begins that way. -/
example : (keys (Parser.blobParse []
      [0x05, 1, 0x09, 2, 0xa1, 1, 0x05, 9, 0x19, 1, 0x29, 2, 0x15, 0, 0x25, 1, 0x75, 1, 0x95, 2, 0x81, 2, 0xc0]).1).take 3
    = [(.usagePage, 1), (.usage, 2), (.collection, 1)] := by decide +kernel

end Hrdc
