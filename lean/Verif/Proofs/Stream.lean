import Verif.Model.Formatter
import Verif.Props.Encoding
/-!
# The parse loop against the HID reader
-/
namespace Hrdc
open Item

/-- What a host sees of an item: its class and integer value. -/
def Item.key (i : Item) : Spec.SItem := (i.cls, i.ival)

/-- EndCollection, Push and Pop carry no (non-zero) data. -/
def Spec.ZeroOK (k : Spec.SItem) : Prop :=
  k.1 = .endCollection ∨ k.1 = .push ∨ k.1 = .pop → k.2 = 0

instance (k : Spec.SItem) : Decidable (Spec.ZeroOK k) := by unfold Spec.ZeroOK; infer_instance

theorem made_of_new {reg : Registry} {c : Cls} {v : PyVal} {i : Item}
    (h : Item.new reg c v = .ok i) : i.Made := ⟨reg, v, by rw [(new_cls h).1]; exact h⟩

theorem made_zeroOK {i : Item} (h : i.Made) : Spec.ZeroOK i.key := by
  intro hc
  simp [Item.key, Item.ival, made_zero h hc, PyVal.toInt]

theorem new_named {reg : Registry} {c : Cls} (hc : c = .usagePage ∨ c = .usage ∨ c = .usageMin ∨ c = .usageMax)
    (v : PyVal) (hv : 0 ≤ v.toInt) : ∃ j, Item.new reg c v = .ok j ∧ j.cls = c ∧ j.ival = v.toInt := by
  have hcoll : c = .collection → ∀ k, v = .int k → 0 ≤ k := by
    rintro rfl; simp at hc
  have h := construct_kept reg c v hcoll
  obtain ⟨j, hj⟩ := h.1.mpr ⟨Or.inr hv, by rcases hc with rfl | rfl | rfl | rfl <;> simp⟩
  exact ⟨j, hj, (h.2 j hj).1, (h.2 j hj).2⟩

/-- Naming never fails and keeps class and value. -/
theorem append_ok (reg : Registry) (page : Int) {i : Item} (hm : i.Made) :
    ∃ p j, Parser.append reg page i = .ok (p, j) ∧ j.Made ∧ j.key = i.key := by
  have hnn := hm.nonneg
  unfold Parser.append
  split
  · rename_i hc
    rw [hc] at hnn
    have h0 : 0 ≤ i.ival := by simpa [Cls.signed] using hnn
    obtain ⟨j, hj, h1, h2⟩ := new_named (reg := reg) (c := .usagePage) (by simp) (Usage.page i.ival) h0
    rw [hj]
    exact ⟨_, j, rfl, made_of_new hj, by simp [Item.key, h1, hc, h2, page_toInt]⟩
  all_goals first
    | (rename_i hc
       rw [hc] at hnn
       have h0 : 0 ≤ i.ival := by simpa [Cls.signed] using hnn
       split
       · rename_i hlt
         have hu := inpage_toInt reg page i.ival h0 (by omega)
         obtain ⟨j, hj, h1, h2⟩ := new_named (reg := reg) (c := i.cls) (by simp [hc])
           (Usage.inpage reg page i.ival) (by omega)
         rw [hj]
         exact ⟨_, j, rfl, made_of_new hj, by simp [Item.key, h1, h2, hu]⟩
       · exact ⟨_, i, rfl, hm, rfl⟩)
    | exact ⟨_, i, rfl, hm, rfl⟩

theorem sliceLen_eq (h : UInt8) : Parser.sliceLen h = 1 + Spec.dataLen (h.toNat % 4) := by
  unfold Parser.sliceLen Spec.dataLen
  have : h.toNat % 4 = 0 ∨ h.toNat % 4 = 1 ∨ h.toNat % 4 = 2 ∨ h.toNat % 4 = 3 := by omega
  rcases this with h | h | h | h <;> simp [h]

/-- `itemParse` on the slice at the head of the blob succeeds exactly when the HID reader reads an
item there. -/
theorem itemParse_slice (reg : Registry) (page : Int) (h : UInt8) (t : List UInt8) :
    (∃ k rest, Spec.readItem (h :: t) = some (k, rest) ∧ Spec.ZeroOK k ∧
      rest = (h :: t).drop (Parser.sliceLen h) ∧
      (h :: t) = (h :: t).take (Parser.sliceLen h) ++ rest ∧
      Spec.readItem ((h :: t).take (Parser.sliceLen h)) = some (k, []) ∧
      ∃ p j, Parser.itemParse reg page ((h :: t).take (Parser.sliceLen h)) = .ok (p, j) ∧
        j.Made ∧ j.key = k) ∨
    ((∀ k rest, Spec.readItem (h :: t) = some (k, rest) → ¬ Spec.ZeroOK k) ∧
      ∃ e, Parser.itemParse reg page ((h :: t).take (Parser.sliceLen h)) = .error e) := by
  have hsl := sliceLen_eq h
  have htake : (h :: t).take (Parser.sliceLen h) = h :: t.take (Spec.dataLen (h.toNat % 4)) := by
    rw [hsl, Nat.add_comm, List.take_succ_cons]
  have hdrop : (h :: t).drop (Parser.sliceLen h) = t.drop (Spec.dataLen (h.toNat % 4)) := by
    rw [hsl, Nat.add_comm, List.drop_succ_cons]
  rw [htake, hdrop]
  have hspec := C06_parse_spec_partial reg h (t.take (Spec.dataLen (h.toNat % 4)))
  unfold Parser.itemParse
  simp only [Spec.readItem]
  generalize hn : Spec.dataLen (h.toNat % 4) = n at *
  have hn0 : h.toNat % 4 = 0 → n = 0 := by intro h0; rw [h0] at hn; simpa [Spec.dataLen] using hn.symm
  cases hp : Item.parse reg (h :: t.take n) with
  | ok i =>
    left
    obtain ⟨hf, hlen, hv, hz⟩ := (hspec i.cls i.ival).mp ⟨i, hp, rfl, rfl⟩
    have hle : n ≤ t.length := by
      by_cases h0 : h.toNat % 4 = 0
      · rw [hn0 h0]; omega
      · have := hlen h0; simp at this; omega
    rw [hf]
    simp only [List.take_take, Nat.min_self] at hv
    have hm : i.Made := by
      unfold Item.parse at hp
      simp only at hp
      repeat' split at hp
      all_goals first | exact made_of_new hp | simp at hp
    refine ⟨(i.cls, Spec.dataValue i.cls (t.take n)), t.drop n, ?_, ?_, rfl, by simp, ?_, ?_⟩
    · simp; omega
    · unfold Spec.ZeroOK; simp only; rw [← hv]; exact hz
    · simp [List.take_take]; omega
    · obtain ⟨p, j, ha, hmj, hk⟩ := append_ok reg page hm
      exact ⟨p, j, ha, hmj, by rw [hk]; simp [Item.key, hv]⟩
  | error e =>
    right
    refine ⟨?_, e, rfl⟩
    intro k rest hr hz
    cases hf : Spec.shortItems.find? (fun c => Spec.hidPrefix c == h.toNat - h.toNat % 4) with
    | none => rw [hf] at hr; simp at hr
    | some c =>
      rw [hf] at hr
      simp only at hr
      split at hr
      · simp at hr
      · rename_i hlt
        simp only [Option.some.injEq, Prod.mk.injEq] at hr
        obtain ⟨i, hi, _⟩ := (hspec c (Spec.dataValue c (t.take n))).mpr
          ⟨hf, by intro _; simp; omega, by simp [List.take_take], by
            rw [← hr.1] at hz; exact hz⟩
        rw [hp] at hi; simp at hi

theorem blobLoop_cons (reg : Registry) (page : Int) (h : UInt8) (t : List UInt8) :
    Parser.blobLoop reg page (h :: t) =
      match Parser.itemParse reg page ((h :: t).take (Parser.sliceLen h)) with
      | .error e => ([], some e)
      | .ok (page', i) =>
        (i :: (Parser.blobLoop reg page' ((h :: t).drop (Parser.sliceLen h))).1,
          (Parser.blobLoop reg page' ((h :: t).drop (Parser.sliceLen h))).2) := by
  rw [Parser.blobLoop]
  split <;> rename_i he <;> simp [he]

theorem blobLoop_nil (reg : Registry) (page : Int) : Parser.blobLoop reg page [] = ([], none) := by
  rw [Parser.blobLoop]

theorem readAll_nil : Spec.readAll [] = some [] := by rw [Spec.readAll]

theorem readAll_step {b : List UInt8} {k : Spec.SItem} {rest : List UInt8}
    (h : Spec.readItem b = some (k, rest)) :
    Spec.readAll b = (Spec.readAll rest).map (k :: ·) := by
  cases b with
  | nil => simp [Spec.readItem] at h
  | cons x t =>
    rw [Spec.readAll]
    split
    · rename_i h'; rw [h] at h'; simp at h'
    · rename_i i r h'
      rw [h] at h'
      simp only [Option.some.injEq, Prod.mk.injEq] at h'
      obtain ⟨rfl, rfl⟩ := h'
      cases Spec.readAll rest <;> rfl

theorem readAll_fail {x : UInt8} {t : List UInt8} (h : Spec.readItem (x :: t) = none) :
    Spec.readAll (x :: t) = none := by
  rw [Spec.readAll]
  split
  · rfl
  · rename_i h'; rw [h] at h'; simp at h'

/-- The loop delivers the items the HID reader finds, until the first that is not acceptable. -/
theorem blobLoop_made (reg : Registry) (n : Nat) (page : Int) (blob : List UInt8) (hn : blob.length ≤ n) :
    ∀ i ∈ (Parser.blobLoop reg page blob).1, i.Made := by
  induction n generalizing page blob with
  | zero =>
    have : blob = [] := List.length_eq_zero_iff.mp (by omega)
    subst this; simp [blobLoop_nil]
  | succ n ih =>
    cases blob with
    | nil => simp [blobLoop_nil]
    | cons h t =>
      rw [blobLoop_cons]
      rcases itemParse_slice reg page h t with ⟨k, rest, hr, _, hrest, _, _, p, j, hp, hm, _⟩ | ⟨_, e, he⟩
      · rw [hp]
        simp only [List.mem_cons, forall_eq_or_imp]
        refine ⟨hm, ?_⟩
        rw [← hrest]
        apply ih
        have := Spec.readItem_lt hr
        simp at this hn; omega
      · rw [he]; simp

/-- Success of the loop = success of the HID reader on the whole blob. -/
theorem blobLoop_ok_iff (reg : Registry) (n : Nat) (page : Int) (blob : List UInt8) (hn : blob.length ≤ n)
    (ks : List Spec.SItem) :
    ((Parser.blobLoop reg page blob).2 = none ∧ (Parser.blobLoop reg page blob).1.map Item.key = ks) ↔
      Spec.readAll blob = some ks ∧ ∀ k ∈ ks, Spec.ZeroOK k := by
  induction n generalizing page blob ks with
  | zero =>
    have : blob = [] := List.length_eq_zero_iff.mp (by omega)
    subst this; rw [blobLoop_nil, readAll_nil]; simp
    rintro rfl; simp
  | succ n ih =>
    cases blob with
    | nil => rw [blobLoop_nil, readAll_nil]; simp; rintro rfl; simp
    | cons h t =>
      rw [blobLoop_cons]
      rcases itemParse_slice reg page h t with ⟨k, rest, hr, hz, hrest, _, _, p, j, hp, hm, hk⟩ | ⟨hno, e, he⟩
      · rw [hp, readAll_step hr]
        simp only [List.map_cons, ← hrest, hk]
        have hlt : rest.length ≤ n := by
          have := Spec.readItem_lt hr
          simp at this hn; omega
        cases ks with
        | nil => simp
        | cons k' ks =>
          have := ih p rest hlt ks
          simp only [Option.map_eq_some_iff, List.cons.injEq, List.mem_cons, forall_eq_or_imp]
          constructor
          · rintro ⟨h1, rfl, h2⟩
            obtain ⟨h3, h4⟩ := this.mp ⟨h1, h2⟩
            exact ⟨⟨ks, h3, rfl, rfl⟩, hz, h4⟩
          · rintro ⟨⟨l, h3, rfl, rfl⟩, _, h4⟩
            obtain ⟨h1, h2⟩ := this.mpr ⟨h3, h4⟩
            exact ⟨h1, rfl, h2⟩
      · rw [he]
        simp only [reduceCtorEq, false_and, false_iff, not_and]
        intro hra hall
        cases hr : Spec.readItem (h :: t) with
        | none => rw [readAll_fail hr] at hra; simp at hra
        | some kr =>
          obtain ⟨k, rest⟩ := kr
          rw [readAll_step hr] at hra
          simp only [Option.map_eq_some_iff] at hra
          obtain ⟨l, _, rfl⟩ := hra
          exact hno k rest hr (hall k (by simp))

/-- The bytes of constructed items depend only on class and value. -/
theorem bytes_congr {i j : Item} (hi : i.Made) (hj : j.Made) (h : i.key = j.key) : i.bytes = j.bytes := by
  have hc : i.cls = j.cls := congrArg Prod.fst h
  have hv : i.ival = j.ival := congrArg Prod.snd h
  have hs : i.sizeCode = j.sizeCode := by
    cases hsg : i.cls.signed with
    | true => rw [sizeCode_signed i hsg, sizeCode_signed j (hc ▸ hsg), hv]
    | false =>
      have h0 : 0 ≤ i.ival := by have := hi.nonneg; simpa [hsg] using this
      by_cases he : i.cls = .endCollection
      · rw [(sizeCode_zero_iff hi).mpr he, (sizeCode_zero_iff hj).mpr (hc ▸ he)]
      · have n1 := mt (sizeCode_zero_iff hi).mp he
        have n2 := mt (sizeCode_zero_iff hj).mp (hc ▸ he)
        rw [sizeCode_unsigned i hsg h0] at n1 ⊢
        rw [sizeCode_unsigned j (hc ▸ hsg) (hv ▸ h0)] at n2 ⊢
        split at n1
        · simp at n1
        · split at n2
          · simp at n2
          · rename_i a b
            rw [if_neg a, if_neg b, hv]
  unfold Item.bytes
  rw [hc, hv, hs]

theorem binary_ok {i : Item} {l : List Item} {b : List UInt8} (h : Formatter.binary (i :: l) = .ok b) :
    ∃ b1 b2, i.bytes = .ok b1 ∧ Formatter.binary l = .ok b2 ∧ b = b1 ++ b2 := by
  unfold Formatter.binary at h
  split at h
  · rename_i b1 b2 h1 h2
    exact ⟨b1, b2, h1, h2, by simpa using h.symm⟩
  · simp at h
  · simp at h

theorem binary_congr {l l' : List Item} (hl : ∀ i ∈ l, i.Made) (hl' : ∀ i ∈ l', i.Made)
    (h : l.map Item.key = l'.map Item.key) : Formatter.binary l = Formatter.binary l' := by
  induction l generalizing l' with
  | nil => cases l' with
    | nil => rfl
    | cons => simp at h
  | cons i l ih =>
    cases l' with
    | nil => simp at h
    | cons j l' =>
      simp only [List.map_cons, List.cons.injEq] at h
      have h1 := bytes_congr (hl i (by simp)) (hl' j (by simp)) h.1
      have h2 := ih (fun x hx => hl x (by simp [hx])) (fun x hx => hl' x (by simp [hx])) h.2
      unfold Formatter.binary
      rw [h1, h2]

theorem readAll_binary {l : List Item} {b : List UInt8} (hm : ∀ i ∈ l, i.Made)
    (h : Formatter.binary l = .ok b) : Spec.readAll b = some (l.map Item.key) := by
  induction l generalizing b with
  | nil => simp [Formatter.binary] at h; subst h; simp [readAll_nil]
  | cons i l ih =>
    obtain ⟨b1, b2, h1, h2, rfl⟩ := binary_ok h
    have hr := C02_wire_format i (hm i (by simp)) b1 b2 h1
    rw [readAll_step hr, ih (fun x hx => hm x (by simp [hx])) h2]
    rfl

end Hrdc
