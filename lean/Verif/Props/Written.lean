import Verif.Spec.Fits
import Verif.Proofs.TreeKeys
import Verif.Props.Fits
import Verif.Props.Success
/-!
# Property C66: which descriptors can be written
-/
namespace Hrdc
open Spec Streamer

theorem fits_unsigned {c : Cls} {x : Int} (h : ¬ isSigned c) : Fits c 4 x ↔ unsigned32 x = true := by
  rw [fits_iff c (by simp), if_neg (fun h' => h ((signed_iff c).1 h'))]
  simp [unsigned32]

theorem fits_signed {c : Cls} {x : Int} (h : isSigned c) : Fits c 4 x ↔ signed32 x = true := by
  rw [fits_iff c (by simp), if_pos ((signed_iff c).2 h)]
  simp [signed32]

theorem fits_zero (c : Cls) : Fits c 4 0 := by
  rw [fits_iff c (by simp)]; split <;> omega

theorem way_unsigned (w : Way) : ¬ isSigned w.cls := by cases w <;> decide

/-- Every item fits. -/
def AllFit (ks : List SItem) : Prop := ∀ k ∈ ks, Fits k.1 4 k.2

theorem allFit_nil : AllFit [] ↔ True := by simp [AllFit]

theorem allFit_cons (c : Cls) (x : Int) (ks : List SItem) : AllFit ((c, x) :: ks) ↔ Fits c 4 x ∧ AllFit ks := by
  simp [AllFit]

theorem allFit_append (a b : List SItem) : AllFit (a ++ b) ↔ AllFit a ∧ AllFit b := by
  simp only [AllFit, List.mem_append]
  exact ⟨fun h => ⟨fun k hk => h k (.inl hk), fun k hk => h k (.inr hk)⟩,
    fun h k hk => hk.elim (h.1 k) (h.2 k)⟩

theorem allFit_usages (us : List Int) : AllFit (us.map (fun u => (Cls.usage, u))) ↔ us.all unsigned32 = true := by
  simp only [AllFit, List.mem_map, List.all_eq_true]
  constructor
  · intro h u hu
    exact (fits_unsigned (c := .usage) (by decide)).1 (h (.usage, u) ⟨u, hu, rfl⟩)
  · rintro h k ⟨u, hu, rfl⟩
    exact (fits_unsigned (c := .usage) (by decide)).2 (h u hu)

theorem allFit_opt (c : Cls) (x : Int) (hc : ¬ isSigned c) :
    AllFit (if x = 0 then [] else [(c, x)]) ↔ unsigned32 x = true := by
  by_cases h : x = 0
  · subst h; simp [allFit_nil, unsigned32]
  · simp [h, allFit_cons, allFit_nil, fits_unsigned hc]

theorem allFit_pad (w : Way) (p : Int) : AllFit (padKeys w p) ↔ unsigned32 p = true := by
  unfold padKeys
  by_cases h : p = 0
  · subst h; simp [allFit_nil, unsigned32]
  · simp only [if_neg h, allFit_cons, allFit_nil, fits_unsigned (way_unsigned w),
      fits_unsigned (show ¬ isSigned .reportCount by decide), fits_unsigned (show ¬ isSigned .reportSize by decide)]
    simp [unsigned32]

theorem allFit_phys (v : Value) (hl : signed32 (v.logicalMin.getD 0) = true) (hh : signed32 (v.logicalMax.getD 0) = true) :
    (signed32 (physOf v).1 = true ∧ signed32 (physOf v).2 = true) ↔
      ((!(arrayUsages v.namedArray).isEmpty ||
        signed32 (v.physicalMin.getD 0) && signed32 (v.physicalMax.getD 0)) = true) := by
  unfold physOf
  by_cases ha : arrayUsages v.namedArray = []
  · by_cases hp : v.physicalMin = v.logicalMin ∧ v.physicalMax = v.logicalMax
    · simp only [hp, and_self, or_true, if_true, hl, hh, Bool.and_self, Bool.or_true]
      decide
    · simp [ha, hp]
  · simp [ha, signed32]

theorem allFit_value (v : Value) : AllFit (valKeys v) ↔ valueFits v = true := by
  have e1 : ∀ x, Fits v.way.cls 4 x ↔ unsigned32 x = true := fun x => fits_unsigned (way_unsigned _)
  have e2 : ∀ x, Fits .reportCount 4 x ↔ unsigned32 x = true := fun x => fits_unsigned (by decide)
  have e3 : ∀ x, Fits .reportSize 4 x ↔ unsigned32 x = true := fun x => fits_unsigned (by decide)
  have e4 : ∀ x, Fits .unit 4 x ↔ unsigned32 x = true := fun x => fits_unsigned (by decide)
  have e5 : ∀ x, Fits .unitExp 4 x ↔ signed32 x = true := fun x => fits_signed (by decide)
  have e6 : ∀ x, Fits .logMin 4 x ↔ signed32 x = true := fun x => fits_signed (by decide)
  have e7 : ∀ x, Fits .logMax 4 x ↔ signed32 x = true := fun x => fits_signed (by decide)
  have e8 : ∀ x, Fits .physMin 4 x ↔ signed32 x = true := fun x => fits_signed (by decide)
  have e9 : ∀ x, Fits .physMax 4 x ↔ signed32 x = true := fun x => fits_signed (by decide)
  have ew : ∀ (b : Bool) (c : Cls) (x : Int), Fits c 4 x → (AllFit (if b then [(c, x)] else []) ↔ True) := by
    intro b c x h
    cases b <;> simp [allFit_nil, allFit_cons, h]
  have c2 : Fits .collection 4 2 := (fits_unsigned (by decide)).2 (by decide)
  have c3 : Fits .endCollection 4 0 := fits_zero _
  unfold valKeys valueFits
  by_cases hc : constFlag v.flags = true
  · have hb : bitSet v.flags.toInt 0 = true := hc
    simp only [hc, if_true, allFit_cons, allFit_nil, e1, e2, e3, hb, Bool.true_or, Bool.and_true, Bool.and_eq_true]
    grind
  · have hc' : constFlag v.flags = false := by simpa using hc
    have hb : bitSet v.flags.toInt 0 = false := hc'
    simp only [hc', Bool.false_eq_true, if_false, fieldKeys, allFit_append, allFit_cons, allFit_nil, allFit_usages,
      allFit_opt _ _ (show ¬ isSigned .desigIndex by decide), allFit_opt _ _ (show ¬ isSigned .strIndex by decide),
      ew _ _ _ c2, ew _ _ _ c3, e1, e2, e3, e4, e5, e6, e7, e8, e9, hb, Bool.false_or, Bool.and_eq_true,
      List.all_append]
    have := allFit_phys v
    grind

theorem kept_wrap (k : PyVal) : (wrapKind k).toInt = keptValue .collection k := by
  cases k with
  | int i =>
    simp only [wrapKind, keptValue]
    by_cases h : -7 ≤ i ∧ i < 0 <;> simp [h, PyVal.toInt]
  | named => rfl
  | usage => rfl

theorem allFit_tree (ts : List Tok) (c : Count) (id : Int) : AllFit (treeKeys c id ts) ↔ numbersFit c id ts = true := by
  induction ts generalizing c id with
  | nil => simp [treeKeys, numbersFit, allFit_nil]
  | cons t ts ih =>
    cases t with
    | report i =>
      rw [treeKeys, numbersFit, allFit_append, allFit_opt _ _ (by decide), ih, Bool.and_eq_true]
    | endReport => rw [treeKeys, numbersFit, ih]
    | enter k u =>
      rw [treeKeys, numbersFit, allFit_cons, allFit_cons, ih, kept_wrap, fits_unsigned (by decide),
        fits_unsigned (by decide)]
      simp only [Bool.and_eq_true, and_assoc]
    | leave =>
      rw [treeKeys, numbersFit, allFit_cons, ih]
      simp [fits_zero]
    | leaf l =>
      rw [treeKeys, allFit_append, ih, leafKeys, allFit_append, allFit_pad]
      cases l with
      | value v => simp only [numbersFit, ownKeys, allFit_value, Bool.and_eq_true]
      | align w b => simp [numbersFit, ownKeys, allFit_nil]
      | padding w s => simp [numbersFit, ownKeys, allFit_nil]

theorem binary_of_code (l : List Item) (ind : Int) (t : Text) (h : Formatter.codeFrom ind l = .ok t) :
    ∃ b, Formatter.binary l = .ok b := by
  induction l generalizing ind t with
  | nil => exact ⟨[], rfl⟩
  | cons i l ih =>
    simp only [Formatter.codeFrom] at h
    split at h
    · rename_i b r hb hr
      obtain ⟨b2, h2⟩ := ih _ _ hr
      exact ⟨b ++ b2, by simp [Formatter.binary, hb, h2]⟩
    · simp at h
    · simp at h

theorem binary_of_render (f : Formatter.Fmt) {l : List Item} {d : Formatter.Doc} (h : Formatter.render f l = .ok d) :
    ∃ b, Formatter.binary l = .ok b := by
  cases f with
  | binary =>
    cases hb : Formatter.binary l with
    | ok b => exact ⟨b, rfl⟩
    | error e => simp [Formatter.render, hb, Except.map] at h
  | hex =>
    cases hb : Formatter.hex l with
    | ok t => exact ⟨_, C11_hex_roundtrip (fun _ => false) l t hb⟩
    | error e => simp [Formatter.render, hb, Except.map] at h
  | code =>
    cases hb : Formatter.code l with
    | ok t => exact binary_of_code l 0 t hb
    | error e => simp [Formatter.render, hb, Except.map] at h

/-- **C66.** `compile_main` without optimization writes something, in whatever format, exactly when the
descriptor is legal and all its numbers fit in 32 bits. -/
theorem C66_written_iff (reg : Registry) (f : Formatter.Fmt) (n : Node) :
    (∃ d, Compiler.main reg f false n = .ok d) ↔
      legal 0 (tokens n) = true ∧ numbersFit (fun _ _ => 0) 0 (tokens n) = true := by
  rw [← C59_compiles_iff reg n]
  unfold Compiler.main
  cases hc : compile reg n with
  | error e => simp
  | ok l =>
    simp only [Bool.false_eq_true, if_false]
    rw [← allFit_tree, ← compile_keys hc]
    constructor
    · rintro ⟨d, hd⟩
      obtain ⟨b, hb⟩ := binary_of_render f hd
      refine ⟨⟨l, rfl⟩, ?_⟩
      exact readAll_fits b.length b (Nat.le_refl _) (readAll_binary (compile_made hc) hb)
    · rintro ⟨-, hf⟩
      obtain ⟨b, hb⟩ := binary_of_fits (compile_made hc) (fun i hi => hf i.key (List.mem_map_of_mem hi))
      exact render_of_binary f hb

/-- The sample tree can be written.  Logical bounds are signed: a maximum of 2^32 - 1 is refused, though the
descriptor compiles; so are counts of 2^32 and usages of 33 bits. -/
example : (legal 0 (tokens sampleTree) && numbersFit (fun _ _ => 0) 0 (tokens sampleTree)) = true ∧
    [axis 0x10030, { axis 0x10030 with logicalMax := some 0x7fffffff }].all (fun a =>
      numbersFit (fun _ _ => 0) 0 (tokens (app [.value (mk a)]))) = true ∧
    [{ axis 0x10030 with logicalMax := some 0xffffffff }, { axis 0x10030 with count := 2 ^ 32 },
      { axis 0x10030 with usage := some (.int 0x100010030) }].all (fun a =>
        legal 0 (tokens (app [.value (mk a)])) && !numbersFit (fun _ _ => 0) 0 (tokens (app [.value (mk a)])))
      = true := by decide +kernel

end Hrdc
