import Verif.Model.UsageTable
import Verif.Proofs.Dumper2
/-!
# Facts about the usage constants

Distinctness is decided by one pass over each module, marking in a bit set what has been seen.
-/
namespace Hrdc
namespace UsageTable

/-- No number occurs twice, nor is it marked already. -/
def unseen (acc : Nat) : List Nat → Bool
  | [] => true
  | h :: r => !acc.testBit h && unseen (acc ||| (1 <<< h)) r

theorem unseen_sound (l : List Nat) : ∀ acc, unseen acc l = true → l.Nodup ∧ ∀ h ∈ l, acc.testBit h = false := by
  induction l with
  | nil => intro acc _; simp
  | cons a r ih =>
    intro acc h
    simp only [unseen, Bool.and_eq_true, Bool.not_eq_true'] at h
    obtain ⟨h1, h2⟩ := ih _ h.2
    have h3 : ∀ x ∈ r, acc.testBit x = false ∧ a ≠ x := by
      intro x hx
      have := h2 x hx
      rw [Nat.testBit_or, Bool.or_eq_false_iff, Nat.testBit_shiftLeft] at this
      refine ⟨this.1, ?_⟩
      rintro rfl
      simp at this
    refine ⟨List.nodup_cons.mpr ⟨fun ha => (h3 a ha).2 rfl, h1⟩, ?_⟩
    intro x hx
    rcases List.mem_cons.mp hx with rfl | hx
    · exact h.1
    · exact (h3 x hx).1

/-- A number for a word. -/
def code (t : Text) : Nat := t.foldl (fun a c => (a * 31 + c.toNat) % 20065) 0

/-- The page of a module. -/
def pageNo : List (Text × Nat) := [
  (chars "pid", 0xf), (chars "keyboard", 0x7), (chars "desktop", 0x1), (chars "telephony", 0xb), (chars "consumer", 0xc),
  (chars "simulation", 0x2), (chars "led", 0x8), (chars "vr", 0x3), (chars "game", 0x5), (chars "camera", 0x90),
  (chars "device", 0x6), (chars "digitizers", 0xd), (chars "lighting", 0x59), (chars "sensors", 0x20)]

/-- The page of a value; the only constant of page 0x10 belongs to `desktop`. -/
def pageOf (v : Nat) : Nat := if v = 0x1000c9 then 1 else v / 65536

theorem unique_values : modules.all (fun p => unseen 0 (p.2.map (fun r => r.value % 65536))) = true := by
  decide +kernel

theorem unique_attrs : modules.all (fun p => unseen 0 (p.2.map (fun r => code r.attr))) = true := by
  decide +kernel

theorem on_page : modules.all (fun p => p.2.all (fun r =>
    (pageNo.find? (fun q => q.1 == p.1)).map (·.2) == some (pageOf r.value))) = true := by
  decide +kernel

/-- The constants whose name is not `module.attribute`. -/
def misnamed : List Nat := [0x10009, 0x1003d, 0x1003e, 0x200b2, 0x590008]

theorem names_ok : modules.all (fun p => p.2.all (fun r => misnamed.contains r.value ||
    (r.name == p.1 ++ tx "." ++ r.attr && r.attr.all Spec.Script.wordChar && r.attr.head?.any (fun c => c.isAlpha)))) = true := by
  decide +kernel

/-! ## Rows -/

/-- A row of a module. -/
def Has (m : Text) (r : Row) : Prop := ∃ p ∈ modules, p.1 = m ∧ r ∈ p.2

theorem modules_nodup : (modules.map (·.1)).Nodup := by decide +kernel

theorem find_key {α : Type} (l : List (Text × α)) (h : (l.map (·.1)).Nodup) (p : Text × α) (hp : p ∈ l) :
    l.find? (fun q => q.1 == p.1) = some p := by
  induction l with
  | nil => simp at hp
  | cons a r ih =>
    simp only [List.map_cons, List.nodup_cons] at h
    rcases List.mem_cons.mp hp with rfl | hp'
    · simp
    · have : a.1 ≠ p.1 := by
        intro he
        exact h.1 (he ▸ List.mem_map_of_mem hp')
      rw [List.find?_cons_of_neg (by simpa using this)]
      exact ih h.2 hp'

/-- Rows of one module differ wherever a function of them takes distinct values. -/
theorem eq_of_unseen {β : Type} (f : β → Nat) (l : List β) (h : unseen 0 (l.map f) = true) (r s : β)
    (hr : r ∈ l) (hs : s ∈ l) (he : f r = f s) : r = s := by
  have hn := (unseen_sound _ 0 h).1
  clear h
  induction l with
  | nil => simp at hr
  | cons a t ih =>
    simp only [List.map_cons, List.nodup_cons] at hn
    rcases List.mem_cons.mp hr with rfl | hr' <;> rcases List.mem_cons.mp hs with rfl | hs'
    · rfl
    · exact absurd (he ▸ List.mem_map_of_mem hs') hn.1
    · exact absurd (he ▸ List.mem_map_of_mem hr') hn.1
    · exact ih hr' hs' hn.2

theorem pageNo_inj : pageNo.all (fun p => pageNo.all (fun q => p.2 != q.2 || p.1 == q.1)) = true := by
  decide +kernel

theorem Has.page {m : Text} {r : Row} (h : Has m r) : (m, pageOf r.value) ∈ pageNo := by
  obtain ⟨p, hp, rfl, hr⟩ := h
  have := List.all_eq_true.mp (List.all_eq_true.mp on_page p hp) r hr
  simp only [beq_iff_eq] at this
  cases hf : pageNo.find? (fun q => q.1 == p.1) with
  | none => rw [hf] at this; simp at this
  | some q =>
    rw [hf] at this
    simp only [Option.map_some, Option.some.injEq] at this
    have h1 := List.find?_some hf
    have h2 := List.mem_of_find?_eq_some hf
    simp only [beq_iff_eq] at h1
    rw [← h1, ← this]
    exact h2

/-- The value identifies the module and the row. -/
theorem Has.unique {m n : Text} {r s : Row} (h : Has m r) (h' : Has n s) (he : r.value = s.value) :
    m = n ∧ r = s := by
  have hmn : m = n := by
    have := List.all_eq_true.mp (List.all_eq_true.mp pageNo_inj _ h.page) _ h'.page
    simpa [he] using this
  subst hmn
  obtain ⟨p, hp, hpm, hr⟩ := h
  obtain ⟨q, hq, hqm, hs⟩ := h'
  have hpq : p = q := by
    have h1 := find_key modules modules_nodup p hp
    have h2 := find_key modules modules_nodup q hq
    rw [hpm] at h1
    rw [hqm, h1] at h2
    exact Option.some.inj h2
  subst hpq
  refine ⟨rfl, eq_of_unseen (fun r => r.value % 65536) p.2 (List.all_eq_true.mp unique_values p hp) r s hr hs ?_⟩
  simp [he]

/-- `module.attr`, row by row. -/
theorem lookup_iff (m a : Text) (u : UsageC) : lookup m a = some u ↔ ∃ r, Has m r ∧ r.attr = a ∧ r.usage = u := by
  unfold lookup
  constructor
  · intro h
    cases hf : modules.find? (fun p => p.1 == m) with
    | none => rw [hf] at h; simp at h
    | some p =>
      rw [hf] at h
      simp only [Option.map_eq_some_iff] at h
      obtain ⟨r, hr, hu⟩ := h
      have h1 := List.find?_some hf
      have h2 := List.find?_some hr
      simp only [beq_iff_eq] at h1 h2
      exact ⟨r, ⟨p, List.mem_of_find?_eq_some hf, h1, List.mem_of_find?_eq_some hr⟩, h2, hu⟩
  · rintro ⟨r, ⟨p, hp, rfl, hr⟩, rfl, rfl⟩
    rw [find_key modules modules_nodup p hp]
    simp only [Option.map_eq_some_iff]
    refine ⟨r, ?_, rfl⟩
    cases hf : p.2.find? (fun s => s.attr == r.attr) with
    | none =>
      have := List.find?_eq_none.mp hf r hr
      simp at this
    | some s =>
      have h2 := List.find?_some hf
      simp only [beq_iff_eq] at h2
      have := eq_of_unseen (fun r => code r.attr) p.2 (List.all_eq_true.mp unique_attrs p hp) s r
        (List.mem_of_find?_eq_some hf) hr (by simp [h2])
      rw [this]

/-- Everything registered. -/
theorem mem_registered (u : UsageC) : u ∈ registered ↔
    (∃ n : Nat, n < 128 ∧ u = Button n) ∨ (∃ n : Nat, n < 128 ∧ u = Ordinal n) ∨ ∃ m r, Has m r ∧ r.usage = u := by
  have hb : ∀ f : Nat → UsageC, u ∈ (List.range 128).map f ↔ ∃ n, n < 128 ∧ u = f n := by
    intro f
    simp only [List.mem_map, List.mem_range]
    constructor <;> rintro ⟨n, h1, h2⟩ <;> exact ⟨n, h1, h2.symm⟩
  unfold registered
  rw [List.mem_append, List.mem_append, List.mem_append, hb, hb]
  constructor
  · rintro (((h | h) | h) | h)
    · exact .inl h
    · refine .inr (.inr ?_)
      obtain ⟨r, hr, hu⟩ := List.mem_map.mp h
      simp only [List.mem_append] at hr
      rcases hr with (((hr | hr) | hr) | hr) | hr
      · exact ⟨chars "pid", r, ⟨(_, pid), by simp [modules], rfl, hr⟩, hu⟩
      · exact ⟨chars "keyboard", r, ⟨(_, keyboard), by simp [modules], rfl, hr⟩, hu⟩
      · exact ⟨chars "desktop", r, ⟨(_, desktop), by simp [modules], rfl, hr⟩, hu⟩
      · exact ⟨chars "telephony", r, ⟨(_, telephony), by simp [modules], rfl, hr⟩, hu⟩
      · exact ⟨chars "consumer", r, ⟨(_, consumer), by simp [modules], rfl, hr⟩, hu⟩
    · exact .inr (.inl h)
    · refine .inr (.inr ?_)
      obtain ⟨r, hr, hu⟩ := List.mem_map.mp h
      simp only [List.mem_append] at hr
      rcases hr with (((((((hr | hr) | hr) | hr) | hr) | hr) | hr) | hr) | hr
      · exact ⟨chars "simulation", r, ⟨(_, simulation), by simp [modules], rfl, hr⟩, hu⟩
      · exact ⟨chars "led", r, ⟨(_, led), by simp [modules], rfl, hr⟩, hu⟩
      · exact ⟨chars "vr", r, ⟨(_, vr), by simp [modules], rfl, hr⟩, hu⟩
      · exact ⟨chars "game", r, ⟨(_, game), by simp [modules], rfl, hr⟩, hu⟩
      · exact ⟨chars "camera", r, ⟨(_, camera), by simp [modules], rfl, hr⟩, hu⟩
      · exact ⟨chars "device", r, ⟨(_, device), by simp [modules], rfl, hr⟩, hu⟩
      · exact ⟨chars "digitizers", r, ⟨(_, digitizers), by simp [modules], rfl, hr⟩, hu⟩
      · exact ⟨chars "lighting", r, ⟨(_, lighting), by simp [modules], rfl, hr⟩, hu⟩
      · exact ⟨chars "sensors", r, ⟨(_, sensors), by simp [modules], rfl, hr⟩, hu⟩
  · rintro (h | h | ⟨m, r, ⟨p, hp, -, hr⟩, hu⟩)
    · exact .inl (.inl (.inl h))
    · exact .inl (.inr h)
    · simp only [modules, List.mem_cons, List.not_mem_nil, or_false] at hp
      simp only [List.mem_map, List.mem_append]
      rcases hp with rfl | rfl | rfl | rfl | rfl | rfl | rfl | rfl | rfl | rfl | rfl | rfl | rfl | rfl <;>
        simp only at hr <;>
        first
        | exact .inl (.inl (.inr ⟨r, by simp only [hr, true_or, or_true], hu⟩))
        | exact .inr ⟨r, by simp only [hr, true_or, or_true], hu⟩

end UsageTable

namespace Spec.Script

/-- A word. -/
def isWord (t : Text) : Bool := t.all wordChar && t.head?.any (fun c => c.isAlpha || c == '_')

theorem lexM_isWord (t : Text) (h : isWord t = true) : lexM .idle t = some (.word t, []) := by
  cases t with
  | nil => simp [isWord] at h
  | cons c r =>
    simp only [isWord, List.all_cons, List.head?_cons, Option.any_some, Bool.and_eq_true] at h
    have hch : char .idle c = some (.word [c], []) := by
      unfold char
      rw [if_neg (by simp)]
      simp [flush, start, h.2]
    simp only [lexM, hch]
    rw [lexM_word _ _ h.1.2]
    simp

theorem lex_isWord (t : Text) (h : isWord t = true) : lex .idle t = some [.name t] := by
  have := lex_eq_lexM .idle _ t [] [.name t] (lexM_isWord t h) rfl
  simpa using this

theorem lex_attr (m a : Text) (hm : isWord m = true) (ha : isWord a = true) :
    lex .idle (m ++ tx "." ++ a) = some [.name m, .op '.', .name a] := by
  have h1 : Whole (m ++ tx ".") ([.name m] ++ [.op '.']) :=
    (Wordy.of_lex (lex_isWord m hm)).whole (c := '.') (by decide) (Whole.of_lexM (by decide +kernel))
  have := h1 a _ (lex_isWord a ha)
  simpa using this

/-- A usage constant of a module. -/
theorem eval_attr (env : Env) (t m a : Text) (u : UsageC)
    (hl : lex .idle t = some [.name m, .op '.', .name a])
    (hg : globals m = some (.module m)) (hn : m ≠ tx "button" ∧ m ≠ tx "ordinal") (hu : env m a = some u) :
    eval env t = some (.val (.usage u)) := by
  refine (eval_iff _ _ _).mpr ⟨_, hl, ⟨[], { cur := .obj (.val (.usage u)) }, false⟩, ?_, rfl, rfl⟩
  simp [run, step, name1, punct, Cur.get, hg, attr, hn.1, hn.2, hu]

/-- `module.Function(n)`. -/
theorem eval_call (env : Env) (m f : Text) (g : Fn) (n : Int) (u : UsageC)
    (hl : lexM .idle (m ++ tx "." ++ f ++ tx "(") = some (.idle, [.name m, .op '.', .name f, .op '(']))
    (hg : globals m = some (.module m)) (hf : attr env (.module m) f = some (.fn g))
    (hc : call g [.val (.int n)] [] = some (.val (.usage u))) :
    eval env (m ++ tx "." ++ f ++ tx "(" ++ pyStr n ++ tx ")") = some (.val (.usage u)) := by
  have h1 := Whole.of_lexM hl
  have h2 : Whole (pyStr n ++ tx ")") (intToks n ++ [.op ')']) :=
    (Wordy.of_lex (lex_pyStr n)).whole (c := ')') (by decide) (Whole.of_lexM (by decide +kernel))
  have h3 := (h1.append h2).lex
  rw [← List.append_assoc] at h3
  have hr1 : run env {} [.name m, .op '.', .name f, .op '('] =
      some ⟨[{ callee := some (.fn g), saved := { cur := .obj (.fn g) } }], {}, false⟩ := by
    simp [run, step, name1, punct, Cur.get, hg, hf]
  obtain ⟨st, h4, h5⟩ := (reads_int env n).pend
    ({ callee := some (.fn g), saved := { cur := .obj (.fn g) } } : Frame)
    { callee := some (.fn g), saved := { cur := .obj (.fn g) }, pos := [.val (.int n)] } [] none rfl
  refine (eval_iff _ _ _).mpr ⟨_, h3, ?_⟩
  have h6 := Pend.close (env := env) h5 (.fn g) rfl (.val (.usage u)) (by simpa [Frame.result] using hc)
  refine ⟨⟨[], { cur := .obj (.val (.usage u)) }, false⟩, ?_, rfl, rfl⟩
  rw [run_append, hr1]
  simp only [Option.bind_some]
  rw [run_append, h4]
  simp only [Option.bind_some, run, h6]

theorem eval_button (env : Env) (n : Int) : eval env (Button n).name = some (.val (.usage (Button n))) := by
  have := eval_call env (tx "button") (tx "Button") .button n (Button n) (by decide +kernel) (by rfl) (by rfl) rfl
  have e : tx "button.Button(" = tx "button" ++ tx "." ++ tx "Button" ++ tx "(" := by decide +kernel
  simp only [Button, e]
  exact this

theorem eval_ordinal (env : Env) (n : Int) : eval env (Ordinal n).name = some (.val (.usage (Ordinal n))) := by
  have := eval_call env (tx "ordinal") (tx "Ordinal") .ordinal n (Ordinal n) (by decide +kernel) (by rfl) (by rfl) rfl
  have e : tx "ordinal.Ordinal(" = tx "ordinal" ++ tx "." ++ tx "Ordinal" ++ tx "(" := by decide +kernel
  simp only [Ordinal, e]
  exact this

theorem modules_words : UsageTable.modules.all (fun p => isWord p.1 && modules.contains p.1 && p.1 != tx "button" &&
    p.1 != tx "ordinal" && (assoc p.1 [(tx "None", Obj.none), (tx "TopLevel", .fn .topLevel), (tx "Report", .fn .report),
      (tx "Collection", .fn .collection), (tx "Value", .fn .value), (tx "Align", .fn .align),
      (tx "Padding", .fn .padding), (tx "UsageRange", .fn .usageRange), (tx "Unit", .unit)]).isNone) = true := by
  decide +kernel

/-- The constants whose name Python does not read back. -/
def misread : List Nat := [0x10009, 0x1003d, 0x1003e, 0x200b2]

/-- The name of a constant of the table. -/
theorem eval_table (m : Text) (r : UsageTable.Row) (h : UsageTable.Has m r) (hm : ¬ r.value ∈ misread) :
    eval UsageTable.lookup r.name = some (.val (.usage r.usage)) := by
  by_cases hs : r.value = 0x590008
  · have h' : UsageTable.Has (chars "lighting") ⟨chars "MinUpdateIntervalInMicroseconds",
        chars "lighting. MinUpdateIntervalInMicroseconds", 0x590008, [.SV]⟩ :=
      ⟨(_, UsageTable.lighting), by simp [UsageTable.modules], rfl, by simp [UsageTable.lighting]⟩
    obtain ⟨rfl, rfl⟩ := h.unique h' hs
    exact eval_attr _ _ (chars "lighting") (chars "MinUpdateIntervalInMicroseconds") _ (by decide +kernel) (by rfl)
      ⟨by decide +kernel, by decide +kernel⟩ ((UsageTable.lookup_iff _ _ _).mpr ⟨_, h', rfl, rfl⟩)
  · obtain ⟨p, hp, rfl, hr⟩ := h
    have h1 := List.all_eq_true.mp (List.all_eq_true.mp UsageTable.names_ok p hp) r hr
    have h2 := List.all_eq_true.mp modules_words p hp
    simp only [Bool.or_eq_true, Bool.and_eq_true, beq_iff_eq] at h1
    have hmis : ¬ UsageTable.misnamed.contains r.value = true := by
      simp only [misread, List.mem_cons, List.not_mem_nil, or_false, not_or] at hm
      simp [UsageTable.misnamed, hm, hs]
    obtain ⟨⟨hn, hw⟩, hh⟩ := h1.resolve_left hmis
    simp only [Bool.and_eq_true, bne_iff_ne, ne_eq, Option.isNone_iff_eq_none] at h2
    obtain ⟨⟨⟨⟨w1, w2⟩, w3⟩, w4⟩, w5⟩ := h2
    rw [hn]
    refine eval_attr _ _ p.1 r.attr r.usage (lex_attr _ _ w1 ?_) ?_ ⟨w3, w4⟩ ?_
    · unfold isWord
      rw [hw, Bool.true_and]
      cases hd : r.attr.head? with
      | none => rw [hd] at hh; simp at hh
      | some c => rw [hd] at hh; simp only [Option.any_some] at hh; simp [hh]
    · unfold globals
      simp only [w5, w2, if_true]
    · exact (UsageTable.lookup_iff _ _ _).mpr ⟨r, ⟨p, hp, rfl, hr⟩, rfl, rfl⟩

end Spec.Script
end Hrdc
