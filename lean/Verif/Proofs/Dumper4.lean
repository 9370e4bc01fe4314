import Verif.Proofs.Dumper3
/-!
# Scripts that do not run
-/
namespace Hrdc.Spec.Script
open Hrdc.Dumper

/-! ## Words inside a text -/

/-- What stands before and after a character that ends words. -/
theorem lex_split (m : Mode) (t r : Text) (c : Char) (hc : wordChar c = false) (l : List Tok)
    (h : lex m (t ++ c :: r) = some l) : ∃ a b, lex m t = some a ∧ lex .idle (c :: r) = some b ∧ l = a ++ b := by
  induction t generalizing m l with
  | nil =>
    simp only [List.nil_append, lex] at h
    have hch : ∀ m, char m c = match flush m, start c with
        | some a, some (m', b) => some (m', a ++ b)
        | _, _ => none := by
      intro m; unfold char; rw [if_neg (by simp [hc])]; rfl
    rw [hch] at h
    cases hf : flush m with
    | none => rw [hf] at h; simp at h
    | some a =>
      cases hs : start c with
      | none => rw [hf, hs] at h; simp at h
      | some p =>
        obtain ⟨m', b⟩ := p
        rw [hf, hs] at h
        simp only at h
        cases hl : lex m' r with
        | none => rw [hl] at h; simp at h
        | some q =>
          rw [hl] at h
          simp only [Option.some.injEq] at h
          refine ⟨a, b ++ q, hf, ?_, by rw [← h, List.append_assoc]⟩
          simp only [lex, hch, hs, flush, hl, List.nil_append]
  | cons d t ih =>
    simp only [List.cons_append, lex] at h ⊢
    cases hd : char m d with
    | none => rw [hd] at h; simp at h
    | some p =>
      obtain ⟨m', k⟩ := p
      rw [hd] at h
      simp only at h ⊢
      cases hl : lex m' (t ++ c :: r) with
      | none => rw [hl] at h; simp at h
      | some q =>
        rw [hl] at h
        simp only [Option.some.injEq] at h
        obtain ⟨a, b, h1, h2, h3⟩ := ih m' q hl
        refine ⟨k ++ a, b, ?_, h2, by rw [← h, h3, List.append_assoc]⟩
        rw [h1]

/-- What stands after such a character. -/
theorem lex_after (r : Text) (c : Char) (hc : wordChar c = false) (l : List Tok)
    (h : lex .idle (c :: r) = some l) : ∃ a b, lex .idle r = some b ∧ l = a ++ b := by
  simp only [lex] at h
  have hst : ∀ m b, start c = some (m, b) → m = .idle := by
    intro m b hp
    simp only [wordChar, Bool.or_eq_false_iff, beq_eq_false_iff_ne] at hc
    unfold start at hp
    rw [if_neg (by simp [hc]), if_neg (by simp [hc])] at hp
    split at hp
    · simp only [Option.some.injEq, Prod.mk.injEq] at hp; exact hp.1.symm
    · split at hp
      · simp only [Option.some.injEq, Prod.mk.injEq] at hp; exact hp.1.symm
      · split at hp
        · simp only [Option.some.injEq, Prod.mk.injEq] at hp; exact hp.1.symm
        · simp at hp
  have hs : ∀ p, char .idle c = some p → p.1 = .idle := by
    intro p hp
    unfold char at hp
    rw [if_neg (by simp)] at hp
    cases hs : start c with
    | none => rw [hs] at hp; simp [flush] at hp
    | some q =>
      obtain ⟨m, b⟩ := q
      rw [hs] at hp
      simp only [flush, Option.some.injEq] at hp
      rw [← hp]
      exact hst m b hs
  cases hch : char .idle c with
  | none => rw [hch] at h; simp at h
  | some p =>
    obtain ⟨m', k⟩ := p
    obtain rfl : m' = .idle := hs _ hch
    rw [hch] at h
    simp only at h
    cases hl : lex .idle r with
    | none => rw [hl] at h; simp at h
    | some q =>
      rw [hl] at h
      simp only [Option.some.injEq] at h
      exact ⟨k, q, rfl, h.symm⟩

/-- A text within another, between characters that end words. -/
def Inside (s t : Text) : Prop :=
  ∃ x c d y, t = x ++ c :: (s ++ d :: y) ∧ wordChar c = false ∧ wordChar d = false

theorem Inside.before {s t : Text} (h : Inside s t) (a : Text) : Inside s (a ++ t) := by
  obtain ⟨x, c, d, y, rfl, h1, h2⟩ := h
  exact ⟨a ++ x, c, d, y, by simp only [List.append_assoc], h1, h2⟩

theorem Inside.after {s t : Text} (h : Inside s t) (a : Text) : Inside s (t ++ a) := by
  obtain ⟨x, c, d, y, rfl, h1, h2⟩ := h
  exact ⟨x, c, d, y ++ a, by simp only [List.append_assoc, List.cons_append], h1, h2⟩

/-- Words on which evaluation stops. -/
def Stuck (env : Env) (k : List Tok) : Prop := ∀ st, run env st k = none

theorem stuck_inside {env : Env} {s t : Text} {k : List Tok} (hk : lex .idle s = some k) (hs : Stuck env k)
    (h : Inside s t) : eval env t = none := by
  obtain ⟨x, c, d, y, rfl, h1, h2⟩ := h
  unfold eval
  split
  · rfl
  · rename_i l hl
    obtain ⟨a, b, -, hb, rfl⟩ := lex_split _ _ _ _ h1 _ hl
    obtain ⟨e, f, hf, rfl⟩ := lex_after _ _ h1 _ hb
    obtain ⟨p, q, hp, -, rfl⟩ := lex_split _ _ _ _ h2 _ hf
    rw [hk] at hp
    obtain rfl := Option.some.inj hp
    have : run env {} (a ++ (e ++ (k ++ q))) = none := by
      rw [run_append]
      cases run env {} a with
      | none => rfl
      | some st =>
        simp only [Option.bind_some]
        rw [run_append]
        cases run env st e with
        | none => rfl
        | some st =>
          simp only [Option.bind_some]
          rw [run_append, hs]
          rfl
    rw [this]

/-- A name that is no attribute of any object. -/
def NoAttr (env : Env) (n : Text) : Prop := ∀ o, attr env o n = none

/-- `n.a` where `n` is a global name and `a` no attribute of it. -/
theorem stuck_attr {env : Env} {n a : Text} {o : Obj} (hn : NoAttr env n) (hg : globals n = some o)
    (ha : attr env o a = none) : Stuck env [.name n, .op '.', .name a] := by
  rintro ⟨fs, ⟨kw, left, neg, cur⟩, dn⟩
  simp only [run, step]
  cases dn with
  | true => simp
  | false =>
    simp only [Bool.false_eq_true, if_false, name1]
    cases cur with
    | none => simp [punct, Cur.get, hg, ha]
    | name _ => rfl
    | obj _ => rfl
    | dot p => simp [hn p]

/-- `n.5`. -/
theorem stuck_number {env : Env} {n : Text} {o : Obj} (j : Nat) (hn : NoAttr env n) (hg : globals n = some o) :
    Stuck env [.name n, .op '.', .int j] := by
  rintro ⟨fs, ⟨kw, left, neg, cur⟩, dn⟩
  simp only [run, step]
  cases dn with
  | true => simp
  | false =>
    simp only [Bool.false_eq_true, if_false, name1]
    cases cur with
    | none => simp [punct, Cur.get, hg, number1]
    | name _ => rfl
    | obj _ => rfl
    | dot p => simp [hn p]

/-- Names of modules, and of what a script calls, are not attributes. -/
theorem noAttr {n : Text} (h1 : assoc n valueAttrs = none) (h2 : assoc n collAttrs = none)
    (h3 : assoc n unitAttrs = none) (h4 : n ≠ tx "Button" ∧ n ≠ tx "Ordinal")
    (h5 : UsageTable.modules.all (fun p => p.2.all (fun r => r.attr != n)) = true) : NoAttr UsageTable.lookup n := by
  intro o
  unfold attr
  split
  · rw [h1]; rfl
  · rw [h2]; rfl
  · rw [h3]; rfl
  · rw [if_neg (by simp [h4]), if_neg (by simp [h4])]
    rename_i m
    cases hl : UsageTable.lookup m n with
    | none => rfl
    | some u =>
      obtain ⟨r, ⟨p, hp, -, hr⟩, ha, -⟩ := (UsageTable.lookup_iff _ _ _).mp hl
      have := List.all_eq_true.mp (List.all_eq_true.mp h5 p hp) r hr
      simp [ha] at this
  · rfl

theorem noAttr_desktop : NoAttr UsageTable.lookup (tx "desktop") :=
  noAttr (by decide +kernel) (by decide +kernel) (by decide +kernel) (by decide +kernel) (by decide +kernel)

theorem noAttr_simulation : NoAttr UsageTable.lookup (tx "simulation") :=
  noAttr (by decide +kernel) (by decide +kernel) (by decide +kernel) (by decide +kernel) (by decide +kernel)

theorem noAttr_unit : NoAttr UsageTable.lookup (tx "Unit") :=
  noAttr (by decide +kernel) (by decide +kernel) (by decide +kernel) (by decide +kernel) (by decide +kernel)

theorem noAttr_collection : NoAttr UsageTable.lookup (tx "Collection") :=
  noAttr (by decide +kernel) (by decide +kernel) (by decide +kernel) (by decide +kernel) (by decide +kernel)

/-- The names of constants that are no attribute of their module. -/
def strayNames : List Text :=
  [tx "desktop.TabletPcSystem", tx "desktop.start", tx "desktop.select", tx "simulation.TorqueControl"]

theorem stray_stuck {s : Text} (h : s ∈ strayNames) :
    ∃ k, lex .idle s = some k ∧ Stuck UsageTable.lookup k := by
  simp only [strayNames, List.mem_cons, List.not_mem_nil, or_false] at h
  rcases h with rfl | rfl | rfl | rfl
  · exact ⟨[.name (tx "desktop"), .op '.', .name (tx "TabletPcSystem")], by decide +kernel,
      stuck_attr (o := .module (tx "desktop")) noAttr_desktop (by rfl) (by rfl)⟩
  · exact ⟨[.name (tx "desktop"), .op '.', .name (tx "start")], by decide +kernel,
      stuck_attr (o := .module (tx "desktop")) noAttr_desktop (by rfl) (by rfl)⟩
  · exact ⟨[.name (tx "desktop"), .op '.', .name (tx "select")], by decide +kernel,
      stuck_attr (o := .module (tx "desktop")) noAttr_desktop (by rfl) (by rfl)⟩
  · exact ⟨[.name (tx "simulation"), .op '.', .name (tx "TorqueControl")], by decide +kernel,
      stuck_attr (o := .module (tx "simulation")) noAttr_simulation (by rfl) (by rfl)⟩

theorem velocity_stuck : ∃ k, lex .idle (prefixWords (tx "Unit.") false (Item.usualUnit (.int 0xf011)).str) = some k ∧
    Stuck UsageTable.lookup k :=
  ⟨[.name (tx "Unit"), .op '.', .name (tx "Velocity")], by decide +kernel,
    stuck_attr (o := .unit) noAttr_unit (by rfl) (by rfl)⟩

theorem kind_stuck (j : Int) (h : 7 ≤ j) : ∃ k, lex .idle (tx "Collection." ++ pyStr j) = some k ∧
    Stuck UsageTable.lookup k := by
  refine ⟨[.name (tx "Collection"), .op '.'] ++ intToks j, ?_, ?_⟩
  · exact lex_of_lexM .idle .idle _ _ _ _ (by decide +kernel) (lex_pyStr j)
  · have : intToks j = [.int j.natAbs] := by unfold intToks; rw [if_neg (by omega)]
    rw [this]
    exact stuck_number (o := .fn .collection) _ noAttr_collection (by rfl)

end Hrdc.Spec.Script

namespace Hrdc
open Spec Extractor Spec.Script

/-! ## What the text contains -/

/-- A text that starts with a character that ends words. -/
def Fenced (t : Text) : Prop := ∃ d y, t = d :: y ∧ wordChar d = false

theorem fenced_kw (p : Prop) [Decidable p] (n s : Text) {t : Text} (h : Fenced t) :
    Fenced ((if p then Dumper.kw n s else []) ++ t) := by
  by_cases hp : p
  · rw [if_pos hp]
    exact ⟨',', ' ' :: n ++ tx " = " ++ s ++ t, by simp [Dumper.kw, tx], by decide⟩
  · rw [if_neg hp]; exact h

/-- A text before such a text. -/
theorem inside_fenced {x s t : Text} {c : Char} (hc : wordChar c = false) (h : Fenced t) : Inside s (x ++ [c] ++ s ++ t) := by
  obtain ⟨d, y, rfl, hd⟩ := h
  exact ⟨x, c, d, y, by simp, hc, hd⟩

/-- The texts written for the names of an element. -/
def Writes (reg : Registry) : Spec.Tok → Text → Prop
  | .leaf (.value v), s => (∃ u, v.usage = some u ∧ u.truthy = true ∧ s = Dumper.usageStr reg u) ∨
      (∃ u ∈ arrayVals v.namedArray, s = u.str) ∨
      (v.unit.toInt ≠ 0 ∧ s = Dumper.prefixWords (tx "Unit.") false v.unit.str)
  | .enter k u, s => s = tx "Collection." ++ k.str ∨ ∃ x, u = some x ∧ s = Dumper.usageStr reg x
  | _, _ => False

theorem writes_value {reg : Registry} {ind : Nat} {v : Value} {t s : Text} (h : Dumper.value reg ind v = .ok t)
    (hs : Writes reg (.leaf (.value v)) s) : Inside s t := by
  unfold Dumper.value at h
  split at h
  · simp at h
  · rename_i shown _
    simp only [Except.ok.injEq] at h
    subst h
    have hend : Fenced (tx "),\n") := ⟨')', _, rfl, by decide⟩
    rcases hs with ⟨u, hu, ht, rfl⟩ | ⟨u, hu, rfl⟩ | ⟨h0, rfl⟩
    · refine Inside.after (Inside.after (Inside.after (Inside.after (Inside.after (Inside.before ?_ _) _) _) _) _) _
      unfold Dumper.headStr
      simp only [hu, Dumper.valueUsage, ht, if_true]
      have : ∀ a b c d : Text, a ++ b ++ tx ", " ++ c ++ tx ", " ++ d = (a ++ b ++ [',']) ++ [' '] ++ c ++ (',' :: ' ' :: d) := by
        intros; simp [tx]
      rw [this]
      exact inside_fenced (by decide) ⟨',', _, rfl, by decide⟩
    · rw [List.append_assoc _ (Dumper.restStr v), List.append_assoc _ (Dumper.arrayStr ind v)]
      refine Inside.before (Inside.after ?_ _) _
      unfold Dumper.arrayStr
      cases hn : v.namedArray with
      | none => rw [hn] at hu; simp [arrayVals] at hu
      | some a =>
        rw [hn] at hu
        cases a with
        | list l =>
          simp only [arrayVals] at hu
          simp only [Dumper.kw]
          refine Inside.before ?_ _
          rw [List.append_assoc, List.append_assoc]
          refine Inside.before (Inside.after ?_ _) _
          obtain ⟨l1, l2, rfl⟩ := List.append_of_mem hu
          rw [List.flatMap_append, List.flatMap_cons]
          refine Inside.before (Inside.after ?_ _) _
          have : Dumper.indent (ind + 1) = List.replicate (ind * 4 + 3) ' ' ++ [' '] := by
            unfold Dumper.indent
            rw [show (ind + 1) * 4 = (ind * 4 + 3) + 1 by omega, List.replicate_succ']
          rw [this]
          exact inside_fenced (by decide) ⟨',', _, rfl, by decide⟩
        | range r =>
          simp only [arrayVals, List.mem_cons, List.not_mem_nil, or_false] at hu
          simp only [Dumper.kw]
          refine Inside.before ?_ _
          rcases hu with rfl | rfl
          · rw [List.append_assoc, List.append_assoc]
            have : tx "UsageRange(" = tx "UsageRange" ++ ['('] := rfl
            rw [this]
            exact inside_fenced (by decide) ⟨',', _, rfl, by decide⟩
          · have : tx ", " = [','] ++ [' '] := rfl
            rw [this, ← List.append_assoc]
            exact inside_fenced (by decide) ⟨')', _, rfl, by decide⟩
    · rw [List.append_assoc]
      refine Inside.before ?_ _
      unfold Dumper.restStr
      rw [if_pos h0]
      simp only [List.append_assoc]
      unfold Dumper.kw
      have : tx " = " = tx " =" ++ [' '] := rfl
      rw [this, ← List.append_assoc _ (tx " =")]
      exact inside_fenced (by decide) (fenced_kw _ _ _ (fenced_kw _ _ _ (fenced_kw _ _ _ (fenced_kw _ _ _ (fenced_kw _ _ _ hend)))))

mutual
theorem writes_node {reg : Registry} : ∀ (n : Node) (ind : Nat) (t : Text), Dumper.node reg ind n = .ok t →
    ∀ tk ∈ tokens n, ∀ s, Writes reg tk s → Inside s t
  | .value v, ind, t, h, tk, ht, s, hs => by
    simp only [tokens, List.mem_singleton] at ht
    subst ht
    exact writes_value h hs
  | .align _ _, _, _, _, tk, ht, s, hs => by
    simp only [tokens, List.mem_singleton] at ht
    subst ht
    exact hs.elim
  | .padding _ _, _, _, _, tk, ht, s, hs => by
    simp only [tokens, List.mem_singleton] at ht
    subst ht
    exact hs.elim
  | .report i ms, ind, t, h, tk, ht, s, hs => by
    simp only [tokens, List.cons_append, List.mem_cons, List.mem_append, List.not_mem_nil, or_false] at ht
    rw [Dumper.node] at h
    split at h
    · simp at h
    · rename_i x hx
      simp only [Except.ok.injEq] at h
      subst h
      rcases ht with rfl | ht | rfl
      · exact hs.elim
      · exact Inside.after (Inside.before (writes_nodes ms _ x hx tk ht s hs) _) _
      · exact hs.elim
  | .top ms, ind, t, h, tk, ht, s, hs => by
    simp only [tokens] at ht
    rw [Dumper.node] at h
    split at h
    · simp at h
    · rename_i x hx
      simp only [Except.ok.injEq] at h
      subst h
      exact Inside.after (Inside.before (writes_nodes ms _ x hx tk ht s hs) _) _
  | .coll k u ms, ind, t, h, tk, ht, s, hs => by
    simp only [tokens, List.cons_append, List.mem_cons, List.mem_append, List.not_mem_nil, or_false] at ht
    rw [Dumper.node] at h
    split at h
    · simp at h
    · rename_i x hx
      simp only [Except.ok.injEq] at h
      subst h
      rcases ht with rfl | ht | rfl
      · refine Inside.after (Inside.after (Inside.before ?_ _) _) _
        rcases hs with rfl | ⟨y, rfl, rfl⟩
        · have e : tx "Collection(Collection." = (tx "Collection" ++ ['(']) ++ tx "Collection." := by decide +kernel
          rw [e, List.append_assoc, List.append_assoc _ (tx ", ")]
          have : ∀ a b c d e f : Text, a ++ (b ++ c ++ d) ++ e ++ f = a ++ ((b ++ c ++ (d ++ e)) ++ f) := by
            intros; simp only [List.append_assoc]
          rw [this]
          refine Inside.before (inside_fenced (by decide) ⟨',', _, rfl, by decide⟩) _
        · have : tx ", " = [','] ++ [' '] := rfl
          rw [this, ← List.append_assoc _ [',']]
          exact inside_fenced (by decide) ⟨',', _, rfl, by decide⟩
      · exact Inside.after (Inside.before (writes_nodes ms _ x hx tk ht s hs) _) _
      · exact hs.elim
theorem writes_nodes {reg : Registry} : ∀ (ns : List Node) (ind : Nat) (t : Text), Dumper.nodes reg ind ns = .ok t →
    ∀ tk ∈ tokensL ns, ∀ s, Writes reg tk s → Inside s t
  | [], _, _, _, tk, ht, _, _ => by simp [tokensL] at ht
  | n :: ns, ind, t, h, tk, ht, s, hs => by
    simp only [tokensL, List.mem_append] at ht
    rw [Dumper.nodes] at h
    split at h
    · simp at h
    · rename_i a ha
      split at h
      · simp at h
      · rename_i b hb
        simp only [Except.ok.injEq] at h
        subst h
        rcases ht with ht | ht
        · exact Inside.after (writes_node n ind a ha tk ht s hs) _
        · exact Inside.before (writes_nodes ns ind b hb tk ht s hs) _
end

/-- The script of a tree. -/
theorem dump_top {reg : Registry} {ms : List Node} {t : Text} (h : Dumper.dump reg (.top ms) = .ok t) :
    ∃ x, Dumper.nodes reg 1 ms = .ok x ∧ t = header ++ (tx "TopLevel(\n" ++ x ++ tx ")\n") ++ footer := by
  unfold Dumper.dump at h
  rw [Dumper.node] at h
  split at h
  · simp at h
  · rename_i x hx
    simp only [Except.ok.injEq] at h
    subst h
    refine ⟨x, hx, ?_⟩
    have : tx ")\n" = tx ")" ++ tx "\n" := by decide +kernel
    rw [this]
    simp only [Dumper.head, Dumper.foot, if_true, ne_eq, not_true_eq_false, if_false, header, footer, Dumper.indent,
      Nat.zero_mul, List.replicate_zero, List.append_nil, List.nil_append, List.append_assoc]

theorem runScript_body (env : Env) (b : Text) : runScript env (header ++ b ++ footer) =
    match eval env b with
    | some (.node n) => some n
    | _ => none := by
  have e : ((header ++ b ++ footer).drop header.length).take
      ((header ++ b ++ footer).length - header.length - footer.length) = b := by
    rw [List.append_assoc, List.drop_left]
    have : (header ++ (b ++ footer)).length - header.length - footer.length = b.length := by
      simp only [List.length_append]; omega
    rw [this, List.take_left']
    rfl
  unfold runScript
  simp only [e, if_true]
  cases eval env b with
  | none => rfl
  | some o => cases o <;> rfl

/-- A script with words on which evaluation stops does not run. -/
theorem dump_stuck {env : Env} {reg : Registry} {ms : List Node} {t : Text} (h : Dumper.dump reg (.top ms) = .ok t)
    {tk : Spec.Tok} (ht : tk ∈ tokens (.top ms)) {s : Text} (hs : Writes reg tk s) {k : List Script.Tok}
    (hk : lex .idle s = some k) (hst : Stuck env k) : runScript env t = none := by
  obtain ⟨x, hx, rfl⟩ := dump_top h
  rw [runScript_body, stuck_inside hk hst (Inside.after (Inside.before (writes_nodes ms 1 x hx tk (by simpa [tokens] using ht) s hs) _) _)]

end Hrdc

namespace Hrdc
open Spec Extractor Spec.Script

/-! ## What is read back -/

/-- Elements whose names Python can read. -/
def Legible (reg : Registry) : Spec.Tok → Prop
  | .leaf (.value v) =>
    (∀ u, v.usage = some u → Dumper.usageStr reg u ∉ strayNames) ∧
    (∀ u ∈ arrayVals v.namedArray, u.str ∉ strayNames) ∧ v.unit.toInt ≠ 0xf011
  | .enter k u => k.toInt < 7 ∧ ∀ x, u = some x → Dumper.usageStr reg x ∉ strayNames
  | _ => True

/-- Elements whose names say all there is to say: the usage of a value is not written as 0, and all flags
have names. -/
def Accurate (reg : Registry) : Spec.Tok → Prop
  | .leaf (.value v) => (∀ u, v.usage = some u → Dumper.usageStr reg u ≠ tx "0x0") ∧ v.flags.toInt < 512
  | _ => True

theorem stray_table : UsageTable.modules.all (fun p => p.2.all (fun r =>
    !(misread.contains r.value) || strayNames.contains r.name)) = true := by decide +kernel

/-- The name of a constant, evaluated. -/
theorem name_reads {reg : Registry} (hreg : Imported reg) (u : UsageC) (hu : u ∈ reg) (hs : u.name ∉ strayNames) :
    eval UsageTable.lookup u.name = some (.val (.usage u)) := by
  obtain ⟨extra, rfl, hx⟩ := hreg
  have hB : ∀ n : Int, u = Button n ∨ u = Ordinal n → eval UsageTable.lookup u.name = some (.val (.usage u)) := by
    rintro n (rfl | rfl)
    · exact eval_button _ n
    · exact eval_ordinal _ n
  rcases List.mem_append.mp hu with h | h
  · obtain ⟨n, hn⟩ := hx u h
    exact hB n hn
  · rcases (UsageTable.mem_registered u).mp (by simpa [UsageTable.registry] using h) with ⟨n, -, e⟩ | ⟨n, -, e⟩ | ⟨m, r, hr, e⟩
    · exact hB n (.inl e)
    · exact hB n (.inr e)
    · subst e
      refine eval_table m r hr ?_
      intro hm
      obtain ⟨p, hp, -, hr⟩ := hr
      have := List.all_eq_true.mp (List.all_eq_true.mp stray_table p hp) r hr
      simp only [List.contains_iff_mem, Bool.or_eq_true, Bool.not_eq_true'] at this
      rcases this with h | h
      · rw [← Bool.not_eq_true, List.contains_iff_mem] at h; exact h hm
      · exact hs h

theorem hex0 : pyHex 0 = tx "0x0" := by decide +kernel

/-- The text of a looked up usage: itself, or a number. -/
theorem lookup_reads {reg : Registry} (hreg : Imported reg) (i : Int)
    (hs : (Usage.lookup reg (.int i)).name ∉ strayNames) :
    ∃ w : PyVal, eval UsageTable.lookup (Usage.lookup reg (.int i)).name = some (.val w) ∧ w.toInt = i ∧
      (w = .int 0 ↔ (Usage.lookup reg (.int i)).name = tx "0x0") := by
  have h3 : (Usage.lookup reg (.int i)).value = i := C47_lookup_value reg (.int i)
  have h0 : eval UsageTable.lookup (tx "0x0") = some (.val (.int 0)) := by
    rw [← hex0]; exact eval_pyHex _ 0
  rcases lookup_listed reg i with h | h
  · have he := name_reads hreg _ h hs
    refine ⟨_, he, h3, by simp, ?_⟩
    intro hn
    rw [hn, h0] at he
    simp at he
  · refine ⟨.int i, ?_, rfl, ?_⟩
    · rw [h, h3]; exact eval_pyHex _ i
    · rw [h, h3]
      constructor
      · intro hi
        simp only [PyVal.int.injEq] at hi
        rw [hi]; exact hex0
      · intro hi
        have := eval_pyHex UsageTable.lookup i
        rw [hi, h0] at this
        simp only [Option.some.injEq, Obj.val.injEq] at this
        exact this.symm

theorem known_truthy {reg : Registry} {v : PyVal} (h : KnownVal reg v) : v.truthy = true := by
  rcases h with ⟨i, h, rfl⟩ | ⟨i, rfl⟩
  · have : i ≠ 0 := by rintro rfl; simp at h
    simp [PyVal.truthy, this]
  · rfl

/-- The usage of a value or collection is written after a lookup. -/
theorem usage_reads {reg : Registry} (hreg : Imported reg) {v : PyVal} (h : KnownVal reg v)
    (hs : Dumper.usageStr reg v ∉ strayNames) :
    ∃ w : PyVal, eval UsageTable.lookup (Dumper.usageStr reg v) = some (.val w) ∧ w.toInt = v.toInt ∧
      (w = .int 0 ↔ Dumper.usageStr reg v = tx "0x0") := by
  rcases h with ⟨i, -, rfl⟩ | ⟨i, rfl⟩
  · exact lookup_reads hreg i hs
  · have h3 : (PyVal.usage (Usage.lookup reg (.int i))).toInt = i := C47_lookup_value reg (.int i)
    rw [h3]
    exact lookup_reads hreg i hs

/-- The elements of a named array are written as they are. -/
theorem element_reads {reg : Registry} (hreg : Imported reg) {v : PyVal} (h : KnownVal reg v)
    (hs : v.str ∉ strayNames) : denotes UsageTable.lookup v.str v.toInt = true := by
  rw [denotes_iff]
  rcases h with ⟨i, -, rfl⟩ | ⟨i, rfl⟩
  · exact ⟨_, eval_pyStr _ i, rfl⟩
  · have h3 : (PyVal.usage (Usage.lookup reg (.int i))).toInt = i := C47_lookup_value reg (.int i)
    rw [h3]
    obtain ⟨w, h1, h2, -⟩ := lookup_reads hreg i hs
    exact ⟨w, h1, h2⟩

theorem dataName_low (k : Int) : Item.dataName k = Item.dataName (k % 512) := by
  have : ∀ j : Nat, j < 9 → bitSet k j = bitSet (k % 512) j := by
    intro j hj
    unfold bitSet
    have h9 : j = 0 ∨ j = 1 ∨ j = 2 ∨ j = 3 ∨ j = 4 ∨ j = 5 ∨ j = 6 ∨ j = 7 ∨ j = 8 := by omega
    rcases h9 with rfl | rfl | rfl | rfl | rfl | rfl | rfl | rfl | rfl <;>
      · simp only [Nat.reducePow]
        congr 1
        omega
  unfold Item.dataName
  have hf : Item.dataFlags.filter (fun r => bitSet k r.1) = Item.dataFlags.filter (fun r => bitSet (k % 512) r.1) := by
    apply List.filter_congr
    intro r hr
    refine this _ ?_
    have : Item.dataFlags.all (fun r => decide (r.1 < 9)) = true := by decide +kernel
    simpa using List.all_eq_true.mp this r hr
  rw [hf]

theorem flags_low (env : Env) (k : Int) : ∃ fl : PyVal,
    eval env (Dumper.prefixWords (tx "Value.") false (Item.dataName k)) = some (.val fl) ∧ fl.toInt = k % 512 := by
  have := List.all_eq_true.mp flags_named (k % 512).toNat (List.mem_range.mpr (by omega))
  have e : (((k % 512).toNat : Nat) : Int) = k % 512 := by omega
  rw [e, ← dataName_low] at this
  exact (denotes_iff _ _ _).mp (denotes_mono _ _ _ this)

theorem from_arrayOK {reg : Registry} (hreg : Imported reg) {a : Option NamedArray} (h : KnownArray reg a)
    (hs : ∀ u ∈ arrayVals a, u.str ∉ strayNames) : ArrayOK UsageTable.lookup a := by
  cases a with
  | none => trivial
  | some a =>
    cases a with
    | list l => exact ⟨h.1.1, fun u hu => element_reads hreg (h.2 u hu) (hs u hu)⟩
    | range r =>
      exact ⟨Int.le_of_lt h.1, element_reads hreg h.2.1 (hs _ (by simp [arrayVals])),
        element_reads hreg h.2.2 (hs _ (by simp [arrayVals]))⟩

theorem from_unit {reg : Registry} {v : Value} (h : FromItems reg v) (hu : v.unit.toInt ≠ 0xf011) (h0 : v.unit.toInt ≠ 0) :
    denotes UsageTable.lookup (Dumper.prefixWords (tx "Unit.") false v.unit.str) v.unit.toInt = true := by
  rcases h.unit with hu' | ⟨k, hk⟩
  · rw [hu'] at h0; exact absurd rfl h0
  · have hi : (Item.usualUnit (.int k)).toInt = k := by
      unfold Item.usualUnit
      cases hf : Item.usualUnits.find? (fun p => p.1 == (PyVal.int k).toInt) with
      | none => rfl
      | some p =>
        have h1 := List.find?_some hf
        rw [beq_iff_eq] at h1
        exact h1
    rw [hk] at hu ⊢
    rw [hi] at hu ⊢
    exact unit_denotes _ k hu

/-- A value that can be read is read back; the same value only if its names say all. -/
theorem value_lax {reg : Registry} (hreg : Imported reg) (ind : Nat) (v : Value) (h : FromItems reg v)
    (hl : Legible reg (.leaf (.value v))) :
    ∃ t w, Dumper.value reg ind v = .ok (Dumper.indent ind ++ t ++ tx ",\n") ∧
      (SameValue v w → Accurate reg (.leaf (.value v))) ∧ Body UsageTable.lookup t (.node (.value w)) := by
  obtain ⟨a, ha⟩ := h.made
  obtain ⟨hl1, hl2, hl3⟩ := hl
  obtain ⟨u, hu, hug⟩ : ∃ u, eval UsageTable.lookup (Dumper.valueUsage reg v.usage) = some (usageObj u) ∧
      (usageGiven v.usage = usageGiven u → ∀ x, v.usage = some x → Dumper.usageStr reg x ≠ tx "0x0") := by
    cases hv : v.usage with
    | none => exact ⟨none, eval_mono _ _ _ rfl, by simp⟩
    | some x =>
      have hk := h.usage x hv
      have ht := known_truthy hk
      obtain ⟨w, h1, -, h3⟩ := usage_reads hreg hk (hl1 x hv)
      refine ⟨some w, ?_, ?_⟩
      · simp only [Dumper.valueUsage, ht, if_true]; exact h1
      · intro hg y hy h0
        obtain rfl := Option.some.inj hy
        have hx : usageGiven (some x) = true := ht
        rw [h3.mpr h0, hx] at hg
        simp [usageGiven, PyVal.truthy] at hg
  obtain ⟨arr, hsame, hsome, harr⟩ := array_eval UsageTable.lookup ind v.namedArray (from_arrayOK hreg h.array hl2)
  obtain ⟨un, hun⟩ : ∃ un : PyVal, v.unit.toInt ≠ 0 →
      eval UsageTable.lookup (Dumper.prefixWords (tx "Unit.") false v.unit.str) = some (.val un) := by
    by_cases h0 : v.unit.toInt = 0
    · exact ⟨.int 0, fun hh => absurd h0 hh⟩
    · obtain ⟨w, hw, -⟩ := (denotes_iff _ _ _).mp (from_unit h hl3 h0)
      exact ⟨w, fun _ => hw⟩
  have hlm : (if v.logicalMin ≠ some 1 then v.logicalMin else some 1) = v.logicalMin := by
    split
    · rfl
    · rename_i hh; simp only [ne_eq, Decidable.not_not] at hh; rw [hh]
  have key : ∃ shown fl w, Dumper.flagsShown v = .ok shown ∧
      (shown = true → eval UsageTable.lookup (Dumper.prefixWords (tx "Value.") false v.flags.str) = some (.val fl)) ∧
      Value.new ((kwOf v shown fl un arr).args v.way u v.size) = .ok w ∧
      (SameValue v w → Accurate reg (.leaf (.value v))) := by
    rcases made_cases ha with ⟨b, n, lo, hb, hlen, hn, hlo, hmax, hfl⟩ | ⟨hfalse, -, -⟩
    · obtain ⟨b', rfl⟩ : ∃ b', arr = some b' := by
        rw [hb] at hsome
        exact Option.isSome_iff_exists.mp (by simpa using hsome)
      rw [hb] at hsame
      have hlen' : b'.len = .ok n := by rw [← sameArray_len hsame]; exact hlen
      have hshown : Dumper.flagsShown v = .ok false := by
        unfold Dumper.flagsShown
        rw [hb, truthOpt_of_len hlen hn, hfl]
        cases hg : usageGiven v.usage <;> simp [PyVal.toInt]
      have hargs2 : ((kwOf v false (.int 0) un (some b')).args v.way u v.size).logicalMin = some lo := by
        simp only [Kw.args, kwOf, decide_eq_true_eq]
        rw [hlm, hlo]
      refine ⟨false, .int 0, _, hshown, by simp, Spec.Script.new_named rfl hlen' hn hargs2, fun hsv => ⟨hug hsv.given, ?_⟩⟩
      rw [hfl]
      cases usageGiven v.usage <;> simp [PyVal.toInt]
    · have hna : v.namedArray = none := by
        cases hb : v.namedArray with
        | none => rfl
        | some b =>
          have h1 := from_arrayOK hreg h.array hl2
          rw [hb] at h1 hfalse
          obtain ⟨n, h2, h3⟩ := arrayOK_truth h1
          rw [truthOpt_of_len h2 h3] at hfalse
          simp at hfalse
      have harr0 : arr = none := by
        cases arr with
        | none => rfl
        | some b => rw [hna] at hsome; simp at hsome
      subst harr0
      obtain ⟨k, hk0, hk⟩ := h.flags hna
      obtain ⟨fl, hfl, hfi⟩ := flags_low UsageTable.lookup k
      have hshown : Dumper.flagsShown v = .ok (decide (v.flags.toInt ≠ 2)) := by
        unfold Dumper.flagsShown
        by_cases h0 : v.flags.toInt = 2
        · simp [h0]
        · simp [h0, hna, truthOpt]
      obtain ⟨-, -, lo, hi, p, q, hlo, hhi, -, -⟩ := h.plain hna
      have hmaxE : (if v.logicalMax ≠ none then v.logicalMax else none) = v.logicalMax := by
        split
        · rfl
        · rename_i hh; simp only [ne_eq, Decidable.not_not] at hh; rw [hh]
      have e2 : ((kwOf v (decide (v.flags.toInt ≠ 2)) fl un none).args v.way u v.size).logicalMin = v.logicalMin := by
        simp only [Kw.args, kwOf, decide_eq_true_eq]; exact hlm
      have e3 : ((kwOf v (decide (v.flags.toInt ≠ 2)) fl un none).args v.way u v.size).logicalMax = v.logicalMax := by
        simp only [Kw.args, kwOf, decide_eq_true_eq, true_and]; exact hmaxE
      refine ⟨_, fl, _, hshown, fun _ => by rw [hk]; exact hfl, new_plain rfl (by rw [e2, e3, hlo, hhi]; simp), ?_⟩
      intro hsv
      refine ⟨hug hsv.given, ?_⟩
      have hfe := hsv.flags
      simp only [plainOf, Kw.args, kwOf, decide_eq_true_eq] at hfe
      by_cases h0 : v.flags.toInt = 2
      · omega
      · rw [if_pos h0] at hfe
        omega
  obtain ⟨shown, fl, w, hsh, hfl, hnew, hsm⟩ := key
  obtain ⟨kt, htail⟩ := tail_value UsageTable.lookup ind v shown fl un arr hfl hun hsome harr
  refine ⟨_, w, ?_, hsm, value_body UsageTable.lookup v.way _ u v.size _ _ kt w hu htail hnew⟩
  unfold Dumper.value
  rw [hsh]
  simp only [Except.ok.injEq]
  rw [← tail_text]
  have : tx "),\n" = tx ")" ++ tx ",\n" := by decide +kernel
  rw [this]
  unfold Dumper.headStr
  simp only [List.append_assoc]

mutual
/-- Trees that can be read. -/
theorem node_lax {reg : Registry} (hreg : Imported reg) (ind : Nat) (n : Node) (h : ∀ t ∈ tokens n, TokFrom reg t)
    (hl : ∀ t ∈ tokens n, Legible reg t) :
    ∃ t m, (Same n m → ∀ t ∈ tokens n, Accurate reg t) ∧ Body UsageTable.lookup t (.node m) ∧
      (ind ≠ 0 → Dumper.node reg ind n = .ok (Dumper.indent ind ++ t ++ tx ",\n")) ∧
      (ind = 0 → ∀ ms, n = .top ms → Dumper.node reg ind n = .ok (header ++ (t ++ tx "\n") ++ footer)) := by
  have closeS : ∀ (hd t : Text), ind ≠ 0 → Dumper.head ind ++ (Dumper.indent ind ++ hd) ++ t ++ Dumper.foot ind =
      Dumper.indent ind ++ (hd ++ t ++ Dumper.indent ind ++ tx ")") ++ tx ",\n" := by
    intro hd t h0
    rw [foot_pos ind h0, head_pos ind h0]
    simp only [List.nil_append, List.append_assoc]
  cases n with
  | value v =>
    obtain ⟨t, w, h1, h2, h3⟩ := value_lax hreg ind v (h (.leaf (.value v)) (by simp [tokens]))
      (hl (.leaf (.value v)) (by simp [tokens]))
    refine ⟨t, .value w, fun hs t ht => ?_, h3, fun _ => h1, by simp⟩
    simp only [tokens, List.mem_singleton] at ht
    subst ht
    exact h2 hs
  | align w b =>
    refine ⟨_, .align w b, fun _ t ht => ?_, (small_body _ w b).1, fun _ => ?_, by simp⟩
    · simp only [tokens, List.mem_singleton] at ht
      subst ht
      trivial
    · have : tx "),\n" = tx ")" ++ tx ",\n" := by decide +kernel
      simp only [Dumper.node, this, List.append_assoc]
  | padding w b =>
    refine ⟨_, .padding w b, fun _ t ht => ?_, (small_body _ w b).2, fun _ => ?_, by simp⟩
    · simp only [tokens, List.mem_singleton] at ht
      subst ht
      trivial
    · have : tx "),\n" = tx ")" ++ tx ",\n" := by decide +kernel
      simp only [Dumper.node, this, List.append_assoc]
  | report i ms =>
    obtain ⟨t, ns, hs, hm, ht⟩ := nodes_lax hreg ind ms (fun t ht => h t (by simp [tokens, ht]))
      (fun t ht => hl t (by simp [tokens, ht]))
    obtain ⟨k, hk, hrun⟩ := report_open UsageTable.lookup i
    refine ⟨_, .report i ns, fun hsame t ht => ?_, container _ .report (tx "Report") ind _ k _ t ns _ hk hrun hm
      (by simp [call, members_map]), fun h0 => ?_, by simp⟩
    · simp only [tokens, List.cons_append, List.mem_cons, List.mem_append, List.not_mem_nil, or_false] at ht
      rcases ht with rfl | ht | rfl
      · trivial
      · exact hs hsame.2 t ht
      · trivial
    · rw [← closeS _ t h0]; simp only [Dumper.node, ht, List.append_assoc]
  | top ms =>
    obtain ⟨t, ns, hs, hm, ht⟩ := nodes_lax hreg ind ms (fun t ht => h t (by simp [tokens, ht]))
      (fun t ht => hl t (by simp [tokens, ht]))
    obtain ⟨hk, hrun⟩ := top_open UsageTable.lookup
    refine ⟨_, .top ns, fun hsame t ht => hs hsame t (by simpa [tokens] using ht),
      container _ .topLevel (tx "TopLevel") ind _ _ _ t ns _ hk hrun hm
      (by simp [call, members_map]), fun h0 => ?_, fun h0 _ _ => ?_⟩
    · rw [← closeS _ t h0]; simp only [Dumper.node, ht, List.append_assoc]
    · subst h0
      simp only [Dumper.node, ht, Dumper.head, Dumper.foot, if_true, ne_eq, not_true_eq_false, if_false, header, footer,
        Dumper.indent, Nat.zero_mul, List.replicate_zero, List.append_nil, List.nil_append, List.append_assoc]
  | coll c u ms =>
    have h1 := h (.enter c u) (by simp [tokens])
    have h2 := hl (.enter c u) (by simp [tokens])
    obtain ⟨t, ns, hs, hm, ht⟩ := nodes_lax hreg ind ms (fun t ht => h t (by simp [tokens, ht]))
      (fun t ht => hl t (by simp [tokens, ht]))
    have hc : denotes UsageTable.lookup (tx "Collection." ++ c.str) c.toInt = true := by
      rcases h1.1 with ⟨j, hj, rfl⟩ | ⟨j, hj, rfl⟩
      · exact denotes_mono _ _ _ (List.all_eq_true.mp kinds_named j (List.mem_range.mpr hj))
      · have := h2.1
        have : j < 7 := this
        omega
    obtain ⟨c', hc', hci⟩ := (denotes_iff _ _ _).mp hc
    obtain ⟨u', hu', hus⟩ := collUsage_eval UsageTable.lookup reg u (fun x hx => by
      obtain ⟨w, hw, hwi, -⟩ := usage_reads hreg (h1.2 x hx) (h2.2 x hx)
      exact (denotes_iff _ _ _).mpr ⟨w, hw, hwi⟩)
    obtain ⟨k, hk, hrun⟩ := coll_open UsageTable.lookup c.str (Dumper.collUsage reg u) c' u' hc' hu'
    refine ⟨_, .coll c' u' ns, fun hsame t ht => ?_, container _ .collection (tx "Collection") ind _ k _ t ns _ hk hrun hm
      (by simp [call, members_map, usageArg_obj]), fun h0 => ?_, by simp⟩
    · simp only [tokens, List.cons_append, List.mem_cons, List.mem_append, List.not_mem_nil, or_false] at ht
      rcases ht with rfl | ht | rfl
      · trivial
      · exact hs hsame.2.2 t ht
      · trivial
    · rw [← closeS _ t h0]; simp only [Dumper.node, ht, List.append_assoc]
/-- Members that can be read. -/
theorem nodes_lax {reg : Registry} (hreg : Imported reg) (ind : Nat) (l : List Node) (h : ∀ t ∈ tokensL l, TokFrom reg t)
    (hl : ∀ t ∈ tokensL l, Legible reg t) :
    ∃ t ms, (SameL l ms → ∀ t ∈ tokensL l, Accurate reg t) ∧ Members UsageTable.lookup t ms ∧
      Dumper.nodes reg (ind + 1) l = .ok t := by
  cases l with
  | nil => exact ⟨[], [], fun _ => by simp [tokensL], Members.nil _, rfl⟩
  | cons n ns =>
    obtain ⟨t, m, h1, h2, h3, -⟩ := node_lax hreg (ind + 1) n (fun t ht => h t (by simp [tokensL, ht]))
      (fun t ht => hl t (by simp [tokensL, ht]))
    obtain ⟨s, ms, h4, h5, h6⟩ := nodes_lax hreg ind ns (fun t ht => h t (by simp [tokensL, ht]))
      (fun t ht => hl t (by simp [tokensL, ht]))
    refine ⟨_, m :: ms, fun hs t ht => ?_, h5.cons (ind + 1) h2, ?_⟩
    · simp only [tokensL, List.mem_append] at ht
      rcases ht with ht | ht
      · exact h1 hs.1 t ht
      · exact h4 hs.2 t ht
    · simp only [Dumper.nodes, h3 (by omega), h6]
end

end Hrdc

namespace Hrdc
open Spec Extractor Spec.Script

/-! ## Exactly the scripts that run -/

mutual
/-- A script is written for every decompiled tree. -/
theorem node_written {reg : Registry} : ∀ (n : Node) (ind : Nat), (∀ t ∈ tokens n, TokFrom reg t) →
    ∃ t, Dumper.node reg ind n = .ok t
  | .value v, ind, h => by
    have hf : FromItems reg v := h (.leaf (.value v)) (by simp [tokens])
    have : ∃ b, Dumper.flagsShown v = .ok b := by
      unfold Dumper.flagsShown
      split
      · exact ⟨_, rfl⟩
      · have ha := hf.array
        cases hn : v.namedArray with
        | none => exact ⟨_, rfl⟩
        | some a =>
          rw [hn] at ha
          cases a with
          | list l => exact ⟨_, rfl⟩
          | range r =>
            have h1 : ¬ r.rawLen < 0 := by
              have := ha.1
              unfold UsageRange.rawLen
              omega
            simp only [truthOpt, NamedArray.truth, NamedArray.len, UsageRange.len]
            rw [if_neg h1]
            exact ⟨_, rfl⟩
    obtain ⟨b, hb⟩ := this
    exact ⟨_, by rw [Dumper.node, Dumper.value, hb]⟩
  | .align _ _, _, _ => ⟨_, rfl⟩
  | .padding _ _, _, _ => ⟨_, rfl⟩
  | .report _ ms, ind, h => by
    obtain ⟨t, ht⟩ := nodes_written ms (ind + 1) (fun t ht => h t (by simp [tokens, ht]))
    exact ⟨_, by rw [Dumper.node, ht]⟩
  | .top ms, ind, h => by
    obtain ⟨t, ht⟩ := nodes_written ms (ind + 1) (fun t ht => h t (by simp [tokens, ht]))
    exact ⟨_, by rw [Dumper.node, ht]⟩
  | .coll _ _ ms, ind, h => by
    obtain ⟨t, ht⟩ := nodes_written ms (ind + 1) (fun t ht => h t (by simp [tokens, ht]))
    exact ⟨_, by rw [Dumper.node, ht]⟩
theorem nodes_written {reg : Registry} : ∀ (ns : List Node) (ind : Nat), (∀ t ∈ tokensL ns, TokFrom reg t) →
    ∃ t, Dumper.nodes reg ind ns = .ok t
  | [], _, _ => ⟨_, rfl⟩
  | n :: ns, ind, h => by
    obtain ⟨a, ha⟩ := node_written n ind (fun t ht => h t (by simp [tokensL, ht]))
    obtain ⟨b, hb⟩ := nodes_written ns ind (fun t ht => h t (by simp [tokensL, ht]))
    exact ⟨a ++ b, by rw [Dumper.nodes, ha]; simp only [hb]⟩
end

/-- Elements that stop the script. -/
theorem illegible_stuck {reg : Registry} {tk : Spec.Tok} (h : TokFrom reg tk) (hl : ¬ Legible reg tk) :
    ∃ s k, Writes reg tk s ∧ lex .idle s = some k ∧ Stuck UsageTable.lookup k := by
  match tk, h, hl with
  | .leaf (.value v), h, hl =>
    by_cases h1 : ∀ u, v.usage = some u → Dumper.usageStr reg u ∉ strayNames
    · by_cases h2 : ∀ u ∈ arrayVals v.namedArray, u.str ∉ strayNames
      · have h3 : v.unit.toInt = 0xf011 := Classical.byContradiction (fun h3 => hl ⟨h1, h2, h3⟩)
        obtain ⟨k, hk, hs⟩ := velocity_stuck
        refine ⟨_, k, .inr (.inr ⟨by omega, rfl⟩), ?_, hs⟩
        rcases h.unit with hu | ⟨j, hj⟩
        · rw [hu] at h3; simp [PyVal.toInt] at h3
        · have hi : (Item.usualUnit (.int j)).toInt = j := by
            unfold Item.usualUnit
            cases hf : Item.usualUnits.find? (fun p => p.1 == (PyVal.int j).toInt) with
            | none => rfl
            | some p =>
              have h1 := List.find?_some hf
              rw [beq_iff_eq] at h1
              exact h1
          rw [hj, hi] at h3
          rw [hj, h3]
          exact hk
      · simp only [Classical.not_forall, Decidable.not_not] at h2
        obtain ⟨u, hu, hs⟩ := h2
        obtain ⟨k, hk, hst⟩ := stray_stuck hs
        exact ⟨_, k, .inr (.inl ⟨u, hu, rfl⟩), hk, hst⟩
    · simp only [Classical.not_forall, Decidable.not_not] at h1
      obtain ⟨u, hu, hs⟩ := h1
      obtain ⟨k, hk, hst⟩ := stray_stuck hs
      exact ⟨_, k, .inl ⟨u, hu, known_truthy (h.usage u hu), rfl⟩, hk, hst⟩
  | .enter c u, h, hl =>
    by_cases h1 : c.toInt < 7
    · have : ¬ ∀ x, u = some x → Dumper.usageStr reg x ∉ strayNames := fun h2 => hl ⟨h1, h2⟩
      simp only [Classical.not_forall, Decidable.not_not] at this
      obtain ⟨x, hx, hs⟩ := this
      obtain ⟨k, hk, hst⟩ := stray_stuck hs
      exact ⟨_, k, .inr ⟨x, hx, rfl⟩, hk, hst⟩
    · rcases h.1 with ⟨j, hj, rfl⟩ | ⟨j, hj, rfl⟩
      · exact absurd (show (j : Int) < 7 by omega) h1
      · obtain ⟨k, hk, hst⟩ := kind_stuck j hj
        exact ⟨_, k, .inl rfl, hk, hst⟩
  | .leaf (.align _ _), _, hl => exact absurd trivial hl
  | .leaf (.padding _ _), _, hl => exact absurd trivial hl
  | .report _, _, hl => exact absurd trivial hl
  | .endReport, _, hl => exact absurd trivial hl
  | .leave, _, hl => exact absurd trivial hl

theorem exact_valueOK {reg : Registry} (hreg : Imported reg) {v : Value} (h : FromItems reg v)
    (hl : Legible reg (.leaf (.value v))) (ha : Accurate reg (.leaf (.value v))) :
    Spec.Script.ValueOK UsageTable.lookup reg v := by
  obtain ⟨l1, l2, l3⟩ := hl
  obtain ⟨a1, a2⟩ := ha
  refine ⟨h.made, ?_, ?_, from_arrayOK hreg h.array l2, h.phys, from_unit h l3⟩
  · intro u hu _
    obtain ⟨w, hw, hwi, h0⟩ := usage_reads hreg (h.usage u hu) (l1 u hu)
    refine ⟨(denotes_iff _ _ _).mpr ⟨w, hw, hwi⟩, fun he => a1 u hu (h0.mp ?_)⟩
    rw [he] at hw
    simp only [Option.some.injEq, Obj.val.injEq] at hw
    exact hw.symm
  · intro hn _
    obtain ⟨k, h0, hk⟩ := h.flags hn
    rw [hk] at a2 ⊢
    have hk3 : k < 512 := a2
    obtain ⟨fl, hfl, hfi⟩ := flags_low UsageTable.lookup k
    refine (denotes_iff _ _ _).mpr ⟨fl, hfl, ?_⟩
    rw [hfi]
    exact Int.emod_eq_of_lt h0 hk3

mutual
theorem writable_exact {reg : Registry} (hreg : Imported reg) : ∀ n : Node, (∀ t ∈ tokens n, TokFrom reg t) →
    (∀ t ∈ tokens n, Legible reg t ∧ Accurate reg t) → Writable UsageTable.lookup reg n
  | .value v, h, he =>
    have he := he (.leaf (.value v)) (by simp [tokens])
    exact_valueOK hreg (h (.leaf (.value v)) (by simp [tokens])) he.1 he.2
  | .align _ _, _, _ => trivial
  | .padding _ _, _, _ => trivial
  | .report _ ms, h, he => writableL_exact hreg ms (fun t ht => h t (by simp [tokens, ht])) (fun t ht => he t (by simp [tokens, ht]))
  | .top ms, h, he => writableL_exact hreg ms (fun t ht => h t (by simp [tokens, ht])) (fun t ht => he t (by simp [tokens, ht]))
  | .coll k u ms, h, he => by
    have h1 := h (.enter k u) (by simp [tokens])
    have h2 := (he (.enter k u) (by simp [tokens])).1
    refine ⟨?_, ?_, writableL_exact hreg ms (fun t ht => h t (by simp [tokens, ht])) (fun t ht => he t (by simp [tokens, ht]))⟩
    · rcases h1.1 with ⟨j, hj, rfl⟩ | ⟨j, hj, rfl⟩
      · exact denotes_mono _ _ _ (List.all_eq_true.mp kinds_named j (List.mem_range.mpr hj))
      · have := h2.1
        have : j < 7 := this
        omega
    · intro x hx
      obtain ⟨w, hw, hwi, -⟩ := usage_reads hreg (h1.2 x hx) (h2.2 x hx)
      exact (denotes_iff _ _ _).mpr ⟨w, hw, hwi⟩
theorem writableL_exact {reg : Registry} (hreg : Imported reg) : ∀ ns : List Node, (∀ t ∈ tokensL ns, TokFrom reg t) →
    (∀ t ∈ tokensL ns, Legible reg t ∧ Accurate reg t) → WritableL UsageTable.lookup reg ns
  | [], _, _ => trivial
  | n :: ns, h, he => ⟨writable_exact hreg n (fun t ht => h t (by simp [tokensL, ht])) (fun t ht => he t (by simp [tokensL, ht])),
      writableL_exact hreg ns (fun t ht => h t (by simp [tokensL, ht])) (fun t ht => he t (by simp [tokensL, ht]))⟩
end

/-- The script of a decompiled tree, run. -/
theorem dump_exact {reg : Registry} (hreg : Imported reg) {ms : List Node} (h : ∀ t ∈ tokens (.top ms), TokFrom reg t) :
    ∃ t, Dumper.dump reg (.top ms) = .ok t ∧
      ((runScript UsageTable.lookup t).isSome = true ↔ ∀ tk ∈ tokens (.top ms), Legible reg tk) ∧
      ((∃ m, runScript UsageTable.lookup t = some m ∧ Same (.top ms) m) ↔
        ∀ tk ∈ tokens (.top ms), Legible reg tk ∧ Accurate reg tk) := by
  obtain ⟨t, ht⟩ := node_written (.top ms) 0 h
  have hbad : (runScript UsageTable.lookup t).isSome = true → ∀ tk ∈ tokens (.top ms), Legible reg tk := by
    intro hr tk htk
    refine Classical.byContradiction (fun hl => ?_)
    obtain ⟨s, k, h1, h2, h3⟩ := illegible_stuck (h tk htk) hl
    rw [dump_stuck ht htk h1 h2 h3] at hr
    simp at hr
  have hgood : (∀ tk ∈ tokens (.top ms), Legible reg tk) → ∃ m, runScript UsageTable.lookup t = some m ∧
      (Same (.top ms) m → ∀ tk ∈ tokens (.top ms), Accurate reg tk) := by
    intro hl
    obtain ⟨b, m, h1, h2, -, h3⟩ := node_lax hreg 0 (.top ms) h hl
    have h3 := h3 rfl ms rfl
    rw [ht] at h3
    obtain rfl := Except.ok.inj h3
    refine ⟨m, ?_, h1⟩
    have hbody : eval UsageTable.lookup (b ++ tx "\n") = some (.node m) := by
      obtain ⟨k, hk, hr⟩ := h2
      refine (eval_iff _ _ _).mpr ⟨k ++ [.nl], ?_, ⟨[], { cur := .obj (.node m) }, true⟩, ?_, rfl, rfl⟩
      · exact (Whole.append hk (Whole.of_lexM (by decide +kernel))).lex
      · rw [run_append, hr []]
        simp [Spec.Script.run, Spec.Script.step]
    rw [runScript_body, hbody]
  refine ⟨t, ht, ⟨hbad, fun hl => ?_⟩, ?_, ?_⟩
  · obtain ⟨m, hm, -⟩ := hgood hl
    rw [hm]; rfl
  · rintro ⟨m, hm, hs⟩ tk htk
    have hl := hbad (by rw [hm]; rfl)
    obtain ⟨m', hm', ha⟩ := hgood hl
    rw [hm] at hm'
    obtain rfl := Option.some.inj hm'
    exact ⟨hl tk htk, ha hs tk htk⟩
  · intro he
    obtain ⟨t', m, h1, h2, h3⟩ := dump_rebuilt UsageTable.lookup reg (.top ms) rfl (writable_exact hreg _ h he)
    have : t' = t := by
      have : Dumper.dump reg (.top ms) = .ok t := ht
      rw [this] at h1
      exact (Except.ok.inj h1).symm
    exact ⟨m, this ▸ h2, h3⟩

end Hrdc
