import Verif.Props.Edited
import Verif.Props.Placed
/-!
# Property C84 after the optimizer: fields stay where they are
-/
namespace Hrdc
open Spec Streamer

theorem own_end (c : Int) (l : Leaf) : c + padBefore c l + ownBits l = endBit c [l.shape] := by
  cases l <;> simp only [padBefore, ownBits, endBit, Leaf.shape]
  · split <;> omega
  · split <;> omega
  · simp

/-- Counts behind tokens, as the specification says them. -/
theorem countAfter_spec (ts : List Tok) : ∀ (c : Count) (last nz : Int),
    (countAfter c last nz ts).2.1 = reportAt last ts ∧ (countAfter c last nz ts).2.2 = reportSeen nz ts ∧
      ∀ w, (countAfter c last nz ts).1 w (reportAt last ts) = bitAt w (c w) last ts := by
  induction ts with
  | nil => intro c last nz; exact ⟨rfl, rfl, fun _ => rfl⟩
  | cons t ts ih =>
    intro c last nz
    cases t with
    | report i => exact ih c i _
    | endReport => exact ih c last nz
    | enter k u => exact ih c last nz
    | leave => exact ih c last nz
    | leaf l =>
      obtain ⟨h1, h2, h3⟩ := ih (c.add last l) last nz
      refine ⟨h1, h2, fun w => ?_⟩
      refine (h3 w).trans ?_
      simp only [bitAt]
      by_cases hw : l.way = w
      · subst hw
        rw [if_pos rfl]
        congr 1
        funext j
        simp only [Count.add, true_and]
        split
        · rename_i h; rw [h, own_end]
        · rfl
      · rw [if_neg hw]
        congr 1
        funext j
        simp only [Count.add]
        rw [if_neg (fun h => hw h.1.symm)]

theorem pad_closeTo {m c c' : Int} (l : Leaf) (h : c % m = c' % m) (ha : l.shape.1 ≤ 1 ∨ l.shape.1 ∣ m) :
    padBefore c l = padBefore c' l := by
  have key : ∀ a : Int, a ≤ 1 ∨ a ∣ m → (if a > 1 then (-c) % a else 0) = if a > 1 then (-c') % a else 0 := by
    intro a ha
    split
    · rcases ha with ha | ha
      · omega
      · have h2 : c % a = c' % a := by
          rw [← Int.emod_emod_of_dvd c ha, h, Int.emod_emod_of_dvd _ ha]
        rw [Int.neg_emod_eq_sub_emod, Int.neg_emod_eq_sub_emod, Int.sub_emod, h2, ← Int.sub_emod]
    · rfl
  cases l with
  | value v => exact key _ ha
  | align w b => exact key _ ha
  | padding w s => rfl

/-- Behind the gap, counts that agree modulo the alignments give the same events. -/
theorem exact_closeTo (m : Int) (ts : List Tok) : ∀ (c c' : Count) (last nz : Int), alignedBy m ts →
    (∀ w k, c w k % m = c' w k % m) → exact c last nz ts = exact c' last nz ts := by
  induction ts with
  | nil => intro _ _ _ _ _ _; rfl
  | cons t ts ih =>
    intro c c' last nz ha hc
    have ha' : alignedBy m ts := fun l hl => ha l (by simp [hl])
    cases t with
    | report i => exact ih c c' _ _ ha' hc
    | endReport => exact ih c c' _ _ ha' hc
    | enter k u => simp only [Streamer.exact]; rw [ih c c' _ _ ha' hc]
    | leave => simp only [Streamer.exact]; rw [ih c c' _ _ ha' hc]
    | leaf l =>
      have hp := pad_closeTo l (hc l.way last) (ha l (by simp))
      simp only [Streamer.exact, exactLeaf]
      rw [hp, ih (c.add last l) (c'.add last l) _ _ ha' (fun w k => ?_)]
      simp only [Count.add]
      split
      · rename_i h
        rw [h.1, h.2, hp, Int.add_assoc, Int.add_assoc, Int.add_emod, hc, ← Int.add_emod]
      · exact hc w k

/-- In the gap only the counts of its report matter. -/
theorem exact_here (ts : List Tok) : ∀ (c c' : Count) (last nz : Int), noReports ts = true →
    (∀ w, c w last = c' w last) → exact c last nz ts = exact c' last nz ts := by
  induction ts with
  | nil => intro _ _ _ _ _ _; rfl
  | cons t ts ih =>
    intro c c' last nz hn hc
    have hn' : noReports ts = true := by
      simp only [noReports, List.all_cons, Bool.and_eq_true] at hn; exact hn.2
    cases t with
    | report i => simp [noReports] at hn
    | endReport => exact ih c c' _ _ hn' hc
    | enter k u => simp only [Streamer.exact]; rw [ih c c' _ _ hn' hc]
    | leave => simp only [Streamer.exact]; rw [ih c c' _ _ hn' hc]
    | leaf l =>
      simp only [Streamer.exact]
      rw [hc, ih (c.add last l) (c'.add last l) _ _ hn' (fun w => ?_)]
      simp only [Count.add, hc]

/-- Without reports, other counts stay, and those of the report end where the elements do. -/
theorem countAfter_here (ts : List Tok) : ∀ (c : Count) (last nz : Int), noReports ts = true →
    reportAt last ts = last ∧ reportSeen nz ts = nz ∧
      ∀ w k, (countAfter c last nz ts).1 w k = if k = last then endBit (c w last) (shapes w ts) else c w k := by
  induction ts with
  | nil =>
    intro c last nz _
    refine ⟨rfl, rfl, fun w k => ?_⟩
    simp only [countAfter, shapes, endBit]
    split
    · rename_i h; rw [h]
    · rfl
  | cons t ts ih =>
    intro c last nz hn
    have hn' : noReports ts = true := by
      simp only [noReports, List.all_cons, Bool.and_eq_true] at hn; exact hn.2
    cases t with
    | report i => simp [noReports] at hn
    | endReport => exact ih c last nz hn'
    | enter k u => exact ih c last nz hn'
    | leave => exact ih c last nz hn'
    | leaf l =>
      obtain ⟨h1, h2, h3⟩ := ih (c.add last l) last nz hn'
      refine ⟨h1, h2, fun w k => ?_⟩
      refine (h3 w k).trans ?_
      simp only [shapes, Count.add]
      by_cases hw : l.way = w
      · subst hw
        simp only [true_and, if_true]
        split
        · rename_i h
          rw [own_end]; rfl
        · rfl
      · simp only [show ¬ w = l.way from fun h => hw h.symm, false_and, if_false, hw]

/-- Fields of everything, with members in the gap. -/
theorem exact_gap (g : Gap) (ms : List Node) (hn : noReports (tokensL ms) = true) :
    exact (fun _ _ => 0) 0 0 (tokensL (g.fill ms)) =
      exact (fun _ _ => 0) 0 0 g.front ++ exact (fun w _ => g.bit w) (reportAt 0 g.front) (reportSeen 0 g.front) (tokensL ms) ++
        exact (countAfter (countAfter (fun _ _ => 0) 0 0 g.front).1 (reportAt 0 g.front) (reportSeen 0 g.front) (tokensL ms)).1
          (reportAt 0 g.front) (reportSeen 0 g.front) g.back := by
  obtain ⟨h1, h2, h3⟩ := countAfter_spec g.front (fun _ _ => 0) 0 0
  rw [tokens_fill, List.append_assoc, exact_append, exact_append, h1, h2]
  obtain ⟨g1, g2, -⟩ := countAfter_spec (tokensL ms) (countAfter (fun _ _ => 0) 0 0 g.front).1 (reportAt 0 g.front) (reportSeen 0 g.front)
  obtain ⟨k1, k2, -⟩ := countAfter_here (tokensL ms) (countAfter (fun _ _ => 0) 0 0 g.front).1 (reportAt 0 g.front) (reportSeen 0 g.front) hn
  rw [g1, g2, k1, k2, List.append_assoc]
  rw [exact_here (tokensL ms) _ (fun w _ => g.bit w) _ _ hn (fun w => h3 w)]

theorem seen_at (ts : List Tok) : ∀ (last nz : Int), (last ≠ 0 → nz = last) → reportAt last ts ≠ 0 →
    reportSeen nz ts = reportAt last ts := by
  induction ts with
  | nil => intro last nz h hn; exact h hn
  | cons t ts ih =>
    intro last nz h hn
    cases t with
    | report i => exact ih i _ (fun hi => by rw [if_neg hi]) hn
    | endReport => exact ih last nz h hn
    | enter k u => exact ih last nz h hn
    | leave => exact ih last nz h hn
    | leaf l => exact ih last nz h hn

theorem tokens_alone (g : Gap) (ms : List Node) : tokens (g.alone ms) =
    [.report (reportSeen 0 g.front), .endReport, .report (reportAt 0 g.front)] ++ tokensL (upToBit g.bit) ++ tokensL ms ++
      [.endReport] := by
  simp [Gap.alone, tokens, tokensL, Extractor.tokensL_append]

/-- Fields of the members alone. -/
theorem exact_alone (g : Gap) (ms : List Node) (hn : noReports (tokensL ms) = true) :
    exact (fun _ _ => 0) 0 0 (tokens (g.alone ms)) = exact (fun _ _ => 0) 0 0 (tokens (g.alone [])) ++
      exact (fun w _ => g.bit w) (reportAt 0 g.front) (reportSeen 0 g.front) (tokensL ms) := by
  have hs : (if reportAt 0 g.front = 0 then (if reportSeen 0 g.front = 0 then 0 else reportSeen 0 g.front) else reportAt 0 g.front) =
      reportSeen 0 g.front := by
    by_cases h : reportAt 0 g.front = 0
    · rw [if_pos h]; split <;> simp_all
    · rw [if_neg h, seen_at g.front 0 0 (fun h => absurd rfl h) h]
  have hu : ∀ ts, exact (fun _ _ => 0) 0 0 ([.report (reportSeen 0 g.front), .endReport, .report (reportAt 0 g.front)] ++
      tokensL (upToBit g.bit) ++ ts) = exact (fun _ _ => 0) 0 0 ([.report (reportSeen 0 g.front), .endReport, .report (reportAt 0 g.front)] ++
      tokensL (upToBit g.bit)) ++ exact (fun w k => if k = reportAt 0 g.front then g.bit w else 0) (reportAt 0 g.front)
        (reportSeen 0 g.front) ts := by
    intro ts
    rw [exact_append]
    have hc : (countAfter (fun _ _ => 0) 0 0 ([.report (reportSeen 0 g.front), .endReport, .report (reportAt 0 g.front)] ++
      tokensL (upToBit g.bit))) = (fun w k => if k = reportAt 0 g.front then g.bit w else 0, reportAt 0 g.front, reportSeen 0 g.front) := by
      simp only [upToBit, tokensL, tokens, List.cons_append, List.nil_append, countAfter, hs, Prod.mk.injEq, and_true]
      funext w k
      simp only [Count.add, padBefore, ownBits, Leaf.way]
      cases w <;> simp
    rw [hc]
  rw [tokens_alone, tokens_alone, List.append_assoc, List.append_assoc _ (tokensL []), hu, hu, exact_append _ _ _ (tokensL ms)]
  simp only [tokensL, List.append_nil, List.nil_append, Streamer.exact]
  rw [exact_here (tokensL ms) _ (fun w _ => g.bit w) _ _ hn (fun w => by simp)]

/-- **C84**, with the default optimization or without it: the fields a host finds before and behind stay, up to
what they are called, and those of the members are the ones they make alone. -/
theorem C84_frames (rule : PageRule) (g : Gap) (m : Int) (before : List Node) (hn : noReports (tokensL before) = true)
    (ha : alignedBy m g.back) :
    ∃ A B, ∀ reg opt ms b, Compiler.main reg .binary opt (.top (g.fill ms)) = .ok (.bytes b) → noReports (tokensL ms) = true →
      (∀ w, endBit (g.bit w) (shapes w (tokensL ms)) % m = endBit (g.bit w) (shapes w (tokensL before)) % m) →
      ∃ ks X, readAll b = some ks ∧ frames (meaning rule ks) = frames (A ++ X ++ B) ∧
        ((opt = true → OptTree (.top (g.fill ms)) ∧ (rule = .atUsage ∨ pagesFit none 0 (tokens (.top (g.fill ms))) = true)) →
          meaning rule ks = A ++ X ++ B) ∧
        ∀ p q, compile reg (g.alone []) = .ok p → compile reg (g.alone ms) = .ok q →
          meaning rule (keys q) = meaning rule (keys p) ++ X := by
  refine ⟨exact (fun _ _ => 0) 0 0 g.front,
    exact (countAfter (countAfter (fun _ _ => 0) 0 0 g.front).1 (reportAt 0 g.front) (reportSeen 0 g.front) (tokensL before)).1
      (reportAt 0 g.front) (reportSeen 0 g.front) g.back, fun reg opt ms b hb hms hend => ?_⟩
  obtain ⟨ks, items, h1, h2, h3⟩ := bytes_frames hb
  have hback : exact (countAfter (countAfter (fun _ _ => 0) 0 0 g.front).1 (reportAt 0 g.front) (reportSeen 0 g.front) (tokensL ms)).1
      (reportAt 0 g.front) (reportSeen 0 g.front) g.back =
      exact (countAfter (countAfter (fun _ _ => 0) 0 0 g.front).1 (reportAt 0 g.front) (reportSeen 0 g.front) (tokensL before)).1
      (reportAt 0 g.front) (reportSeen 0 g.front) g.back := by
    refine exact_closeTo m g.back _ _ _ _ ha (fun w k => ?_)
    rw [(countAfter_here _ _ _ _ hms).2.2, (countAfter_here _ _ _ _ hn).2.2]
    have := (countAfter_spec g.front (fun _ _ => 0) 0 0).2.2 w
    split
    · rw [this]; exact hend w
    · rfl
  have hm : meaning rule (keys items) = exact (fun _ _ => 0) 0 0 g.front ++
      exact (fun w _ => g.bit w) (reportAt 0 g.front) (reportSeen 0 g.front) (tokensL ms) ++
      exact (countAfter (countAfter (fun _ _ => 0) 0 0 g.front).1 (reportAt 0 g.front) (reportSeen 0 g.front) (tokensL before)).1
      (reportAt 0 g.front) (reportSeen 0 g.front) g.back := by
    rw [(compile_exact rule h2).1, tokens, exact_gap g ms hms, hback]
  refine ⟨ks, _, h1, by rw [h3, hm], fun ho => ?_, fun p q hp hq => ?_⟩
  · obtain ⟨ks', is', a1, a2, a3⟩ := bytes_meaning (rule := rule) hb ho
    rw [h1] at a1; rw [h2] at a2
    cases a1; cases a2
    rw [a3, hm]
  · rw [(compile_exact rule hp).1, (compile_exact rule hq).1, exact_alone g ms hms]

theorem toks_seen {reg : Registry} (ts : List Tok) : ∀ {st st' : Streamer.State} {is : List Item} (nz : Int),
    Streamer.toks reg st ts = .ok (st', is) → 0 ≤ nz → 0 ≤ reportSeen nz ts := by
  induction ts with
  | nil => intro _ _ _ nz _ h; exact h
  | cons t ts ih =>
    intro st st' is nz h h0
    simp only [Streamer.toks] at h
    split at h
    · simp at h
    · rename_i st1 a ha
      split at h
      · simp at h
      · rename_i st2 b hb
        cases t with
        | report i =>
          refine ih _ hb ?_
          split
          · exact h0
          · simp only [tok] at ha
            split at ha
            · simp at ha
            · rename_i hx; exact report_nonneg hx
        | endReport => exact ih nz hb h0
        | enter k u => exact ih nz hb h0
        | leave => exact ih nz hb h0
        | leaf l => exact ih nz hb h0

theorem report_ok (reg : Registry) (st : Streamer.State) {i : Int} (hi : 0 ≤ i) :
    ∃ x, tok reg st (.report i) = .ok ({ st with id := i }, x) := by
  obtain ⟨a, ha⟩ := (emit_legal reg (if i ≠ 0 then [(.reportID, .int i)] else [])).2 (by
    intro p hp
    split at hp
    · simp only [List.mem_cons, List.not_mem_nil, or_false] at hp
      subst hp
      exact (call_unsigned _ (by decide)).2 hi
    · simp at hp)
  exact ⟨a, by simp only [tok, ha]⟩

/-- Members that compile in the gap compile alone. -/
theorem C84_alone (reg : Registry) (g : Gap) (ms : List Node) (l : List Item) (hl : compile reg (.top (g.fill ms)) = .ok l)
    (hn : noReports (tokensL ms) = true) (hid : reportAt 0 g.front < 256) : ∃ q, compile reg (g.alone ms) = .ok q := by
  rw [compile_top, tokens_fill, List.append_assoc, toks_append] at hl
  cases hf : Streamer.toks reg {} g.front with
  | error e => rw [hf] at hl; simp [itemsOf, Except.map] at hl
  | ok q =>
    obtain ⟨st, a⟩ := q
    rw [hf] at hl
    simp only at hl
    obtain ⟨f1, f2, f3, -⟩ := toks_id g.front hf (Int.le_refl 0) (fun _ _ => Int.le_refl 0)
    have f4 : ∀ w, st.size w st.id.toNat = g.bit w := fun w =>
      toks_bitAt g.front w (fun _ => 0) hf (Int.le_refl 0) (fun _ _ => rfl)
    have f5 := toks_seen g.front 0 hf (Int.le_refl 0)
    have f2' : st.id = reportAt 0 g.front := f2
    have hs : slot st = .ok st.id.toNat := by unfold slot; rw [if_pos ⟨f1, f2' ▸ hid⟩]
    rw [toks_append] at hl
    cases hb : Streamer.toks reg st (tokensL ms) with
    | error e => rw [hb] at hl; simp [itemsOf, Except.map] at hl
    | ok q =>
      obtain ⟨x1, e1⟩ := report_ok reg {} f5
      obtain ⟨x2, e2⟩ := report_ok reg { ({} : Streamer.State) with id := reportSeen 0 g.front } (f2' ▸ f1)
      obtain ⟨sr, su, e3, i3, z3⟩ := upTo_at reg g.bit (fun w => f4 w ▸ f3 w _)
        { ({} : Streamer.State) with id := reportAt 0 g.front } (f2' ▸ f1) hid (fun _ => rfl)
      have hsr : slot sr = .ok st.id.toNat := by
        have i3 : sr.id = reportAt 0 g.front := i3
        unfold slot; rw [i3, f2', if_pos ⟨f2' ▸ f1, hid⟩]
      have hmv := toks_moved reg _ hn st sr _ _ hs hsr (fun w => by rw [f4, ← z3 w, f2'])
      rw [hb] at hmv
      cases hy : Streamer.toks reg sr (tokensL ms) with
      | error e => rw [hy] at hmv; exact hmv.elim
      | ok y =>
        have h4 : Streamer.toks reg {} (tokens (g.alone ms)) = .ok (y.1, x1 ++ (x2 ++ (su ++ (y.2 ++ [])))) := by
          rw [tokens_alone, List.append_assoc, List.append_assoc]
          simp only [List.cons_append, List.nil_append, Streamer.toks, e1]
          simp only [tok] at e2 ⊢
          rw [e2]
          simp only [toks_append, e3, hy, Streamer.toks, tok, List.nil_append]
        unfold compile
        rw [node_toks, h4]
        exact ⟨_, rfl⟩

/-- Case: both fillings of `someGap` are written with the default optimization, and alone they compile. -/
example : (Compiler.main [] .binary true (.top (someGap.fill twoBits))).toOption =
      some (.bytes [133, 1, 117, 3, 149, 1, 129, 3, 5, 1, 9, 2, 161, 1, 117, 2, 129, 3, 192, 117, 3, 129, 3]) ∧
    (Compiler.main [] .binary true (.top (someGap.fill tenBits))).toOption =
      some (.bytes [133, 1, 117, 3, 149, 1, 129, 3, 5, 1, 9, 2, 161, 1, 117, 2, 129, 3, 117, 8, 129, 3, 192, 117, 3, 129, 3]) ∧
    (compile [] (someGap.alone tenBits)).toOption.map keys =
      some [(.reportID, 1), (.reportID, 1), (.reportCount, 1), (.reportSize, 3), (.input, 3),
        (.reportCount, 1), (.reportSize, 2), (.input, 3), (.reportCount, 1), (.reportSize, 8), (.input, 3)] := by
  refine ⟨by decide +kernel, by decide +kernel, by decide +kernel⟩

end Hrdc
