import Verif.Spec.Apart
import Verif.Props.Rebuild
/-!
# C79: reports are laid out independently of each other
-/
namespace Hrdc
open Spec Streamer Optimizer

/-- Elements of one report in a list of tokens; `ids` are the open reports. -/
def elementsTok (w : Way) (id : Int) (ids : List Int) : List Tok → List Leaf
  | [] => []
  | .report i :: r => elementsTok w id (i :: ids) r
  | .endReport :: r => elementsTok w id ids.tail r
  | .leaf l :: r => (if l.way = w ∧ ids.headD 0 = id then [l] else []) ++ elementsTok w id ids r
  | _ :: r => elementsTok w id ids r

mutual
theorem elementsTok_node (w : Way) (id : Int) (n : Node) (ids : List Int) (r : List Tok) :
    elementsTok w id ids (tokens n ++ r) = elementsOf w id (ids.headD 0) n ++ elementsTok w id ids r := by
  cases n with
  | value v => simp [tokens, elementsTok, elementsOf, Leaf.way]
  | align w' b => simp [tokens, elementsTok, elementsOf, Leaf.way]
  | padding w' s => simp [tokens, elementsTok, elementsOf, Leaf.way]
  | report i ms =>
    have := elementsTok_nodes w id ms (i :: ids) (.endReport :: r)
    simpa [tokens, elementsTok, elementsOf] using this
  | top ms => simpa [tokens, elementsOf] using elementsTok_nodes w id ms ids r
  | coll k u ms =>
    have := elementsTok_nodes w id ms ids (.leave :: r)
    simpa [tokens, elementsTok, elementsOf] using this
theorem elementsTok_nodes (w : Way) (id : Int) (ns : List Node) (ids : List Int) (r : List Tok) :
    elementsTok w id ids (tokensL ns ++ r) = elementsOfL w id (ids.headD 0) ns ++ elementsTok w id ids r := by
  cases ns with
  | nil => simp [tokensL, elementsOfL]
  | cons n ns =>
    rw [tokensL, List.append_assoc, elementsTok_node w id n, elementsTok_nodes w id ns, elementsOfL, List.append_assoc]
end

/-- What the elements of one report compile to after `c` bits. -/
def laidIn (w : Way) (id c : Int) : List Leaf → List Event
  | [] => []
  | l :: r => reportOf w id (exactLeaf id c l) ++ laidIn w id (c + padBefore c l + ownBits l) r

theorem way_cls (w : Way) : w.cls = tag w := by cases w <;> rfl

theorem tag_inj {a b : Way} (h : tag a = tag b) : a = b := by
  cases a <;> cases b <;> simp [tag] at h <;> rfl

/-- A leaf puts nothing in other reports. -/
theorem exactLeaf_apart (w : Way) (id i c : Int) (l : Leaf) (h : ¬ (l.way = w ∧ i = id)) :
    reportOf w id (exactLeaf i c l) = [] := by
  have key : ∀ e ∈ exactLeaf i c l, Event.inReport w id e = true → tag l.way = tag w ∧ i = id := by
    intro e he hp
    unfold exactLeaf at he
    rcases List.mem_append.1 he with he | he
    · rw [(List.mem_replicate.1 he).2] at hp
      simpa [Event.inReport, way_cls] using hp
    · cases l with
      | align w' b => simp [ownEvents] at he
      | padding w' s => simp [ownEvents] at he
      | value v =>
        simp only [ownEvents] at he
        have hf : ∀ e ∈ exactFields i v, Event.inReport w id e = true → tag v.way = tag w ∧ i = id := by
          intro e he hp
          unfold exactFields at he
          obtain ⟨k, -, rfl⟩ := List.mem_map.1 he
          simpa [Event.inReport, way_cls] using hp
        unfold exactEvents at he
        split at he
        · rw [(List.mem_replicate.1 he).2] at hp
          have := hp
          simp only [Event.inReport, Bool.and_eq_true, decide_eq_true_eq, beq_iff_eq, way_cls] at this
          exact this
        · split at he
          · exact hf e he hp
          · split at he
            · rw [List.cons_append, List.mem_cons, List.mem_append] at he
              rcases he with rfl | he | he
              · simp [Event.inReport] at hp
              · exact hf e he hp
              · simp only [List.mem_singleton] at he; subst he; simp [Event.inReport] at hp
            · exact hf e he hp
  unfold reportOf
  rw [List.filter_eq_nil_iff]
  intro e he hp
  have := key e he hp
  exact h ⟨tag_inj this.1, this.2⟩

theorem exact_report (w : Way) (id : Int) (ts : List Tok) (c : Count) (last lastNZ : Int) (ids : List Int)
    (h : ∀ t ∈ leafIds ids last lastNZ ts, t.1 = t.2.1 ∧ t.1 = t.2.2) :
    reportOf w id (exact c last lastNZ ts) = laidIn w id (c w id) (elementsTok w id ids ts) := by
  induction ts generalizing c last lastNZ ids with
  | nil => rfl
  | cons t ts ih =>
    cases t with
    | report i => exact ih _ _ _ _ h
    | endReport => exact ih _ _ _ _ h
    | enter k u =>
      rw [exact, elementsTok, ← ih c last lastNZ ids h]
      · simp [reportOf, Event.inReport]
      all_goals simp
    | leave =>
      rw [exact, elementsTok, ← ih c last lastNZ ids h]
      · simp [reportOf, Event.inReport]
      all_goals simp
    | leaf l =>
      rw [leafIds, List.forall_mem_cons] at h
      obtain ⟨⟨h1, h2⟩, h3⟩ := h
      simp only at h1 h2
      have IH := ih (c.add last l) last lastNZ ids h3
      rw [exact, elementsTok]
      rw [show reportOf w id (exactLeaf lastNZ (c l.way last) l ++ exact (c.add last l) last lastNZ ts)
        = reportOf w id (exactLeaf lastNZ (c l.way last) l) ++ reportOf w id (exact (c.add last l) last lastNZ ts)
        from List.filter_append ..]
      rw [IH]
      by_cases hl : l.way = w ∧ ids.headD 0 = id
      · rw [if_pos hl]
        have e1 : last = id := by rw [← h1]; exact hl.2
        have e2 : lastNZ = id := by rw [← h2]; exact hl.2
        have e3 := hl.1
        subst e1 e3
        rw [e2]
        simp only [List.cons_append, List.nil_append, laidIn, Count.add, and_self, if_true]
      · rw [if_neg hl]
        have hl1 : ¬ (l.way = w ∧ lastNZ = id) := by rw [← h2]; exact hl
        have hl2 : ¬ (w = l.way ∧ id = last) := by
          rintro ⟨e1, e2⟩; exact hl ⟨e1.symm, by rw [h1]; exact e2.symm⟩
        rw [exactLeaf_apart w id lastNZ _ l hl1]
        simp only [List.nil_append, Count.add, if_neg hl2]

theorem compile_report {reg : Registry} (rule : PageRule) (w : Way) (id : Int) {n : Node} {items : List Item}
    (h : compile reg n = .ok items) (hr : ReportsLast n) :
    reportOf w id (meaning rule (keys items)) = laidIn w id 0 (elementsOf w id 0 n) := by
  rw [(compile_exact rule h).1, exact_report w id (tokens n) _ 0 0 [] hr]
  have := elementsTok_node w id n [] []
  simp only [List.append_nil, elementsTok] at this
  rw [this]
  rfl

/-- **C79 (partial).** Two descriptors, compiled with any tables of usages, that have the same elements in a report: the
report is the same, with all attributes and padding, whatever else they hold.  Missing: elements after the end of a
`Report` and `Report(0)` after another, for which it is false (`C79_after_report_breaks`, `C79_zero_report_breaks`). -/
theorem C79_apart_partial (reg reg' : Registry) (rule : PageRule) (w : Way) (id : Int) (n m : Node)
    (is js : List Item) (hn : compile reg n = .ok is) (hm : compile reg' m = .ok js)
    (rn : ReportsLast n) (rm : ReportsLast m) (he : elementsOf w id 0 n = elementsOf w id 0 m) :
    reportOf w id (meaning rule (keys is)) = reportOf w id (meaning rule (keys js)) := by
  rw [compile_report rule w id hn rn, compile_report rule w id hm rm, he]

/-- Elements of one report when every element belongs to the report entered last, still open or not. -/
def Spec.elementsEntered (w : Way) (id cur : Int) : List Tok → List Leaf
  | [] => []
  | .report i :: r => elementsEntered w id i r
  | .leaf l :: r => (if l.way = w ∧ cur = id then [l] else []) ++ elementsEntered w id cur r
  | _ :: r => elementsEntered w id cur r

theorem entered_report (w : Way) (id : Int) (ts : List Tok) (c : Count) (last lastNZ : Int) (ids : List Int)
    (h : ∀ t ∈ leafIds ids last lastNZ ts, t.2.1 = t.2.2) :
    reportOf w id (exact c last lastNZ ts) = laidIn w id (c w id) (elementsEntered w id last ts) := by
  induction ts generalizing c last lastNZ ids with
  | nil => rfl
  | cons t ts ih =>
    cases t with
    | report i => exact ih _ _ _ _ h
    | endReport => exact ih _ _ _ ids.tail h
    | enter k u =>
      rw [exact, elementsEntered, ← ih c last lastNZ ids h]
      · simp [reportOf, Event.inReport]
      all_goals simp
    | leave =>
      rw [exact, elementsEntered, ← ih c last lastNZ ids h]
      · simp [reportOf, Event.inReport]
      all_goals simp
    | leaf l =>
      rw [leafIds, List.forall_mem_cons] at h
      obtain ⟨h1, h3⟩ := h
      simp only at h1
      subst h1
      have IH := ih (c.add last l) last last ids h3
      rw [exact, elementsEntered]
      rw [show reportOf w id (exactLeaf last (c l.way last) l ++ exact (c.add last l) last last ts)
        = reportOf w id (exactLeaf last (c l.way last) l) ++ reportOf w id (exact (c.add last l) last last ts)
        from List.filter_append ..]
      rw [IH]
      by_cases hl : l.way = w ∧ last = id
      · rw [if_pos hl]
        obtain ⟨e1, e2⟩ := hl
        subst e1 e2
        simp only [List.cons_append, List.nil_append, laidIn, Count.add, and_self, if_true]
      · rw [if_neg hl]
        have hl2 : ¬ (w = l.way ∧ id = last) := fun ⟨e1, e2⟩ => hl ⟨e1.symm, e2.symm⟩
        rw [exactLeaf_apart w id last _ l hl]
        simp only [List.nil_append, Count.add, if_neg hl2]

/-- **C79 (partial).** What the code does with elements after the end of a `Report`: they count as elements of the report
entered last, and with that reading reports are independent.  Missing: `Report(0)` after another report
(`C79_zero_report_breaks`). -/
theorem C79_entered_partial (reg reg' : Registry) (rule : PageRule) (w : Way) (id : Int) (n m : Node)
    (is js : List Item) (hn : compile reg n = .ok is) (hm : compile reg' m = .ok js)
    (rn : NoZeroReport n) (rm : NoZeroReport m)
    (he : elementsEntered w id 0 (tokens n) = elementsEntered w id 0 (tokens m)) :
    reportOf w id (meaning rule (keys is)) = reportOf w id (meaning rule (keys js)) := by
  rw [(compile_exact rule hn).1, (compile_exact rule hm).1, entered_report w id (tokens n) _ 0 0 [] rn,
    entered_report w id (tokens m) _ 0 0 [] rm, he]

/-- Case: the value after Report 1 makes the difference in `C79_after_report_breaks`, and would not inside it. -/
theorem C79_entered_case :
    elementsEntered .input 1 0 (tokens (app [.report 1 [.value (mk (button 1))], .value (mk (button 2))])) =
      elementsEntered .input 1 0 (tokens (app [.report 1 [.value (mk (button 1)), .value (mk (button 2))]])) ∧
    NoZeroReport (app [.report 1 [.value (mk (button 1))], .value (mk (button 2))]) := by
  refine ⟨rfl, ?_⟩
  unfold NoZeroReport
  decide +kernel

/-- **C79 (partial).** The same after the optimizer, with any passes, for trees the optimizer keeps the meaning of. -/
theorem C79_optimized_partial (reg reg' : Registry) (min max min' max' : Int) (w : Way) (id : Int) (n m : Node)
    (is js : List Item) (hn : compile reg n = .ok is) (hm : compile reg' m = .ok js)
    (rn : ReportsLast n) (rm : ReportsLast m) (on : OptTree n) (om : OptTree m)
    (he : elementsOf w id 0 n = elementsOf w id 0 m) :
    reportOf w id (meaning .atUsage (keys ((new reg min max Pass.sink).run is))) =
      reportOf w id (meaning .atUsage (keys ((new reg' min' max' Pass.sink).run js))) := by
  rw [(C30_optimized_exact_partial reg min max n is hn on).1, (C30_optimized_exact_partial reg' min' max' m js hm om).1]
  exact C79_apart_partial reg reg' .atUsage w id n m is js hn hm rn rm he

theorem laidIn_append (w : Way) (id c : Int) (as bs : List Leaf) :
    ∃ d, laidIn w id c (as ++ bs) = laidIn w id c as ++ laidIn w id d bs := by
  induction as generalizing c with
  | nil => exact ⟨c, rfl⟩
  | cons a as ih =>
    obtain ⟨d, hd⟩ := ih (c + padBefore c a + ownBits a)
    exact ⟨d, by rw [List.cons_append, laidIn, hd, laidIn, List.append_assoc]⟩

/-- **C79 (partial).** Elements added at the end of a report, wherever else elements are added, do not move or change the
earlier fields.  Missing: as for `C79_apart_partial`. -/
theorem C79_appended_partial (reg reg' : Registry) (rule : PageRule) (w : Way) (id : Int) (n m : Node)
    (is js : List Item) (hn : compile reg n = .ok is) (hm : compile reg' m = .ok js)
    (rn : ReportsLast n) (rm : ReportsLast m) (he : elementsOf w id 0 n <+: elementsOf w id 0 m) :
    reportOf w id (meaning rule (keys is)) <+: reportOf w id (meaning rule (keys js)) := by
  rw [compile_report rule w id hn rn, compile_report rule w id hm rm]
  obtain ⟨r, hr⟩ := he
  rw [← hr]
  obtain ⟨d, hd⟩ := laidIn_append w id 0 (elementsOf w id 0 n) r
  exact ⟨_, hd.symm⟩

/-- What `compile_main` writes in binary is read back as the items. -/
theorem compile_bytes {reg : Registry} {opt : Bool} {n : Node} {b : List UInt8}
    (h : Compiler.main reg .binary opt n = .ok (.bytes b)) :
    ∃ items, compile reg n = .ok items ∧ readAll b = some (keys (if opt then optimize reg items else items)) := by
  unfold Compiler.main at h
  split at h
  · simp at h
  · rename_i items hi
    refine ⟨items, hi, ?_⟩
    simp only [Formatter.render] at h
    cases hb : Formatter.binary (if opt = true then optimize reg items else items) with
    | error e => rw [hb] at h; simp [Except.map] at h
    | ok b' =>
      rw [hb] at h
      simp [Except.map] at h
      subst h
      refine readAll_binary ?_ hb
      cases opt
      · exact compile_made hi
      · exact optimize_made reg items (compile_made hi)

/-- **C79 (partial).** The same for the bytes written, optimized or not, one of them or both.  Missing, optimized, and false:
trees that are not `OptTree` (`C79_physical_breaks`) and, for hosts resolving pages at main items, neighbours on
several pages (`C79_pages_break`). -/
theorem C79_bytes_partial (reg reg' : Registry) (rule : PageRule) (opt opt' : Bool) (w : Way) (id : Int) (n m : Node)
    (b c : List UInt8)
    (hn : Compiler.main reg .binary opt n = .ok (.bytes b)) (hm : Compiler.main reg' .binary opt' m = .ok (.bytes c))
    (rn : ReportsLast n) (rm : ReportsLast m)
    (on : opt = true → OptTree n ∧ (rule = .atUsage ∨ pagesFit none 0 (tokens n) = true))
    (om : opt' = true → OptTree m ∧ (rule = .atUsage ∨ pagesFit none 0 (tokens m) = true))
    (he : elementsOf w id 0 n = elementsOf w id 0 m) :
    ∃ ks ls, readAll b = some ks ∧ readAll c = some ls ∧
      reportOf w id (meaning rule ks) = reportOf w id (meaning rule ls) := by
  obtain ⟨is, h1, h2⟩ := compile_bytes hn
  obtain ⟨js, h3, h4⟩ := compile_bytes hm
  refine ⟨_, _, h2, h4, ?_⟩
  have key : ∀ (o : Bool) (reg : Registry) (n : Node) (is : List Item), compile reg n = .ok is →
      (o = true → OptTree n ∧ (rule = .atUsage ∨ pagesFit none 0 (tokens n) = true)) →
      meaning rule (keys (if o then optimize reg is else is)) = meaning rule (keys is) := by
    intro o reg n is h ho
    cases o
    · rfl
    · obtain ⟨h1, h2⟩ := ho rfl
      have e := (C30_optimized_exact_partial reg 0 100 n is h h1).1
      rcases h2 with rfl | h2
      · exact e
      · show meaning rule (keys (optimize reg is)) = _
        rw [meaning_steady rule .atUsage _ (compiled_steady h h1 h2), (compile_exact rule h).1, ← (compile_exact .atUsage h).1]
        exact e
  rw [key opt reg n is h1 on, key opt' reg' m js h3 om]
  exact C79_apart_partial reg reg' rule w id n m is js h1 h3 rn rm he

/-- Report 1 of the mouse, with another report before it and one inside it. -/
def apartTree : Node :=
  .top [.coll (.named (tx "Application") 1) (some (.int 0x10002)) [
    .report 2 [.value (mk (axis 0x10038))],
    .report 1 [.value (mk (button 1)), .coll (.int 0) (some (.int 0x10001)) [.value (mk (button 2)), .align .input 8],
      .value (mk (axis 0x10030)), .value (mk { axis 0x10031 with way := .output }), .value (mk (axis 0x10031))]]]

/-- Case of C79: both trees have the same elements in input report 1, laid out as 2 buttons, 6 bits of padding and 2 axes,
though the rest differs. -/
theorem C79_case : elementsOf .input 1 0 sampleTree = elementsOf .input 1 0 apartTree ∧
    (compile [] apartTree).toOption.isSome ∧ ReportsLast apartTree ∧ ReportsLast sampleTree ∧ OptTree apartTree ∧
    pagesFit none 0 (tokens apartTree) = true ∧
    (elementsOf .input 1 0 sampleTree).length = 5 ∧
    ((compile [] apartTree).toOption.map (fun is => (reportOf .input 1 (meaning .atUsage (keys is))).length)) = some 10 ∧
    elementsOf .input 2 0 sampleTree ≠ elementsOf .input 2 0 apartTree := by
  refine ⟨rfl, by decide +kernel, by decide +kernel, by decide +kernel, by decide +kernel, by decide +kernel,
    by decide +kernel, by decide +kernel, fun h => ?_⟩
  have := congrArg List.length h
  revert this
  decide +kernel

/-- Whether two trees compile, and a report of them differs. -/
def ApartBreaks (rule : PageRule) (opt : Bool) (w : Way) (id : Int) (n m : Node) : Bool :=
  match compile [] n, compile [] m with
  | .ok is, .ok js =>
    reportOf w id (meaning rule (keys (if opt then optimize [] is else is))) !=
      reportOf w id (meaning rule (keys (if opt then optimize [] js else js)))
  | _, _ => false

/-- A value after a `Report`, and the `Report` alone. -/
def afterReport : Node × Node :=
  (app [.report 1 [.value (mk (button 1))], .value (mk (button 2))], app [.report 1 [.value (mk (button 1))]])

/-- Left out of C79, and false: a value after a `Report` is in that report too. -/
theorem C79_after_report_breaks (rule : PageRule) :
    elementsOf .input 1 0 afterReport.1 = elementsOf .input 1 0 afterReport.2 ∧
    ApartBreaks rule false .input 1 afterReport.1 afterReport.2 = true := by
  refine ⟨rfl, ?_⟩
  cases rule <;> decide +kernel

/-- A value without physical bounds, after a report with them and alone. -/
def physReports : Node × Node :=
  (app [.report 1 [.value (mk { axis 0x10030 with physicalMin := some (-5), physicalMax := some 5 })],
      .report 2 [.value (mk { axis 0x10031 with logicalMin := some 0, logicalMax := some 0 })]],
    app [.report 2 [.value (mk { axis 0x10031 with logicalMin := some 0, logicalMax := some 0 })]])

/-- Left out of C79, and false: optimized, a value without physical bounds takes those of another report. -/
theorem C79_physical_breaks (rule : PageRule) :
    elementsOf .input 2 0 physReports.1 = elementsOf .input 2 0 physReports.2 ∧
    ReportsLast physReports.1 ∧ ReportsLast physReports.2 ∧
    ApartBreaks rule true .input 2 physReports.1 physReports.2 = true := by
  refine ⟨rfl, by decide +kernel, by decide +kernel, ?_⟩
  cases rule <;> decide +kernel

/-- Two axes on different pages, together and with another report between them. -/
def pageReports : Node × Node :=
  (app [.report 1 [.value (mk (axis 0x10030)), .value (mk (axis 0xc0238))]],
    app [.report 1 [.value (mk (axis 0x10030))], .report 2 [.value (mk (axis 0x10030))],
      .report 1 [.value (mk (axis 0xc0238))]])

/-- Left out of C79, and false: optimized, hosts resolving pages at main items; another report keeps the optimizer from
joining values on different pages. -/
theorem C79_pages_break :
    elementsOf .input 1 0 pageReports.1 = elementsOf .input 1 0 pageReports.2 ∧
    ReportsLast pageReports.1 ∧ ReportsLast pageReports.2 ∧ OptTree pageReports.1 ∧ OptTree pageReports.2 ∧
    ApartBreaks .atMain true .input 1 pageReports.1 pageReports.2 = true := by
  refine ⟨rfl, by decide +kernel, by decide +kernel, by decide +kernel, by decide +kernel, ?_⟩
  decide +kernel

/-- A `Report(0)` after another report, and alone. -/
def zeroReports : Node × Node :=
  (app [.report 1 [.value (mk (button 1))], .report 0 [.value (mk (button 2))]], app [.report 0 [.value (mk (button 2))]])

/-- Left out of C79, and false: what is in `Report(0)` goes into the report before. -/
theorem C79_zero_report_breaks (rule : PageRule) :
    elementsOf .input 0 0 zeroReports.1 = elementsOf .input 0 0 zeroReports.2 ∧
    ApartBreaks rule false .input 0 zeroReports.1 zeroReports.2 = true := by
  refine ⟨rfl, ?_⟩
  cases rule <;> decide +kernel

end Hrdc
