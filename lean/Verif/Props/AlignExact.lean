import Verif.Props.Compile2
/-!
# C32, C33: exactly which values are aligned
-/
namespace Hrdc
open Spec Streamer

/-- Bits of the fields after the first, of the values met in a report; `cur` is the report entered last. -/
def Spec.further (w : Way) (id cur : Int) : List Tok → Int
  | [] => 0
  | .report i :: r => further w id i r
  | .leaf (.value v) :: r => (if v.way = w ∧ cur = id then v.size * (v.count - 1) else 0) + further w id cur r
  | _ :: r => further w id cur r

/-- What is counted and the true layout differ by the further fields. -/
theorem bits_further (ts : List Tok) (ids : List Int) (c : Count) (last lastNZ : Int)
    (hz : ∀ t ∈ leafIds ids last lastNZ ts, t.2.1 = t.2.2) (hs : Sane c last ts) (w : Way) (k : Int) :
    (reportBits w.cls k (exact c last lastNZ ts) : Int)
      = ((countAfter c last lastNZ ts).1 w k - c w k) + further w k last ts := by
  induction ts generalizing ids c last lastNZ with
  | nil => simp [Streamer.exact, countAfter, reportBits, further]
  | cons t ts ih =>
    have hcons : ∀ (e : Event) (es : List Event), e.bits w.cls k = 0 →
        reportBits w.cls k (e :: es) = reportBits w.cls k es := by
      intro e es he; simp [reportBits, he]
    cases t with
    | report i =>
      simp only [leafIds] at hz
      simp only [Sane] at hs
      simp only [Streamer.exact, countAfter, further]
      exact ih (i :: ids) c i _ hz hs
    | endReport =>
      simp only [leafIds] at hz
      simp only [Sane] at hs
      simp only [Streamer.exact, countAfter, further]
      exact ih ids.tail c last _ hz hs
    | enter kd u =>
      simp only [leafIds] at hz
      simp only [Sane] at hs
      simp only [Streamer.exact, countAfter, further]
      rw [hcons _ _ rfl]
      exact ih ids c last _ hz hs
    | leave =>
      simp only [leafIds] at hz
      simp only [Sane] at hs
      simp only [Streamer.exact, countAfter, further]
      rw [hcons _ _ rfl]
      exact ih ids c last _ hz hs
    | leaf l =>
      simp only [leafIds, List.mem_cons, forall_eq_or_imp] at hz
      simp only [Sane] at hs
      obtain ⟨h1, h2, h3⟩ := hs
      obtain ⟨z1, z2⟩ := hz
      subst z1
      have := ih ids (c.add last l) last last z2 h3
      simp only [Streamer.exact, countAfter]
      rw [reportBits_append]
      have hb := exactLeaf_bits last h1 h2 w k
      push_cast
      rw [hb, this]
      have e : (if w = l.way ∧ k = last then trueBits (c l.way last) l else 0) - ((c.add last l) w k - c w k) =
          further w k last (.leaf l :: ts) - further w k last ts := by
        simp only [Count.add]
        by_cases hh : w = l.way ∧ k = last
        · obtain ⟨rfl, rfl⟩ := hh
          simp only [and_self, if_true]
          cases l with
          | value v =>
            simp only [trueBits, ownBits, further, Leaf.way, and_self, if_true]
            rw [Int.mul_sub]; omega
          | align w b => simp only [trueBits, ownBits, further]; omega
          | padding w b => simp only [trueBits, ownBits, further]; omega
        · rw [if_neg hh, if_neg hh]
          cases l with
          | value v =>
            simp only [further]
            rw [if_neg (fun h => hh ⟨h.1.symm, h.2.symm⟩)]; omega
          | align w b => simp only [further]; omega
          | padding w b => simp only [further]; omega
      omega

/-- The padding in front of an element: what is missing to its boundary if further fields are not counted. -/
theorem leaf_place_exact {reg : Registry} (rule : PageRule) {n : Node} {items : List Item}
    (h : compile reg n = .ok items) (hz : NoZeroReport n)
    {pre post : List Tok} {l : Leaf} (hs : tokens n = pre ++ .leaf l :: post) :
    ∃ c, (reportBits l.way.cls (lastReport 0 pre) (exact (fun _ _ => 0) 0 0 pre) : Int)
        = c + further l.way (lastReport 0 pre) 0 pre ∧
      0 ≤ padBefore c l ∧
      ∃ after, meaning rule (keys items) = exact (fun _ _ => 0) 0 0 pre ++
        List.replicate (padBefore c l).toNat (.padBit l.way.cls (lastReport 0 pre)) ++
        ownEvents (lastReport 0 pre) l ++ after := by
  have e := split_exact rule h hs
  obtain ⟨-, hsane⟩ := compile_exact rule h
  rw [hs] at hsane
  obtain ⟨s1, s2⟩ := sane_split _ _ 0 _ _ hsane
  simp only [Sane] at s2
  have hlast : (countAfter (fun _ _ => 0) 0 0 pre).2.1 = (countAfter (fun _ _ => 0) 0 0 pre).2.2 := by
    obtain ⟨x, hx⟩ := leafIds_split2 [] (fun _ _ => 0) 0 0 pre post l
    rw [← hs] at hx
    exact hz _ hx
  have hb := bits_further pre [] (fun _ _ => 0) 0 0
    (fun t ht => hz t (by rw [hs]; exact leafIds_prefix [] 0 0 pre _ t ht)) s1 l.way (lastReport 0 pre)
  rw [countAfter_last] at e hlast
  rw [hlast] at e s2
  refine ⟨(countAfter (fun _ _ => 0) 0 0 pre).1 l.way (lastReport 0 pre), by simpa using hb, s2.1, _, by
    rw [e, exactLeaf, ← List.append_assoc]⟩

/-- Exactly which elements are aligned, in every descriptor without Report(0) after another report: an element
with a boundary starts, or ends for `Align`, at a multiple of it exactly when the further fields of the values before it
in its report add up to a multiple; then the padding is the least possible.  In all cases the padding is what would be
missing without these fields, so it is needless where the report is aligned but the further fields are not.  Left
out: Report(0) after another report, where it is false (`C32_zero_report_breaks`, `C33_zero_report_breaks`). -/
theorem align_exact (reg : Registry) (rule : PageRule) (n : Node) (items : List Item)
    (h : compile reg n = .ok items) (hz : NoZeroReport n)
    (pre post : List Tok) (l : Leaf) (hs : tokens n = pre ++ .leaf l :: post) (hb : l.boundary > 1) :
    let before := exact (fun _ _ => 0) 0 0 pre
    let id := lastReport 0 pre
    let bits : Int := reportBits l.way.cls id before
    ∃ pad : Nat, ∃ after, meaning rule (keys items) =
        before ++ List.replicate pad (.padBit l.way.cls id) ++ ownEvents id l ++ after ∧
      (pad : Int) = (further l.way id 0 pre - bits) % l.boundary ∧
      (l.boundary ∣ bits + pad ↔ l.boundary ∣ further l.way id 0 pre) ∧
      ((pad : Int) = (-bits) % l.boundary ↔ l.boundary ∣ further l.way id 0 pre) ∧
      (pad = 0 ↔ l.boundary ∣ bits - further l.way id 0 pre) := by
  intro before id bits
  obtain ⟨c, hc, h0, after, e⟩ := leaf_place_exact rule h hz hs
  rw [padBefore_boundary c l hb] at h0
  have hc' : bits = c + further l.way id 0 pre := hc
  have hcb : c = bits - further l.way id 0 pre := by omega
  have hp : (((-c) % l.boundary).toNat : Int) = (further l.way id 0 pre - bits) % l.boundary := by
    rw [Int.toNat_of_nonneg h0, hcb, Int.neg_sub]
  refine ⟨((-c) % l.boundary).toNat, after, by rw [← padBefore_boundary c l hb]; exact e, hp, ?_, ?_, ?_⟩
  · rw [hp, Int.dvd_iff_emod_eq_zero, Int.dvd_iff_emod_eq_zero, Int.add_emod_emod,
      show bits + (further l.way id 0 pre - bits) = further l.way id 0 pre by omega]
  · rw [hp, Int.emod_eq_emod_iff_emod_sub_eq_zero,
      show further l.way id 0 pre - bits - -bits = further l.way id 0 pre by omega, Int.dvd_iff_emod_eq_zero]
  · rw [Int.dvd_iff_emod_eq_zero, ← hcb]
    constructor
    · intro hz
      rw [hz] at hp
      have : (-c) % l.boundary = 0 := by omega
      have := Int.dvd_of_emod_eq_zero this
      exact Int.emod_eq_zero_of_dvd ((Int.dvd_neg).1 this)
    · intro hd
      have := Int.emod_eq_zero_of_dvd ((Int.dvd_neg).2 (Int.dvd_of_emod_eq_zero hd))
      omega

/-- **C32.** Exactly which elements are aligned, in every descriptor without Report(0) after another report: an element with
a boundary starts, or ends for `Align`, at a multiple of it exactly when the further fields of the values before it in
its report add up to a multiple.  Left out: Report(0) after another report, where it is false
(`C32_zero_report_breaks`). -/
theorem C32_iff (reg : Registry) (rule : PageRule) (n : Node) (items : List Item)
    (h : compile reg n = .ok items) (hz : NoZeroReport n)
    (pre post : List Tok) (l : Leaf) (hs : tokens n = pre ++ .leaf l :: post) (hb : l.boundary > 1) :
    let before := exact (fun _ _ => 0) 0 0 pre
    let id := lastReport 0 pre
    let bits : Int := reportBits l.way.cls id before
    ∃ pad : Nat, ∃ after, meaning rule (keys items) =
        before ++ List.replicate pad (.padBit l.way.cls id) ++ ownEvents id l ++ after ∧
      (pad : Int) = (further l.way id 0 pre - bits) % l.boundary ∧
      (l.boundary ∣ bits + pad ↔ l.boundary ∣ further l.way id 0 pre) := by
  obtain ⟨pad, after, h1, h2, h3, -⟩ := align_exact reg rule n items h hz pre post l hs hb
  exact ⟨pad, after, h1, h2, h3⟩

/-- **C33.** Exactly where the padding is the least possible, in every descriptor without Report(0) after another report:
where these further fields add up to a multiple of the boundary; and exactly where there is none.  Left out: Report(0)
after another report, where it is false (`C33_zero_report_breaks`). -/
theorem C33_iff (reg : Registry) (rule : PageRule) (n : Node) (items : List Item)
    (h : compile reg n = .ok items) (hz : NoZeroReport n)
    (pre post : List Tok) (l : Leaf) (hs : tokens n = pre ++ .leaf l :: post) (hb : l.boundary > 1) :
    let before := exact (fun _ _ => 0) 0 0 pre
    let id := lastReport 0 pre
    let bits : Int := reportBits l.way.cls id before
    ∃ pad : Nat, ∃ after, meaning rule (keys items) =
        before ++ List.replicate pad (.padBit l.way.cls id) ++ ownEvents id l ++ after ∧
      ((pad : Int) = (-bits) % l.boundary ↔ l.boundary ∣ further l.way id 0 pre) ∧
      (pad = 0 ↔ l.boundary ∣ bits - further l.way id 0 pre) := by
  obtain ⟨pad, after, h1, -, -, h4, h5⟩ := align_exact reg rule n items h hz pre post l hs hb
  exact ⟨pad, after, h1, h4, h5⟩

/-- Case of C32: 2 fields of 1 bit make an axis of 8 bits start at 9; 9 fields of 1 bit do not. -/
theorem C32_iff_case :
    further .input 0 0 [.leaf (.value (mk { button 1 with count := 2 }))] = 1 ∧
    further .input 0 0 [.leaf (.value (mk { button 1 with count := 9 }))] = 8 ∧
    (mk (axis 0x10030)).alignment = 8 ∧
    NoZeroReport (.top [.value (mk { button 1 with count := 9 }), .value (mk (axis 0x10030))]) ∧
    (compile [] (.top [.value (mk { button 1 with count := 9 }), .value (mk (axis 0x10030))])).toOption.isSome := by
  refine ⟨by decide +kernel, by decide +kernel, by decide +kernel, ?_, by decide +kernel⟩
  unfold NoZeroReport
  decide +kernel

/-- **C35.** Exactly which elements are in the report of the innermost Report around them, in every descriptor that
compiles: those that have no fields and no padding, and those with the ID of that Report being the last one, other than 0,
of the Reports entered before, open or not. -/
theorem C35_iff (reg : Registry) (rule : PageRule) (n : Node) (items : List Item)
    (h : compile reg n = .ok items) (pre post : List Tok) (l : Leaf) (hs : tokens n = pre ++ .leaf l :: post) :
    ∃ own after c, meaning rule (keys items) = exact (fun _ _ => 0) 0 0 pre ++ own ++ after ∧
      own = exactLeaf (Spec.lastReport 0 pre) c l ∧
      ((∀ e ∈ own, ∀ r, e.report = some r → r = Spec.openReport [] pre) ↔
        Spec.lastReport 0 pre = Spec.openReport [] pre ∨ ∀ e ∈ own, e.report = none) := by
  obtain ⟨before, own, after, c, h1, rfl, h3, h4⟩ := C35_report_exact_partial reg rule n items h pre post l hs
  refine ⟨own, after, c, h1, h3, ⟨fun ho => ?_, ?_⟩⟩
  · by_cases hn : ∀ e ∈ own, e.report = none
    · exact .inr hn
    · left
      simp only [Classical.not_forall] at hn
      obtain ⟨e, he, hne⟩ := hn
      cases hr : e.report with
      | none => exact absurd hr hne
      | some r => rw [← h4 e he r hr, ← ho e he r hr]
  · rintro (hq | hq) e he r hr
    · rw [← hq]; exact h4 e he r hr
    · rw [hq e he] at hr; simp at hr

/-- Case of C35: in the tree of `C35_values_after_report` the second button has a field, and report 1 was entered last
while none is open. -/
theorem C35_iff_case :
    tokens (.top [.report 1 [.value (mk (button 1))], .value (mk (button 2))]) =
      [.report 1, .leaf (.value (mk (button 1))), .endReport] ++ .leaf (.value (mk (button 2))) :: [] ∧
    Spec.lastReport 0 [.report 1, .leaf (.value (mk (button 1))), .endReport] = 1 ∧
    Spec.openReport [] [.report 1, .leaf (.value (mk (button 1))), .endReport] = 0 ∧
    (exactLeaf 1 1 (.value (mk (button 2)))).map Spec.Event.report = [some 1] := by
  refine ⟨rfl, rfl, rfl, by decide +kernel⟩

end Hrdc
