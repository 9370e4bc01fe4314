import Verif.Proofs.OptExtract
/-!
# Optimized streams can be decompiled: the later passes
-/
namespace Hrdc
open Spec Optimizer MR Extractor

theorem canon_pageless {a b : MainRec} (hc : a.cls = b.cls) (hv : a.val = b.val)
    (hg : ∀ c, c ≠ .usagePage → a.g c = b.g c) (hu : a.usages = b.usages) (hs : a.strings = b.strings)
    (hd : a.desigs = b.desigs) : [canon a] = [canon b] := by
  obtain ⟨c, v, g, u, s, d⟩ := a
  obtain ⟨c', v', g', u', s', d'⟩ := b
  simp only at hc hv hu hs hd hg
  subst hc hv hu hs hd
  simp only [canon, List.cons.injEq, MainRec.mk.injEq, true_and, and_true]
  funext c
  split
  · next h =>
    apply hg
    rintro rfl
    simp [groupTags] at h
  · rfl

theorem usagePage_out (reg : Registry) (page : Option Int) (a b : Host) (xs : List Item)
    (hl : LongUsages xs ∨ (PagelessUsages xs ∧ a.g .usagePage = 0)) (hp : NoPushPop xs)
    (hab : SamePageless a b) (hpage : ∀ p, page = some p → b.g .usagePage = p) :
    outFrom .atUsage b (keys ((Optimizer.usagePage reg).runFrom page xs))
      = outFrom .atUsage a (keys xs) := by
  induction xs generalizing page a b with
  | nil => rfl
  | cons x xs ih =>
    rw [NoPushPop.cons] at hp
    have hl' : LongUsages xs ∨ (PagelessUsages xs ∧ (a.step .atUsage x.key).g .usagePage = 0) := by
      rcases hl with hl | hl
      · exact Or.inl (fun i hi => hl i (by simp [hi]))
      · refine Or.inr ⟨fun i hi => hl.1 i (by simp [hi]), ?_⟩
        have h2 := (hl.1 x (by simp)).2
        obtain ⟨c, v⟩ := x
        cases c <;> simp_all [Host.step, Item.key]
    rw [Pass.runFrom_cons]
    by_cases hu : Optimizer.usageLike x.cls = true
    · have hv : 0 ≤ x.ival ∧ PageRule.atUsage.declare (a.g .usagePage) x.ival = x.ival := by
        rcases hl with hl | hl
        · have := hl x (by simp) hu
          exact ⟨by omega, declare_long _ _ _ this⟩
        · exact ⟨(hl.1 x (by simp)).1 hu, by rw [hl.2]; exact declare_zero _ _⟩
      obtain ⟨hv, hdecl⟩ := hv
      obtain ⟨hq, hfull⟩ := long_split x.ival hv
      have hcol : x.cls ≠ .collection := by intro h; rw [h] at hu; simp [Optimizer.usageLike] at hu
      have hnm : x.cls.kind ≠ .main := by
        cases hx : x.cls <;> rw [hx] at hu <;> simp [Optimizer.usageLike] at hu <;> simp [Cls.kind]
      have hsp : (Usage.split (Usage.lookup reg x.val)).1.toInt = x.ival / 65536 := by
        rw [split_fst, lookup_value]; rfl
      have hsu : (Usage.split (Usage.lookup reg x.val)).2.toInt = x.ival % 65536 := by
        rw [split_snd, lookup_value]; rfl
      have hstep : (Optimizer.usagePage reg).step page x
        = (some (x.ival / 65536),
           (if page = some (x.ival / 65536) then []
            else [Optimizer.build reg .usagePage (Usage.split (Usage.lookup reg x.val)).1])
            ++ [Optimizer.build reg x.cls (Usage.split (Usage.lookup reg x.val)).2]) := by
        simp [hu, hsp]
      rw [hstep]
      -- state after the page item, if any
      have hpage' : ∃ b', SamePageless a b' ∧ b'.g .usagePage = x.ival / 65536 ∧ ∀ ys,
          outFrom .atUsage b (keys ((if page = some (x.ival / 65536) then []
            else [Optimizer.build reg .usagePage (Usage.split (Usage.lookup reg x.val)).1])) ++ ys)
          = outFrom .atUsage b' ys := by
        by_cases hpg : page = some (x.ival / 65536)
        · refine ⟨b, hab, hpage _ hpg, fun ys => ?_⟩
          rw [if_pos hpg]; rfl
        · refine ⟨{ b with g := fun c => if c = .usagePage then x.ival / 65536 else b.g c },
            ?_, by simp, fun ys => ?_⟩
          · refine ⟨fun c hc => ?_, hab.2⟩
            simp only [hc, if_false]; exact hab.1 c hc
          · rw [if_neg hpg]
            simp only [keys_cons, keys_nil, List.cons_append, List.nil_append]
            rw [outFrom_cons_of_not_main _ _ _ _ (by simp [build_cls, Cls.kind]),
              build_key _ _ _ (by decide), hsp]
            rfl
      obtain ⟨b', hb1, hb2, hb3⟩ := hpage'
      simp only [List.append_assoc, keys_append]
      rw [hb3]
      simp only [keys_cons, keys_nil, List.cons_append, List.nil_append]
      rw [outFrom_cons_of_not_main _ _ _ _ (by simp [build_cls, hnm]),
        outFrom_cons_of_not_main _ _ _ _ (by simpa using hnm), build_key _ _ _ hcol, hsu]
      apply ih _ _ _ hl' hp.2
      · obtain ⟨hg, hu', hs, hd⟩ := hb1
        have hlong : PageRule.atUsage.declare (a.g .usagePage) x.ival = x.ival := hdecl
        have hshort : PageRule.atUsage.declare (b'.g .usagePage) (x.ival % 65536) = x.ival := by
          rw [hb2]; exact hfull
        obtain ⟨c, v⟩ := x
        cases c <;> simp [Optimizer.usageLike] at hu <;>
          simp_all [SamePageless, Host.step, Item.key]
      · intro p hp; cases hp
        obtain ⟨c, v⟩ := x
        cases c <;> simp [Optimizer.usageLike] at hu <;> simp_all [Host.step]
    · have hu' : Optimizer.usageLike x.cls = false := by simpa using hu
      have hout : ∃ page', (Optimizer.usagePage reg).step page x = (page', [x]) ∧
          ((x.cls = .usagePage ∧ page' = some x.ival) ∨ (x.cls ≠ .usagePage ∧ page' = page)) := by
        by_cases hup : x.cls = .usagePage
        · exact ⟨some x.ival, by simp [hup, Optimizer.usageLike], Or.inl ⟨hup, rfl⟩⟩
        · exact ⟨page, by simp [hu', hup], Or.inr ⟨hup, rfl⟩⟩
      obtain ⟨page', hst, hpg⟩ := hout
      rw [hst]
      have hab' := step_other_pageless .atUsage hab x hu' hp.1.1 hp.1.2
      have hpage' : ∀ p, page' = some p → (b.step .atUsage x.key).g .usagePage = p := by
        intro p hp'
        rcases hpg with ⟨hc, rfl⟩ | ⟨hc, rfl⟩
        · cases hp'
          obtain ⟨c, v⟩ := x
          simp only at hc
          subst hc
          simp [Host.step, Item.key]
        · rw [← hpage p hp']
          obtain ⟨c, v⟩ := x
          cases c <;> simp_all [Host.step, Item.key]
      simp only [List.cons_append, List.nil_append, keys_cons]
      rw [outFrom_cons, outFrom_cons, ih _ _ _ hl' hp.2 hab' hpage']
      congr 1
      split
      · obtain ⟨hg, hu'', hs, hd⟩ := hab
        apply canon_pageless (a := b.main .atUsage x.key) (b := a.main .atUsage x.key) rfl rfl
        · intro c hc; exact (hg c hc).symm
        · simp only [Host.main, hu'']; rfl
        · simp only [Host.main, hs]
        · simp only [Host.main, hd]
      · rfl

theorem steady_recs (ks : List SItem) (pending : Bool) (a b : Host) (hr : SteadyRel pending a b)
    (hs : pageSteady pending ks = true) : recs .atMain a ks = recs .atUsage b ks := by
  induction ks generalizing pending a b with
  | nil => rfl
  | cons k ks ih =>
    obtain ⟨ga, sa, ua, ta, da⟩ := a
    obtain ⟨gb, sb, ub, tb, db⟩ := b
    obtain ⟨h1, h2, h3, h4, h5, h6⟩ := hr
    simp only at h1 h2 h3 h4 h5 h6
    subst h1 h2 h3 h4 h5
    rw [recs_cons, recs_cons]
    by_cases hm : k.1.kind = .main
    · simp only [pageSteady, hm, if_true] at hs
      have hmain : Host.main .atMain ⟨ga, sa, ua, ta, da⟩ k
          = Host.main .atUsage ⟨ga, sa, ua.mapD (full (ga .usagePage)), ta, da⟩ k := by
        simp only [Host.main, MainRec.mk.injEq, true_and, and_true]
        rw [Decl.mapD_values]
        rfl
      simp only [hm, if_true, hmain]
      congr 1
      apply ih false _ _ _ hs
      obtain ⟨c, v⟩ := k
      cases c <;> first
        | exact ⟨rfl, rfl, rfl, rfl, rfl, fun _ => rfl⟩
        | (simp [Cls.kind] at hm; done)
    · simp only [hm, if_false, List.nil_append]
      by_cases hu : usageLike k.1 = true
      · simp only [pageSteady, hm, if_false, hu, if_true] at hs
        apply ih true _ _ _ hs
        obtain ⟨c, v⟩ := k
        cases c <;> simp [usageLike] at hu
        · exact ⟨rfl, rfl, rfl, rfl, (Decl.mapD_one _ _ _).symm, by simp⟩
        · exact ⟨rfl, rfl, rfl, rfl, (Decl.mapD_setLo _ _ _).symm, by simp⟩
        · exact ⟨rfl, rfl, rfl, rfl, (Decl.mapD_setHi _ _ _).symm, by simp⟩
      · simp only [pageSteady, hm, if_false, hu, Bool.false_eq_true] at hs
        by_cases hp : k.1 = .usagePage ∨ k.1 = .pop
        · rw [if_pos hp, Bool.and_eq_true] at hs
          have hpd : pending = false := by simpa using hs.1
          have := h6 hpd
          subst this
          apply ih pending _ _ _ hs.2
          obtain ⟨c, v⟩ := k
          rcases hp with hp | hp
          · simp only at hp; subst hp
            exact ⟨rfl, rfl, rfl, rfl, rfl, fun _ => rfl⟩
          · simp only at hp; subst hp
            cases sa with
            | nil => exact ⟨rfl, rfl, rfl, rfl, rfl, fun _ => rfl⟩
            | cons g r => exact ⟨rfl, rfl, rfl, rfl, rfl, fun _ => rfl⟩
        · rw [if_neg hp] at hs
          apply ih pending _ _ _ hs
          obtain ⟨c, v⟩ := k
          cases c <;> first
            | exact ⟨rfl, rfl, rfl, rfl, rfl, h6⟩
            | (simp [Cls.kind] at hm; done)
            | (simp [usageLike] at hu; done)
            | (simp at hp; done)


/-! ## Main merging -/

/-- Main items a decompiler reads. -/
def Good (rs : List MainRec) : Prop :=
  walk [] rs = some [] ∧ (∀ r ∈ rs, CountOK r) ∧ endsClosedRec rs = true

theorem recs_kinds (rule : PageRule) (xs : List SItem) : ∀ h, ∀ r ∈ recs rule h xs, r.cls.kind = .main := by
  induction xs with
  | nil => intro h r hr; simp [recs_nil] at hr
  | cons x xs ih =>
    intro h r hr
    rw [recs_cons] at hr
    rcases List.mem_append.1 hr with hr | hr
    · split at hr
      · next hk => simp at hr; subst hr; exact hk
      · simp at hr
    · exact ih _ r hr

theorem walk_canon (rs : List MainRec) (hk : ∀ r ∈ rs, r.cls.kind = .main) :
    ∀ ops, walk ops (rs.map canon) = walk ops rs := by
  induction rs with
  | nil => intro ops; rfl
  | cons r rs ih =>
    intro ops
    rw [List.map_cons, walk_cons, walk_cons, walkStep_canon _ _ (hk r (by simp))]
    cases walkStep ops r with
    | none => rfl
    | some o => exact ih (fun q hq => hk q (by simp [hq])) o

theorem ends_cls {a b : List MainRec} (h : a.getLast?.map (·.cls) = b.getLast?.map (·.cls)) :
    endsClosedRec a = endsClosedRec b := by
  unfold endsClosedRec
  cases ha : a.getLast? <;> cases hb : b.getLast? <;> rw [ha, hb] at h <;> simp at h
  all_goals simp_all

theorem count_canon (r : MainRec) : CountOK (canon r) ↔ CountOK r := by
  unfold CountOK
  constructor
  · intro h hd
    have := h hd
    rwa [canon_g hd (Or.inr rfl)] at this
  · intro h hd
    rw [canon_g (r := r) hd (Or.inr rfl)]
    exact h hd

theorem good_canon (rs : List MainRec) (hk : ∀ r ∈ rs, r.cls.kind = .main) : Good (rs.map canon) ↔ Good rs := by
  unfold Good
  rw [walk_canon rs hk, ends_cls (a := rs.map canon) (b := rs) (by simp [List.getLast?_map, Function.comp_def, canon])]
  simp only [List.forall_mem_map, count_canon]

theorem joined_props {g : List MainRec} (hr : Run g) (hj : ∀ r ∈ g, CountOK r) :
    (∀ r ∈ joinedR (total g) g, CountOK r) ∧
      (joinedR (total g) g).getLast?.map (·.cls) = g.getLast?.map (·.cls) := by
  cases g with
  | nil => exact ⟨by simp [joinedR], rfl⟩
  | cons a t =>
    cases t with
    | nil =>
      rw [MR.joined_single]
      refine ⟨?_, rfl⟩
      intro r hr
      simp only [List.mem_singleton] at hr
      subst hr
      exact (count_canon a).2 (hj a (by simp))
    | cons b t =>
      obtain ⟨hd, hal⟩ := run_alike3 (b :: t) a hr
      have hd := hd (by simp)
      rw [joinedR]
      constructor
      · intro r hr
        simp only [List.mem_singleton] at hr
        subst hr
        rw [count_canon]
        intro _
        by_cases hc : a.isConst = true
        · exact Or.inr hc
        · left
          have := total_pos (a :: b :: t) (by
            intro r hr
            rcases hj r hr (by rw [(hal r hr).1]; exact hd) with h | h
            · exact h
            · exfalso; apply hc; rw [← h]; simp [MainRec.isConst, (hal r hr).2.1])
          simp only [List.length_cons] at this
          simp only [if_true]
          omega
      · have : ∀ x, (a :: b :: t).getLast? = some x → x.cls = a.cls :=
          fun x hx => (hal x (List.mem_of_getLast? hx)).1
        cases hl : (a :: b :: t).getLast? with
        | none => simp at hl
        | some x => simp [canon, this x hl]

theorem groups_last (gs : List (List MainRec)) (hr : ∀ g ∈ gs, Run g) (hj : ∀ r ∈ gs.flatten, CountOK r) :
    (∀ r ∈ gs.flatMap (fun g => joinedR (total g) g), CountOK r) ∧
      (gs.flatMap (fun g => joinedR (total g) g)).getLast?.map (·.cls) = gs.flatten.getLast?.map (·.cls) := by
  induction gs with
  | nil => exact ⟨by simp, rfl⟩
  | cons g gs ih =>
    obtain ⟨a, b⟩ := joined_props (hr g (by simp)) (fun r h => hj r (by simp [h]))
    obtain ⟨c, d⟩ := ih (fun q hq => hr q (by simp [hq])) (fun r h => hj r (List.mem_append.2 (Or.inr h)))
    rw [List.flatMap_cons, List.flatten_cons]
    constructor
    · intro r hr
      rcases List.mem_append.1 hr with h | h
      · exact a r h
      · exact c r h
    · rw [List.getLast?_append, List.getLast?_append]
      cases e1 : (gs.flatMap (fun g => joinedR (total g) g)).getLast? <;> cases e2 : gs.flatten.getLast? <;>
        rw [e1, e2] at d <;> simp at d
      · simpa using b
      · simpa using d

theorem mm_good (reg : Registry) (ys : List Item) (hcl : rangesClosed .atUsage {} (keys ys) = true)
    (hpp : NoPushPop ys) (hs : mergeSafe (recs .atUsage {} (keys ys)) = true)
    (hj : ∀ r ∈ recs .atUsage {} (keys ys), JoinOK r) (hg : Good (recs .atUsage {} (keys ys))) :
    Good (recs .atUsage {} (keys ((mainMerge reg).run ys))) := by
  rw [← good_canon _ (recs_kinds _ _ _), mm_run_recs reg ys hcl hpp]
  have hfl := runs_recs (keys ys) {} {}
  obtain ⟨hrun, h', hwait⟩ := runs_run ys {} {} hpp (waiting_nil _)
  rw [show ({} : Pend).group = [] from rfl, List.nil_append] at hfl
  have hne : (runs {} {} (keys ys)).2.group = [] := by
    obtain ⟨c, v, hc, hw⟩ := hwait
    cases hgr : (runs {} {} (keys ys)).2.group.getLast? with
    | none => simpa using hgr
    | some r =>
      exfalso
      have he := hg.2.2
      rw [hfl] at he
      unfold endsClosedRec at he
      rw [List.getLast?_append, hgr] at he
      have := (hw r (List.mem_of_getLast? hgr)).1
      simp only [Option.some_or, beq_iff_eq] at he
      rw [he] at this
      rw [← this] at hc
      simp [Cls.isData] at hc
  rw [hne, List.append_nil] at hfl
  have hclose : closeR (runs {} {} (keys ys)).2 = [] := by
    unfold closeR; rw [hne]; rfl
  unfold mergedRecs
  rw [hclose, List.append_nil]
  rw [hfl] at hs hj hg
  have hk : ∀ r ∈ (runs {} {} (keys ys)).1.flatten, r.cls.kind = .main := by
    rw [← hfl]; exact recs_kinds _ _ _
  obtain ⟨g1, g2, g3⟩ := hg
  obtain ⟨a, b⟩ := groups_last _ hrun g2
  exact ⟨groups_walk _ _ _ hrun hs hk hj g1, a, by rw [ends_cls b]; exact g3⟩

/-! ## Physical bounds -/

theorem walkStep_phys (ops : List (Int × Bool)) (r : MainRec) (lo hi : Int) (hk : r.cls.kind = .main)
    (hc : CountOK r) (hb : r.bounded lo hi) : walkStep ops (r.withPhys lo hi) = walkStep ops r := by
  have e1 : (r.withPhys lo hi).cls = r.cls := rfl
  have e2 : (r.withPhys lo hi).val = r.val := rfl
  have e3 : (r.withPhys lo hi).strings = r.strings := rfl
  have e4 : (r.withPhys lo hi).desigs = r.desigs := rfl
  have e5 : (r.withPhys lo hi).usages = r.usages := rfl
  have eg : ∀ c, c ≠ .physMin → c ≠ .physMax → (r.withPhys lo hi).g c = r.g c := by
    intro c h1 h2; simp [MainRec.withPhys, h1, h2]
  by_cases hd : r.cls.isData = true
  · have hf : hasFields (r.withPhys lo hi) = hasFields r := by
      unfold hasFields MainRec.isConst
      rw [e2, eg _ (by simp) (by simp)]
    have hok : ∀ k, dataOK k (r.withPhys lo hi) = dataOK k r := by
      intro k
      by_cases hcst : r.isConst = true
      · rw [(const_ok k r hcst).1, (const_ok k (r.withPhys lo hi) hcst).1]
      · have hcst : r.isConst = false := by simpa using hcst
        have hpos : 0 < r.g .reportCount := by
          rcases hc hd with h | h
          · exact h
          · rw [hcst] at h; simp at h
        have hb := hb hd hcst hpos
        have hp : (r.withPhys lo hi).attrs.physMin = r.attrs.physMin ∧ (r.withPhys lo hi).attrs.physMax = r.attrs.physMax := by
          have : (r.withPhys lo hi).attrs.physMin = (if lo = 0 ∧ hi = 0 then r.g .logMin else lo) ∧
              (r.withPhys lo hi).attrs.physMax = (if lo = 0 ∧ hi = 0 then r.g .logMax else hi) := by
            simp [MainRec.withPhys, MainRec.attrs]
          rw [this.1, this.2]
          by_cases hz : lo = 0 ∧ hi = 0
          · rw [if_pos hz] at hb
            rw [if_pos hz, if_pos hz]
            exact ⟨congrArg Prod.fst hb, congrArg Prod.snd hb⟩
          · rw [if_neg hz] at hb
            rw [if_neg hz, if_neg hz]
            exact ⟨congrArg Prod.fst hb, congrArg Prod.snd hb⟩
        unfold dataOK MainRec.isConst MainRec.isVar MainRec.full MainRec.uniform
        rw [hp.1, hp.2, e2, e3, e4, e5, eg _ (by simp) (by simp), eg _ (by simp) (by simp), eg _ (by simp) (by simp),
          eg _ (by simp) (by simp), eg _ (by simp) (by simp)]
    unfold walkStep
    rw [hok, hf, e1, e2, e3, e4]
  · unfold walkStep
    rw [e1, e2, e3, e4]
    cases h : r.cls <;> rw [h] at hd hk <;> simp [Cls.isData] at hd <;> simp [Cls.kind] at hk
    all_goals rfl

theorem pm_good (ys : List Item) (hpp : NoPushPop ys)
    (hb : meaning .atUsage (keys (physicalMerge.run ys)) = meaning .atUsage (keys ys))
    (hg : Good (recs .atUsage {} (keys ys))) : Good (recs .atUsage {} (keys (physicalMerge.run ys))) := by
  rw [C21_iff _ _ hpp] at hb
  obtain ⟨h1, h2⟩ := C21_exact .atUsage ys hpp
  have hk := recs_kinds .atUsage (keys ys) {}
  rw [h1]
  rw [h2] at hg hk
  revert hb hg hk
  generalize physKept .atUsage {} 0 0 (fun _ => none) (keys ys) = l
  intro hb ⟨g1, g2, g3⟩ hk
  have hcount : ∀ (r : MainRec) lo hi, CountOK r → CountOK (r.withPhys lo hi) := by
    intro r lo hi h hd
    have := h hd
    simpa [MainRec.withPhys, MainRec.isConst] using this
  refine ⟨?_, ?_, ?_⟩
  · rw [← g1]
    clear g1 g3
    generalize ([] : List (Int × Bool)) = ops
    induction l generalizing ops with
    | nil => rfl
    | cons p l ih =>
      rw [List.map_cons, List.map_cons, walk_cons, walk_cons,
        walkStep_phys _ _ _ _ (hk p.1 (by simp)) (g2 p.1 (by simp)) (hb p (by simp))]
      cases walkStep ops p.1 with
      | none => rfl
      | some o =>
        exact ih (fun q hq => hb q (List.mem_cons_of_mem _ hq)) (fun r hr => g2 r (List.mem_cons_of_mem _ hr))
          (fun r hr => hk r (List.mem_cons_of_mem _ hr)) o
  · intro r hr
    obtain ⟨p, hp, rfl⟩ := List.mem_map.1 hr
    exact hcount _ _ _ (g2 p.1 (List.mem_map.2 ⟨p, hp, rfl⟩))
  · rw [← g3]
    apply ends_cls
    rw [List.getLast?_map, List.getLast?_map]
    cases l.getLast? <;> rfl

end Hrdc
