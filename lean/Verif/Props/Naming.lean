import Verif.Spec.Names
import Verif.Proofs.Read
import Verif.Props.Table
/-!
# Property C56: the names shown for parsed items
-/
namespace Hrdc
open Spec

/-! ## Tables -/

theorem tagName_title (c : Cls) : c.tagName = tagTitle c := by cases c <;> rfl

theorem page_title (v : Int) : (Usage.page v).str = titled pageTitles v := by
  unfold Usage.page titled
  simp only [PyVal.str]
  have key : ∀ l : List (Int × Text), (l.find? (fun p => p.1 == v)).map (·.2) = l.lookup v := by
    intro l
    induction l with
    | nil => rfl
    | cons a l ih =>
      simp only [List.find?_cons, List.lookup]
      by_cases h : a.1 = v
      · subst h; simp
      · have h1 : (a.1 == v) = false := by simpa using h
        have h2 : (v == a.1) = false := by simpa using fun e => h e.symm
        simp [h1, h2, ih]
  rw [key]
  rfl

theorem unit_title (v : Int) : (Item.usualUnit (.int v)).str = titled unitTitles v := by
  unfold Item.usualUnit titled
  simp only [PyVal.toInt]
  have key : ∀ l : List (Int × Text), (match l.find? (fun p : Int × Text => p.1 == v) with
      | some (i, n) => PyVal.named n i
      | none => PyVal.int v).str = (l.lookup v).getD (pyStr v) := by
    intro l
    induction l with
    | nil => rfl
    | cons a l ih =>
      simp only [List.find?_cons, List.lookup]
      by_cases h : a.1 = v
      · subst h; simp [PyVal.str]
      · have h1 : (a.1 == v) = false := by simpa using h
        have h2 : (v == a.1) = false := by simpa using fun e => h e.symm
        simp only [h1, h2]
        exact ih
  exact key _

theorem pyJoin_bar (a : Text) (l : List Text) :
    pyJoin (tx "|") (a :: l) = a ++ (l.map (fun q => '|' :: q)).flatten := by
  induction l generalizing a with
  | nil => simp [pyJoin]
  | cons b l ih => rw [pyJoin, ih]; simp; rfl

theorem data_title (v : Int) : Item.dataName v = flagsTitle v := by
  have hf : (Item.dataFlags.filter (fun r => bitSet v r.1)).map (·.2) =
      (flagTitles.filter (fun p => v / p.1 % 2 == 1)).map (·.2) := by
    have : flagTitles = Item.dataFlags.map (fun r => (((2 ^ r.1 : Nat) : Int), r.2)) := rfl
    rw [this, List.filter_map, List.map_map]
    rfl
  unfold Item.dataName flagsTitle
  simp only [hf]
  cases hl : flagTitles.filter (fun p => v / p.1 % 2 == 1) with
  | nil => rfl
  | cons p r =>
    simp only [List.map_cons, pyJoin_bar, List.map_map]
    have hp : p ∈ flagTitles := (List.mem_filter.mp (by rw [hl]; simp)).1
    have hne : p.2.isEmpty = false := by
      have : flagTitles.all (fun p => !p.2.isEmpty) = true := by decide
      simpa using List.all_eq_true.mp this p hp
    have : (p.2 ++ (List.map (((fun q => '|' :: q)) ∘ fun x => x.2) r).flatten).isEmpty = false := by
      cases h : p.2 with
      | nil => rw [h] at hne; simp at hne
      | cons => rfl
    rw [this]
    rfl

theorem coll_title {v : Int} {k : PyVal} (h : Item.collConst v = .ok k) : k.str = titled kindTitles k.toInt := by
  unfold Item.collConst at h
  simp only at h
  generalize (if v < 0 then v + (Item.collNames.length : Int) else v) = j at h
  split at h
  · rename_i h0
    by_cases h7 : j < 7
    · have : j = 0 ∨ j = 1 ∨ j = 2 ∨ j = 3 ∨ j = 4 ∨ j = 5 ∨ j = 6 := by omega
      rcases this with rfl | rfl | rfl | rfl | rfl | rfl | rfl <;>
        (cases h; rfl)
    · have : Item.collNames[j.toNat]? = none := by
        rw [List.getElem?_eq_none_iff]
        show 7 ≤ j.toNat
        omega
      rw [this] at h
      simp at h
  · simp at h

theorem coll_untitled (v : Int) (h7 : 7 ≤ v) : titled kindTitles v = pyStr v := by
  unfold titled kindTitles
  simp only [List.lookup]
  have h : ∀ k : Int, k < 7 → (v == k) = false := by intro k hk; simp; omega
  simp [h]

/-! ## Names of usages -/

theorem latest_iff (reg : Registry) (v : Int) (n : Text) :
    Latest reg v n ↔ (Registry.get reg v).map UsageC.name = some n := by
  induction reg with
  | nil => simp [Latest, Registry.get]
  | cons u reg ih =>
    unfold Registry.get at *
    rw [List.find?_cons]
    by_cases h : u.value = v
    · simp only [h, beq_self_eq_true, Option.map_some, Option.some.injEq]
      constructor
      · rintro ⟨b, w, a, hb, hno, hw, hn⟩
        cases b with
        | nil =>
          simp only [List.nil_append, List.cons.injEq] at hb
          rw [hb.1]; exact hn
        | cons x b =>
          simp only [List.cons_append, List.cons.injEq] at hb
          exact absurd (hb.1 ▸ h) (hno x (by simp))
      · intro hn
        exact ⟨[], u, reg, rfl, by simp, h, hn⟩
    · have h1 : (u.value == v) = false := by simpa using h
      simp only [h1]
      rw [← ih]
      constructor
      · rintro ⟨b, w, a, hb, hno, hw, hn⟩
        cases b with
        | nil =>
          simp only [List.nil_append, List.cons.injEq] at hb
          exact absurd hw (hb.1 ▸ h)
        | cons x b =>
          simp only [List.cons_append, List.cons.injEq] at hb
          exact ⟨b, w, a, hb.2, fun w hw => hno w (by simp [hw]), hw, hn⟩
      · rintro ⟨b, w, a, hb, hno, hw, hn⟩
        exact ⟨u :: b, w, a, by simp [hb], by
          intro x hx
          rcases List.mem_cons.mp hx with rfl | hx
          · exact h
          · exact hno x hx, hw, hn⟩

theorem get_none_iff (reg : Registry) (v : Int) : Registry.get reg v = none ↔ ∀ u ∈ reg, u.value ≠ v := by
  unfold Registry.get
  rw [List.find?_eq_none]
  simp

theorem full_name (reg : Registry) (v : Int) (h : 65536 ≤ v) : FullName reg v (Usage.lookup reg (.int v)).name := by
  unfold FullName
  rw [latest_iff, ← get_none_iff]
  simp only [Usage.lookup]
  rw [if_pos (by omega)]
  cases Registry.get reg v with
  | none => right; simp
  | some u => left; rfl

theorem splitName_cons (c : Char) (n : Text) : Usage.splitName (c :: n) =
    if c = '.' then some ([], n) else (Usage.splitName n).map (fun q => (c :: q.1, q.2)) := by
  unfold Usage.splitName
  by_cases h : c = '.'
  · subst h; simp
  · have : (c != '.') = true := by simpa using h
    simp only [List.dropWhile_cons, List.takeWhile_cons, this, if_true, if_neg h]
    split <;> rfl

theorem splitName_some {n p s : Text} (h : Usage.splitName n = some (p, s)) : '.' ∉ p ∧ n = p ++ '.' :: s := by
  induction n generalizing p with
  | nil => simp [Usage.splitName] at h
  | cons c n ih =>
    rw [splitName_cons] at h
    split at h
    · rename_i hc
      simp only [Option.some.injEq, Prod.mk.injEq] at h
      obtain ⟨rfl, rfl⟩ := h
      simp [hc]
    · rename_i hc
      simp only [Option.map_eq_some_iff, Prod.mk.injEq] at h
      obtain ⟨⟨q, t⟩, hq, rfl, rfl⟩ := h
      obtain ⟨h1, h2⟩ := ih hq
      refine ⟨?_, by simp [h2]⟩
      simp only [List.mem_cons, not_or]
      exact ⟨fun e => hc e.symm, h1⟩

theorem splitName_none {n : Text} (h : Usage.splitName n = none) : '.' ∉ n := by
  induction n with
  | nil => simp
  | cons c n ih =>
    rw [splitName_cons] at h
    split at h
    · simp at h
    · rename_i hc
      simp only [Option.map_eq_none_iff] at h
      simp only [List.mem_cons, not_or]
      exact ⟨fun e => hc e.symm, ih h⟩

theorem hexDigit_dot : ∀ n, n < 16 → hexDigit n ≠ '.' := by decide

theorem hexNat_dot (n : Nat) : '.' ∉ hexNat n := by
  induction n using Nat.strongRecOn with
  | _ n ih =>
    rw [hexNat]
    split
    · rename_i h
      have := hexDigit_dot n h
      simp; exact fun e => this e.symm
    · rename_i h
      simp only [List.mem_append, List.mem_singleton, not_or]
      exact ⟨ih _ (by omega), fun e => hexDigit_dot _ (by omega) e.symm⟩

theorem pyHex_dot (i : Int) : '.' ∉ pyHex i := by
  unfold pyHex
  split <;> simp [hexNat_dot, tx]

theorem short_name (reg : Registry) (page v : Int) (hp : 0 ≤ page) (h0 : 0 ≤ v) (h1 : v < 65536) :
    InPage reg page v (Usage.inpage reg page v).str := by
  unfold InPage Usage.inpage
  simp only [latest_iff]
  rw [joinPage_eq hp h0 h1]
  have hd : (page * 65536 + v) / 65536 = page := by omega
  have hm : (page * 65536 + v) % 65536 = v := by omega
  have hhex : ∀ w : Int, (Usage.split ⟨pyHex w, page * 65536 + v, []⟩).2.str = pyStr v := by
    intro w
    unfold Usage.split
    cases hs : Usage.splitName (pyHex w) with
    | some q => 
      obtain ⟨p, s⟩ := q
      have := (splitName_some hs).2
      exact absurd (this ▸ pyHex_dot w) (by simp)
    | none => simp only [hm]; rfl
  simp only [Usage.lookup, hd]
  by_cases hz : page = 0
  · right
    rw [if_neg (by simpa using hz)]
    exact ⟨fun h => absurd hz h, hhex _⟩
  · rw [if_pos hz]
    cases hg : Registry.get reg (page * 65536 + v) with
    | none => right; exact ⟨by simp, hhex _⟩
    | some u =>
      have hu : u.value = page * 65536 + v := by simpa using List.find?_some hg
      simp only [Option.map_some, Option.some.injEq]
      unfold Usage.split
      cases hs : Usage.splitName u.name with
      | some q =>
        obtain ⟨p, s⟩ := q
        left
        exact ⟨hz, p, splitName_some hs⟩
      | none =>
        right
        refine ⟨fun _ p s he => ?_, ?_⟩
        · exact absurd (he ▸ splitName_none hs) (by simp)
        · simp only [hu, hm]; rfl

/-! ## Listings -/

/-- What is true of an item handed over while `page` is in force. -/
def NamedAs (reg : Registry) (page : Int) (i : Item) : Prop := Shows reg page i.key i.val.str

theorem raw_shows (reg : Registry) (page : Int) {i : Item} (hr : RawItem reg i) (hc : i.cls ≠ .usagePage)
    (hu : i.cls = .usage ∨ i.cls = .usageMin ∨ i.cls = .usageMax → 65536 ≤ i.ival) : NamedAs reg page i := by
  obtain ⟨v, hv⟩ := hr
  obtain ⟨c, w⟩ := i
  have hb : ∀ x, Item.baseInit c x = .ok ⟨c, w⟩ → w = x ∧ (c.signed = true ∨ 0 ≤ x.toInt) := by
    intro x hx
    unfold Item.baseInit at hx
    split at hx
    · rename_i h
      simp only [Except.ok.injEq, Item.mk.injEq, true_and] at hx
      exact ⟨hx.symm, h⟩
    · simp at hx
  unfold NamedAs Shows Item.key
  simp only at hc hu hv ⊢
  cases c <;> simp only [Item.new] at hv
  case usagePage => exact absurd rfl hc
  case usage | usageMin | usageMax =>
    obtain ⟨rfl, -⟩ := hb _ hv
    have h1 := hu (by simp)
    have h2 : (Usage.lookup reg (.int v)).value = v := lookup_value reg (.int v)
    simp only [Item.ival, PyVal.toInt, h2] at h1 ⊢
    rw [if_neg (by omega)]
    exact full_name reg v h1
  case input | output | feature =>
    obtain ⟨rfl, -⟩ := hb _ hv
    exact data_title v
  case unit =>
    obtain ⟨rfl, -⟩ := hb _ hv
    rw [unit_title]
    have : (Item.mk .unit (Item.usualUnit (.int v))).ival = v := by
      unfold Item.usualUnit Item.ival
      split
      · rename_i i n hf
        have := List.find?_some hf
        simpa [PyVal.toInt] using this
      · rfl
    rw [this]
  case collection =>
    split at hv
    · rename_i hlt
      split at hv
      · rename_i k hk
        obtain ⟨rfl, -⟩ := hb _ hv
        exact coll_title hk
      · simp at hv
    · rename_i hge
      have hge : ¬ v < 7 := hge
      obtain ⟨rfl, -⟩ := hb _ hv
      exact (coll_untitled v (by omega)).symm
  case endCollection | push | pop =>
    split at hv
    · obtain ⟨rfl, -⟩ := hb _ hv
      rfl
    · simp at hv
  all_goals
    obtain ⟨rfl, -⟩ := hb _ hv
    rfl

theorem append_shows {reg : Registry} {page p : Int} {i j : Item} (hp : 0 ≤ page) (hm : i.Made)
    (hr : RawItem reg i) (h : Parser.append reg page i = .ok (p, j)) :
    NamedAs reg page j ∧ 0 ≤ p ∧ p = if j.cls = .usagePage then j.ival else page := by
  obtain ⟨p', j', h1, hj, hk⟩ := append_ok reg page hm
  rw [h] at h1
  simp only [Except.ok.injEq, Prod.mk.injEq] at h1
  obtain ⟨rfl, rfl⟩ := h1
  have hcls : j.cls = i.cls := congrArg Prod.fst hk
  have hval : j.ival = i.ival := congrArg Prod.snd hk
  have hnn := hm.nonneg
  have hraw : i.cls ≠ .usagePage → (i.cls = .usage ∨ i.cls = .usageMin ∨ i.cls = .usageMax → 65536 ≤ i.ival) →
      (p, j) = (page, i) → NamedAs reg page j ∧ 0 ≤ p ∧ p = if j.cls = .usagePage then j.ival else page := by
    intro h1 h2 h3
    simp only [Prod.mk.injEq] at h3
    obtain ⟨rfl, rfl⟩ := h3
    exact ⟨raw_shows reg p hr h1 h2, hp, by rw [if_neg h1]⟩
  unfold Parser.append at h
  split at h
  · rename_i hc
    rw [hc] at hnn
    have h0 : 0 ≤ i.ival := by simpa [Cls.signed] using hnn
    split at h
    · rename_i j' hj'
      simp only [Except.ok.injEq, Prod.mk.injEq] at h
      obtain ⟨rfl, rfl⟩ := h
      refine ⟨?_, h0, by rw [hcls, hc, if_pos rfl, hval]⟩
      unfold NamedAs Shows Item.key
      rw [hcls, hc, hval]
      simp only
      have : j'.val = Usage.page i.ival := by
        simp only [Item.new, Item.baseInit] at hj'
        split at hj'
        · simp only [Except.ok.injEq] at hj'; rw [← hj']
        · simp at hj'
      rw [this, page_title]
    · simp at h
  all_goals first
    | (rename_i hc
       rw [hc] at hnn
       have h0 : 0 ≤ i.ival := by simpa [Cls.signed] using hnn
       split at h
       · rename_i hlt
         split at h
         · rename_i j' hj'
           simp only [Except.ok.injEq, Prod.mk.injEq] at h
           obtain ⟨rfl, rfl⟩ := h
           refine ⟨?_, hp, by rw [hcls, hc, if_neg (by simp)]⟩
           have hv : j'.val.str = (Usage.inpage reg page i.ival).str := by
             rw [hc] at hj'
             simp only [Item.new, Item.baseInit] at hj'
             split at hj'
             · simp only [Except.ok.injEq] at hj'
               rw [← hj']
               unfold Usage.inpage Usage.split
               split <;> rfl
             · simp at hj'
           unfold NamedAs Shows Item.key
           rw [hcls, hc, hval, hv]
           simp only
           rw [if_pos (by omega)]
           exact short_name reg page i.ival hp h0 (by omega)
         · simp at h
       · simp only [Except.ok.injEq] at h
         exact hraw (by simp [hc]) (fun _ => by omega) h.symm)
    | (simp only [Except.ok.injEq] at h
       exact hraw (by assumption) (by rintro (e | e | e) <;> contradiction) h.symm)

theorem parse_made {reg : Registry} {b : List UInt8} {i : Item} (h : Item.parse reg b = .ok i) : i.Made := by
  obtain ⟨v, hv⟩ := parse_raw h
  exact made_of_new hv

/-- `pageAfter` with a page in force before. -/
def pageFrom (page : Int) (ks : List SItem) : Int :=
  (((ks.filter (fun k => k.1 == .usagePage)).getLast?).map (·.2)).getD page

theorem pageFrom_cons (page : Int) (k : SItem) (ks : List SItem) :
    pageFrom page (k :: ks) = pageFrom (if k.1 = .usagePage then k.2 else page) ks := by
  unfold pageFrom
  rw [List.filter_cons]
  by_cases h : k.1 = .usagePage
  · simp only [h, beq_self_eq_true, if_true]
    rw [List.getLast?_cons]
    cases (ks.filter (fun k => k.1 == Cls.usagePage)).getLast? <;> rfl
  · have : (k.1 == Cls.usagePage) = false := by simpa using h
    simp [this, h]

theorem loop_shows (reg : Registry) (n : Nat) (page : Int) (hp : 0 ≤ page) (b : List UInt8) (hn : b.length ≤ n)
    (m : Nat) (i : Item) (hi : (Parser.blobLoop reg page b).1[m]? = some i) :
    NamedAs reg (pageFrom page (((Parser.blobLoop reg page b).1.take m).map Item.key)) i := by
  induction n generalizing page b m with
  | zero =>
    have : b = [] := List.length_eq_zero_iff.mp (by omega)
    subst this; simp [blobLoop_nil] at hi
  | succ n ih =>
    cases b with
    | nil => simp [blobLoop_nil] at hi
    | cons h t =>
      rw [blobLoop_cons] at hi ⊢
      rcases itemParse_slice reg page h t with ⟨k, rest, hr, _, hrest, _, _, p, j, hpj, hmj, hk⟩ | ⟨_, e, he⟩
      · rw [hpj] at hi ⊢
        simp only at hi ⊢
        have hs : NamedAs reg page j ∧ 0 ≤ p ∧ p = if j.cls = .usagePage then j.ival else page := by
          unfold Parser.itemParse at hpj
          split at hpj
          · rename_i x hx
            exact append_shows hp (parse_made hx) (parse_raw hx) hpj
          · simp at hpj
        cases m with
        | zero =>
          simp only [List.getElem?_cons_zero, Option.some.injEq] at hi
          subst hi
          simpa [pageFrom] using hs.1
        | succ m =>
          rw [← hrest] at hi ⊢
          simp only [List.getElem?_cons_succ] at hi
          simp only [List.take_succ_cons, List.map_cons, pageFrom_cons]
          have := ih p hs.2.1 rest (by have := Spec.readItem_lt hr; simp at this hn; omega) m hi
          have he : (if j.key.1 = Cls.usagePage then j.key.2 else page) = p := hs.2.2.symm
          rw [he]
          exact this
      · rw [he] at hi; simp at hi

theorem str_line (i : Item) : i.str = line i.key i.val.str := by
  unfold Item.str line Item.key
  rw [tagName_title]
  simp only
  by_cases h : (i.cls = .input ∨ i.cls = .endCollection) ∧ i.ival = 0
  · rw [if_pos h, if_neg]
    rintro (h1 | h1)
    · exact h1 h.2
    · rcases h.1 with e | e <;> rw [e] at h1 <;> simp [Cls.optionalValue] at h1
  · rw [if_neg h, if_pos]
    by_cases h0 : i.ival = 0
    · right
      intro ho
      apply h
      refine ⟨?_, h0⟩
      cases hc : i.cls <;> rw [hc] at ho <;> simp_all [Cls.optionalValue]
    · exact .inl h0

/-- **C56.** Each line of the listing of a parsed blob (also of the part before an unreadable item)
names the item and its value as expected: pages, flags, kinds and units by their titles, usages by
the registered usage in the page in force, numbers in decimal. -/
theorem C56_listing (reg : Registry) (b : List UInt8) (n : Nat) (i : Item)
    (hi : (Parser.blobParse reg b).1[n]? = some i) :
    ∃ t, Shows reg (pageAfter (((Parser.blobParse reg b).1.take n).map Item.key)) i.key t ∧ i.str = line i.key t :=
  ⟨i.val.str, loop_shows reg b.length 0 (Int.le_refl _) b (Nat.le_refl _) n i hi, str_line i⟩

theorem latest_unique {reg : Registry} {v : Int} {n n' : Text} (h : Latest reg v n) (h' : Latest reg v n') : n = n' := by
  rw [latest_iff] at h h'
  rw [h] at h'
  simpa using h'

theorem dot_unique {p q s t : Text} (hp : '.' ∉ p) (hq : '.' ∉ q) (h : p ++ '.' :: s = q ++ '.' :: t) : s = t := by
  induction p generalizing q with
  | nil =>
    cases q with
    | nil => simpa using h
    | cons c q =>
      simp only [List.nil_append, List.cons_append, List.cons.injEq] at h
      exact absurd (by rw [← h.1]; simp) hq
  | cons c p ih =>
    cases q with
    | nil =>
      simp only [List.nil_append, List.cons_append, List.cons.injEq] at h
      exact absurd (by rw [h.1]; simp) hp
    | cons d q =>
      simp only [List.cons_append, List.cons.injEq] at h
      exact ih (fun e => hp (by simp [e])) (fun e => hq (by simp [e])) h.2

/-- **C56.** What is written for a value is determined by the item, the page in force and the
registered usages. -/
theorem C56_unique (reg : Registry) (page : Int) (k : SItem) (t t' : Text) (h : Shows reg page k t)
    (h' : Shows reg page k t') : t = t' := by
  unfold Shows at h h'
  split at h
  all_goals (try (simp_all; done))
  all_goals
    rename_i hc
    simp only [hc] at h'
    split at h
    · rw [if_pos (by assumption)] at h'
      rcases h with ⟨h1, p, h2, h3⟩ | ⟨h1, h2⟩ <;> rcases h' with ⟨h1', p', h2', h3'⟩ | ⟨h1', h2'⟩
      · exact dot_unique h2 h2' (latest_unique h3 h3')
      · exact absurd h3 (h1' h1 _ _)
      · exact absurd h3' (h1 h1' _ _)
      · rw [h2, h2']
    · rw [if_neg (by assumption)] at h'
      rcases h with ⟨b, u, a, h1, _, h2, h3⟩ | ⟨h1, h2⟩ <;> rcases h' with ⟨b', u', a', h1', h0', h2', h3'⟩ | ⟨h1', h2'⟩
      · exact latest_unique ⟨b, u, a, h1, by assumption, h2, h3⟩ ⟨b', u', a', h1', h0', h2', h3'⟩
      · exact absurd h2 (h1' u (by rw [h1]; simp))
      · exact absurd h2' (h1 u' (by rw [h1']; simp))
      · rw [h2, h2']

theorem pyStr_inj {a b : Int} (h : pyStr a = pyStr b) : a = b := by
  have h1 := Script.eval_pyStr (fun _ _ => none) a
  have h2 := Script.eval_pyStr (fun _ _ => none) b
  rw [h, h2] at h1
  simpa using h1.symm

/-- **C56.** Different usage pages, different collection kinds and different units are shown differently. -/
theorem C56_titles_distinct (v w : Int) :
    (titled pageTitles v = titled pageTitles w → v = w) ∧ (titled kindTitles v = titled kindTitles w → v = w) ∧
    (titled unitTitles v = titled unitTitles w → v = w) := by
  have key : ∀ l : List (Int × Text), l.all (fun p => p.2.any Dumper.letter) = true →
      (l.all fun p => l.all fun q => p.2 != q.2 || p.1 == q.1) = true →
      titled l v = titled l w → v = w := by
    intro l hl hd h
    have hmem : ∀ (l : List (Int × Text)) x t, l.lookup x = some t → (x, t) ∈ l := by
      intro l x t
      induction l with
      | nil => simp
      | cons a l ih =>
        simp only [List.lookup]
        split
        · rename_i he
          intro e
          simp only [Option.some.injEq] at e
          simp only [beq_iff_eq] at he
          subst e he
          simp
        · intro e
          exact List.mem_cons_of_mem _ (ih e)
    have hnum : ∀ x p, p ∈ l → p.2 ≠ pyStr x := by
      intro x p hp e
      have h1 := List.all_eq_true.mp hl p hp
      rw [e] at h1
      obtain ⟨c, hc, hlc⟩ := List.any_eq_true.mp h1
      have := List.all_eq_true.mp (pyStr_plain x) c hc
      simp [hlc] at this
    unfold titled at h
    cases hv : l.lookup v with
    | none =>
      cases hw : l.lookup w with
      | none => rw [hv, hw] at h; exact pyStr_inj h
      | some t =>
        rw [hv, hw] at h
        exact absurd h.symm (hnum v _ (hmem l w t hw))
    | some s =>
      cases hw : l.lookup w with
      | none =>
        rw [hv, hw] at h
        exact absurd h (hnum w _ (hmem l v s hv))
      | some t =>
        rw [hv, hw] at h
        have h1 := List.all_eq_true.mp (List.all_eq_true.mp hd _ (hmem l v s hv)) _ (hmem l w t hw)
        have h : s = t := h
        simpa [h] using h1
  exact ⟨key _ (by decide +kernel) (by decide +kernel), key _ (by decide +kernel) (by decide +kernel),
    key _ (by decide +kernel) (by decide +kernel)⟩

/-- The hypotheses are met: a page, a registered usage and a full usage. -/
example : (Parser.blobParse [⟨tx "desktop.Mouse", 0x10002, []⟩]
      [0x05, 0x01, 0x09, 0x02, 0x09, 0x03, 0x0b, 0x02, 0x00, 0x01, 0x00]).1.map Item.str =
    [tx "UsagePage (GenericDesktop)", tx "Usage (Mouse)", tx "Usage (3)", tx "Usage (desktop.Mouse)"] := by
  unfold Parser.blobParse
  rw [blobSteps_eq _ 20 _ _ (by decide)]
  decide +kernel

end Hrdc
