import Verif.Spec.Rewritten
/-!
# Reading what a rebuild has written

The main items of `written`, with their context, element by element.
-/
namespace Hrdc.Thrice
open Spec

/-- Globals of data items, but for the report. -/
def shapeTag : Cls → Bool
  | .logMin | .logMax | .physMin | .physMax | .unit | .unitExp | .reportCount | .reportSize => true
  | _ => false

/-- Between elements: no locals are waiting, no page is set, report `F` is in force. -/
structure Clean (rd : Reader) (F : Int) : Prop where
  usages : rd.usages = {}
  strings : rd.strings = {}
  desigs : rd.desigs = {}
  id : rd.g .reportID = F
  rest : ∀ c, shapeTag c = false → c ≠ .reportID → rd.g c = 0

theorem clean_start : Clean {} 0 := ⟨rfl, rfl, rfl, rfl, fun _ _ _ => rfl⟩

theorem mainsOf_plain (l rest : List SItem) (hl : ∀ i ∈ l, i.1.kind ≠ .main) : ∀ rd : Reader,
    mainsOf rd (l ++ rest) = mainsOf (l.foldl Reader.next rd) rest := by
  induction l with
  | nil => intro rd; rfl
  | cons i l ih =>
    intro rd
    rw [List.cons_append, mainsOf, if_neg (hl i List.mem_cons_self), List.nil_append,
      ih (fun j hj => hl j (List.mem_cons_of_mem _ hj))]
    rfl

theorem mainsOf_main (i : SItem) (rest : List SItem) (hi : i.1.kind = .main) (rd : Reader) :
    mainsOf rd (i :: rest) = rd.main i :: mainsOf { g := rd.g } rest := by
  rw [mainsOf, if_pos hi, List.singleton_append]
  congr 2
  simp [Reader.next, hi]

theorem full_zero (v : Int) : full 0 v = v := by unfold full; split <;> omega

theorem read_usages (us : List Int) : ∀ rd : Reader,
    (us.map (fun u => ((.usage, u) : SItem))).foldl Reader.next rd =
      { rd with usages := { rd.usages with items := rd.usages.items ++ us } } := by
  induction us with
  | nil => intro rd; simp
  | cons u us ih =>
    intro rd
    rw [List.map_cons, List.foldl_cons, ih]
    simp [Reader.next, Cls.kind]

/-- Globals after items. -/
def setG (g : Cls → Int) : List SItem → Cls → Int
  | [] => g
  | i :: l => setG (fun c => if c = i.1 then i.2 else g c) l

theorem read_globals (l : List SItem) (hl : ∀ i ∈ l, i.1.kind = .global) : ∀ rd : Reader,
    l.foldl Reader.next rd = { rd with g := setG rd.g l } := by
  induction l with
  | nil => intro rd; rfl
  | cons i l ih =>
    intro rd
    rw [List.foldl_cons, ih (fun j hj => hl j (List.mem_cons_of_mem _ hj))]
    have : rd.next i = { rd with g := fun c => if c = i.1 then i.2 else rd.g c } := by
      unfold Reader.next
      rw [hl i List.mem_cons_self]
    rw [this]
    rfl

theorem setG_other (l : List SItem) (c : Cls) (hl : ∀ i ∈ l, c ≠ i.1) : ∀ g : Cls → Int, setG g l c = g c := by
  induction l with
  | nil => intro g; rfl
  | cons i l ih =>
    intro g
    rw [setG, ih (fun j hj => hl j (List.mem_cons_of_mem _ hj)), if_neg (hl i List.mem_cons_self)]

theorem setG_rest {l : List SItem} (hl : ∀ i ∈ l, shapeTag i.1 = true) {g : Cls → Int}
    (h : ∀ c, shapeTag c = false → c ≠ .reportID → g c = 0) : ∀ c, shapeTag c = false → c ≠ .reportID → setG g l c = 0 := by
  intro c hc hr
  rw [setG_other l c, h c hc hr]
  rintro i hi rfl
  rw [hl i hi] at hc
  simp at hc

/-! ## Records -/

/-- Usages of fields. -/
def us (f : Fields) : List Int := f.what.filterMap Selector.usage

/-- Physical bounds as they are written. -/
def pLo (f : Fields) : Int :=
  if f.named = true ∨ (f.attrs.physMin = f.attrs.logMin ∧ f.attrs.physMax = f.attrs.logMax) then 0 else f.attrs.physMin

/-- Physical bounds as they are written. -/
def pHi (f : Fields) : Int :=
  if f.named = true ∨ (f.attrs.physMin = f.attrs.logMin ∧ f.attrs.physMax = f.attrs.logMax) then 0 else f.attrs.physMax

theorem bounds_eq (f : Fields) : f.bounds = [(.physMin, pLo f), (.physMax, pHi f)] := by
  unfold Fields.bounds pLo pHi
  split <;> rfl

/-- An index that is there. -/
def mark (n : Int) : List Int := if n = 0 then [] else [n]

/-- The data item of fields in report `F`, with its context. -/
def recOf (f : Fields) (F : Int) : MainRec where
  cls := f.way
  val := if f.inside.isSome then 2 else f.flags
  g := fun c =>
    match c with
    | .logMin => f.attrs.logMin
    | .logMax => f.attrs.logMax
    | .physMin => pLo f
    | .physMax => pHi f
    | .unit => f.attrs.unit
    | .unitExp => f.attrs.unitExp
    | .reportCount => f.count
    | .reportSize => f.attrs.size
    | .reportID => F
    | _ => 0
  usages := us f
  strings := mark f.marks.1
  desigs := mark f.marks.2

theorem gather_items (l : List Int) : Gather.values { items := l } = l := by
  unfold Gather.values
  split <;> simp_all

theorem map_full_zero (l : List Int) : l.map (full 0) = l := by
  rw [show full 0 = id from funext full_zero, List.map_id]

theorem data_kind {w : Cls} (hw : w.isData = true) : w.kind = .main := by cases w <;> simp_all [Cls.isData, Cls.kind]

/-- After a data item. -/
theorem clean_main {g : Cls → Int} {F : Int} (h1 : g .reportID = F) (h2 : ∀ c, shapeTag c = false → c ≠ .reportID → g c = 0) :
    Clean { g := g } F := ⟨rfl, rfl, rfl, h1, h2⟩

theorem read_marks (a b : Int) (rd : Reader) (h1 : rd.strings = {}) (h2 : rd.desigs = {}) :
    (markItem .desigIndex b ++ markItem .strIndex a).foldl Reader.next rd =
      { rd with strings := { items := mark a }, desigs := { items := mark b } } := by
  unfold markItem mark
  split <;> split <;> simp [Reader.next, Cls.kind, h1, h2] <;> cases rd <;> simp_all

/-- Bounds, unit and exponent of fields. -/
def shape1 (f : Fields) : List SItem :=
  [(.logMin, f.attrs.logMin), (.logMax, f.attrs.logMax), (.unit, f.attrs.unit), (.unitExp, f.attrs.unitExp)]

/-- Count and size of fields. -/
def shape2 (f : Fields) : List SItem := [(.reportCount, (f.count : Int)), (.reportSize, f.attrs.size)]

theorem shape_g (f : Fields) {g : Cls → Int} {F : Int} (h1 : g .physMin = pLo f) (h2 : g .physMax = pHi f)
    (h6 : g .reportID = F) (h7 : ∀ c, shapeTag c = false → c ≠ .reportID → g c = 0) :
    setG (setG g (shape1 f)) (shape2 f) = (recOf f F).g := by
  funext c
  have h := h7 c
  simp only [setG, shape1, shape2, recOf]
  cases c <;> first
    | (simp; done)
    | (simp; exact h1)
    | (simp; exact h2)
    | (simp; exact h6)
    | (simp; exact h rfl (by decide))

/-- From the logical bounds to the data item. -/
theorem read_data (f : Fields) (hw : f.way.isData = true) {rd : Reader} {F : Int} (h1 : rd.g .physMin = pLo f)
    (h2 : rd.g .physMax = pHi f) (h3 : rd.usages = { items := us f }) (h4 : rd.strings = {}) (h5 : rd.desigs = {})
    (h6 : rd.g .reportID = F) (h7 : ∀ c, shapeTag c = false → c ≠ .reportID → rd.g c = 0) :
    ∀ rest, mainsOf rd (f.dataItems ++ rest) = recOf f F :: mainsOf { g := (recOf f F).g } rest := by
  intro rest
  have e : f.dataItems ++ rest = shape1 f ++ ((markItem .desigIndex f.marks.2 ++ markItem .strIndex f.marks.1) ++
      (shape2 f ++ ((f.way, if f.inside.isSome then 2 else f.flags) :: rest))) := by
    simp [Fields.dataItems, shape1, shape2]
  have hm : ∀ i ∈ markItem .desigIndex f.marks.2 ++ markItem .strIndex f.marks.1, i.1.kind ≠ .main := by
    intro i hi
    unfold markItem at hi
    split at hi <;> split at hi <;> simp at hi
    · rw [hi]; simp [Cls.kind]
    · rw [hi]; simp [Cls.kind]
    · rcases hi with rfl | rfl <;> simp [Cls.kind]
  rw [e, mainsOf_plain _ _ (by simp [shape1, Cls.kind]), mainsOf_plain _ _ hm, mainsOf_plain _ _ (by simp [shape2, Cls.kind]),
    mainsOf_main _ _ (data_kind hw), read_globals (shape1 f) (by simp [shape1, Cls.kind]),
    read_marks _ _ { rd with g := setG rd.g (shape1 f) } h4 h5,
    read_globals (shape2 f) (by simp [shape2, Cls.kind])]
  simp only [shape_g f h1 h2 h6 h7]
  refine List.cons_eq_cons.2 ⟨?_, rfl⟩
  unfold Reader.main
  simp only [h3, gather_items]
  rw [show (recOf f F).g .usagePage = 0 from rfl, map_full_zero]
  rfl

theorem clean_rec (f : Fields) (F : Int) : Clean { g := (recOf f F).g } F :=
  clean_main rfl (fun c hc hr => by cases c <;> simp_all [shapeTag, recOf])

theorem bounds_read (f : Fields) (rd : Reader) : f.bounds.foldl Reader.next rd = { rd with g := setG rd.g f.bounds } :=
  read_globals _ (by simp [bounds_eq, Cls.kind]) rd

theorem usages_not_main (f : Fields) : ∀ i ∈ f.usageItems, i.1.kind ≠ .main := by
  intro i hi
  simp only [Fields.usageItems, List.mem_map] at hi
  obtain ⟨u, -, rfl⟩ := hi
  simp [Cls.kind]

theorem bounds_not_main (f : Fields) : ∀ i ∈ f.bounds, i.1.kind ≠ .main := by simp [bounds_eq, Cls.kind]

theorem bounds_g (f : Fields) (g : Cls → Int) : setG g f.bounds .physMin = pLo f ∧ setG g f.bounds .physMax = pHi f ∧
    setG g f.bounds .reportID = g .reportID ∧ setG g f.bounds .usagePage = g .usagePage := by simp [bounds_eq, setG]

theorem bounds_rest (f : Fields) {g : Cls → Int} (h : ∀ c, shapeTag c = false → c ≠ .reportID → g c = 0) :
    ∀ c, shapeTag c = false → c ≠ .reportID → setG g f.bounds c = 0 := setG_rest (by simp [bounds_eq, shapeTag]) h

/-- Fields that are no named array with a usage. -/
theorem read_plain (f : Fields) (hw : f.way.isData = true) (hi : f.inside = none) {rd : Reader} {F : Int} (hc : Clean rd F) :
    ∃ rd', Clean rd' F ∧ ∀ rest, mainsOf rd (f.items ++ rest) = recOf f F :: mainsOf rd' rest := by
  refine ⟨_, clean_rec f F, fun rest => ?_⟩
  obtain ⟨h1, h2, h3, h4, h5⟩ := hc
  obtain ⟨b1, b2, b3, -⟩ := bounds_g f rd.g
  have b4 := bounds_rest f h5
  unfold Fields.items
  rw [hi]
  simp only
  split
  · rw [List.append_assoc, List.append_assoc, mainsOf_plain _ _ (bounds_not_main f), mainsOf_plain _ _ (usages_not_main f),
      bounds_read, Fields.usageItems, read_usages]
    refine read_data f hw ?_ ?_ ?_ ?_ ?_ ?_ ?_ rest
    · exact b1
    · exact b2
    · simp [h1, us]
    · exact h2
    · exact h3
    · exact b3.trans h4
    · exact b4
  · rw [List.append_assoc, List.append_assoc, mainsOf_plain _ _ (usages_not_main f), mainsOf_plain _ _ (bounds_not_main f),
      bounds_read, Fields.usageItems, read_usages]
    refine read_data f hw ?_ ?_ ?_ ?_ ?_ ?_ ?_ rest
    · exact b1
    · exact b2
    · simp [h1, us]
    · exact h2
    · exact h3
    · exact b3.trans h4
    · exact b4

/-- A collection opens. -/
theorem read_head (u k : Int) {rd : Reader} {F : Int} (hc : Clean rd F) :
    ∃ r rd', Clean rd' F ∧ r.cls = .collection ∧ r.val = k ∧ r.usages = [u] ∧
      ∀ rest, mainsOf rd ((.usage, u) :: (.collection, k) :: rest) = r :: mainsOf rd' rest := by
  obtain ⟨h1, h2, h3, h4, h5⟩ := hc
  refine ⟨(rd.next (.usage, u)).main (.collection, k), { g := rd.g }, clean_main h4 h5, rfl, rfl, ?_, fun rest => ?_⟩
  · have hp := h5 .usagePage rfl (by decide)
    simp [Reader.next, Reader.main, Cls.kind, h1, hp, Gather.values, full_zero]
  · rw [show ((.usage, u) :: (.collection, k) :: rest : List SItem) = [(.usage, u)] ++ (.collection, k) :: rest from rfl,
      mainsOf_plain _ _ (by simp [Cls.kind]), mainsOf_main _ _ rfl]
    rfl

/-- A collection ends. -/
theorem read_end {rd : Reader} {F : Int} (hc : Clean rd F) :
    ∃ r rd', Clean rd' F ∧ r.cls = .endCollection ∧
      ∀ rest, mainsOf rd ((.endCollection, 0) :: rest) = r :: mainsOf rd' rest :=
  ⟨rd.main (.endCollection, 0), { g := rd.g }, clean_main hc.id hc.rest, rfl, fun _ => mainsOf_main _ _ rfl _⟩

/-- A named array with a usage. -/
theorem read_inside (f : Fields) (hw : f.way.isData = true) {u : Int} (hi : f.inside = some u) {rd : Reader} {F : Int}
    (hc : Clean rd F) :
    ∃ r1 r3 rd', Clean rd' F ∧ r1.cls = .collection ∧ r1.val = 2 ∧ r1.usages = [u] ∧ r3.cls = .endCollection ∧
      ∀ rest, mainsOf rd (f.items ++ rest) = r1 :: recOf f F :: r3 :: mainsOf rd' rest := by
  obtain ⟨h1, h2, h3, h4, h5⟩ := hc
  have hp := h5 .usagePage rfl (by decide)
  obtain ⟨b1, b2, b3, b5⟩ := bounds_g f rd.g
  have b4 := bounds_rest f h5
  let rd1 : Reader := { rd with g := setG rd.g f.bounds, usages := { items := [u] } }
  refine ⟨rd1.main (.collection, 2), ({ g := (recOf f F).g } : Reader).main (.endCollection, 0), _, clean_rec f F, rfl, rfl, ?_,
    rfl, fun rest => ?_⟩
  · simp only [Reader.main, rd1, b5, hp, gather_items, map_full_zero]
  · unfold Fields.items
    rw [hi]
    simp only
    have e : (.usage, u) :: f.bounds ++ (.collection, 2) :: f.usageItems ++ f.dataItems ++ [(.endCollection, 0)] ++ rest =
        [(.usage, u)] ++ (f.bounds ++ ((.collection, 2) :: (f.usageItems ++ (f.dataItems ++ ((.endCollection, 0) :: rest))))) := by
      simp
    have e1 : f.bounds.foldl Reader.next ([((.usage, u) : SItem)].foldl Reader.next rd) = rd1 := by
      rw [show [((.usage, u) : SItem)] = [u].map (fun u => ((.usage, u) : SItem)) from rfl, read_usages, bounds_read]
      simp [rd1, h1]
    rw [e, mainsOf_plain _ _ (by simp [Cls.kind]), mainsOf_plain _ _ (bounds_not_main f), e1, mainsOf_main _ _ rfl,
      mainsOf_plain _ _ (usages_not_main f), Fields.usageItems, read_usages]
    rw [read_data f hw (F := F), mainsOf_main _ _ rfl]
    · exact b1
    · exact b2
    · simp [us]
    · rfl
    · rfl
    · exact b3.trans h4
    · exact b4

/-- Padding. -/
theorem read_pad (w : Cls) (hw : w.isData = true) (n : Int) (hn : n ≠ 0) {rd : Reader} {F : Int} (hc : Clean rd F) :
    ∃ r rd', Clean rd' F ∧ r.cls = w ∧ r.val = 3 ∧ r.g .reportCount = 1 ∧ r.g .reportSize = n ∧ r.g .reportID = F ∧
      ∀ rest, mainsOf rd (padItems w n ++ rest) = r :: mainsOf rd' rest := by
  unfold padItems
  rw [if_neg hn]
  obtain ⟨h1, h2, h3, h4, h5⟩ := hc
  let rd1 : Reader := { rd with g := setG rd.g [(.reportCount, 1), (.reportSize, n)] }
  refine ⟨rd1.main (w, 3), { g := rd1.g }, clean_main ?_ ?_, rfl, rfl, ?_, ?_, ?_, fun rest => ?_⟩
  · simpa [rd1, setG] using h4
  · exact setG_rest (by simp [shapeTag]) h5
  · simp [rd1, Reader.main, setG]
  · simp [rd1, Reader.main, setG]
  · simp [rd1, Reader.main, setG, h4]
  · rw [show [((.reportCount, 1) : SItem), (.reportSize, n), (w, 3)] ++ rest =
      [((.reportCount, 1) : SItem), (.reportSize, n)] ++ (w, 3) :: rest from rfl,
      mainsOf_plain _ _ (by simp [Cls.kind]), mainsOf_main _ _ (data_kind hw), read_globals _ (by simp [Cls.kind])]

/-- The report in force after a report begins. -/
def force (cur : Option Int) (id F : Int) : Int := if cur = some id ∨ id = 0 then F else id

/-- A report begins. -/
theorem read_begins (cur : Option Int) (id : Int) {rd : Reader} {F : Int} (hc : Clean rd F) :
    ∃ rd', Clean rd' (force cur id F) ∧ ∀ rest, mainsOf rd (begins cur id ++ rest) = mainsOf rd' rest := by
  unfold begins force
  split
  · exact ⟨rd, hc, fun _ => rfl⟩
  · obtain ⟨h1, h2, h3, h4, h5⟩ := hc
    refine ⟨rd.next (.reportID, id), ⟨?_, ?_, ?_, ?_, ?_⟩, fun rest => ?_⟩
    · simpa [Reader.next, Cls.kind] using h1
    · simpa [Reader.next, Cls.kind] using h2
    · simpa [Reader.next, Cls.kind] using h3
    · simp [Reader.next, Cls.kind]
    · intro c hc hr
      simpa [Reader.next, Cls.kind, hr] using h5 c hc hr
    · rw [mainsOf_plain _ _ (by simp [Cls.kind])]; rfl

end Hrdc.Thrice
