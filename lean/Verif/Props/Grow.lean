import Verif.Spec.Grow
import Verif.Props.Slot
import Verif.Props.Recompile
import Verif.Props.Commands
import Verif.Model.Decompiler
/-!
# C87: how large decompiled descriptors are
-/
namespace Hrdc
open Spec Extractor Streamer

/-! ## Elements of a stream -/

theorem fields_read (xs : List SItem) : ∀ rd : Reader,
    ((mainsOf rd xs).flatMap MainRec.lumps).length = fieldsRead (rd.g .reportCount) xs := by
  induction xs with
  | nil => intro rd; rfl
  | cons i xs ih =>
    intro rd
    obtain ⟨c, v⟩ := i
    rw [mainsOf, List.flatMap_append, List.length_append, ih]
    have hg : (rd.next (c, v)).g .reportCount = if c = .reportCount then v else rd.g .reportCount := by
      cases c <;> simp [Reader.next, Cls.kind]
    rw [hg, fieldsRead]
    by_cases h1 : c = .reportCount
    · subst h1
      simp [Cls.kind]
    · rw [if_neg h1, if_neg h1]
      by_cases h2 : c.isData = true
      · have hm : c.kind = .main := by cases c <;> simp [Cls.isData] at h2 <;> rfl
        rw [if_pos h2, if_pos hm]
        congr 1
        simp only [List.flatMap_cons, List.flatMap_nil, List.append_nil, MainRec.lumps, Reader.main, if_pos h2,
          MainRec.isConst, beq_iff_eq]
        by_cases h3 : v % 2 = 1
        · simp [h3]
        · by_cases h4 : v / 256 % 2 = 1 <;> simp [h3, h4]
      · rw [if_neg h2]
        have : (List.flatMap MainRec.lumps (if (c, v).1.kind = .main then [rd.main (c, v)] else [])).length = 0 := by
          split
          · simp [MainRec.lumps, Reader.main, h2]
          · rfl
        rw [this, Nat.zero_add]

/-! ## Elements of the tree -/

theorem tree_next {known : Int → Bool} {s s' : Rooms} {r : MainRec} (h : s.next known r = .ok s') :
    s'.tree = s.tree ∨ (s'.outer = [] ∧ s'.tree = some s'.room.inner) := by
  have hf : ∀ {s'}, s.fields r = .ok s' → s'.tree = s.tree := by
    intro s' h
    unfold Rooms.fields at h
    split at h
    · simp at h
    · simp only [Except.ok.injEq] at h; subst h; rfl
  have hn : ∀ {s'} {p o}, s.named p o r = .ok s' → s'.tree = s.tree := by
    intro s' p o h
    unfold Rooms.named at h
    split at h
    · simp at h
    · split at h
      · simp at h
      · simp only [Except.ok.injEq] at h; subst h; rfl
  have hc : ∀ {t : Rooms}, t.tree = s.tree → t.closed.tree = s.tree ∨ (t.closed.outer = [] ∧ t.closed.tree = some t.closed.room.inner) := by
    intro t ht
    unfold Rooms.closed
    split
    · rename_i ho
      exact .inr ⟨by simpa using ho, rfl⟩
    · exact .inl ht
  unfold Rooms.next at h
  split at h
  · simp only [Except.ok.injEq] at h; subst h; exact .inl rfl
  · split at h
    · simp only [Except.ok.injEq] at h; subst h; exact hc rfl
    · split at h
      · simp at h
      · simp only [Except.ok.injEq] at h; subst h; exact hc rfl
  · left
    split at h
    · split at h
      · simp at h
      · split at h
        · simp at h
        · exact hn h
        · exact hf h
    · exact hf h

/-- The tree holds the first elements. -/
theorem read_first {known : Int → Bool} (rs : List MainRec) (hm : ∀ r ∈ rs, r.cls.kind = .main) : ∀ {s s' : Rooms},
    s.read known rs = .ok s' → s.Fair → (∀ bs, s.tree = some bs → lumps bs <+: lumps s.all) →
    ∀ bs, s'.tree = some bs → lumps bs <+: lumps s'.all := by
  induction rs with
  | nil =>
    intro s s' h _ ht
    simp only [Rooms.read, Except.ok.injEq] at h
    subst h
    exact ht
  | cons r rs ih =>
    intro s s' h hf ht
    simp only [Rooms.read] at h
    split at h
    · simp at h
    · rename_i w hw
      obtain ⟨a, b, -, -⟩ := next_all (hm r (by simp)) hw hf
      refine ih (fun q hq => hm q (by simp [hq])) h b ?_
      intro bs hbs
      rcases tree_next hw with k | ⟨k1, k2⟩
      · rw [k] at hbs
        rw [a]
        exact (ht bs hbs).trans (List.prefix_append _ _)
      · rw [k2] at hbs
        simp only [Option.some.injEq] at hbs
        subst hbs
        simp [Rooms.all, k1]

theorem blocks_first {known : Int → Bool} {xs : List SItem} {bs : List Block} (h : blocks known xs = .ok bs) :
    lumps bs <+: elements xs := by
  unfold blocks at h
  split at h
  · simp at h
  · rename_i s hs
    obtain ⟨-, m2⟩ := mains_of xs {}
    have hf : ({} : Rooms).Fair := by
      intro p hp
      simp only [List.mem_cons, List.not_mem_nil, or_false] at hp
      subst hp
      exact fun _ => rfl
    have a := (read_all _ m2 hs hf).1
    split at h
    · simp at h
    · rename_i t ht
      simp only [Except.ok.injEq] at h
      subst h
      have := read_first _ m2 hs hf (by simp) t ht
      rw [a] at this
      exact this

/-! ## Collections of the tree -/

/-- Begins of collections. -/
def enters (bs : List Block) : Nat := bs.countP (fun b => match b with | .enter _ _ => true | _ => false)

theorem enters_append (a b : List Block) : enters (a ++ b) = enters a + enters b := by simp [enters]

theorem enters_all (s : Rooms) : enters s.all = ((s.outer.map (fun p => enters p.inner)).sum) + enters s.room.inner := by
  unfold Rooms.all
  rw [enters_append]
  congr 1
  induction s.outer with
  | nil => rfl
  | cons p o ih =>
    rw [List.reverse_cons, List.map_append, List.flatten_append, enters_append, ih]
    simp only [List.map_cons, List.map_nil, List.flatten_cons, List.flatten_nil, List.append_nil, List.sum_cons]
    omega

theorem blocks_enters (r : MainRec) : enters r.blocks = 0 := by
  unfold enters MainRec.blocks
  rw [List.countP_eq_zero]
  intro b hb
  simp only at hb
  split at hb
  · simp only [List.mem_singleton] at hb; subst hb; simp
  · split at hb
    · have := List.eq_of_mem_replicate hb; subst this; simp
    · split at hb
      · simp only [List.mem_singleton] at hb; subst hb; simp
      · simp only [List.mem_map] at hb
        obtain ⟨k, -, rfl⟩ := hb
        simp

/-- Collections read so far: those that were closed and those that are open. -/
def begun (s : Rooms) : Nat := enters s.all + s.outer.length

theorem next_begun {known : Int → Bool} {s s' : Rooms} {r : MainRec} (h : s.next known r = .ok s') :
    begun s' ≤ begun s + if r.cls = .collection then 1 else 0 := by
  have hf : ∀ {s'}, s.fields r = .ok s' → begun s' ≤ begun s := by
    intro s' h
    unfold Rooms.fields at h
    split at h
    · simp at h
    · simp only [Except.ok.injEq] at h
      subst h
      simp [begun, enters_all, Room.put, enters_append, blocks_enters]
  have hn : ∀ {s'} {p o}, s.outer = p :: o → s.named p o r = .ok s' → begun s' ≤ begun s := by
    intro s' p o ho h
    unfold Rooms.named at h
    split at h
    · simp at h
    · split at h
      · simp at h
      · simp only [Except.ok.injEq] at h
        subst h
        simp only [begun, enters_all, Room.put, enters_append, ho, List.map_cons, List.sum_cons, List.length_cons]
        have : enters [.value (r.arrayFields s.room.usage)] = 0 := rfl
        omega
  have hc : ∀ t : Rooms, begun t.closed = begun t := by
    intro t
    obtain ⟨a, -, c, -⟩ := closed_all t
    simp [begun, a, c]
  unfold Rooms.next at h
  split at h
  · rename_i hk
    simp only [Except.ok.injEq] at h
    subst h
    simp only [hk, begun, enters_all, List.map_cons, List.sum_cons, List.length_cons, if_true]
    have : enters [] = 0 := rfl
    omega
  · split at h
    · simp only [Except.ok.injEq] at h
      subst h
      rw [hc]
      exact Nat.le_add_right _ _
    · split at h
      · simp at h
      · rename_i p o ho
        simp only [Except.ok.injEq] at h
        subst h
        rw [hc]
        apply Nat.le_trans _ (Nat.le_add_right _ _)
        simp only [begun, enters_all, ho, List.map_cons, List.sum_cons, List.length_cons, Room.close]
        split
        · simp only [Room.put, enters_append]
          have h1 : enters (.enter s.room.kind s.room.usage :: s.room.inner) = enters s.room.inner + 1 := by
            simp [enters]
          have h2 : enters [.leave] = 0 := rfl
          omega
        · omega
  · apply Nat.le_trans _ (Nat.le_add_right _ _)
    split at h
    · split at h
      · simp at h
      · rename_i p o ho
        split at h
        · simp at h
        · exact hn ho h
        · exact hf h
    · exact hf h

theorem read_begun {known : Int → Bool} {n : Nat} (rs : List MainRec) : ∀ {s s' : Rooms}, s.read known rs = .ok s' →
    begun s + (rs.map MainRec.cls).count .collection ≤ n → (∀ bs, s.tree = some bs → enters bs ≤ n) →
    ∀ bs, s'.tree = some bs → enters bs ≤ n := by
  induction rs with
  | nil =>
    intro s s' h _ ht
    simp only [Rooms.read, Except.ok.injEq] at h
    subst h
    exact ht
  | cons r rs ih =>
    intro s s' h hn ht
    simp only [Rooms.read] at h
    split at h
    · simp at h
    · rename_i w hw
      have hb := next_begun hw
      rw [List.map_cons, List.count_cons] at hn
      simp only [beq_iff_eq] at hn
      have hw' : begun w + (rs.map MainRec.cls).count .collection ≤ n := by omega
      refine ih h hw' ?_
      intro b hb'
      rcases tree_next hw with k | ⟨k1, k2⟩
      · rw [k] at hb'
        exact ht b hb'
      · rw [k2] at hb'
        simp only [Option.some.injEq] at hb'
        subst hb'
        have : enters w.room.inner ≤ begun w := by
          unfold begun
          rw [enters_all]
          omega
        omega

theorem blocks_begun {known : Int → Bool} {xs : List SItem} {bs : List Block} (h : blocks known xs = .ok bs) :
    enters bs ≤ (mains xs).count .collection := by
  unfold blocks at h
  split at h
  · simp at h
  · rename_i s hs
    split at h
    · simp at h
    · rename_i t ht
      simp only [Except.ok.injEq] at h
      subst h
      refine read_begun _ hs ?_ (by simp) t ht
      rw [(mains_of xs {}).1]
      simp [begun, enters, Rooms.all]

/-! ## Trees -/

theorem scope_sizes (ts : List Tok) : ∀ ids,
    (lumps ((inScope ids ts).map blockOf)).length =
      (ts.filterMap (fun t => match t with | .leaf l => some l | _ => none)).length ∧
    enters ((inScope ids ts).map blockOf) = ts.countP (fun t => match t with | .enter _ _ => true | _ => false) := by
  induction ts with
  | nil => intro ids; exact ⟨rfl, rfl⟩
  | cons t ts ih =>
    intro ids
    cases t with
    | report i => simpa [inScope] using ih (i :: ids)
    | endReport => simpa [inScope] using ih ids.tail
    | enter k u =>
      obtain ⟨a, b⟩ := ih ids
      constructor
      · simpa [inScope, lumps, blockOf, List.filterMap_cons, Block.lump] using a
      · simpa [inScope, enters, blockOf] using b
    | leave =>
      obtain ⟨a, b⟩ := ih ids
      constructor
      · simpa [inScope, lumps, blockOf, List.filterMap_cons, Block.lump] using a
      · simpa [inScope, enters, blockOf] using b
    | leaf l =>
      obtain ⟨a, b⟩ := ih ids
      constructor
      · cases l <;> simpa [inScope, lumps, blockOf, Block.lump] using a
      · cases l <;> simpa [inScope, enters, blockOf] using b

theorem tree_sizes (t : Node) : (lumps ((pieces 0 t).map blockOf)).length = (leaves t).length ∧
    enters ((pieces 0 t).map blockOf) = collectionsIn t := by
  rw [pieces_eq]
  exact scope_sizes (tokens t) []

theorem extracted_size {reg : Registry} {xs : List Item} (hm : ∀ i ∈ xs, i.Made) (hu : KindsOf reg xs) {t : Node}
    (ht : extract reg xs = .ok t) :
    (leaves t).length ≤ fieldsRead 0 (keys xs) ∧ collectionsIn t ≤ (mains (keys xs)).count .collection ∧
    (complete (keys xs) = true → (leaves t).length = fieldsRead 0 (keys xs)) := by
  have hx := extract_blocks xs hm hu
  cases hb : blocks (arrayUsage reg) (keys xs) with
  | error e => rw [hb] at hx; simp only at hx; rw [hx] at ht; cases ht
  | ok bs =>
    rw [hb] at hx
    simp only at hx
    obtain ⟨t', h1, h2, -⟩ := hx
    rw [ht] at h1
    simp only [Except.ok.injEq] at h1
    subst h1
    obtain ⟨c1, c2⟩ := tree_sizes t
    rw [h2] at c1 c2
    have e : (elements (keys xs)).length = fieldsRead 0 (keys xs) := fields_read (keys xs) {}
    refine ⟨?_, ?_, fun hc => ?_⟩
    · rw [← c1, ← e]
      exact (blocks_first hb).length_le
    · rw [← c2]
      exact blocks_begun hb
    · rw [← c1, blocks_slots hb hc, ← e]
      rfl

/-! ## C87 -/

/-- **C87, elements.** The tree a document in any format is decompiled to has no more elements than the document describes, and
just as many when every collection is closed and nothing follows the last; and no more collections than the document begins. -/
theorem C87_document (reg : Registry) (f : Formatter.Fmt) (uni : Parser.Uni) (d : Formatter.Doc) (t : Node)
    (ht : extract reg (Formatter.deliver f reg uni d).1 = .ok t) :
    (leaves t).length ≤ fieldsRead 0 (keys (Formatter.deliver f reg uni d).1) ∧
    collectionsIn t ≤ (mains (keys (Formatter.deliver f reg uni d).1)).count .collection ∧
    (complete (keys (Formatter.deliver f reg uni d).1) = true →
      (leaves t).length = fieldsRead 0 (keys (Formatter.deliver f reg uni d).1)) :=
  extracted_size (fun i hi => (deliver_read f reg uni d i hi).2)
    (read_kinds (fun i hi => (deliver_read f reg uni d i hi).1)) ht

/-- **C87, items.** The same of items made one by one. -/
theorem C87_items (reg : Registry) (xs : List Item) (hm : ∀ i ∈ xs, i.Made)
    (hk : ∀ i ∈ xs, i.cls = .usage → kindKnown reg i.val = true) (t : Node) (ht : extract reg xs = .ok t) :
    (leaves t).length ≤ fieldsRead 0 (keys xs) ∧ collectionsIn t ≤ (mains (keys xs)).count .collection ∧
    (complete (keys xs) = true → (leaves t).length = fieldsRead 0 (keys xs)) :=
  extracted_size hm (kinds_of hk) ht

/-! ## Small counts -/

theorem fields_linear (k : Nat) (hk : 1 ≤ k) (xs : List SItem) : ∀ c : Int, c ≤ k →
    (∀ i ∈ xs, i.1 = .reportCount → i.2 ≤ k) → fieldsRead c xs ≤ k * xs.countP (fun i => i.1.isData) := by
  induction xs with
  | nil => intro c _ _; simp [fieldsRead]
  | cons i xs ih =>
    obtain ⟨a, v⟩ := i
    intro c hc h
    have h' := fun j hj => h j (List.mem_cons_of_mem _ hj)
    rw [fieldsRead, List.countP_cons]
    by_cases h1 : a = .reportCount
    · rw [if_pos h1]
      subst h1
      simpa [Cls.isData] using ih v (h (.reportCount, v) (by simp) rfl) h'
    · rw [if_neg h1]
      have := ih c hc h'
      by_cases h2 : a.isData = true
      · rw [if_pos h2, if_pos h2, Nat.mul_add]
        have : (if v % 2 = 1 ∨ v / 256 % 2 = 1 then 1 else c.toNat) ≤ k := by split <;> omega
        omega
      · rw [if_neg h2, if_neg h2]
        simpa using this

theorem front_len (m : Nat) : ∀ b : List UInt8, b.length ≤ m → (readFront b).length ≤ b.length := by
  induction m with
  | zero =>
    intro b hb
    have : b = [] := List.length_eq_zero_iff.mp (by omega)
    subst this
    rw [readFront_none rfl]
    simp
  | succ m ih =>
    intro b hb
    cases h : readItem b with
    | none => rw [readFront_none h]; simp
    | some p =>
      obtain ⟨k, r⟩ := p
      have hl := readItem_lt h
      rw [readFront_some h]
      split
      · have := ih r (by omega)
        simp only [List.length_cons]
        omega
      · simp

/-- **C87, small counts.** Where no Report Count is larger than `k`, a binary document is decompiled to at most `k` elements for
each data item, and so for each byte. -/
theorem C87_linear (reg : Registry) (uni : Parser.Uni) (b : List UInt8) (t : Node) (k : Nat) (hk : 1 ≤ k)
    (ht : extract reg (Formatter.deliver .binary reg uni (.bytes b)).1 = .ok t)
    (hc : ∀ i ∈ keys (Formatter.deliver .binary reg uni (.bytes b)).1, i.1 = .reportCount → i.2 ≤ k) :
    (leaves t).length ≤ k * (keys (Formatter.deliver .binary reg uni (.bytes b)).1).countP (fun i => i.1.isData) ∧
    (leaves t).length ≤ k * b.length := by
  have h1 := (C87_document reg .binary uni _ t ht).1
  have h2 := fields_linear k hk _ 0 (by omega) hc
  have h3 : (keys (Formatter.deliver .binary reg uni (.bytes b)).1).length ≤ b.length := by
    have e : keys (Formatter.deliver .binary reg uni (.bytes b)).1 = readFront b :=
      (blobLoop_front reg b.length 0 b (Nat.le_refl _)).1
    rw [e]
    exact front_len _ b (Nat.le_refl _)
  have h4 : (keys (Formatter.deliver .binary reg uni (.bytes b)).1).countP (fun i => i.1.isData) ≤ b.length :=
    Nat.le_trans List.countP_le_length h3
  exact ⟨Nat.le_trans h1 h2, Nat.le_trans h1 (Nat.le_trans h2 (Nat.mul_le_mul_left k h4))⟩

/-! ## Small documents, large trees -/

/-- Fifteen bytes with a count of four bytes. -/
def swelling (a b c d : UInt8) : List UInt8 := [0x0b, 1, 0, 1, 0, 0xa1, 1, 0x97, a, b, c, d, 0x81, 2, 0xc0]

def swellingKeys (n : Int) : List SItem :=
  [(.usage, 0x10001), (.collection, 1), (.reportCount, n), (.input, 2), (.endCollection, 0)]

theorem swelling_read (a b c d : UInt8) : readAll (swelling a b c d) =
    some (swellingKeys (a.toNat + 256 * (b.toNat + 256 * (c.toNat + 256 * d.toNat)))) := by
  have h1 : readItem (swelling a b c d) = some ((.usage, 0x10001), (swelling a b c d).drop 5) := rfl
  have h2 : readItem ((swelling a b c d).drop 5) = some ((.collection, 1), (swelling a b c d).drop 7) := rfl
  have h3 : readItem ((swelling a b c d).drop 7) =
      some ((.reportCount, dataValue .reportCount [a, b, c, d]), (swelling a b c d).drop 12) := rfl
  have h4 : readItem ((swelling a b c d).drop 12) = some ((.input, 2), (swelling a b c d).drop 14) := rfl
  have h5 : readItem ((swelling a b c d).drop 14) = some ((.endCollection, 0), []) := rfl
  rw [readAll_step h1, readAll_step h2, readAll_step h3, readAll_step h4, readAll_step h5, readAll_nil]
  simp [swellingKeys, dataValue, isSigned, unsignedLE]

theorem swelling_blocks (known : Int → Bool) (n : Int) : ∃ bs, blocks known (swellingKeys n) = .ok bs := by
  simp [blocks, swellingKeys, mainsOf, Cls.kind, Reader.next, Reader.main, Rooms.read, Rooms.next, MainRec.single,
    Room.array, Rooms.fields, Rooms.closed]

/-! ## Scripts -/

def leafTok : Tok → Option Leaf
  | .leaf l => some l
  | _ => none

def enterTok : Tok → Bool
  | .enter _ _ => true
  | _ => false

theorem leaves_tok (n : Node) : leaves n = (tokens n).filterMap leafTok := rfl

theorem collections_tok (n : Node) : collectionsIn n = (tokens n).countP enterTok := rfl

/-- Lines that tokens need: one for an element, two for a collection. -/
def linesOf (ts : List Tok) : Nat := (ts.filterMap leafTok).length + 2 * ts.countP enterTok

theorem lines_append (a b : List Tok) : linesOf (a ++ b) = linesOf a + linesOf b := by
  simp only [linesOf, List.filterMap_append, List.countP_append, List.length_append]
  omega

theorem ends_line (a b : Text) (h : '\n' ∈ b) : 1 ≤ (a ++ b).count '\n' :=
  List.count_pos_iff.2 (List.mem_append.2 (.inr h))

theorem foot_line (k : Nat) : 1 ≤ (Dumper.foot k).count '\n' := by
  apply List.count_pos_iff.2
  simp [Dumper.foot, tx]

mutual
theorem node_lines (reg : Registry) : ∀ (n : Node) (k : Nat) (s : Text), Dumper.node reg k n = .ok s →
    linesOf (tokens n) ≤ s.count '\n'
  | .value v, k, s, h => by
    simp only [Dumper.node, Dumper.value] at h
    split at h
    · simp at h
    · simp only [Except.ok.injEq] at h
      subst h
      exact ends_line _ _ (by decide)
  | .align w b, k, s, h => by
    simp only [Dumper.node, Except.ok.injEq] at h
    subst h
    exact ends_line _ _ (by decide)
  | .padding w b, k, s, h => by
    simp only [Dumper.node, Except.ok.injEq] at h
    subst h
    exact ends_line _ _ (by decide)
  | .report i ms, k, s, h => by
    simp only [Dumper.node] at h
    split at h
    · simp at h
    · rename_i t ht
      have := nodes_lines reg ms (k + 1) t ht
      simp only [Except.ok.injEq] at h
      subst h
      have e : linesOf (tokens (.report i ms)) = linesOf (tokensL ms) := by
        rw [tokens, ← List.singleton_append, List.append_assoc, lines_append, lines_append]
        have a : linesOf [.report i] = 0 := rfl
        have b : linesOf [.endReport] = 0 := rfl
        omega
      rw [e, List.count_append, List.count_append]
      omega
  | .top ms, k, s, h => by
    simp only [Dumper.node] at h
    split at h
    · simp at h
    · rename_i t ht
      have := nodes_lines reg ms (k + 1) t ht
      simp only [Except.ok.injEq] at h
      subst h
      rw [tokens, List.count_append, List.count_append]
      omega
  | .coll kd u ms, k, s, h => by
    simp only [Dumper.node] at h
    split at h
    · simp at h
    · rename_i t ht
      have := nodes_lines reg ms (k + 1) t ht
      have hf := foot_line k
      simp only [Except.ok.injEq] at h
      subst h
      have e : linesOf (tokens (.coll kd u ms)) = 2 + linesOf (tokensL ms) := by
        rw [tokens, ← List.singleton_append, List.append_assoc, lines_append, lines_append]
        have a : linesOf [.enter kd u] = 2 := rfl
        have b : linesOf [.leave] = 0 := rfl
        omega
      have h1 := ends_line (Dumper.indent k ++ tx "Collection(Collection." ++ kd.str ++ tx ", " ++ Dumper.collUsage reg u)
        (tx ",\n") (by decide)
      rw [e, List.count_append, List.count_append, List.count_append (l₁ := Dumper.head k)]
      omega
theorem nodes_lines (reg : Registry) : ∀ (ns : List Node) (k : Nat) (s : Text), Dumper.nodes reg k ns = .ok s →
    linesOf (tokensL ns) ≤ s.count '\n'
  | [], k, s, h => by simp [tokensL, linesOf]
  | n :: ns, k, s, h => by
    simp only [Dumper.nodes] at h
    split at h
    · simp at h
    · rename_i a ha
      split at h
      · simp at h
      · rename_i b hb
        have h1 := node_lines reg n k a ha
        have h2 := nodes_lines reg ns k b hb
        simp only [Except.ok.injEq] at h
        subst h
        rw [tokensL, lines_append, List.count_append]
        omega
end

/-- **C87, scripts.** The script written for a descriptor has at least a line for every element and two for every
collection. -/
theorem C87_script (reg : Registry) (n : Node) (s : Text) (h : Dumper.dump reg n = .ok s) :
    (leaves n).length + 2 * collectionsIn n ≤ s.count '\n' := node_lines reg n 0 s h

/-- **C87, growth.** Fifteen bytes are decompiled to as many elements as four of them say; its script has as many
lines at least. -/
theorem C87_growth (reg : Registry) (uni : Parser.Uni) (a b c d : UInt8) :
    ∃ t, extract reg (Formatter.deliver .binary reg uni (.bytes (swelling a b c d))).1 = .ok t ∧
      (leaves t).length = a.toNat + 256 * (b.toNat + 256 * (c.toNat + 256 * d.toNat)) ∧
      ∀ s, Dumper.dump reg t = .ok s →
        a.toNat + 256 * (b.toNat + 256 * (c.toNat + 256 * d.toNat)) ≤ s.count '\n' := by
  have hr := (blobLoop_ok_iff reg 15 0 (swelling a b c d) (by simp [swelling]) _).2 ⟨swelling_read a b c d, by
    intro k hk
    simp only [swellingKeys, List.mem_cons, List.not_mem_nil, or_false] at hk
    rcases hk with rfl | rfl | rfl | rfl | rfl <;> simp [ZeroOK]⟩
  have hk : keys (Formatter.deliver .binary reg uni (.bytes (swelling a b c d))).1 =
      swellingKeys (a.toNat + 256 * (b.toNat + 256 * (c.toNat + 256 * d.toNat))) := hr.2
  have hx := extract_blocks (reg := reg) (Formatter.deliver .binary reg uni (.bytes (swelling a b c d))).1
    (fun i hi => (deliver_read .binary reg uni _ i hi).2)
    (read_kinds (fun i hi => (deliver_read .binary reg uni _ i hi).1))
  obtain ⟨bs, hb⟩ := swelling_blocks (arrayUsage reg) (a.toNat + 256 * (b.toNat + 256 * (c.toNat + 256 * d.toNat)))
  rw [hk, hb] at hx
  simp only at hx
  obtain ⟨t, ht, -, -⟩ := hx
  have hn : (leaves t).length = a.toNat + 256 * (b.toNat + 256 * (c.toNat + 256 * d.toNat)) := by
    rw [(C87_document reg .binary uni _ t ht).2.2 (by rw [hk]; rfl), hk]
    simp [swellingKeys, fieldsRead, Cls.isData]
    omega
  refine ⟨t, ht, hn, fun s hs => ?_⟩
  have := C87_script reg t s hs
  omega

/-! ## Cases -/

/-- Sizes of the tree of a stream, and the bounds. -/
def sizesOf (xs : List Item) : Option (Nat × Nat × Nat × Nat) :=
  match extract [] xs with
  | .ok t => some ((leaves t).length, fieldsRead 0 (keys xs), collectionsIn t, (mains (keys xs)).count .collection)
  | .error _ => none

/-- The bounds may be met or not: a collection with nothing inside is lost, and so is a field after the last collection. -/
example : sizesOf namelessItems = some (6, 6, 1, 2) ∧ complete (keys namelessItems) = true := by
  constructor <;> decide +kernel

theorem C87_trailing : sizesOf (build! [(.usage, 0x10002), (.collection, 1), (.logMin, 0), (.logMax, 1), (.reportSize, 8),
    (.reportCount, 3), (.usage, 0x10030), (.input, 2), (.endCollection, 0), (.usage, 0x10031), (.input, 2)]) =
    some (3, 6, 1, 1) := by decide +kernel

/-- The hypotheses of `C87_linear`: fifteen bytes with a count of 3. -/
example : ∀ i ∈ swellingKeys 3, i.1 = Cls.reportCount → i.2 ≤ 3 := by decide

end Hrdc
