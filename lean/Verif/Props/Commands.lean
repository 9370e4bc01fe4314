import Verif.Proofs.Command
import Verif.Props.Expected
import Verif.Props.Success
import Verif.Proofs.Read
/-!
# Properties C61 to C63: what the commands have written when they stop
-/
namespace Hrdc
open Spec Streamer

namespace Spec

/-- The items at the front of a byte string, up to the first that is incomplete or refused. -/
def readFront (b : List UInt8) : List SItem :=
  match _h : readItem b with
  | none => []
  | some (k, r) => if ZeroOK k then k :: readFront r else []
  termination_by b.length
  decreasing_by exact readItem_lt _h

theorem readFront_none {b : List UInt8} (h : readItem b = none) : readFront b = [] := by
  rw [readFront]; split <;> simp_all

theorem readFront_some {b r : List UInt8} {k : SItem} (h : readItem b = some (k, r)) :
    readFront b = if ZeroOK k then k :: readFront r else [] := by
  rw [readFront]; split <;> simp_all

end Spec

/-! ## C62: converter -/

theorem blobLoop_front (reg : Registry) (m : Nat) : ∀ (page : Int) (b : List UInt8), b.length ≤ m →
    (Parser.blobLoop reg page b).1.map Item.key = readFront b ∧
    ((Parser.blobLoop reg page b).2 = none ↔ readAll b = some (readFront b)) ∧
    (∀ i ∈ (Parser.blobLoop reg page b).1, Fits i.cls 4 i.ival) := by
  induction m with
  | zero =>
    intro page b hb
    have : b = [] := List.length_eq_zero_iff.mp (by omega)
    subst this
    rw [readFront_none rfl, blobLoop_nil, readAll_nil]
    simp
  | succ m ih =>
    intro page b hb
    cases b with
    | nil => rw [readFront_none rfl, blobLoop_nil, readAll_nil]; simp
    | cons x t =>
      rw [blobLoop_cons]
      rcases itemParse_slice reg page x t with ⟨k, rest, hk, hz, hrest, -, -, p, j, hp, hmj, hkey⟩ | ⟨hno, e, he⟩
      · have hl := readItem_lt hk
        obtain ⟨h1, h2, h3⟩ := ih p rest (by simp at hl hb; omega)
        rw [hp, readFront_some hk, if_pos hz, readAll_step hk]
        simp only [← hrest]
        refine ⟨by rw [List.map_cons, hkey, h1], ?_, ?_⟩
        · rw [h2]
          cases readAll rest <;> simp
        · intro i hi
          rcases List.mem_cons.1 hi with rfl | hi
          · have := readItem_fits hk
            rw [← hkey] at this
            exact this
          · exact h3 i hi
      · rw [he]
        cases hk : readItem (x :: t) with
        | none => rw [readFront_none hk, readAll_fail hk]; simp
        | some kr =>
          obtain ⟨k, r⟩ := kr
          rw [readFront_some hk, if_neg (hno k r hk), readAll_step hk]
          cases readAll r <;> simp

theorem parsed_items (reg : Registry) (b : List UInt8) :
    (∀ i ∈ (Parser.blobParse reg b).1, i.Made) ∧ ∃ b', Formatter.binary (Parser.blobParse reg b).1 = .ok b' := by
  have hm := blobLoop_made reg b.length 0 b (Nat.le_refl _)
  exact ⟨hm, binary_of_fits hm (blobLoop_front reg b.length 0 b (Nat.le_refl _)).2.2⟩

theorem delivered_items (f : Formatter.Fmt) (reg : Registry) (uni : Parser.Uni) (d : Formatter.Doc) :
    (∀ i ∈ (Formatter.deliver f reg uni d).1, i.Made) ∧
      ∃ b', Formatter.binary (Formatter.deliver f reg uni d).1 = .ok b' := by
  unfold Formatter.deliver
  split
  · exact parsed_items reg _
  · exact ⟨by simp, [], rfl⟩
  · exact parsed_items reg _
  · split
    · exact parsed_items reg _
    · exact ⟨by simp, [], rfl⟩
  · exact ⟨by simp, [], rfl⟩

theorem render_of_binary (g : Formatter.Fmt) {l : List Item} {b : List UInt8} (h : Formatter.binary l = .ok b) :
    ∃ w, Formatter.render g l = .ok w := by
  cases g with
  | binary => exact ⟨.bytes b, by simp [Formatter.render, h, Except.map]⟩
  | hex => obtain ⟨t, ht⟩ := hex_ok_of_binary l b h; exact ⟨.text t, by simp [Formatter.render, ht, Except.map]⟩
  | code =>
    obtain ⟨t, ht⟩ := code_ok_of_binary 0 l b h
    exact ⟨.text t, by simp [Formatter.render, Formatter.code, ht, Except.map]⟩

/-- **C62.** `converter` without `-O`, on any input: it has written the document of the items delivered
before the input became unreadable, and ends with the exception of the reader. -/
theorem C62_convert_plain (f g : Formatter.Fmt) (reg : Registry) (uni : Parser.Uni) (d : Formatter.Doc) :
    ∃ w, Formatter.render g (Formatter.deliver f reg uni d).1 = .ok w ∧
      Command.convert f g false reg uni d = (w, (Formatter.deliver f reg uni d).2) := by
  obtain ⟨b, hb⟩ := (delivered_items f reg uni d).2
  obtain ⟨w, hw⟩ := render_of_binary g hb
  refine ⟨w, hw, ?_⟩
  have h := (Formatter.write_ok_iff g _ w).2 hw
  have hr := Command.stage_feed reg false (Formatter.deliver f reg uni d).1
  simp only [Bool.false_eq_true, if_false] at hr
  rw [Command.sink_feed] at hr
  simp only [Command.convert, Command.drive, Command.sink_feed, hr, h]
  cases (Formatter.deliver f reg uni d).2 <;> simp

/-- Binary to binary: a host reads from the output exactly the items at the front of the input; the command
succeeds when there is nothing behind them. -/
theorem C62_convert_front (reg : Registry) (uni : Parser.Uni) (b : List UInt8) :
    ∃ w e, Command.convert .binary .binary false reg uni (.bytes b) = (.bytes w, e) ∧
      readAll w = some (readFront b) ∧ (e = none ↔ readAll b = some (readFront b)) := by
  obtain ⟨w, h1, h2⟩ := C62_convert_plain .binary .binary reg uni (.bytes b)
  obtain ⟨hm, b', hb'⟩ := delivered_items .binary reg uni (.bytes b)
  simp only [Formatter.render, hb', Except.map, Except.ok.injEq] at h1
  subst h1
  have hf := blobLoop_front reg b.length 0 b (Nat.le_refl _)
  refine ⟨b', _, h2, ?_, hf.2.1⟩
  rw [readAll_binary hm hb']
  exact congrArg some hf.1

/-- A Usage Page, then an item cut short: the Usage Page has been written. -/
example (uni : Parser.Uni) : ∃ w, Command.convert .binary .binary false [] uni (.bytes [0x05, 0x01, 0x26, 0xff]) = (.bytes w, some .struct) ∧
    readAll w = some [(.usagePage, 1)] := by
  have : (Parser.blobParse [] [0x05, 0x01, 0x26, 0xff]) = ([⟨.usagePage, .named (tx "GenericDesktop") 1⟩], some .struct) := by
    rw [Parser.blobParse, blobSteps_eq _ 20 _ _ (by decide)]; decide +kernel
  refine ⟨[0x05, 0x01], ?_, by decide +kernel⟩
  simp only [Command.convert, Formatter.deliver, this]
  decide +kernel

namespace Command

/-- What a source has pushed through a stage into a writer when it stops. -/
theorem drive_spec (reg : Registry) (o : Bool) (g : Formatter.Fmt) (l : List Item) (e : Option PyErr) :
    ∃ k, Formatter.render g ((if o then Optimizer.optimize reg l else l).take k) =
        .ok (drive (stage reg o) (Formatter.write g) (l, e)).1 ∧
      (e ≠ none → ∀ l', Formatter.render g ((if o then Optimizer.optimize reg (l ++ l') else l ++ l').take k) =
        .ok (drive (stage reg o) (Formatter.write g) (l, e)).1) ∧
      ((drive (stage reg o) (Formatter.write g) (l, e)).2 = none →
        e = none ∧ k = (if o then Optimizer.optimize reg l else l).length) ∧
      (∀ x, (drive (stage reg o) (Formatter.write g) (l, e)).2 = some x →
        e = some x ∧ (o = false → k = l.length) ∨
        ∃ i, (if o then Optimizer.optimize reg l else l)[k]? = some i ∧ i.bytes = .error x) := by
  have hl := stage_feed reg o l
  have hl' : ∀ l', ∃ r, ((stage reg o).feed (stage reg o).init l).2 ++ r = if o then Optimizer.optimize reg (l ++ l') else l ++ l' := by
    intro l'
    have := stage_feed reg o (l ++ l')
    rw [Pass.feed_append, List.append_assoc] at this
    exact ⟨_, this⟩
  generalize hq : ((stage reg o).feed (stage reg o).init l).2 = q at hl hl'
  generalize hr : (stage reg o).fin ((stage reg o).feed (stage reg o).init l).1 = r at hl
  have hd : drive (stage reg o) (Formatter.write g) (l, e) =
      match Formatter.write g q, e with
      | (a, some e), _ => (a, some e)
      | (a, none), some e => (a, some e)
      | (_, none), none => Formatter.write g (q ++ r) := by
    simp only [drive, hq, hr]
    rcases Formatter.write g q with ⟨a, _ | x⟩ <;> cases e <;> rfl
  rw [hd]
  generalize hZ : (if o then Optimizer.optimize reg l else l) = z at hl
  subst hl
  obtain ⟨k, h1, h2⟩ := Formatter.write_spec g q
  cases hw : Formatter.write g q with
  | mk a x =>
    rw [hw] at h1 h2
    cases x with
    | some x =>
      obtain ⟨i, hi, hb⟩ := h2
      have hk : k < q.length := (List.getElem?_eq_some_iff.1 hi).1
      have ht : ∀ s : List Item, (q ++ s).take k = q.take k := fun s => List.take_append_of_le_length (by omega)
      refine ⟨k, by rw [ht]; exact h1, fun _ l' => ?_, by simp, ?_⟩
      · obtain ⟨s, hs⟩ := hl' l'
        rw [← hs, ht]; exact h1
      · intro y hy
        simp only [Option.some.injEq] at hy
        subst hy
        exact .inr ⟨i, by rw [List.getElem?_append_left hk]; exact hi, hb⟩
    | none =>
      have hk : k = q.length := h2
      subst hk
      rw [List.take_length] at h1
      cases e with
      | some e =>
        refine ⟨q.length, by rw [List.take_left]; exact h1, fun _ l' => ?_, by simp, fun x hx => .inl ⟨hx, ?_⟩⟩
        rotate_left
        · rintro rfl
          rw [← hq, sink_feed]
        obtain ⟨s, hs⟩ := hl' l'
        rw [← hs, List.take_left]; exact h1
      | none =>
        obtain ⟨k, h1, h2⟩ := Formatter.write_spec g (q ++ r)
        refine ⟨k, h1, fun h => absurd rfl h, fun h => ?_, fun x hx => .inr ?_⟩
        · simp only at h; rw [h] at h2; exact ⟨rfl, h2⟩
        · simp only at hx; rw [hx] at h2; exact h2

theorem drive_ok_iff (reg : Registry) (o : Bool) (g : Formatter.Fmt) (l : List Item) (e : Option PyErr) (d : Formatter.Doc) :
    drive (stage reg o) (Formatter.write g) (l, e) = (d, none) ↔
      e = none ∧ Formatter.render g (if o then Optimizer.optimize reg l else l) = .ok d := by
  obtain ⟨k, h1, -, h3, h4⟩ := drive_spec reg o g l e
  constructor
  · intro h
    rw [h] at h1 h3
    obtain ⟨he, rfl⟩ := h3 rfl
    rw [List.take_length] at h1
    exact ⟨he, h1⟩
  · rintro ⟨rfl, h⟩
    cases hx : (drive (stage reg o) (Formatter.write g) (l, none)).2 with
    | none =>
      obtain ⟨-, rfl⟩ := h3 hx
      rw [List.take_length, h] at h1
      simp only [Except.ok.injEq] at h1
      exact Prod.ext h1.symm hx
    | some x =>
      rcases h4 x hx with h4 | ⟨i, hi, hb⟩
      · simp at h4
      · obtain ⟨e', h'⟩ := Formatter.render_mem g (List.mem_of_getElem? hi) hb
        rw [h'] at h
        simp at h

end Command

/-- With or without `-O`, whatever the input and whatever the exception: what has been written is the
document of the first items the command would write, none of them in part.  When the input is unreadable
from some point on, these are also the first items written for any readable continuation. -/
theorem C62_convert_prefix (f g : Formatter.Fmt) (o : Bool) (reg : Registry) (uni : Parser.Uni) (d : Formatter.Doc) :
    ∃ k l e w x, Formatter.deliver f reg uni d = (l, e) ∧ Command.convert f g o reg uni d = (w, x) ∧
      Formatter.render g ((if o then Optimizer.optimize reg l else l).take k) = .ok w ∧
      (e ≠ none → ∀ l', Formatter.render g ((if o then Optimizer.optimize reg (l ++ l') else l ++ l').take k) = .ok w) ∧
      (x = none → e = none ∧ k = (if o then Optimizer.optimize reg l else l).length) ∧
      (∀ y, x = some y → e = some y ∨ ∃ i, (if o then Optimizer.optimize reg l else l)[k]? = some i ∧ i.bytes = .error y) := by
  obtain ⟨k, h⟩ := Command.drive_spec reg o g (Formatter.deliver f reg uni d).1 (Formatter.deliver f reg uni d).2
  exact ⟨k, _, _, _, _, rfl, rfl, h.1, h.2.1, h.2.2.1, fun y hy => (h.2.2.2 y hy).imp_left And.left⟩

/-- The command ends without exception exactly when the whole document is written. -/
theorem C62_convert_success (f g : Formatter.Fmt) (reg : Registry) (uni : Parser.Uni) (d d' : Formatter.Doc) :
    (Command.convert f g false reg uni d = (d', none) ↔ Formatter.convert f g reg uni d = .ok d') ∧
    (Command.convert f g true reg uni d = (d', none) ↔ Converter.optimized f g reg uni d = .ok d') := by
  have h := fun o => Command.drive_ok_iff reg o g (Formatter.deliver f reg uni d).1 (Formatter.deliver f reg uni d).2 d'
  constructor
  · rw [Command.convert, h false, Formatter.convert]
    cases Formatter.deliver f reg uni d with
    | mk l e => cases e <;> simp
  · rw [Command.convert, h true, Converter.optimized]
    cases Formatter.deliver f reg uni d with
    | mk l e => cases e <;> simp

/-! ## C62: compiler -/

/-- `compile_main` ends without exception exactly when the whole document is written. -/
theorem C62_compile_success (reg : Registry) (f : Formatter.Fmt) (o : Bool) (n : Node) (d : Formatter.Doc) :
    Command.compile reg f o n = (d, none) ↔ Compiler.main reg f o n = .ok d := by
  have h := Command.drive_ok_iff reg o f (Streamer.trace reg n).1 (Streamer.trace reg n).2 d
  rw [Command.compile, h, Compiler.main]
  cases hc : Streamer.compile reg n with
  | ok l => rw [(Streamer.trace_ok reg n l).2 hc]; simp
  | error e =>
    simp only [reduceCtorEq, iff_false]
    rintro ⟨h1, -⟩
    have := (Streamer.trace_ok reg n (Streamer.trace reg n).1).1 (Prod.ext rfl h1)
    rw [hc] at this
    simp at this

/-- A descriptor with an illegal element: the items of all elements before it come first, with the meaning
these elements have, then those of the illegal one up to the exception; the document of a number of first
items is what has been written, of all of them unless one cannot be encoded. -/
theorem C62_compile_prefix (reg : Registry) (f : Formatter.Fmt) (o : Bool) (rule : PageRule) (n : Node)
    (h : legal 0 (tokens n) = false) :
    ∃ a t r is more k w x, tokens n = a ++ t :: r ∧ legal 0 a = true ∧ legal 0 (a ++ [t]) = false ∧
      meaning rule (keys is) = exact (fun _ _ => 0) 0 0 a ∧
      Command.compile reg f o n = (w, some x) ∧
      (∀ l', Formatter.render f ((if o then Optimizer.optimize reg (is ++ more ++ l') else is ++ more ++ l').take k) = .ok w) ∧
      (o = false → k = (is ++ more).length ∨ ∃ i, (is ++ more)[k]? = some i ∧ i.bytes = .error x) := by
  have hc : ∀ l, Streamer.compile reg n ≠ .ok l := by
    intro l hl
    rw [(C59_compiles_iff reg n).1 ⟨l, hl⟩] at h
    simp at h
  obtain ⟨a, t, r, st, is, h1, h2, h3, h4⟩ := Streamer.trace_split hc
  have he : (Streamer.trace reg n).2 ≠ none := by
    intro he
    exact hc _ ((Streamer.trace_ok reg n _).1 (Prod.ext rfl he))
  have hla : legal 0 a = true := (Streamer.toks_legal reg a {} (by decide)).1 ⟨_, h2⟩
  have hlt : legal 0 (a ++ [t]) = false := by
    cases hl : legal 0 (a ++ [t]) with
    | false => rfl
    | true =>
      obtain ⟨p, hp⟩ := (Streamer.toks_legal reg (a ++ [t]) {} (by decide)).2 hl
      rw [Streamer.toks_append, h2] at hp
      simp only [Streamer.toks_one] at hp
      cases ht : Streamer.tok reg st t with
      | ok q => exact absurd ht (h3 q)
      | error e => rw [ht] at hp; simp at hp
  obtain ⟨k, k1, k2, k3, k4⟩ := Command.drive_spec reg o f (Streamer.trace reg n).1 (Streamer.trace reg n).2
  have hx : ∃ x, (Command.compile reg f o n).2 = some x := by
    cases hx : (Command.compile reg f o n).2 with
    | some x => exact ⟨x, rfl⟩
    | none => exact absurd (k3 hx).1 he
  obtain ⟨x, hx⟩ := hx
  refine ⟨a, t, r, is, (Streamer.tokT reg st t).1, k, _, x, h1, hla, hlt,
    (Streamer.toks_exact rule a 0 {} st _ {} is h2 (by decide) rfl ⟨rfl, rfl, rfl, rfl⟩ (fun _ _ _ _ => rfl)).1,
    Prod.ext rfl hx, fun l' => by rw [← h4]; exact k2 he l', ?_⟩
  rintro rfl
  rcases k4 x hx with ⟨-, hk⟩ | ⟨i, hi, hb⟩
  · exact .inl (by rw [hk rfl, h4])
  · exact .inr ⟨i, by rw [← h4]; simpa using hi, hb⟩

/-- Report 3 closed, then a negative size: both commands have written the collection and the first field. -/
example : let n := Node.coll (.int 1) (some (.int 0x10006)) [.report 3 [.padding .input 4], .padding .input (-1)]
    legal 0 (tokens n) = false ∧
    Command.compile [] .binary false n = (.bytes [0x0b, 6, 0, 1, 0, 0xa1, 1, 0x85, 3, 0x95, 1, 0x75, 4, 0x81, 3, 0x95, 1], some .assertion) := by
  decide +kernel

theorem binary_made_out {reg : Registry} {o : Bool} {l : List Item} (hm : ∀ i ∈ l, i.Made) :
    ∀ i ∈ (if o then Optimizer.optimize reg l else l), i.Made := by
  cases o with
  | false => exact hm
  | true => exact optimize_made reg l hm

/-- What a command has written in binary is always a sequence of complete items for a host: the first ones of
those it would write. -/
theorem C62_readable (reg : Registry) (o : Bool) :
    (∀ f uni d, ∃ b x k, Command.convert f .binary o reg uni d = (.bytes b, x) ∧ readAll b =
      some ((keys (if o then Optimizer.optimize reg (Formatter.deliver f reg uni d).1 else (Formatter.deliver f reg uni d).1)).take k)) ∧
    (∀ n, ∃ b x k, Command.compile reg .binary o n = (.bytes b, x) ∧ readAll b =
      some ((keys (if o then Optimizer.optimize reg (trace reg n).1 else (trace reg n).1)).take k)) := by
  have key : ∀ (l : List Item) (e : Option PyErr), (∀ i ∈ l, i.Made) → ∃ b x k,
      Command.drive (Command.stage reg o) (Formatter.write .binary) (l, e) = (.bytes b, x) ∧
        readAll b = some ((keys (if o then Optimizer.optimize reg l else l)).take k) := by
    intro l e hm
    obtain ⟨k, h1, -⟩ := Command.drive_spec reg o .binary l e
    have hm' := binary_made_out (reg := reg) (o := o) hm
    generalize (if o then Optimizer.optimize reg l else l) = z at h1 hm' ⊢
    cases hb : Formatter.binary (z.take k) with
    | error x => simp [Formatter.render, hb, Except.map] at h1
    | ok b =>
      simp only [Formatter.render, hb, Except.map, Except.ok.injEq] at h1
      refine ⟨b, _, k, Prod.ext h1.symm rfl, ?_⟩
      rw [readAll_binary (fun i hi => hm' i (List.mem_of_mem_take hi)) hb, keys, List.map_take]
  exact ⟨fun f uni d => key _ _ (delivered_items f reg uni d).1, fun n => key _ _ (trace_made reg n)⟩

/-! ## C61: comparing while compiling -/

namespace Command

/-- The comparer after items all of which matched, or at the first that does not. -/
theorem compareItems_spec (b : List UInt8) (l : List Item) : ∀ p,
    (∀ q, compareItems b p l = (q, none) ↔
      ∃ bs, Formatter.binary l = .ok bs ∧ (b.drop p).take bs.length = bs ∧ q = p + bs.length) ∧
    (∀ q x, compareItems b p l = (q, some x) → x = .assertion ∨ ∃ i ∈ l, i.bytes = .error x) := by
  induction l with
  | nil => intro p; simp [compareItems, Formatter.binary, eq_comm]
  | cons i l ih =>
    intro p
    unfold compareItems Formatter.binary
    cases hb : i.bytes with
    | error e => simp [hb]
    | ok part =>
      simp only
      obtain ⟨h1, h2⟩ := ih (p + part.length)
      split
      · rename_i hp
        refine ⟨fun q => ?_, fun q x hx => (h2 q x hx).imp_right fun ⟨j, hj, hjx⟩ => ⟨j, by simp [hj], hjx⟩⟩
        rw [h1]
        cases hl : Formatter.binary l with
        | error e => simp
        | ok bs =>
          simp only [Except.ok.injEq, exists_eq_left', List.length_append]
          have : (b.drop p).take (part.length + bs.length) = part ++ (b.drop (p + part.length)).take bs.length := by
            rw [List.take_add, hp, List.drop_drop]
          rw [this, List.append_cancel_left_eq, Nat.add_assoc]
      · rename_i hp
        refine ⟨fun q => ?_, fun q x hx => .inl (by simp at hx; exact hx.2.symm)⟩
        simp only [Prod.mk.injEq, reduceCtorEq, and_false, false_iff]
        rintro ⟨bs, h, ht, -⟩
        cases hl : Formatter.binary l with
        | error e => rw [hl] at h; simp at h
        | ok b2 =>
          rw [hl] at h
          simp only [Except.ok.injEq] at h
          subst h
          apply hp
          have := congrArg (List.take part.length) ht
          rw [List.take_take, List.take_left, List.length_append, Nat.min_eq_left (by omega)] at this
          exact this

theorem drive_out {α : Type} (reg : Registry) (o : Bool) (out : List Item → α × Option PyErr)
    (hout : ∀ z s, (out (z ++ s)).2 = none → (out z).2 = none) (l : List Item) (e : Option PyErr) (a : α) :
    drive (stage reg o) out (l, e) = (a, none) ↔
      e = none ∧ out (if o then Optimizer.optimize reg l else l) = (a, none) := by
  have hl := stage_feed reg o l
  simp only [drive]
  generalize ((stage reg o).feed (stage reg o).init l).2 = q at hl ⊢
  generalize (stage reg o).fin ((stage reg o).feed (stage reg o).init l).1 = r at hl ⊢
  rw [← hl]
  have hq := hout q r
  cases h : out q with
  | mk c x =>
    cases x with
    | some x =>
      rw [h] at hq
      simp only [Prod.mk.injEq, reduceCtorEq, and_false, false_iff]
      rintro ⟨-, h'⟩
      simpa using hq (by rw [h'])
    | none => cases e <;> simp

theorem compare_prefix (b : List UInt8) (z s : List Item) (h : (compareItems b 0 (z ++ s)).2 = none) :
    (compareItems b 0 z).2 = none := by
  have : ∀ (z : List Item) p, (compareItems b p (z ++ s)).2 = none → (compareItems b p z).2 = none := by
    intro z
    induction z with
    | nil => intro p _; rfl
    | cons i z ih =>
      intro p h
      simp only [List.cons_append, compareItems] at h ⊢
      cases hb : i.bytes with
      | error e => rw [hb] at h; simp at h
      | ok part =>
        rw [hb] at h
        simp only at h ⊢
        split
        · rename_i hp; rw [if_pos hp] at h; exact ih _ h
        · rename_i hp; rw [if_neg hp] at h; simp at h
  exact this z 0 h

end Command

/-- **C61.** Run as it is, comparing item by item while the descriptor is streamed, `descriptor_expected` raises
nothing exactly when the code can be read and its bytes are those `compile_main` writes; code that cannot be
read is reported first, and where `compile_main` writes other bytes the exception is `AssertionError`. -/
theorem C61_first_exception (reg : Registry) (uni : Char → Bool) (code : Text) (n : Node) :
    (Command.expected reg uni code n = none ↔ Compiler.expected reg uni code n = .ok ()) ∧
    (∀ e, Parser.codeBlob uni code = .error e → Command.expected reg uni code n = some e) ∧
    (∀ b b', Parser.codeBlob uni code = .ok b → Compiler.main reg .binary true n = .ok (.bytes b') → b ≠ b' →
      Command.expected reg uni code n = some .assertion) := by
  have hok : Command.expected reg uni code n = none ↔ Compiler.expected reg uni code n = .ok () := by
    rw [C61_expected_exact]
    unfold Command.expected
    cases hb : Parser.codeBlob uni code with
    | error e => simp
    | ok b =>
      have hd := fun a => Command.drive_out reg true (Command.compareItems b 0) (Command.compare_prefix b)
        (trace reg n).1 (trace reg n).2 a
      have hmain : Compiler.main reg .binary true n = .ok (.bytes b) ↔
          Command.drive (Command.stage reg true) (Command.compareItems b 0) (trace reg n) = (b.length, none) := by
        rw [← C62_compile_success, Command.compile]
        have h2 := Command.drive_ok_iff reg true .binary (trace reg n).1 (trace reg n).2 (.bytes b)
        rw [h2, hd]
        simp only [if_true]
        rw [((Command.compareItems_spec b _ 0).1 _)]
        cases hz : Formatter.binary (Optimizer.optimize reg (trace reg n).1) with
        | error e => simp [Formatter.render, hz, Except.map]
        | ok bs =>
          simp only [Formatter.render, hz, Except.map, Except.ok.injEq, Formatter.Doc.bytes.injEq, exists_eq_left', List.drop_zero,
            Nat.zero_add]
          refine and_congr_right fun _ => ⟨fun h => ?_, fun ⟨h1, h2⟩ => ?_⟩
          · subst h; simp
          · rw [← h2, List.take_length] at h1; exact h1.symm
      simp only [Except.ok.injEq, exists_eq_left', hmain]
      cases hx : Command.drive (Command.stage reg true) (Command.compareItems b 0) (trace reg n) with
      | mk p x => cases x <;> simp
  refine ⟨hok, fun e he => by simp [Command.expected, he], fun b b' hb hm hne => ?_⟩
  have hnn : Command.expected reg uni code n ≠ none := by
    rw [Ne, hok, C61_expected_exact]
    rintro ⟨c, h1, h2⟩
    rw [hb] at h1; rw [hm] at h2
    simp only [Except.ok.injEq, Formatter.Doc.bytes.injEq] at h1 h2
    exact hne (h1.trans h2.symm)
  rw [← C62_compile_success, Command.compile] at hm
  obtain ⟨he, hr⟩ := (Command.drive_ok_iff reg true .binary (trace reg n).1 (trace reg n).2 _).1 hm
  have hl := Command.stage_feed reg true (trace reg n).1
  simp only [if_true] at hl hr
  simp only [Command.expected, hb, Command.drive, he, hl] at hnn ⊢
  generalize ((Command.stage reg true).feed (Command.stage reg true).init (trace reg n).1).2 = q at hl hnn ⊢
  have hbad : ∀ (z : List Item) p x, (∀ i ∈ z, i ∈ Optimizer.optimize reg (trace reg n).1) →
      Command.compareItems b 0 z = (p, some x) → x = .assertion := by
    intro z p x hz hx
    rcases (Command.compareItems_spec b z 0).2 p x hx with h | ⟨i, hi, h⟩
    · exact h
    · obtain ⟨e', h'⟩ := Formatter.render_mem .binary (hz i hi) h
      rw [h'] at hr; simp at hr
  cases hq : Command.compareItems b 0 q with
  | mk p x =>
    rw [hq] at hnn
    cases x with
    | some x => simp only; rw [hbad q p x (fun i hi => by rw [← hl]; simp [hi]) hq]
    | none =>
      simp only at hnn ⊢
      cases hq2 : Command.compareItems b 0 (Optimizer.optimize reg (trace reg n).1) with
      | mk p2 x2 =>
        rw [hq2] at hnn
        cases x2 with
        | some x2 => simp only; rw [hbad _ p2 x2 (fun i hi => hi) hq2]
        | none =>
          simp only at hnn ⊢
          split
          · rename_i hp; rw [if_pos hp] at hnn; exact absurd rfl hnn
          · rfl

/-! ## C63: format names, standard streams and files -/

/-- Name of a format on the command line. -/
def Spec.fmtName : Formatter.Fmt → Text
  | .binary => tx "binary"
  | .hex => tx "hex"
  | .code => tx "code"

/-- **C63 (partial).** Three names are known; any other stops the command with `KeyError` before anything is
read or written. -/
theorem C63_names_partial (name : Text) :
    (∀ f, Command.formatByName name = .ok f ↔ name = fmtName f) ∧
    ((∀ f, name ≠ fmtName f) → Command.formatByName name = .error .key ∧
      (∀ reg uni dec out ic oc o c, (Command.converter reg uni dec name out ic oc o c) = (Command.nothing, some .key)) ∧
      (∀ reg uni dec f ic oc o c, (Command.converter reg uni dec (fmtName f) name ic oc o c) = (Command.nothing, some .key)) ∧
      (∀ reg oc o n, Command.compiler reg name oc o n = (Command.nothing, some .key)) ∧
      (∀ reg uni dec ic c, Command.decompiler reg uni dec name ic c = .error .key)) := by
  have h1 : ∀ f, Command.formatByName (fmtName f) = .ok f := by intro f; cases f <;> decide +kernel
  have h2 : (∀ f, name ≠ fmtName f) → Command.formatByName name = .error .key := by
    intro h
    have b := h .binary
    have x := h .hex
    have c := h .code
    simp only [fmtName] at b x c
    unfold Command.formatByName
    rw [if_neg b, if_neg x, if_neg c]
  refine ⟨fun f => ⟨fun h => ?_, fun h => h ▸ h1 f⟩, fun h => ⟨h2 h, ?_, ?_, ?_, ?_⟩⟩
  · by_cases hn : ∃ g, name = fmtName g
    · obtain ⟨g, rfl⟩ := hn
      rw [h1 g] at h
      simp only [Except.ok.injEq] at h
      rw [h]
    · rw [h2 (fun g hg => hn ⟨g, hg⟩)] at h
      simp at h
  · intro reg uni dec out ic oc o c; simp only [Command.converter, h2 h]
  · intro reg uni dec f ic oc o c; simp only [Command.converter, h2 h, h1 f]
  · intro reg oc o n; simp only [Command.compiler, h2 h]
  · intro reg uni dec ic c; simp only [Command.decompiler, h2 h]

example : ∀ f, tx "Binary" ≠ fmtName f := by intro f; cases f <;> decide

theorem name_ok (f : Formatter.Fmt) : Command.formatByName (fmtName f) = .ok f := ((C63_names_partial _).1 f).2 rfl

/-- On the standard streams, and on files as far as the formats are text, the commands do what C62 says:
the content is decoded for the text formats and taken as it is for binary. -/
theorem C63_channels_partial (reg : Registry) (uni : Parser.Uni) (dec : List UInt8 → Option Text) (f g : Formatter.Fmt)
    (ic oc : Command.Channel) (o : Bool) (c : List UInt8) (hf : f ≠ .binary ∨ ic = .std) (hg : g ≠ .binary ∨ oc = .std) :
    (f = .binary → Command.converter reg uni dec (fmtName f) (fmtName g) ic oc o c = Command.convert f g o reg uni (.bytes c)) ∧
    (f ≠ .binary → ∀ t, dec c = some t →
      Command.converter reg uni dec (fmtName f) (fmtName g) ic oc o c = Command.convert f g o reg uni (.text t)) ∧
    (f ≠ .binary → dec c = none →
      Command.converter reg uni dec (fmtName f) (fmtName g) ic oc o c = (Command.nothing, some .value)) ∧
    (∀ n, Command.compiler reg (fmtName g) oc o n = Command.compile reg g o n) ∧
    (f = .binary → Command.decompiler reg uni dec (fmtName f) ic c = Decompiler.main reg f uni (.bytes c)) ∧
    (f ≠ .binary → ∀ t, dec c = some t → Command.decompiler reg uni dec (fmtName f) ic c = Decompiler.main reg f uni (.text t)) := by
  have hout : Command.output oc g = Formatter.write g := by
    funext l
    unfold Command.output
    rw [if_neg (by rintro ⟨rfl, rfl⟩; simp at hg)]
  simp only [Command.converter, Command.compiler, Command.decompiler, name_ok, hout, Command.input]
  refine ⟨?_, ?_, ?_, fun _ => rfl, ?_, ?_⟩
  · rintro rfl
    have : ic = .std := by simpa using hf
    simp [this, Command.convert]
  · intro h t ht; simp [h, ht, Command.convert]
  · intro h ht; simp [h, ht]
  · rintro rfl
    have : ic = .std := by simpa using hf
    simp [this]
  · intro h t ht; simp [h, ht]

theorem drive_file (reg : Registry) (o : Bool) (l : List Item) (e : Option PyErr) :
    ∃ x, Command.drive (Command.stage reg o) (Command.output .file .binary) (l, e) = (.bytes [], x) ∧
      (x = none ↔ e = none ∧ (if o then Optimizer.optimize reg l else l) = []) ∧
      (∀ b, e = none → (if o then Optimizer.optimize reg l else l) ≠ [] →
        Formatter.binary (if o then Optimizer.optimize reg l else l) = .ok b → x = some .type) := by
  have hl := Command.stage_feed reg o l
  simp only [Command.drive]
  generalize ((Command.stage reg o).feed (Command.stage reg o).init l).2 = q at hl ⊢
  generalize (Command.stage reg o).fin ((Command.stage reg o).feed (Command.stage reg o).init l).1 = r at hl ⊢
  rw [← hl]
  have hout : ∀ z : List Item, ∃ x, Command.output .file .binary z = (.bytes [], x) ∧ (x = none ↔ z = []) ∧
      (∀ s b, z ≠ [] → Formatter.binary (z ++ s) = .ok b → x = some .type) := by
    intro z
    cases z with
    | nil => exact ⟨none, rfl, by simp, by simp⟩
    | cons i z =>
      cases hb : i.bytes with
      | error y =>
        refine ⟨some y, by simp [Command.output, hb], by simp, ?_⟩
        intro s b _ h
        obtain ⟨b1, b2, h1, -⟩ := binary_ok h
        rw [hb] at h1
        simp at h1
      | ok b => exact ⟨some .type, by simp [Command.output, hb], by simp, by simp⟩
  obtain ⟨x, h1, h2, h3⟩ := hout q
  obtain ⟨y, k1, k2, k3⟩ := hout (q ++ r)
  rw [h1]
  cases x with
  | some x =>
    refine ⟨some x, rfl, ⟨by simp, ?_⟩, ?_⟩
    · rintro ⟨-, hq⟩
      exact absurd (h2.2 (List.append_eq_nil_iff.1 hq).1) (by simp)
    · intro b _ _ hb
      exact h3 r b (fun hq => by simpa using h2.2 hq) hb
  | none =>
    cases e with
    | some e => exact ⟨some e, rfl, by simp, by simp⟩
    | none => exact ⟨y, k1, by simpa using k2, fun b _ hz hb => k3 [] b hz (by rw [List.append_nil]; exact hb)⟩

/-- **C63 fails for binary files**: a file named on the command line is opened as text.  Whatever the
descriptor or the input, the file is left empty; the command ends without exception only when there is nothing
to write, and otherwise with `TypeError` if the items can be encoded. -/
theorem C63_binary_output_breaks (reg : Registry) (o : Bool) :
    (∀ n, ∃ x, Command.compiler reg (tx "binary") .file o n = (.bytes [], x) ∧
      (x = none ↔ Compiler.main reg .binary o n = .ok (.bytes [])) ∧
      (∀ b, b ≠ [] → Compiler.main reg .binary o n = .ok (.bytes b) → x = some .type)) ∧
    (∀ uni dec c, ∃ x, Command.converter reg uni dec (tx "binary") (tx "binary") .std .file o c = (.bytes [], x) ∧
      (x = none ↔ Command.convert .binary .binary o reg uni (.bytes c) = (.bytes [], none)) ∧
      (∀ b, b ≠ [] → Command.convert .binary .binary o reg uni (.bytes c) = (.bytes b, none) → x = some .type)) := by
  have hnil : ∀ z : List Item, Formatter.render .binary z = .ok (.bytes []) ↔ z = [] := by
    intro z
    cases z with
    | nil => exact ⟨fun _ => rfl, fun _ => rfl⟩
    | cons i z =>
      refine ⟨fun h => ?_, by simp⟩
      cases hb : Formatter.binary (i :: z) with
      | error e => simp [Formatter.render, hb, Except.map] at h
      | ok b =>
        simp only [Formatter.render, hb, Except.map, Except.ok.injEq, Formatter.Doc.bytes.injEq] at h
        obtain ⟨b1, b2, h1, -, hb'⟩ := binary_ok hb
        have := (bytes_ok h1).2
        rw [h] at hb'
        simp_all
  have hsome : ∀ (z : List Item) b, b ≠ [] → Formatter.render .binary z = .ok (.bytes b) → z ≠ [] ∧ Formatter.binary z = .ok b := by
    intro z b hb h
    refine ⟨?_, ?_⟩
    · rintro rfl
      exact hb (by simpa [Formatter.render, Formatter.binary, Except.map] using h.symm)
    · cases hz : Formatter.binary z <;> simp_all [Formatter.render, Except.map]
  have key : ∀ l e, ∃ x, Command.drive (Command.stage reg o) (Command.output .file .binary) (l, e) = (.bytes [], x) ∧
      (x = none ↔ Command.drive (Command.stage reg o) (Formatter.write .binary) (l, e) = (.bytes [], none)) ∧
      (∀ b, b ≠ [] → Command.drive (Command.stage reg o) (Formatter.write .binary) (l, e) = (.bytes b, none) → x = some .type) := by
    intro l e
    obtain ⟨x, h1, h2, h3⟩ := drive_file reg o l e
    refine ⟨x, h1, ?_, ?_⟩
    · rw [h2, Command.drive_ok_iff, hnil]
    · intro b hb hd
      obtain ⟨he, hr⟩ := (Command.drive_ok_iff ..).1 hd
      obtain ⟨hz, hb'⟩ := hsome _ b hb hr
      exact h3 b he hz hb'
  have hn : Command.formatByName (tx "binary") = .ok .binary := name_ok .binary
  constructor
  · intro n
    obtain ⟨x, h1, h2, h3⟩ := key (trace reg n).1 (trace reg n).2
    refine ⟨x, by simp only [Command.compiler, hn]; exact h1, ?_, ?_⟩
    · rw [← C62_compile_success]; exact h2
    · intro b hb; rw [← C62_compile_success]; exact h3 b hb
  · intro uni dec c
    obtain ⟨x, h1, h2, h3⟩ := key (Formatter.deliver .binary reg uni (.bytes c)).1 (Formatter.deliver .binary reg uni (.bytes c)).2
    exact ⟨x, by simp only [Command.converter, hn, Command.input]; simpa using h1, h2, h3⟩

/-- Nor can a binary descriptor be read from a file named on the command line, unless it is empty. -/
theorem C63_binary_input_breaks (reg : Registry) (uni : Parser.Uni) (dec : List UInt8 → Option Text) (c : List UInt8)
    (h : dec c ≠ some []) :
    (∀ g oc o, ∃ w x, Command.converter reg uni dec (tx "binary") (fmtName g) .file oc o c = (w, some x) ∧
      (w = .bytes [] ∨ w = .text [])) ∧
    ∃ x, Command.decompiler reg uni dec (tx "binary") .file c = .error x := by
  have hn : Command.formatByName (tx "binary") = .ok .binary := name_ok .binary
  cases hd : dec c with
  | none =>
    refine ⟨fun g oc o => ⟨.text [], .value, ?_, .inr rfl⟩, .value, ?_⟩
    · simp [Command.converter, hn, name_ok, Command.input, hd, Command.nothing]
    · simp [Command.decompiler, hn, Command.input, hd]
  | some t =>
    cases t with
    | nil => exact absurd hd h
    | cons a t =>
      have hdel : Formatter.deliver .binary reg uni (.text (a :: t)) = ([], some .type) := rfl
      refine ⟨fun g oc o => ?_, .type, ?_⟩
      · have : ∃ w, Command.output oc g [] = (w, none) ∧ (w = .bytes [] ∨ w = .text []) := by
          cases g <;> cases oc <;> simp [Command.output, Formatter.write, Formatter.writeBinary, Formatter.writeHex, Formatter.writeCode]
        obtain ⟨w, hw, hw'⟩ := this
        refine ⟨w, .type, ?_, hw'⟩
        simp [Command.converter, hn, name_ok, Command.input, hd, hdel, Command.drive, Pass.feed, hw]
      · simp only [Command.decompiler, hn, Command.input, hd]
        simp [Decompiler.main, hdel, Extractor.runFrom]

example : Command.compiler [] (tx "binary") .file false (.padding .input 3) = (.bytes [], some .type) := by decide +kernel

end Hrdc
