import Verif.Spec.Hid
import Verif.Model.Optimizer
import Verif.Proofs.Stream
/-!
# Lemmas on the HID meaning of streams and on passes
-/
namespace Hrdc
open Spec

namespace Spec

@[simp] theorem after_nil (rule : PageRule) (h : Host) : h.after rule [] = h := rfl
@[simp] theorem after_cons (rule : PageRule) (h : Host) (i : SItem) (xs : List SItem) :
    h.after rule (i :: xs) = (h.step rule i).after rule xs := rfl
theorem after_append (rule : PageRule) (h : Host) (xs ys : List SItem) :
    h.after rule (xs ++ ys) = (h.after rule xs).after rule ys := by
  simp [Host.after, List.foldl_append]

@[simp] theorem recs_nil (rule : PageRule) (h : Host) : recs rule h [] = [] := rfl
theorem recs_cons (rule : PageRule) (h : Host) (i : SItem) (xs : List SItem) :
    recs rule h (i :: xs) =
      (if i.1.kind = .main then [h.main rule i] else []) ++ recs rule (h.step rule i) xs := rfl
theorem recs_append (rule : PageRule) (h : Host) (xs ys : List SItem) :
    recs rule h (xs ++ ys) = recs rule h xs ++ recs rule (h.after rule xs) ys := by
  induction xs generalizing h with
  | nil => rfl
  | cons x xs ih => simp [recs_cons, ih, List.append_assoc]

@[simp] theorem eventsFrom_nil (rule : PageRule) (h : Host) : eventsFrom rule h [] = [] := rfl
theorem eventsFrom_append (rule : PageRule) (h : Host) (xs ys : List SItem) :
    eventsFrom rule h (xs ++ ys)
      = eventsFrom rule h xs ++ eventsFrom rule (h.after rule xs) ys := by
  simp [eventsFrom, recs_append]
theorem eventsFrom_cons (rule : PageRule) (h : Host) (i : SItem) (xs : List SItem) :
    eventsFrom rule h (i :: xs) =
      (if i.1.kind = .main then (h.main rule i).events else [])
        ++ eventsFrom rule (h.step rule i) xs := by
  unfold eventsFrom
  rw [recs_cons]
  split <;> simp

theorem eventsFrom_cons_of_not_main (rule : PageRule) (h : Host) (i : SItem) (xs : List SItem)
    (hi : i.1.kind ≠ .main) : eventsFrom rule h (i :: xs) = eventsFrom rule (h.step rule i) xs := by
  rw [eventsFrom_cons, if_neg hi]; rfl
theorem eventsFrom_cons_main (rule : PageRule) (h : Host) (i : SItem) (xs : List SItem)
    (hi : i.1.kind = .main) : eventsFrom rule h (i :: xs)
      = (h.main rule i).events ++ eventsFrom rule (h.step rule i) xs := by
  rw [eventsFrom_cons, if_pos hi]

/-- No main item: nothing is described. -/
theorem recs_no_main (rule : PageRule) (h : Host) (xs : List SItem)
    (hx : ∀ i ∈ xs, i.1.kind ≠ .main) : recs rule h xs = [] := by
  induction xs generalizing h with
  | nil => rfl
  | cons x xs ih =>
    rw [recs_cons, if_neg (hx x (by simp)), ih _ (fun i hi => hx i (by simp [hi]))]; rfl

theorem eventsFrom_no_main (rule : PageRule) (h : Host) (xs : List SItem)
    (hx : ∀ i ∈ xs, i.1.kind ≠ .main) : eventsFrom rule h xs = [] := by
  simp [eventsFrom, recs_no_main rule h xs hx]

end Spec

namespace Pass

theorem runFrom_cons (p : Pass) (st : p.σ) (x : Item) (xs : List Item) :
    p.runFrom st (x :: xs) = (p.step st x).2 ++ p.runFrom (p.step st x).1 xs := rfl
theorem runFrom_nil (p : Pass) (st : p.σ) : p.runFrom st [] = p.fin st := rfl

theorem runFrom_eq (p : Pass) (st : p.σ) (xs : List Item) :
    p.runFrom st xs = (p.feed st xs).2 ++ p.fin (p.feed st xs).1 := by
  induction xs generalizing st with
  | nil => simp [runFrom, feed]
  | cons x xs ih => simp [runFrom, feed, ih, List.append_assoc]

theorem feed_append (p : Pass) (st : p.σ) (xs ys : List Item) :
    p.feed st (xs ++ ys)
      = ((p.feed (p.feed st xs).1 ys).1, (p.feed st xs).2 ++ (p.feed (p.feed st xs).1 ys).2) := by
  induction xs generalizing st with
  | nil => simp [feed]
  | cons x xs ih => simp [feed, ih, List.append_assoc]

/-- Pushing items through nested stages one by one equals running the inner stage on the complete
output of the outer one. -/
theorem wrap_runFrom (p q : Pass) (a : p.σ) (b : q.σ) (xs : List Item) :
    (p.wrap q).runFrom (a, b) xs = q.runFrom b (p.runFrom a xs) := by
  induction xs generalizing a b with
  | nil => simp [runFrom, wrap, runFrom_eq]
  | cons x xs ih =>
    have hstep : (p.wrap q).step (a, b) x
      = (((p.step a x).1, (q.feed b (p.step a x).2).1), (q.feed b (p.step a x).2).2) := rfl
    simp only [runFrom, hstep]
    rw [show (p.wrap q).runFrom ((p.step a x).1, (q.feed b (p.step a x).2).1) xs = _ from ih _ _]
    simp [runFrom_eq, feed_append, List.append_assoc]

theorem wrap_run (p q : Pass) (xs : List Item) : (p.wrap q).run xs = q.run (p.run xs) :=
  wrap_runFrom p q _ _ xs

@[simp] theorem sink_run (xs : List Item) : sink.run xs = xs := by
  have : ∀ st xs, sink.runFrom st xs = xs := by
    intro st xs
    induction xs generalizing st with
    | nil => rfl
    | cons x xs ih => show [x] ++ _ = _; rw [ih]; rfl
  exact this _ _

end Pass

/-- Items of a stream as the host sees them. -/
def keys (xs : List Item) : List SItem := xs.map Item.key

@[simp] theorem keys_nil : keys [] = [] := rfl
@[simp] theorem keys_cons (x : Item) (xs : List Item) : keys (x :: xs) = x.key :: keys xs := rfl
@[simp] theorem keys_append (xs ys : List Item) : keys (xs ++ ys) = keys xs ++ keys ys := by
  simp [keys]
@[simp] theorem key_fst (i : Item) : i.key.1 = i.cls := rfl
@[simp] theorem key_snd (i : Item) : i.key.2 = i.ival := rfl

theorem mem_keys {k : SItem} {xs : List Item} : k ∈ keys xs ↔ ∃ i ∈ xs, i.key = k := by
  simp [keys]

end Hrdc
