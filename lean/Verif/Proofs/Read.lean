import Verif.Proofs.Dumper3
import Verif.Proofs.Stream
import Verif.Model.Formatter
/-!
# Items read from documents
-/
namespace Hrdc
open Spec

theorem parse_raw {reg : Registry} {b : List UInt8} {i : Item} (h : Item.parse reg b = .ok i) : RawItem reg i := by
  have key : ∀ c v, Item.new reg c (.int v) = .ok i → RawItem reg i := by
    intro c v h
    refine ⟨v, ?_⟩
    rw [(new_cls h).1]
    exact h
  unfold Item.parse at h
  split at h
  · simp at h
  · split at h
    · simp at h
    · simp only at h
      split at h
      · exact key _ _ h
      · split at h
        · exact key _ _ h
        · simp at h

theorem append_read {reg : Registry} {page p : Int} {i j : Item} (hm : i.Made) (hr : RawItem reg i)
    (h : Parser.append reg page i = .ok (p, j)) : ReadItem reg j := by
  obtain ⟨p', j', h1, -, h2⟩ := append_ok reg page hm
  rw [h] at h1
  simp only [Except.ok.injEq, Prod.mk.injEq] at h1
  obtain ⟨-, rfl⟩ := h1
  have hc : j.cls = i.cls := congrArg Prod.fst h2
  have hi : j.ival = i.ival := congrArg Prod.snd h2
  unfold Parser.append at h
  split at h
  · rename_i hp
    exact .inr (.inl (by rw [hc, hp]))
  all_goals first
    | (rename_i hp
       split at h
       · rename_i hlt
         exact .inr (.inr ⟨by rw [hc, hp]; rfl, by rw [hi]; exact hlt⟩)
       · simp only [Except.ok.injEq, Prod.mk.injEq] at h
         rw [← h.2]
         exact .inl hr)
    | (simp only [Except.ok.injEq, Prod.mk.injEq] at h
       rw [← h.2]
       exact .inl hr)

theorem blob_read (reg : Registry) (page : Int) (b : List UInt8) :
    ∀ i ∈ (Parser.blobLoop reg page b).1, ReadItem reg i ∧ i.Made := by
  induction hn : b.length using Nat.strongRecOn generalizing b page with
  | _ n ih =>
    subst hn
    unfold Parser.blobLoop
    split
    · simp
    · rename_i h t
      split
      · simp
      · rename_i page' i hi
        intro j hj
        simp only [List.mem_cons] at hj
        rcases hj with rfl | hj
        · unfold Parser.itemParse at hi
          split at hi
          · rename_i k hk
            have hraw := parse_raw hk
            obtain ⟨v, hv⟩ := hraw
            have hm : k.Made := made_of_new hv
            refine ⟨append_read hm ⟨v, hv⟩ hi, ?_⟩
            obtain ⟨p', j', h1, h2, -⟩ := append_ok reg page hm
            rw [hi] at h1
            simp only [Except.ok.injEq, Prod.mk.injEq] at h1
            rw [h1.2]
            exact h2
          · simp at hi
        · refine ih _ ?_ page' _ rfl j hj
          have : 0 < Parser.sliceLen h := by
            unfold Parser.sliceLen
            simp only
            split
            · exact Nat.succ_pos _
            · omega
          simp only [List.length_drop, List.length_cons]
          omega

/-- The loop of `blobParse`, on a number of items. -/
def blobSteps (reg : Registry) : Nat → Int → List UInt8 → List Item × Option PyErr
  | 0, _, _ => ([], none)
  | _ + 1, _, [] => ([], none)
  | k + 1, page, h :: t =>
    match Parser.itemParse reg page ((h :: t).take (Parser.sliceLen h)) with
    | .error e => ([], some e)
    | .ok (page', i) =>
      let r := blobSteps reg k page' ((h :: t).drop (Parser.sliceLen h))
      (i :: r.1, r.2)

theorem blobSteps_eq (reg : Registry) : ∀ (k : Nat) (page : Int) (b : List UInt8), b.length ≤ k →
    Parser.blobLoop reg page b = blobSteps reg k page b
  | 0, page, b, h => by
    cases b with
    | nil => rw [Parser.blobLoop, blobSteps]
    | cons x t => simp at h
  | k + 1, page, [], _ => by rw [Parser.blobLoop, blobSteps]
  | k + 1, page, x :: t, h => by
    rw [Parser.blobLoop, blobSteps]
    cases Parser.itemParse reg page ((x :: t).take (Parser.sliceLen x)) with
    | error e => rfl
    | ok p =>
      have : 0 < Parser.sliceLen x := by
        unfold Parser.sliceLen
        simp only
        split
        · exact Nat.succ_pos _
        · omega
      simp only [List.length_cons] at h
      simp only
      rw [blobSteps_eq reg k p.1 ((x :: t).drop (Parser.sliceLen x))
        (by simp only [List.length_drop, List.length_cons]; omega)]

/-- Items a reader delivers. -/
theorem deliver_read (f : Formatter.Fmt) (reg : Registry) (uni : Parser.Uni) (d : Formatter.Doc) :
    ∀ i ∈ (Formatter.deliver f reg uni d).1, ReadItem reg i ∧ i.Made := by
  unfold Formatter.deliver
  split
  · exact blob_read reg 0 _
  · simp
  · exact blob_read reg 0 _
  · split
    · exact blob_read reg 0 _
    · simp
  · simp

end Hrdc
