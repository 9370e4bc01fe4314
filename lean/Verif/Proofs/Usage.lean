import Verif.Model.Usage
namespace Hrdc

theorem Registry.get_value {r : Registry} {v : Int} {u : UsageC} (h : r.get v = some u) :
    u.value = v := by
  have := List.find?_some h
  simpa using this

/-- `Usage.lookup` keeps the integer value. -/
theorem lookup_value (reg : Registry) (v : PyVal) : (Usage.lookup reg v).value = v.toInt := by
  unfold Usage.lookup
  repeat' split
  all_goals first | rfl | skip
  rename_i h
  simpa [PyVal.toInt] using Registry.get_value h

theorem page_toInt (no : Int) : (Usage.page no).toInt = no := rfl

theorem split_fst (u : UsageC) : (Usage.split u).1.toInt = u.value / 65536 := by
  unfold Usage.split; split <;> rfl

theorem split_snd (u : UsageC) : (Usage.split u).2.toInt = u.value % 65536 := by
  unfold Usage.split; split <;> rfl

theorem or_eq_add (p n : Nat) (hn : n < 65536) : (p <<< 16) ||| n = p * 65536 + n := by
  have := Nat.two_pow_add_eq_or_of_lt (i := 16) (b := n) (by simpa using hn) p
  rw [Nat.shiftLeft_eq, Nat.mul_comm, ← this]

theorem joinPage_eq {page no : Int} (hp : 0 ≤ page) (h0 : 0 ≤ no) (h1 : no < 65536) :
    Usage.joinPage page no = page * 65536 + no := by
  unfold Usage.joinPage
  rw [or_eq_add _ _ (by omega)]
  omega

theorem or_mod (p n : Nat) : ((p <<< 16) ||| n) % 65536 = n % 65536 := by
  apply Nat.eq_of_testBit_eq
  intro i
  have h : (65536 : Nat) = 2 ^ 16 := by decide
  rw [h]
  simp only [Nat.testBit_mod_two_pow, Nat.testBit_or, Nat.testBit_shiftLeft]
  by_cases hi : i < 16 <;> simp [hi]
  omega

theorem joinPage_mod {page no : Int} (h0 : 0 ≤ no) : Usage.joinPage page no % 65536 = no % 65536 := by
  unfold Usage.joinPage
  have := or_mod page.toNat no.toNat
  omega

theorem inpage_toInt (reg : Registry) (page no : Int) (h0 : 0 ≤ no) (h1 : no < 65536) :
    (Usage.inpage reg page no).toInt = no := by
  unfold Usage.inpage
  rw [split_snd, lookup_value]
  simp only [PyVal.toInt]
  rw [joinPage_mod h0]; omega

end Hrdc
