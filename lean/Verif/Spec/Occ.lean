import Mathlib.Data.Finset.Sort
import Mathlib.Data.Nat.Bitwise
import Mathlib.Algebra.BigOperators.Group.Finset.Basic

/-!
# Specification of the occupation of a determinant

Independent of the model: a determinant is described by the finite set of occupied orbitals,
read off with the standard-library function `Nat.testBit`.
-/

namespace Fanpy.Spec

/-- The set of orbitals occupied in a determinant. -/
def occSet (sd : ℕ) : Finset ℕ := (Finset.range sd).filter (fun i => sd.testBit i)

theorem mem_occSet {sd i : ℕ} : i ∈ occSet sd ↔ sd.testBit i = true := by
  simp only [occSet, Finset.mem_filter, Finset.mem_range, and_iff_right_iff_imp]
  intro h
  exact lt_of_lt_of_le Nat.lt_two_pow_self (Nat.ge_two_pow_of_testBit h)

theorem occSet_injective : Function.Injective occSet := by
  intro a b h
  apply Nat.eq_of_testBit_eq
  intro i
  have := congrArg (fun s => i ∈ s) h
  simp only [mem_occSet, eq_iff_iff] at this
  cases ha : a.testBit i <;> cases hb : b.testBit i <;> simp_all

@[simp] theorem occSet_inj {a b : ℕ} : occSet a = occSet b ↔ a = b := occSet_injective.eq_iff

/-- The determinant whose occupied orbitals are the elements of `s`. -/
def sdOf (s : Finset ℕ) : ℕ := ∑ i ∈ s, 2 ^ i

end Fanpy.Spec
