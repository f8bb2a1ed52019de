import Verif.Model.Rotation
import Mathlib.Tactic.Linarith
import Mathlib.Tactic.Ring
import Mathlib.Data.List.Range
import Mathlib.Data.Set.Function
import Mathlib.Algebra.Order.Ring.Int
import Mathlib.Algebra.Order.BigOperators.Group.Finset

/-!
# C30: orbital rotation parameter index and (row, column) pair
-/

namespace Fanpy.Props
open Fanpy.Ham

/-- position of the pair `(x, y)`, `x < y`, in the row-major enumeration of the upper triangle of an `n × n` matrix: the
pairs of the rows before, and those before in the row -/
def triuPos (n x y : ℕ) : ℤ := (∑ r ∈ Finset.range x, ((n : ℤ) - 1 - r)) + (y - x - 1)

theorem triu_rows (n x : ℕ) :
    ∑ r ∈ Finset.range x, ((n : ℤ) - 1 - r) = n * x - (x : ℤ) * (x + 1) / 2 := by
  have h : ∀ x : ℕ, 2 * ((x : ℤ) * (x + 1) / 2) = x * (x + 1) := by
    intro x
    obtain ⟨k, hk⟩ := Int.even_mul_succ_self (x : ℤ)
    rw [hk]; omega
  induction x with
  | zero => simp
  | succ x ih =>
    rw [Finset.sum_range_succ, ih]
    have h1 := h x
    have h2 := h (x + 1)
    push_cast at h2 ⊢
    nlinarith

theorem tri_two (x : ℤ) : 2 * ((x + 1) * (x + 2) / 2) = (x + 1) * (x + 2) := by
  obtain ⟨k, hk⟩ := Int.even_mul_succ_self (x + 1)
  have : (x + 1) * (x + 2) = (x + 1) * (x + 1 + 1) := by ring
  rw [this, hk]; omega

/-- the number of pairs of the rows up to and including `x` -/
theorem triu_rows' (n x : ℕ) :
    ∑ r ∈ Finset.range (x + 1), ((n : ℤ) - 1 - r) = n * ((x : ℤ) + 1) - ((x : ℤ) + 1) * (x + 2) / 2 := by
  rw [triu_rows]
  push_cast
  have : ((x : ℤ) + 1) * (x + 1 + 1) = (x + 1) * (x + 2) := by ring
  rw [this]

/-- C30. `param_ind_to_rowcol_ind` returns `(x, y)` for the position of `(x, y)` in the row-major enumeration of the upper
triangle. -/
theorem C30_position {n x y : ℕ} (hxy : x < y) (hyn : y < n) : rowColInd n (triuPos n x y) = .ok ((x : ℤ), (y : ℤ)) := by
  have hn : n ≠ 0 := by omega
  have mono : ∀ a b : ℕ, a ≤ b → b ≤ n → ∑ r ∈ Finset.range a, ((n : ℤ) - 1 - r) ≤ ∑ r ∈ Finset.range b, ((n : ℤ) - 1 - r) := by
    intro a b hab hb
    apply Finset.sum_le_sum_of_subset_of_nonneg
    · intro r hr; rw [Finset.mem_range] at *; omega
    · intro r hr _
      rw [Finset.mem_range] at hr
      omega
  have hfind : (List.range (n + 1)).find? (fun (k : ℕ) =>
      decide (triuPos n x y - n * ((k : ℤ) + 1) + ((k : ℤ) + 1) * ((k : ℤ) + 2) / 2 < 0)) = some x := by
    rw [List.find?_range_eq_some]
    refine ⟨?_, List.mem_range.2 (by omega), ?_⟩
    · have := triu_rows' n x
      rw [Finset.sum_range_succ] at this
      rw [decide_eq_true_eq]
      simp only [triuPos]
      linarith [show (y : ℤ) < n by exact_mod_cast hyn]
    · intro j hj
      have h1 := triu_rows' n j
      have h2 := mono (j + 1) x (by omega) (by omega)
      rw [Bool.not_eq_true', decide_eq_false_iff_not, not_lt]
      simp only [triuPos]
      have : (x : ℤ) < y := by exact_mod_cast hxy
      linarith
  unfold rowColInd
  rw [hfind, if_neg hn]
  simp only [Option.getD_some, Except.ok.injEq, Prod.mk.injEq, true_and]
  have e : triuPos n x y + ((x : ℤ) + 1) * (x + 2) / 2 = y + n * x := by
    have h1 := triu_rows n x
    have h2 := tri_two x
    have h3 : 2 * ((x : ℤ) * (x + 1) / 2) = x * (x + 1) := by
      obtain ⟨k, hk⟩ := Int.even_mul_succ_self (x : ℤ)
      rw [hk]; omega
    simp only [triuPos, h1]
    nlinarith
  rw [e, Int.add_mul_emod_self_left]
  exact Int.emod_eq_of_lt (by omega) (by omega)

/-- every index in range is the position of a pair -/
theorem C30_position_surjective {n : ℕ} {i : ℤ} (h0 : 0 ≤ i) (hi : i < n * (n - 1) / 2) :
    ∃ x y : ℕ, x < y ∧ y < n ∧ triuPos n x y = i := by
  have key : ∀ m : ℕ, m ≤ n → i < ∑ r ∈ Finset.range m, ((n : ℤ) - 1 - r) →
      ∃ x y : ℕ, x < y ∧ y < n ∧ triuPos n x y = i := by
    intro m
    induction m with
    | zero => intro _ h; simp at h; omega
    | succ m ih =>
      intro hm h
      by_cases hlt : i < ∑ r ∈ Finset.range m, ((n : ℤ) - 1 - r)
      · exact ih (by omega) hlt
      · rw [Finset.sum_range_succ] at h
        refine ⟨m, (i - ∑ r ∈ Finset.range m, ((n : ℤ) - 1 - r)).toNat + m + 1, by omega, by omega, ?_⟩
        simp only [triuPos]
        omega
  apply key n le_rfl
  have h2 : 2 * ((n : ℤ) * (n + 1) / 2) = n * (n + 1) := by
    obtain ⟨k, hk⟩ := Int.even_mul_succ_self (n : ℤ)
    rw [hk]; omega
  have h3 : 2 * ((n : ℤ) * (n - 1) / 2) = n * (n - 1) := by
    obtain ⟨k, hk⟩ := Int.even_mul_succ_self ((n : ℤ) - 1)
    have : (n : ℤ) * (n - 1) = (n - 1) * (n - 1 + 1) := by ring
    rw [this, hk]; omega
  rw [triu_rows]
  nlinarith

theorem C30_position_range {n x y : ℕ} (hxy : x < y) (hyn : y < n) :
    0 ≤ triuPos n x y ∧ triuPos n x y < n * (n - 1) / 2 := by
  have h1 := triu_rows n x
  have h3 : 2 * ((n : ℤ) * (n - 1) / 2) = n * (n - 1) := by
    obtain ⟨k, hk⟩ := Int.even_mul_succ_self ((n : ℤ) - 1)
    have : (n : ℤ) * (n - 1) = (n - 1) * (n - 1 + 1) := by ring
    rw [this, hk]; omega
  have h4 : 2 * ((x : ℤ) * (x + 1) / 2) = x * (x + 1) := by
    obtain ⟨k, hk⟩ := Int.even_mul_succ_self (x : ℤ)
    rw [hk]; omega
  have hx : (x : ℤ) + 1 ≤ y := by exact_mod_cast hxy
  have hy : (y : ℤ) + 1 ≤ n := by exact_mod_cast hyn
  have hx0 : (0 : ℤ) ≤ x := by positivity
  constructor
  · have : 0 ≤ ∑ r ∈ Finset.range x, ((n : ℤ) - 1 - r) := by
      apply Finset.sum_nonneg
      intro r hr
      rw [Finset.mem_range] at hr
      omega
    simp only [triuPos]
    omega
  · simp only [triuPos, h1]
    have hq : 0 ≤ ((n : ℤ) - 2 - x) * (n - 1 - x) := mul_nonneg (by omega) (by omega)
    nlinarith

/-- C30. `param_ind_to_rowcol_ind` is a bijection from `range(n (n-1) / 2)` to the pairs `0 ≤ row < col < n`. -/
theorem C30_bijection (n : ℕ) :
    Set.BijOn (fun i => rowColInd n i) {i : ℤ | 0 ≤ i ∧ i < n * (n - 1) / 2}
      {r | ∃ x y : ℕ, x < y ∧ y < n ∧ r = .ok ((x : ℤ), (y : ℤ))} := by
  refine ⟨?_, ?_, ?_⟩
  · rintro i ⟨h0, hi⟩
    obtain ⟨x, y, hxy, hyn, rfl⟩ := C30_position_surjective h0 hi
    exact ⟨x, y, hxy, hyn, C30_position hxy hyn⟩
  · rintro i ⟨h0, hi⟩ j ⟨h0', hj⟩ he
    obtain ⟨x, y, hxy, hyn, rfl⟩ := C30_position_surjective h0 hi
    obtain ⟨x', y', hxy', hyn', rfl⟩ := C30_position_surjective h0' hj
    simp only [C30_position hxy hyn, C30_position hxy' hyn', Except.ok.injEq, Prod.mk.injEq] at he
    have h1 : x = x' := by exact_mod_cast he.1
    have h2 : y = y' := by exact_mod_cast he.2
    rw [h1, h2]
  · rintro r ⟨x, y, hxy, hyn, rfl⟩
    exact ⟨triuPos n x y, C30_position_range hxy hyn, C30_position hxy hyn⟩

/-- C30. The enumeration is row-major: of two pairs the one in the smaller row, or in the same row with the smaller column,
has the smaller index. -/
theorem C30_row_major {n x y x' y' : ℕ} (_hxy : x < y) (hyn : y < n) (hxy' : x' < y') (hyn' : y' < n)
    (h : x < x' ∨ x = x' ∧ y < y') : triuPos n x y < triuPos n x' y' := by
  rcases h with h | ⟨rfl, h⟩
  · have hsub : ∑ r ∈ Finset.range (x + 1), ((n : ℤ) - 1 - r) ≤ ∑ r ∈ Finset.range x', ((n : ℤ) - 1 - r) := by
      apply Finset.sum_le_sum_of_subset_of_nonneg
      · intro r hr; rw [Finset.mem_range] at *; omega
      · intro r hr _
        rw [Finset.mem_range] at hr
        omega
    rw [Finset.sum_range_succ] at hsub
    simp only [triuPos]
    omega
  · simp only [triuPos]
    omega

/-- C30. Unrestricted orbitals: the first half of the parameters are the pairs of alpha orbitals, the second half those of
beta orbitals. -/
theorem C30_unrestricted {n x y : ℕ} (hxy : x < y) (hyn : y < n) :
    unrRowColInd n (triuPos n x y) = .ok (0, (x : ℤ), (y : ℤ)) ∧
      unrRowColInd n (n * (n - 1) / 2 + triuPos n x y) = .ok (1, (x : ℤ), (y : ℤ)) := by
  obtain ⟨h0, h1⟩ := C30_position_range hxy hyn
  unfold unrRowColInd
  constructor
  · simp only [h1, if_true, C30_position hxy hyn, Except.map]
  · rw [if_neg (by omega), add_sub_cancel_left, C30_position hxy hyn]
    rfl

/-- `param_ind_to_rowcol_ind` does not check its argument: an index one past the end gives a pair that is not in the upper
triangle (for 3 orbitals, index 3 gives row 3 and column 1), and so does `-1`.  The public entry points reject these with
a `ValueError` before calling it. -/
theorem C30_out_of_range : rowColInd 3 3 = .ok (3, 1) ∧ rowColInd 3 (-1) = .ok (0, 0) := by decide

/-- the first row of a matrix with four orbitals, and the last pair -/
example : rowColInd 4 0 = .ok (0, 1) ∧ rowColInd 4 2 = .ok (0, 3) ∧ rowColInd 4 3 = .ok (1, 2) ∧
    rowColInd 4 5 = .ok (2, 3) ∧ triuPos 4 2 3 = 5 := by decide

end Fanpy.Props
