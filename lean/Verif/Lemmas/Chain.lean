import Mathlib.Data.Matrix.Mul
import Mathlib.Algebra.BigOperators.Ring.Finset
import Mathlib.Tactic.Ring

/-! # Products of a chain of matrices of varying dimensions -/

namespace Fanpy.Lemmas

open Finset

variable {R : Type*} [CommRing R]

/-- the entries of `A_a A_{a+1} ⋯ A_{a+m}`; `dim k` is the number of rows of `A_k` -/
def chain (dim : ℕ → ℕ) (A : ℕ → ℕ → ℕ → R) (a : ℕ) : ℕ → ℕ → ℕ → R
  | 0 => A a
  | m + 1 => fun i j => ∑ x ∈ range (dim (a + m + 1)), chain dim A a m i x * A (a + m + 1) x j

variable (dim : ℕ → ℕ)

theorem chain_split (A : ℕ → ℕ → ℕ → R) (a s t i j : ℕ) : chain dim A a (s + t + 1) i j =
    ∑ x ∈ range (dim (a + s + 1)), chain dim A a s i x * chain dim A (a + s + 1) t x j := by
  induction t generalizing j with
  | zero => rfl
  | succ t ih =>
    rw [show s + (t + 1) + 1 = (s + t + 1) + 1 by ring, chain]
    simp_rw [ih, sum_mul]
    rw [sum_comm]
    apply sum_congr rfl
    intro x _
    rw [chain, mul_sum, show a + (s + t + 1) + 1 = a + s + 1 + t + 1 by ring]
    apply sum_congr rfl
    intro y _
    ring

theorem chain_cons (A : ℕ → ℕ → ℕ → R) (a m : ℕ) : chain dim A a (m + 1) =
    fun i j => ∑ x ∈ range (dim (a + 1)), A a i x * chain dim A (a + 1) m x j := by
  funext i j
  have := chain_split dim A a 0 m i j
  rwa [zero_add] at this

theorem chain_congr {A B : ℕ → ℕ → ℕ → R} {a m : ℕ} (h : ∀ k, a ≤ k → k ≤ a + m → ∀ i < dim k, ∀ j < dim (k + 1),
    A k i j = B k i j) : ∀ i < dim a, ∀ j < dim (a + m + 1), chain dim A a m i j = chain dim B a m i j := by
  induction m with
  | zero => intro i hi j hj; exact h a le_rfl le_rfl i hi j hj
  | succ m ih =>
    intro i hi j hj
    rw [chain, chain]
    apply sum_congr rfl
    intro x hx
    rw [ih (fun k h1 h2 => h k h1 (by omega)) i hi x (mem_range.1 hx),
      h (a + m + 1) (by omega) (by omega) x (mem_range.1 hx) j hj]

/-- the row vector to the left of `A_k` -/
def leftVec (A : ℕ → ℕ → ℕ → R) : ℕ → ℕ → R
  | 0 => fun x => if x = 0 then 1 else 0
  | k + 1 => fun x => chain dim A 0 k 0 x

/-- the column vector to the right of `A_k`, for `K` matrices -/
def rightVec (A : ℕ → ℕ → ℕ → R) (K k : ℕ) : ℕ → R :=
  if k + 1 < K then fun y => chain dim A (k + 1) (K - k - 2) y 0 else fun y => if y = 0 then 1 else 0

theorem chain_at (A : ℕ → ℕ → ℕ → R) {K k : ℕ} (h0 : dim 0 = 1) (hK : dim K = 1) (hk : k < K) :
    chain dim A 0 (K - 1) 0 0 = ∑ x ∈ range (dim k), ∑ y ∈ range (dim (k + 1)),
      leftVec dim A k x * A k x y * rightVec dim A K k y := by
  have hr : ∀ x, chain dim A k (K - 1 - k) x 0 = ∑ y ∈ range (dim (k + 1)), A k x y * rightVec dim A K k y := by
    intro x
    rw [rightVec]
    split_ifs with h
    · rw [show K - 1 - k = (K - k - 2) + 1 by omega, chain_cons]
    · obtain rfl : K = k + 1 := by omega
      rw [hK, show k + 1 - 1 - k = 0 by omega]
      simp [chain]
  cases k with
  | zero =>
    rw [h0]
    simp only [leftVec, range_one, sum_singleton, if_true, one_mul]
    exact hr 0
  | succ k =>
    have := chain_split dim A 0 k (K - 1 - (k + 1)) 0 0
    rw [show k + (K - 1 - (k + 1)) + 1 = K - 1 by omega, zero_add] at this
    rw [this]
    apply sum_congr rfl
    intro x _
    rw [hr, mul_sum]
    apply sum_congr rfl
    intro y _
    rw [leftVec]
    ring

/-- adding `h` to the entry `(r, c)` of the matrix `A_k` -/
theorem chain_shift {A B : ℕ → ℕ → ℕ → R} {K k r c : ℕ} (h : R) (h0 : dim 0 = 1) (hK : dim K = 1) (hk : k < K)
    (hr : r < dim k) (hc : c < dim (k + 1)) (hB : ∀ k' < K, ∀ i < dim k', ∀ j < dim (k' + 1),
      B k' i j = A k' i j + if k' = k ∧ i = r ∧ j = c then h else 0) :
    chain dim B 0 (K - 1) 0 0 = chain dim A 0 (K - 1) 0 0 + h * (leftVec dim A k r * rightVec dim A K k c) := by
  have hl : ∀ x < dim k, leftVec dim B k x = leftVec dim A k x := by
    intro x hx
    cases k with
    | zero => rfl
    | succ k =>
      rw [leftVec, leftVec]
      refine chain_congr dim (fun k' _ h2 i hi j hj => ?_) 0 (by omega) x (by rwa [zero_add])
      rw [hB k' (by omega) i hi j hj, if_neg (by omega), add_zero]
  have hrt : ∀ y < dim (k + 1), rightVec dim B K k y = rightVec dim A K k y := by
    intro y hy
    rw [rightVec, rightVec]
    split_ifs with h1
    · refine chain_congr dim (fun k' h1 h2 i hi j hj => ?_) y hy 0
        (by rw [show k + 1 + (K - k - 2) + 1 = K by omega, hK]; omega)
      rw [hB k' (by omega) i hi j hj, if_neg (by omega), add_zero]
    · rfl
  rw [chain_at dim B h0 hK hk, chain_at dim A h0 hK hk]
  have : ∀ x ∈ range (dim k), ∀ y ∈ range (dim (k + 1)), leftVec dim B k x * B k x y * rightVec dim B K k y =
      leftVec dim A k x * A k x y * rightVec dim A K k y + if x = r then if y = c then
        h * (leftVec dim A k r * rightVec dim A K k c) else 0 else 0 := by
    intro x hx y hy
    rw [mem_range] at hx hy
    rw [hl x hx, hrt y hy, hB k hk x hx y hy]
    by_cases h1 : x = r
    · by_cases h2 : y = c
      · subst h1 h2; simp; ring
      · simp [h2]
    · simp [h1]
  rw [sum_congr rfl fun x hx => sum_congr rfl (this x hx)]
  simp only [sum_add_distrib]
  congr 1
  rw [sum_eq_single_of_mem r (mem_range.2 hr) (fun x _ hx => by simp [hx]), sum_eq_single_of_mem c (mem_range.2 hc)
    (fun x _ hx => by simp [hx])]
  simp

end Fanpy.Lemmas
