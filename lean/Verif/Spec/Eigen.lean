import Mathlib.Analysis.Matrix.Spectrum
import Mathlib.Data.Real.Basic

/-! # What `scipy.linalg.eigh(a, lower=False)` promises -/

namespace Fanpy.Spec

/-- the symmetric matrix with the upper triangle of `A` -/
def upperSym (A : ℕ → ℕ → ℝ) (i j : ℕ) : ℝ := A (min i j) (max i j)

/-- eigenvalues in increasing order and orthonormal eigenvectors of the symmetric matrix with the given upper triangle -/
structure IsEigh (eigh : ℕ → (ℕ → ℕ → ℝ) → (ℕ → ℝ) × (ℕ → ℕ → ℝ)) : Prop where
  eigen : ∀ n A, ∀ i < n, ∀ k < n, ∑ j ∈ Finset.range n, upperSym A i j * (eigh n A).2 j k = (eigh n A).1 k * (eigh n A).2 i k
  orthonormal : ∀ n A, ∀ k < n, ∀ l < n, ∑ i ∈ Finset.range n, (eigh n A).2 i k * (eigh n A).2 i l = if k = l then 1 else 0
  sorted : ∀ n A, ∀ k < n, (eigh n A).1 0 ≤ (eigh n A).1 k

/-- there is such a function -/
theorem exists_isEigh : ∃ eigh, IsEigh eigh := by
  have key : ∀ (n : ℕ) (A : ℕ → ℕ → ℝ), ∃ o : (ℕ → ℝ) × (ℕ → ℕ → ℝ),
      (∀ i < n, ∀ k < n, ∑ j ∈ Finset.range n, upperSym A i j * o.2 j k = o.1 k * o.2 i k) ∧
      (∀ k < n, ∀ l < n, ∑ i ∈ Finset.range n, o.2 i k * o.2 i l = if k = l then 1 else 0) ∧ ∀ k < n, o.1 0 ≤ o.1 k := by
    intro n A
    let M : Matrix (Fin n) (Fin n) ℝ := fun i j => upperSym A i j
    have hM : M.IsHermitian := by
      ext i j
      rw [Matrix.conjTranspose_apply, star_trivial]
      change upperSym A j i = upperSym A i j
      rw [upperSym, upperSym, min_comm, max_comm]
    let σ := Tuple.sort hM.eigenvalues
    have hσ := Tuple.monotone_sort hM.eigenvalues
    refine ⟨(fun k => if h : k < n then hM.eigenvalues (σ ⟨k, h⟩) else 0,
      fun i k => if h : i < n ∧ k < n then hM.eigenvectorBasis (σ ⟨k, h.2⟩) ⟨i, h.1⟩ else 0), ?_, ?_, ?_⟩
    · intro i hi k hk
      have h1 := congrFun (hM.mulVec_eigenvectorBasis (σ ⟨k, hk⟩)) ⟨i, hi⟩
      simp only [Matrix.mulVec, dotProduct, Pi.smul_apply, smul_eq_mul] at h1
      rw [Finset.sum_range]
      simp only [Fin.is_lt, hk, hi, and_self, dite_true]
      exact h1
    · intro k hk l hl
      have h1 := (orthonormal_iff_ite.1 hM.eigenvectorBasis.orthonormal) (σ ⟨l, hl⟩) (σ ⟨k, hk⟩)
      rw [PiLp.inner_apply] at h1
      rw [Finset.sum_range]
      simp only [Fin.is_lt, hk, hl, and_self, dite_true]
      simp only [EmbeddingLike.apply_eq_iff_eq, Fin.mk.injEq] at h1
      have e : (if k = l then (1 : ℝ) else 0) = if l = k then 1 else 0 := by simp only [eq_comm]
      rw [e, ← h1]
      rfl
    · intro k hk
      simp only [hk, Nat.zero_lt_of_lt hk, dite_true]
      exact hσ (by simp [Fin.le_def] : (⟨0, Nat.zero_lt_of_lt hk⟩ : Fin n) ≤ ⟨k, hk⟩)
  choose f hf using key
  exact ⟨f, fun n A => (hf n A).1, fun n A => (hf n A).2.1, fun n A => (hf n A).2.2⟩

end Fanpy.Spec
