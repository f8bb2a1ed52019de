import Mathlib.Analysis.Matrix.Spectrum
import Mathlib.Analysis.InnerProductSpace.PiL2
import Mathlib.Data.Fin.Tuple.Sort
import Mathlib.LinearAlgebra.Matrix.NonsingularInverse

/-! Every real matrix has a singular value decomposition -/

namespace Fanpy.SvdExists
open Matrix

/-- the rectangular diagonal matrix -/
def diagRect (k m : ℕ) (s : ℕ → ℝ) : Matrix (Fin k) (Fin m) ℝ := fun i j => if (i : ℕ) = j then s i else 0

/-- a real symmetric matrix is diagonal in an orthonormal basis, with decreasing values -/
theorem eigen (k : ℕ) (H : Matrix (Fin k) (Fin k) ℝ) (hH : H.IsHermitian) :
    ∃ (U : Matrix (Fin k) (Fin k) ℝ) (mu : Fin k → ℝ), Uᵀ * U = 1 ∧ Uᵀ * H * U = Matrix.diagonal mu ∧ Antitone mu := by
  set lam := hH.eigenvalues with hlam
  set U0 : Matrix (Fin k) (Fin k) ℝ := (hH.eigenvectorUnitary).1 with hU0
  have h1 : U0ᵀ * U0 = 1 := by
    have := (Matrix.mem_unitaryGroup_iff' (A := U0)).1 hH.eigenvectorUnitary.2
    simpa [Matrix.star_eq_conjTranspose, Matrix.conjTranspose_eq_transpose_of_trivial] using this
  have h2 : U0ᵀ * H * U0 = Matrix.diagonal lam := by
    have h := hH.spectral_theorem
    have h' : H = U0 * Matrix.diagonal lam * U0ᵀ := by
      conv_lhs => rw [h]
      simp [Unitary.conjStarAlgAut_apply, Matrix.star_eq_conjTranspose, Matrix.conjTranspose_eq_transpose_of_trivial, hU0, hlam]
    calc U0ᵀ * H * U0 = U0ᵀ * (U0 * Matrix.diagonal lam * U0ᵀ) * U0 := by rw [← h']
      _ = (U0ᵀ * U0) * Matrix.diagonal lam * (U0ᵀ * U0) := by simp only [Matrix.mul_assoc]
      _ = Matrix.diagonal lam := by rw [h1]; simp
  set p := Tuple.sort (fun i => - lam i) with hp
  refine ⟨U0.submatrix id p, lam ∘ p, ?_, ?_, ?_⟩
  · ext i j
    have : ((U0.submatrix id p)ᵀ * (U0.submatrix id p)) i j = (U0ᵀ * U0) (p i) (p j) := by
      simp [Matrix.mul_apply, Matrix.submatrix_apply]
    rw [this, h1]
    simp [Matrix.one_apply]
  · ext i j
    have : ((U0.submatrix id p)ᵀ * H * (U0.submatrix id p)) i j = (U0ᵀ * H * U0) (p i) (p j) := by
      simp [Matrix.mul_apply, Matrix.submatrix_apply]
    rw [this, h2]
    simp [Matrix.diagonal_apply]
  · have := Tuple.monotone_sort (fun i => - lam i)
    intro i j hij
    have := this hij
    simpa using this

/-- the singular value decomposition -/
theorem exists_svd {k m : ℕ} (S : Matrix (Fin k) (Fin m) ℝ) :
    ∃ (U : Matrix (Fin k) (Fin k) ℝ) (V : Matrix (Fin m) (Fin m) ℝ) (s : ℕ → ℝ), Uᵀ * U = 1 ∧ Vᵀ * V = 1 ∧
      (∀ i, 0 ≤ s i) ∧ (∀ i j, i ≤ j → j < k → s j ≤ s i) ∧ S = U * diagRect k m s * V := by
  obtain ⟨U, mu, hU, hd, hanti⟩ := eigen k (S * Sᵀ) (by
    rw [Matrix.IsHermitian, Matrix.conjTranspose_eq_transpose_of_trivial, Matrix.transpose_mul, Matrix.transpose_transpose])
  set W := Uᵀ * S with hW
  have hWW : ∀ i j, W i ⬝ᵥ W j = if i = j then mu i else 0 := by
    intro i j
    have : W * Wᵀ = Matrix.diagonal mu := by
      rw [← hd, hW, Matrix.transpose_mul, Matrix.transpose_transpose]
      simp only [Matrix.mul_assoc]
    have := congrFun (congrFun this i) j
    rw [Matrix.diagonal_apply] at this
    rw [← this]
    rfl
  have hmu : ∀ i, 0 ≤ mu i := by
    intro i
    have h1 := hWW i i
    rw [if_pos rfl] at h1
    rw [← h1]
    exact Finset.sum_nonneg fun x _ => mul_self_nonneg _
  have hW0 : ∀ i, mu i = 0 → W i = 0 := by
    intro i hi
    have h1 := hWW i i
    rw [if_pos rfl, hi] at h1
    exact dotProduct_self_eq_zero.1 h1
  -- the rows of `W` with nonzero norm are fewer than `m`
  let e : Fin k → EuclideanSpace ℝ (Fin m) := fun i => WithLp.toLp 2 ((Real.sqrt (mu i))⁻¹ • W i)
  have he : ∀ i j, inner ℝ (e i) (e j) = (Real.sqrt (mu i))⁻¹ * (Real.sqrt (mu j))⁻¹ * (if i = j then mu i else 0) := by
    intro i j
    rw [← hWW i j]
    simp only [e, EuclideanSpace.inner_eq_star_dotProduct, star_trivial]
    rw [dotProduct_comm]
    simp only [smul_dotProduct, dotProduct_smul, smul_eq_mul]
    ring
  have horth : Orthonormal ℝ (fun i : {i : Fin k // mu i ≠ 0} => e i) := by
    rw [orthonormal_iff_ite]
    intro i j
    rw [he]
    by_cases h : i = j
    · subst h
      rw [if_pos rfl, if_pos rfl]
      have hs : Real.sqrt (mu i.1) ≠ 0 := by
        rw [Real.sqrt_ne_zero (hmu _)]; exact i.2
      have h2 := Real.mul_self_sqrt (hmu i.1)
      field_simp
      rw [pow_two, h2]
    · rw [if_neg h, if_neg (fun h' => h (Subtype.ext h')), mul_zero]
  have hlt : ∀ i : Fin k, mu i ≠ 0 → (i : ℕ) < m := by
    intro i hi
    by_contra hc
    have hmk : m + 1 ≤ k := by have := i.2; omega
    let f : Fin (m + 1) → {i : Fin k // mu i ≠ 0} := fun j => ⟨⟨j, by omega⟩, by
      have h1 := hanti (show (⟨j, by omega⟩ : Fin k) ≤ i from by rw [Fin.le_def]; simp only; omega)
      have h2 := (hmu i).lt_of_ne' hi
      exact ne_of_gt (lt_of_lt_of_le h2 h1)⟩
    have hf : Function.Injective f := by
      intro a b hab
      have := congrArg (fun x => (x.1 : ℕ)) hab
      exact Fin.ext this
    have := (horth.comp f hf).linearIndependent.fintype_card_le_finrank
    simp at this
  -- complete them to a basis
  let v : Fin m → EuclideanSpace ℝ (Fin m) := fun j => if h : (j : ℕ) < k then e ⟨j, h⟩ else 0
  let s : Set (Fin m) := {j | ∃ h : (j : ℕ) < k, mu ⟨j, h⟩ ≠ 0}
  have hv : Orthonormal ℝ (s.domRestrict v) := by
    have : s.domRestrict v = (fun i : {i : Fin k // mu i ≠ 0} => e i) ∘
        (fun j : s => (⟨⟨j.1, j.2.choose⟩, j.2.choose_spec⟩ : {i : Fin k // mu i ≠ 0})) := by
      funext j
      simp only [Set.domRestrict_apply, Function.comp, v]
      rw [dif_pos j.2.choose]
    rw [this]
    refine horth.comp _ ?_
    intro a b hab
    have := congrArg (fun x => (x.1 : ℕ)) hab
    exact Subtype.ext (Fin.ext this)
  obtain ⟨b, hb⟩ := hv.exists_orthonormalBasis_extension_of_card_eq (by simp)
  let V : Matrix (Fin m) (Fin m) ℝ := fun j x => b j x
  have hVV : V * Vᵀ = 1 := by
    ext i j
    have := (orthonormal_iff_ite.1 b.orthonormal) i j
    rw [EuclideanSpace.inner_eq_star_dotProduct, star_trivial, dotProduct_comm] at this
    rw [Matrix.one_apply, ← this]
    rfl
  refine ⟨U, V, fun i => if h : i < k then Real.sqrt (mu ⟨i, h⟩) else 0, hU, mul_eq_one_comm.1 hVV, ?_, ?_, ?_⟩
  · intro i
    dsimp only
    split
    · exact Real.sqrt_nonneg _
    · exact le_refl _
  · intro i j hij hj
    dsimp only
    rw [dif_pos hj, dif_pos (by omega)]
    exact Real.sqrt_le_sqrt (hanti (by rw [Fin.le_def]; exact hij))
  · have hUU : U * Uᵀ = 1 := mul_eq_one_comm.1 hU
    have key : W = diagRect k m (fun i => if h : i < k then Real.sqrt (mu ⟨i, h⟩) else 0) * V := by
      ext i x
      rw [Matrix.mul_apply]
      simp only [diagRect, i.2, dif_pos, Fin.eta]
      by_cases hi : mu i = 0
      · rw [hW0 i hi, hi]
        simp
      · have him := hlt i hi
        rw [Finset.sum_eq_single (⟨i, him⟩ : Fin m)]
        · rw [if_pos rfl]
          have hm : (⟨i, him⟩ : Fin m) ∈ s := ⟨i.2, hi⟩
          have hV : V ⟨i, him⟩ x = (Real.sqrt (mu i))⁻¹ * W i x := by
            show (b ⟨i, him⟩) x = _
            rw [hb _ hm]
            simp only [v, i.2, dif_pos, Fin.eta, e]
            rfl
          rw [hV, ← mul_assoc, mul_inv_cancel₀, one_mul]
          rw [Real.sqrt_ne_zero (hmu _)]
          exact hi
        · intro y _ hy
          rw [if_neg, zero_mul]
          intro h
          exact hy (Fin.ext h.symm)
        · intro h
          exact absurd (Finset.mem_univ _) h
    calc S = U * Uᵀ * S := by rw [hUU, Matrix.one_mul]
      _ = U * W := by rw [hW, Matrix.mul_assoc]
      _ = _ := by rw [key, Matrix.mul_assoc]

end Fanpy.SvdExists
