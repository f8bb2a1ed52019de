import Verif.Model.Localize
import Verif.Lemmas.SvdExists

/-! What is assumed of `np.linalg.svd`: the factors of a full singular value decomposition -/

namespace Fanpy.Spec
open Matrix Fanpy.Localize

/-- `svd` gives, of every real matrix, orthogonal factors and the decreasing nonnegative singular values between them -/
structure IsSvd (svd : Svd) : Prop where
  left_orth : ∀ {k m : ℕ} (x : Matrix (Fin k) (Fin m) ℝ), (svd.left x)ᵀ * svd.left x = 1
  right_orth : ∀ {k m : ℕ} (x : Matrix (Fin k) (Fin m) ℝ), (svd.right x)ᵀ * svd.right x = 1
  length : ∀ {k m : ℕ} (x : Matrix (Fin k) (Fin m) ℝ), (svd.sigma x).length = min k m
  nonneg : ∀ {k m : ℕ} (x : Matrix (Fin k) (Fin m) ℝ), ∀ a ∈ svd.sigma x, 0 ≤ a
  sorted : ∀ {k m : ℕ} (x : Matrix (Fin k) (Fin m) ℝ), (svd.sigma x).Pairwise (fun a b => b ≤ a)
  factor : ∀ {k m : ℕ} (x : Matrix (Fin k) (Fin m) ℝ),
    x = svd.left x * (Matrix.of fun (i : Fin k) (j : Fin m) => if (i : ℕ) = (j : ℕ) then (svd.sigma x).getD i 0 else 0) * svd.right x

/-- there is such a function -/
theorem exists_isSvd : ∃ svd : Svd, IsSvd svd := by
  classical
  choose U V s hU hV h0 hs hx using @SvdExists.exists_svd
  refine ⟨⟨@U, @V, fun {k m} x => (List.range (min k m)).map (s x)⟩, ?_, ?_, ?_, ?_, ?_, ?_⟩
  · intro k m x; exact hU x
  · intro k m x; exact hV x
  · intro k m x; simp
  · intro k m x a ha
    obtain ⟨i, _, rfl⟩ := List.mem_map.1 ha
    exact h0 x i
  · intro k m x
    rw [List.pairwise_map]
    refine List.Pairwise.imp_of_mem ?_ (List.pairwise_lt_range (n := min k m))
    intro a b _ hb hab
    exact hs x a b hab.le (by have := List.mem_range.1 hb; omega)
  · intro k m x
    conv_lhs => rw [hx x]
    congr 2
    ext i j
    simp only [SvdExists.diagRect, Matrix.of_apply]
    split
    · rename_i h
      have : (i : ℕ) < min k m := by have := i.2; have := j.2; omega
      simp [List.getD_eq_getElem?_getD, this]
    · rfl

end Fanpy.Spec
