import Mathlib.Analysis.Calculus.IteratedDeriv.Lemmas
import Mathlib.Analysis.Calculus.ContDiff.Operations
import Mathlib.Analysis.Calculus.Deriv.Prod
import Mathlib.Analysis.Calculus.ContDiff.Deriv
import Mathlib.Data.Nat.Choose.Cast
import Mathlib.Analysis.Calculus.FDeriv.Pi
import Mathlib.Tactic.FieldSimp
import Verif.Model.FANPT

/-!
# Derivatives of the projected equations along a curve
-/

namespace Fanpy.FANPT

open Finset Filter Topology

theorem iteratedDeriv_affine (a0 a1 l : ℝ) : ∀ i, iteratedDeriv i (fun t : ℝ => t * a1 + (1 - t) * a0) l
    = if i = 0 then l * a1 + (1 - l) * a0 else if i = 1 then a1 - a0 else 0 := by
  have h1 : deriv (fun t : ℝ => t * a1 + (1 - t) * a0) = fun _ => a1 - a0 := by
    funext t
    have h := ((hasDerivAt_id' t).mul_const a1).fun_add
      (((hasDerivAt_const t (1 : ℝ)).fun_sub (hasDerivAt_id' t)).mul_const a0)
    rw [h.deriv]
    ring
  intro i
  match i with
  | 0 => simp
  | 1 => rw [iteratedDeriv_one, h1]; simp
  | i + 2 =>
    rw [iteratedDeriv_succ', iteratedDeriv_succ', h1]
    simp

/-- `N`-th derivative of a function times an affine one -/
theorem iteratedDeriv_affine_mul (a0 a1 l : ℝ) (f : ℝ → ℝ) (N : ℕ) (hf : ContDiffAt ℝ (N + 1 : ℕ) f l) :
    iteratedDeriv (N + 1) (fun t : ℝ => (t * a1 + (1 - t) * a0) * f t) l
      = (l * a1 + (1 - l) * a0) * iteratedDeriv (N + 1) f l + (N + 1) * ((a1 - a0) * iteratedDeriv N f l) := by
  have ha : ContDiffAt ℝ (N + 1 : ℕ) (fun t : ℝ => t * a1 + (1 - t) * a0) l := by fun_prop
  rw [iteratedDeriv_fun_mul ha hf, sum_range_succ', sum_range_succ', sum_eq_zero, zero_add]
  · simp only [iteratedDeriv_affine]
    simp
    ring
  · intro i _
    rw [iteratedDeriv_affine]
    simp

/-- the `N`-th derivative of a projected equation along a curve -/
theorem iteratedDeriv_projected (nsd m : ℕ) (a1 a0 : ℕ → ℝ) (cn : ℕ → ℝ → ℝ) (E : ℝ → ℝ) (l : ℝ) (N : ℕ)
    (hc : ∀ n, ContDiffAt ℝ (N + 1 : ℕ) (cn n) l) (hE : ContDiffAt ℝ (N + 1 : ℕ) E l) :
    iteratedDeriv (N + 1) (fun t => ∑ n ∈ range nsd, (t * a1 n + (1 - t) * a0 n) * cn n t - E t * cn m t) l
      = ∑ n ∈ range nsd, (l * a1 n + (1 - l) * a0 n) * iteratedDeriv (N + 1) (cn n) l
        + (N + 1) * ∑ n ∈ range nsd, (a1 n - a0 n) * iteratedDeriv N (cn n) l
        - ∑ i ∈ range (N + 2), ((N + 1).choose i : ℝ) * iteratedDeriv i E l * iteratedDeriv (N + 1 - i) (cn m) l := by
  have h1 : ∀ n, ContDiffAt ℝ (N + 1 : ℕ) (fun t : ℝ => (t * a1 n + (1 - t) * a0 n) * cn n t) l := fun n =>
    ContDiffAt.mul (by fun_prop) (hc n)
  rw [iteratedDeriv_fun_sub (ContDiffAt.sum fun n _ => h1 n) (hE.mul (hc m)),
    iteratedDeriv_fun_sum fun n _ => h1 n, iteratedDeriv_fun_mul hE (hc m), mul_sum, ← sum_add_distrib]
  congr 1
  apply sum_congr rfl
  intro n _
  rw [iteratedDeriv_affine_mul _ _ _ _ _ (hc n)]

/-- the `N`-th derivative of an affine function of a curve -/
theorem iteratedDeriv_affine_curve {K : ℕ} (b : ℝ) (d : Fin K → ℝ) (p : ℝ → Fin K → ℝ) (l : ℝ) (N : ℕ)
    (hp : ∀ k, ContDiffAt ℝ (N + 1 : ℕ) (fun t => p t k) l) :
    iteratedDeriv (N + 1) (fun t => b + ∑ k, d k * p t k) l = ∑ k, d k * iteratedDeriv (N + 1) (fun t => p t k) l := by
  rw [iteratedDeriv_const_add (Nat.succ_pos N), iteratedDeriv_fun_sum fun k _ => contDiffAt_const.mul (hp k)]
  apply sum_congr rfl
  intro k _
  rw [iteratedDeriv_const_mul_field]

theorem contDiffAt_affine_curve {K : ℕ} (b : ℝ) (d : Fin K → ℝ) (p : ℝ → Fin K → ℝ) (l : ℝ) (N : ℕ)
    (hp : ∀ k, ContDiffAt ℝ N (fun t => p t k) l) :
    ContDiffAt ℝ N (fun t => b + ∑ k, d k * p t k) l :=
  contDiffAt_const.add (ContDiffAt.sum fun k _ => contDiffAt_const.mul (hp k))

/-- the binomial sum without its first and last term, as it is written in the code -/
theorem choose_eq_div (N o : ℕ) (ho : o ≤ N) :
    (N.choose o : ℝ) = (N.factorial : ℝ) / ((o.factorial : ℝ) * ((N - o).factorial : ℝ)) :=
  Nat.cast_choose ℝ ho

/-- a linear form on `Fin K → ℝ` in coordinates -/
theorem clm_sum {K : ℕ} (f : (Fin K → ℝ) →L[ℝ] ℝ) (v : Fin K → ℝ) : f v = ∑ k, f (Pi.single k 1) * v k := by
  conv_lhs => rw [← Finset.univ_sum_single v]
  rw [map_sum]
  apply sum_congr rfl
  intro k _
  have : (Pi.single k (v k) : Fin K → ℝ) = v k • Pi.single k 1 := by
    rw [← Pi.single_smul, smul_eq_mul, mul_one]
  rw [this, map_smul, smul_eq_mul, mul_comm]

/-- chain rule along a curve -/
theorem hasDerivAt_curve {K : ℕ} (f : (Fin K → ℝ) → ℝ) (p : ℝ → Fin K → ℝ) (l : ℝ) (hf : DifferentiableAt ℝ f (p l))
    (hp : ∀ k, DifferentiableAt ℝ (fun t => p t k) l) :
    HasDerivAt (fun t => f (p t)) (∑ k, fderiv ℝ f (p l) (Pi.single k 1) * deriv (fun t => p t k) l) l := by
  have h1 : HasDerivAt p (fun k => deriv (fun t => p t k) l) l := hasDerivAt_pi.mpr fun k => (hp k).hasDerivAt
  have h2 := hf.hasFDerivAt.comp_hasDerivAt l h1
  rw [clm_sum] at h2
  exact h2

/-- second derivative along a curve -/
theorem iteratedDeriv_two_curve {K : ℕ} (f : (Fin K → ℝ) → ℝ) (p : ℝ → Fin K → ℝ) (l : ℝ) (hf : ContDiff ℝ 2 f)
    (hp : ∀ k, ContDiffAt ℝ 2 (fun t => p t k) l) :
    iteratedDeriv 2 (fun t => f (p t)) l
      = ∑ k, fderiv ℝ f (p l) (Pi.single k 1) * iteratedDeriv 2 (fun t => p t k) l
        + ∑ k, ∑ j, fderiv ℝ (fun q => fderiv ℝ f q (Pi.single k 1)) (p l) (Pi.single j 1)
          * deriv (fun t => p t k) l * deriv (fun t => p t j) l := by
  have hev : ∀ᶠ t in 𝓝 l, ∀ k, DifferentiableAt ℝ (fun t => p t k) t := by
    rw [eventually_all]
    intro k
    filter_upwards [(hp k).eventually (by simp)] with t ht
    exact ht.differentiableAt (by simp)
  have hd1 : deriv (fun t => f (p t)) =ᶠ[𝓝 l]
      fun t => ∑ k, fderiv ℝ f (p t) (Pi.single k 1) * deriv (fun t => p t k) t := by
    filter_upwards [hev] with t ht
    exact (hasDerivAt_curve f p t (hf.differentiable (by simp)).differentiableAt ht).deriv
  have hpl := hev.self_of_nhds
  rw [show (2 : ℕ) = 1 + 1 from rfl, iteratedDeriv_succ, iteratedDeriv_one, hd1.deriv_eq]
  have hg : ∀ k : Fin K, ContDiff ℝ 1 fun q => fderiv ℝ f q (Pi.single k 1) := fun k =>
    (hf.fderiv_right (m := 1) (by norm_num)).clm_apply contDiff_const
  have h2 : ∀ k, HasDerivAt (fun t => fderiv ℝ f (p t) (Pi.single k 1) * deriv (fun t => p t k) t)
      ((∑ j, fderiv ℝ (fun q => fderiv ℝ f q (Pi.single k 1)) (p l) (Pi.single j 1) * deriv (fun t => p t j) l)
        * deriv (fun t => p t k) l
        + fderiv ℝ f (p l) (Pi.single k 1) * iteratedDeriv 2 (fun t => p t k) l) l := by
    intro k
    have e1 := hasDerivAt_curve _ p l ((hg k).differentiable (by simp)).differentiableAt hpl
    have e2 : HasDerivAt (deriv (fun t => p t k)) (iteratedDeriv 2 (fun t => p t k) l) l := by
      rw [show (2 : ℕ) = 1 + 1 from rfl, iteratedDeriv_succ, iteratedDeriv_one]
      have : ContDiffAt ℝ 1 (deriv fun t => p t k) l := by
        exact (hp k).derivWithin (by norm_num)
      exact (this.differentiableAt (by simp)).hasDerivAt
    exact e1.mul e2
  rw [(HasDerivAt.fun_sum fun k _ => h2 k).deriv, sum_add_distrib, add_comm]
  congr 1
  apply sum_congr rfl
  intro k _
  rw [sum_mul]
  apply sum_congr rfl
  intro j _
  ring

end Fanpy.FANPT
