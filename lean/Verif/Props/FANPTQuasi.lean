import Verif.Props.FANPT

/-!
# C82: the terms of `quasi_approximation_order = 3`
-/

namespace Fanpy.Props

open Fanpy.FANPT Finset Filter Topology

/-- second partial derivatives commute -/
theorem second_symm {K : ℕ} (f : (Fin K → ℝ) → ℝ) (hf : ContDiff ℝ 2 f) (q : Fin K → ℝ) (u v : Fin K → ℝ) :
    fderiv ℝ (fun q => fderiv ℝ f q u) q v = fderiv ℝ (fun q => fderiv ℝ f q v) q u := by
  have hd : DifferentiableAt ℝ (fderiv ℝ f) q :=
    ((hf.fderiv_right (m := 1) (by norm_num)).differentiable (by simp)).differentiableAt
  have e : ∀ u v, fderiv ℝ (fun q => fderiv ℝ f q u) q v = fderiv ℝ (fderiv ℝ f) q v u := by
    intro u v
    rw [fderiv_clm_apply hd (differentiableAt_const u)]
    simp
  rw [e, e]
  exact (hf.contDiffAt.isSymmSndFDerivAt (by simp)).eq v u

section
variable {K : ℕ} {P : Problem K} {c : Container ℝ} {q : Fin K → ℝ}

theorem minmax (hdd : ∀ n (k j : Fin K), c.ddOvlp n k j
      = fderiv ℝ (fun q => fderiv ℝ (P.ov n) q (Pi.single k 1)) q (Pi.single j 1))
    (hov : ∀ n, ContDiff ℝ 2 (P.ov n)) (n : ℕ) (k j : Fin K) :
    c.ddOvlp n (min (k : ℕ) j) (max (k : ℕ) j) = c.ddOvlp n k j := by
  rcases le_total (k : ℕ) j with h | h
  · rw [min_eq_left h, max_eq_right h]
  · rw [min_eq_right h, max_eq_left h, hdd, hdd, second_symm _ (hov n)]

end

/-- **C82.**  With `quasi_approximation_order = 3` and twice differentiable overlaps, the second
derivatives of an exact solution solve the rows of the projected equations, and those of affine
constraints, of the linear system of order 2. -/
theorem C82_second_partial {K : ℕ} (P : Problem K) (c : Container ℝ) (p : ℝ → Fin K → ℝ) (E : ℝ → ℝ)
    (D : Describes P c (p c.l)) (hE0 : E c.l = c.energy) (hov : ∀ n, ContDiff ℝ 2 (P.ov n))
    (hdd : ∀ n (k j : Fin K), c.ddOvlp n k j
      = fderiv ℝ (fun q => fderiv ℝ (P.ov n) q (Pi.single k 1)) (p c.l) (Pi.single j 1))
    (hp : ∀ k, ContDiffAt ℝ 2 (fun t => p t k) c.l) (hE : ContDiffAt ℝ 2 E c.l)
    (m : ℕ) (hm : m < P.nequation)
    (hrow : m < P.nproj ∨ ∃ (v : ℝ) (w : Fin K → ℝ), ∀ q, P.con m q = v + ∑ k, w k * q k)
    (hsol : ∀ᶠ t in 𝓝 c.l, P.G m t (p t) (E t) = 0) :
    (∑ k : Fin K, c.jac m k * iteratedDeriv 2 (fun t => p t k) c.l) + c.jac m K * iteratedDeriv 2 E c.l
      = constantTerms c false 2 3 (derivs p E c.l) m := by
  have hz := Filter.EventuallyEq.iteratedDeriv_eq 2 (g := fun _ => (0 : ℝ)) hsol
  simp only [iteratedDeriv_fun_const_zero] at hz
  have hovd : ∀ n, DifferentiableAt ℝ (P.ov n) (p c.l) := fun n =>
    ((hov n).differentiable (by simp)).differentiableAt
  have hpd : ∀ k, DifferentiableAt ℝ (fun t => p t k) c.l := fun k => (hp k).differentiableAt (by simp)
  by_cases h : m < P.nproj
  · have hcd : ∀ n, ContDiffAt ℝ (1 + 1 : ℕ) (fun t => P.ov n (p t)) c.l := fun n =>
      (hov n).contDiffAt.comp c.l (contDiffAt_pi.mpr hp)
    have e1 : (fun t => P.G m t (p t) (E t)) = fun t =>
        ∑ n ∈ range P.nsd, (t * P.a1 m n + (1 - t) * P.a0 m n) * P.ov n (p t) - E t * P.ov m (p t) := by
      funext t
      simp only [Problem.G, if_pos h]
    rw [e1, show (2 : ℕ) = 1 + 1 from rfl,
      iteratedDeriv_projected P.nsd m (P.a1 m) (P.a0 m) (fun n t => P.ov n (p t)) E c.l 1 hcd hE] at hz
    have hd1 : ∀ n, deriv (fun t => P.ov n (p t)) c.l = ∑ k : Fin K, c.dOvlp n k * deriv (fun t => p t k) c.l := by
      intro n
      simp only [D.dOvlp]
      exact (hasDerivAt_curve _ _ _ (hovd n) hpd).deriv
    have hd2 : ∀ n, iteratedDeriv (1 + 1) (fun t => P.ov n (p t)) c.l
        = ∑ k : Fin K, c.dOvlp n k * iteratedDeriv (1 + 1) (fun t => p t k) c.l
          + ∑ k : Fin K, ∑ j : Fin K, c.ddOvlp n k j * deriv (fun t => p t k) c.l * deriv (fun t => p t j) c.l := by
      intro n
      simp only [D.dOvlp, hdd]
      exact iteratedDeriv_two_curve (P.ov n) p c.l (hov n) hp
    simp only [← D.ham, ← D.fpot, iteratedDeriv_one, hd2, hd1] at hz
    rw [sum_range_succ, sum_range_succ, sum_range_succ, sum_range_zero] at hz
    simp only [Nat.sub_zero, Nat.sub_self, iteratedDeriv_zero, Nat.choose_zero_right, Nat.choose_self,
      Nat.choose_one_right, Nat.add_sub_cancel, iteratedDeriv_one, hE0, hd1, hd2, mul_add, sum_add_distrib] at hz
    rw [sum_op D c.ham m (fun n k => c.dOvlp n k), sum_op D c.fpot m (fun n k => c.dOvlp n k)] at hz
    have e3 : ∑ n ∈ range P.nsd, c.ham m n * ∑ k : Fin K, ∑ j : Fin K,
          c.ddOvlp n k j * deriv (fun t => p t k) c.l * deriv (fun t => p t j) c.l
        = ∑ k : Fin K, ∑ j : Fin K, (∑ n ∈ range c.nsd, c.ham m n * c.ddOvlp n k j)
          * deriv (fun t => p t k) c.l * deriv (fun t => p t j) c.l := by
      rw [D.nsd]
      simp only [mul_sum, sum_mul]
      rw [sum_comm]
      apply sum_congr rfl; intro k _
      rw [sum_comm]
      apply sum_congr rfl; intro j _
      apply sum_congr rfl; intro n _
      ring
    rw [e3] at hz
    have hK := fun f : ℕ → ℝ => sum_range (n := K) f
    have hmm := fun n k j => minmax (P := P) hdd hov n k j
    rw [jac_energy D h hm]
    simp only [jac_proj D hovd h hm]
    simp only [constantTerms, arrays, show ¬ (2 = 1) by omega, D.active, if_true, Bool.false_eq_true, if_false,
      D.ncol, hK, der2GLambda, der2GE, D.nproj, if_pos h, rVector, derivs_fin, derivs_energy, applyOp, einsum,
      der2G, hmm, show Ico 1 2 = {1} from rfl, sum_singleton, Nat.sub_self, zero_add, iteratedDeriv_one,
      show 2 - 1 - 1 + 1 = 1 from rfl]
    simp only [D.nsd] at hz ⊢
    have e4 : ∑ x : Fin K, ∑ j : Fin K, (∑ i ∈ range P.nsd, c.ham m i * c.ddOvlp i x j - c.energy * c.ddOvlp m x j)
          * deriv (fun t => p t x) c.l * deriv (fun t => p t j) c.l
        = ∑ x : Fin K, ∑ j : Fin K, (∑ i ∈ range P.nsd, c.ham m i * c.ddOvlp i x j)
            * deriv (fun t => p t x) c.l * deriv (fun t => p t j) c.l
          - c.energy * ∑ x : Fin K, ∑ j : Fin K, c.ddOvlp m x j
            * deriv (fun t => p t x) c.l * deriv (fun t => p t j) c.l := by
      simp only [sub_mul, sum_sub_distrib, mul_sum, mul_assoc]
    rw [e4]
    have e5 : ∑ x : Fin K, -c.dOvlp m x * (((Nat.factorial 2 : ℕ) : ℝ) / (((Nat.factorial 1 : ℕ) : ℝ)
          * ((Nat.factorial (2 - 1) : ℕ) : ℝ)) * deriv E c.l * deriv (fun t => p t x) c.l)
        = -2 * deriv E c.l * ∑ x : Fin K, c.dOvlp m x * deriv (fun t => p t x) c.l := by
      rw [mul_sum]
      apply sum_congr rfl; intro k _
      norm_num [Nat.factorial]
      ring
    rw [e5]
    simp only [sub_mul, sum_sub_distrib, mul_assoc, ← mul_sum] at hz ⊢
    push_cast at hz ⊢
    linarith
  · obtain ⟨v, w, hcon⟩ := hrow.resolve_left h
    have hconf : P.con m = fun q => v + ∑ k, w k * q k := funext hcon
    have e1 : (fun t => P.G m t (p t) (E t)) = fun t => v + ∑ k, w k * p t k := by
      funext t
      simp only [Problem.G, if_neg h, hcon]
    have hp' : ∀ k, ContDiffAt ℝ (1 + 1 : ℕ) (fun t => p t k) c.l := hp
    rw [e1, show (2 : ℕ) = 1 + 1 from rfl, iteratedDeriv_affine_curve _ _ _ _ _ hp'] at hz
    have hj : ∀ k : Fin K, c.jac m k = w k := fun k => by
      rw [jac_con D (by rw [hconf]; exact (hasFDerivAt_affine _ _ _).1) h hm, hconf]
      exact (hasFDerivAt_affine _ _ _).2 k
    rw [jac_energy_con D h hm]
    simp only [hj]
    have : constantTerms c false 2 3 (derivs p E c.l) m = 0 := by
      simp [constantTerms, arrays, der2GLambda, der2GE, der2G, einsum, D.nproj, h]
    rw [this, zero_mul, add_zero]
    exact hz

/-! ## The third order -/

/-- one projection, one parameter, overlap `p ** 2`, `ham1 = 1` and `ham0 = 0` -/
noncomputable def cubicProblem : Problem 1 where
  nproj := 1
  nsd := 1
  nequation := 1
  a1 := fun _ _ => 1
  a0 := fun _ _ => 0
  ov := fun _ q => q 0 ^ 2
  con := fun _ _ => 0

/-- its container at `l = 0`, `p = 1` and `E = 0` -/
noncomputable def cubicContainer : Container ℝ where
  nproj := 1
  nsd := 1
  nequation := 1
  ncol := 1
  activeEnergy := true
  l := 0
  ham := fun _ _ => 0
  fpot := fun _ _ => 1
  ovlp := fun _ => 1
  dOvlp := fun _ _ => 2
  ddOvlp := fun _ _ _ => 2
  energy := 0
  jac := fun _ a => if a = 0 then 0 else -1
  ref := 0
  inorm := false

theorem fderiv_square (q : Fin 1 → ℝ) (k : Fin 1) :
    fderiv ℝ (fun q : Fin 1 → ℝ => q 0 ^ 2) q (Pi.single k 1) = 2 * q 0 := by
  have hd : DifferentiableAt ℝ (fun q : Fin 1 → ℝ => q 0 ^ 2) q := by fun_prop
  refine (hasDerivAt_along hd k).unique ?_
  obtain rfl : k = 0 := Subsingleton.elim _ _
  simp only [Function.update_self]
  simpa using hasDerivAt_pow 2 (q 0)

theorem cubic_describes : Describes cubicProblem cubicContainer fun _ => 1 where
  nproj := rfl
  nsd := rfl
  nequation := rfl
  ncol := rfl
  active := rfl
  ham := by intro m n; simp [cubicContainer, cubicProblem]
  fpot := by intro m n; simp [cubicContainer, cubicProblem]
  ovlp := by intro n; simp [cubicContainer, cubicProblem]
  dOvlp := by
    intro n k
    have := fderiv_square (fun _ => 1) k
    simp only [mul_one] at this
    exact this.symm
  jac := by
    intro m hm k
    obtain rfl : k = 0 := Subsingleton.elim _ _
    have e : (fun t : ℝ => cubicProblem.G m cubicContainer.l (Function.update (fun _ => 1) 0 t) cubicContainer.energy)
        = fun _ => 0 := by
      funext t
      obtain rfl : m = 0 := by simp [cubicProblem] at hm; exact hm
      simp [Problem.G, cubicProblem, cubicContainer]
    rw [e]
    simpa [cubicContainer] using hasDerivAt_const (1 : ℝ) (0 : ℝ)
  jacE := by
    intro m hm
    obtain rfl : m = 0 := by simp [cubicProblem] at hm; exact hm
    have e : (fun e : ℝ => cubicProblem.G 0 cubicContainer.l (fun _ => 1) e) = fun e => -e := by
      funext e
      simp [Problem.G, cubicProblem, cubicContainer]
    rw [e]
    simpa [cubicContainer] using (hasDerivAt_id' (0 : ℝ)).fun_neg

/-- **C82, disagreement.**  In the third order the term with `dE/dl` contracts `d3_g_e_wfnparams2` with
the second and the first response instead of twice the first one.  For the overlap `p ** 2`, which has
no third derivative, and the exact solution `p = 1 + l`, `E = l` the derivatives do not solve the
system of order 3: its left side is `0` and its right side `-6`.  With the term of the chain rule the
right side is `0`. -/
theorem C82_third :
    (∀ t, cubicProblem.G 0 t (fun _ => 1 + t) t = 0) ∧
    Describes cubicProblem cubicContainer (fun _ => 1 + cubicContainer.l) ∧
    (∑ k : Fin 1, cubicContainer.jac 0 k * iteratedDeriv 3 (fun t : ℝ => 1 + t) 0)
      + cubicContainer.jac 0 1 * iteratedDeriv 3 (fun t : ℝ => t) 0 = 0 ∧
    constantTerms cubicContainer false 3 3 (derivs (fun t (_ : Fin 1) => 1 + t) (fun t => t) 0) 0 = -6 ∧
    constantTerms cubicContainer false 3 3 (derivs (fun t (_ : Fin 1) => 1 + t) (fun t => t) 0) 0
      + 3 * einsum cubicContainer (der3GE cubicContainer) (fun _ => iteratedDeriv 2 (fun t : ℝ => 1 + t) 0)
          (fun _ => iteratedDeriv 1 (fun t : ℝ => 1 + t) 0) 0
      - 3 * einsum cubicContainer (der3GE cubicContainer) (fun _ => iteratedDeriv 1 (fun t : ℝ => 1 + t) 0)
          (fun _ => iteratedDeriv 1 (fun t : ℝ => 1 + t) 0) 0 = 0 := by
  have d1 : ∀ i, iteratedDeriv (i + 1) (fun t : ℝ => 1 + t) 0 = if i = 0 then 1 else 0 := by
    intro i
    rw [iteratedDeriv_const_add (Nat.succ_pos i), iteratedDeriv_fun_id]
    simp
  have d2 : ∀ i, iteratedDeriv (i + 1) (fun t : ℝ => t) 0 = if i = 0 then 1 else 0 := by
    intro i
    rw [iteratedDeriv_fun_id]
    simp
  have hval : constantTerms cubicContainer false 3 3 (derivs (fun t (_ : Fin 1) => 1 + t) (fun t => t) 0) 0 = -6 := by
    have hk : ∀ o, derivs (fun t (_ : Fin 1) => 1 + t) (fun t => t) 0 o 0 = if o = 0 then 1 else 0 := by
      intro o; rw [derivs, dif_pos (by norm_num), d1]
    have hE : ∀ o, derivs (fun t (_ : Fin 1) => 1 + t) (fun t => t) 0 o 1 = if o = 0 then 1 else 0 := by
      intro o; rw [derivs, dif_neg (by norm_num), d2]
    have hIco : Ico 1 3 = {1, 2} := rfl
    norm_num [constantTerms, cubicContainer, arrays, der2GLambda, der2GE, der2G, der3GE, der3GLambda, einsum, applyOp,
      rVector, hk, hE, hIco]
  refine ⟨fun t => ?_, ?_, ?_, hval, ?_⟩
  · simp [Problem.G, cubicProblem]
  · have : (fun _ => 1 + cubicContainer.l : Fin 1 → ℝ) = fun _ => 1 := by funext k; simp [cubicContainer]
    rw [this]
    exact cubic_describes
  · rw [d2 2]
    simp [cubicContainer]
  · rw [hval, d1 1, d1 0]
    norm_num [einsum, cubicContainer, der3GE]

end Fanpy.Props
