import Mathlib.Analysis.Calculus.Deriv.Inv
import Verif.Props.FANPTQuasi

/-!
# C81: an example, and C83: FANPT without the energy as a parameter
-/

namespace Fanpy.Props

open Fanpy.FANPT Finset Filter Topology

/-! ## A problem with affine overlaps -/

/-- two determinants with the overlaps `1` and `p`; the exact solution is `p = l`, `E = l` -/
noncomputable def affineProblem : Problem 1 where
  nproj := 2
  nsd := 2
  nequation := 2
  a1 := fun m n => if n = 0 then (if m = 0 then 1 else -1) else (if m = 0 then 0 else 2)
  a0 := fun m n => if m = 0 then 0 else if n = 0 then 0 else 1
  ov := fun n q => (if n = 0 then 1 else 0) + ∑ k : Fin 1, (if n = 0 then 0 else 1) * q k
  con := fun _ q => 0 + ∑ k : Fin 1, 0 * q k

/-- its container at `l = 0` -/
noncomputable def affineContainer : Container ℝ where
  nproj := 2
  nsd := 2
  nequation := 2
  ncol := 1
  activeEnergy := true
  l := 0
  ham := fun m n => if m = 0 then 0 else if n = 0 then 0 else 1
  fpot := fun m n => if n = 0 then (if m = 0 then 1 else -1) else (if m = 0 then 0 else 1)
  ovlp := fun n => if n = 0 then 1 else 0
  dOvlp := fun n _ => if n = 0 then 0 else 1
  ddOvlp := fun _ _ _ => 0
  energy := 0
  jac := fun m a => if m = 0 then (if a = 0 then 0 else -1) else (if a = 0 then 1 else 0)
  ref := 0
  inorm := false

theorem affine_describes : Describes affineProblem affineContainer fun _ => 0 where
  nproj := rfl
  nsd := rfl
  nequation := rfl
  ncol := rfl
  active := rfl
  ham := by intro m n; simp [affineContainer, affineProblem]
  fpot := by
    intro m n
    simp only [affineContainer, affineProblem]
    split_ifs <;> norm_num
  ovlp := by intro n; simp [affineContainer, affineProblem]
  dOvlp := by
    intro n k
    have := (hasFDerivAt_affine (if n = 0 then 1 else 0) (fun _ : Fin 1 => if n = 0 then (0 : ℝ) else 1) fun _ => 0).2 k
    exact this.symm
  jac := by
    intro m hm k
    obtain rfl : k = 0 := Subsingleton.elim _ _
    have hm' : m = 0 ∨ m = 1 := by simp [affineProblem] at hm; omega
    rcases hm' with rfl | rfl
    · have e : (fun t : ℝ => affineProblem.G 0 affineContainer.l (Function.update (fun _ => 0) 0 t) affineContainer.energy)
          = fun _ => 0 := by
        funext t
        simp [Problem.G, affineProblem, affineContainer]
      rw [e]
      simpa [affineContainer] using hasDerivAt_const (0 : ℝ) (0 : ℝ)
    · have e : (fun t : ℝ => affineProblem.G 1 affineContainer.l (Function.update (fun _ => 0) 0 t) affineContainer.energy)
          = fun t => t := by
        funext t
        simp [Problem.G, affineProblem, affineContainer, sum_range_succ]
      rw [e]
      simpa [affineContainer] using hasDerivAt_id' (0 : ℝ)
  jacE := by
    intro m hm
    have hm' : m = 0 ∨ m = 1 := by simp [affineProblem] at hm; omega
    rcases hm' with rfl | rfl
    · have e : (fun e : ℝ => affineProblem.G 0 affineContainer.l (fun _ => 0) e) = fun e => -e := by
        funext e
        simp [Problem.G, affineProblem, affineContainer, sum_range_succ]
      rw [e]
      simpa [affineContainer] using (hasDerivAt_id' (0 : ℝ)).fun_neg
    · have e : (fun e : ℝ => affineProblem.G 1 affineContainer.l (fun _ => 0) e) = fun _ => 0 := by
        funext e
        simp [Problem.G, affineProblem, affineContainer, sum_range_succ]
      rw [e]
      simpa [affineContainer] using hasDerivAt_const (0 : ℝ) (0 : ℝ)

example : (∃ b d v w, Affine affineProblem b d v w) ∧ Describes affineProblem affineContainer (fun _ => affineContainer.l) ∧
    (∀ m < 2, ∀ t, affineProblem.G m t (fun _ => t) t = 0) ∧
    ∀ r x : ℕ → ℝ, (∀ m < 2, (∑ k : Fin 1, affineContainer.jac m k * x k) + affineContainer.jac m 1 * x 1 = r m) →
      ∀ a ≤ 1, (fun (r : ℕ → ℝ) a => if a = 0 then r 1 else -r 0) r a = x a := by
  refine ⟨⟨_, _, _, _, fun _ _ => rfl, fun _ _ => rfl⟩, affine_describes, ?_, ?_⟩
  · intro m hm t
    have hm' : m = 0 ∨ m = 1 := by omega
    rcases hm' with rfl | rfl
    · simp [Problem.G, affineProblem, sum_range_succ]
    · simp [Problem.G, affineProblem, sum_range_succ]
      ring
  · intro r x h a ha
    have h0 := h 0 (by norm_num)
    have h1 := h 1 (by norm_num)
    simp [affineContainer] at h0 h1
    have ha' : a = 0 ∨ a = 1 := by omega
    rcases ha' with rfl | rfl
    · simpa using h1.symm
    · simp; linarith

/-! ## C83 -/

/-- The equations without the energy: it is replaced by `<ref|H|Psi> / <ref|Psi>`, or, with
intermediate normalization, by `<ref|H|Psi>`. -/
noncomputable def Problem.F {K : ℕ} (P : Problem K) (ref : ℕ) (inorm : Bool) (m : ℕ) (t : ℝ) (q : Fin K → ℝ) : ℝ :=
  ∑ n ∈ range P.nsd, (t * P.a1 m n + (1 - t) * P.a0 m n) * P.ov n q
    - (∑ n ∈ range P.nsd, (t * P.a1 ref n + (1 - t) * P.a0 ref n) * P.ov n q)
      / (if inorm then 1 else P.ov ref q) * P.ov m q

/-- The container of an energy-free calculation: the energy is frozen, `jac` is the Jacobian with
respect to the parameters at this energy, and the energy is that of the reference. -/
structure DescribesFree {K : ℕ} (P : Problem K) (c : Container ℝ) (q : Fin K → ℝ) : Prop where
  nproj : c.nproj = P.nproj
  nsd : c.nsd = P.nsd
  ncol : c.ncol = K
  active : c.activeEnergy = false
  ref : c.ref < P.nproj
  ham : ∀ m n, c.ham m n = c.l * P.a1 m n + (1 - c.l) * P.a0 m n
  fpot : ∀ m n, c.fpot m n = P.a1 m n - P.a0 m n
  ovlp : ∀ n, c.ovlp n = P.ov n q
  dOvlp : ∀ n (k : Fin K), c.dOvlp n k = fderiv ℝ (P.ov n) q (Pi.single k 1)
  jac : ∀ m < P.nproj, ∀ k : Fin K,
    HasDerivAt (fun t => P.G m c.l (Function.update q k t) c.energy) (c.jac m k) (q k)
  energy : c.energy = (∑ n ∈ range P.nsd, (c.l * P.a1 c.ref n + (1 - c.l) * P.a0 c.ref n) * P.ov n q)
    / (if c.inorm then 1 else P.ov c.ref q)
  nonzero : c.inorm = false → P.ov c.ref q ≠ 0

section
variable {K : ℕ} {P : Problem K} {c : Container ℝ} {q : Fin K → ℝ}

theorem hasDerivAt_ham (P : Problem K) (m : ℕ) (q : Fin K → ℝ) (l : ℝ) :
    HasDerivAt (fun t => ∑ n ∈ range P.nsd, (t * P.a1 m n + (1 - t) * P.a0 m n) * P.ov n q)
      (∑ n ∈ range P.nsd, (P.a1 m n - P.a0 m n) * P.ov n q) l := by
  apply HasDerivAt.fun_sum
  intro n _
  refine ((((hasDerivAt_id' l).mul_const (P.a1 m n)).fun_add
    (((hasDerivAt_const l (1 : ℝ)).fun_sub (hasDerivAt_id' l)).mul_const (P.a0 m n))).mul_const (P.ov n q)).congr_deriv ?_
  ring

theorem hasDerivAt_free (P : Problem K) (ref : ℕ) (inorm : Bool) (m : ℕ) (q : Fin K → ℝ) (l : ℝ) :
    HasDerivAt (fun t => P.F ref inorm m t q)
      (∑ n ∈ range P.nsd, (P.a1 m n - P.a0 m n) * P.ov n q
        - (∑ n ∈ range P.nsd, (P.a1 ref n - P.a0 ref n) * P.ov n q) / (if inorm then 1 else P.ov ref q) * P.ov m q) l :=
  (hasDerivAt_ham P m q l).fun_sub (((hasDerivAt_ham P ref q l).div_const _).mul_const _)

/-- **C83.**  `d_g_lambda` is the derivative of the energy-free equations with respect to `l`. -/
theorem C83_lambda (D : DescribesFree P c q) (m : ℕ) (hm : m < P.nproj) :
    HasDerivAt (fun t => P.F c.ref c.inorm m t q) (freeDerGLambda c m) c.l := by
  refine (hasDerivAt_free P c.ref c.inorm m q c.l).congr_deriv ?_
  simp only [freeDerGLambda, derGLambda, applyOp, D.nproj, D.nsd, if_pos hm, if_pos D.ref, D.fpot, D.ovlp]
  cases c.inorm with
  | true => simp
  | false => simp; ring

/-- **C83.**  The coefficient matrix is the Jacobian of the energy-free equations. -/
theorem C83_jacobian (D : DescribesFree P c q) (hov : ∀ n, DifferentiableAt ℝ (P.ov n) q) (m : ℕ) (hm : m < P.nproj)
    (k : Fin K) :
    HasDerivAt (fun t => P.F c.ref c.inorm m c.l (Function.update q k t)) (freeCoeffMatrix c m k) (q k) := by
  have h1 := fun n => hasDerivAt_along (hov n) k
  have h2 : ∀ m, HasDerivAt (fun t => ∑ n ∈ range P.nsd,
      (c.l * P.a1 m n + (1 - c.l) * P.a0 m n) * P.ov n (Function.update q k t))
      (∑ n ∈ range P.nsd, c.ham m n * c.dOvlp n k) (q k) := by
    intro m
    simp only [D.ham, D.dOvlp]
    exact HasDerivAt.fun_sum fun n _ => (h1 n).const_mul _
  have hj : c.jac m k = ∑ n ∈ range P.nsd, c.ham m n * c.dOvlp n k - c.energy * c.dOvlp m k := by
    have h := D.jac m hm k
    simp only [Problem.G, if_pos hm] at h
    refine h.unique ?_
    rw [D.dOvlp m]
    exact (h2 m).fun_sub ((h1 m).const_mul _)
  simp only [← D.dOvlp] at h1
  have hE := D.energy
  cases hin : c.inorm with
  | true =>
    rw [hin] at hE
    simp only [if_true, div_one] at hE
    have e : (fun t => P.F c.ref true m c.l (Function.update q k t)) = fun t =>
        ∑ n ∈ range P.nsd, (c.l * P.a1 m n + (1 - c.l) * P.a0 m n) * P.ov n (Function.update q k t)
        - (∑ n ∈ range P.nsd, (c.l * P.a1 c.ref n + (1 - c.l) * P.a0 c.ref n) * P.ov n (Function.update q k t))
          * P.ov m (Function.update q k t) := by
      funext t; simp [Problem.F]
    rw [e]
    refine ((h2 m).fun_sub ((h2 c.ref).fun_mul (h1 m))).congr_deriv ?_
    simp only [freeCoeffMatrix, D.nproj, if_pos hm, hin, if_true, hj, applyOp, D.nsd, Function.update_eq_self, ← hE,
      D.ovlp]
    ring
  | false =>
    rw [hin] at hE
    simp only [Bool.false_eq_true, if_false] at hE
    have hne := D.nonzero hin
    have e : (fun t => P.F c.ref false m c.l (Function.update q k t)) = fun t =>
        ∑ n ∈ range P.nsd, (c.l * P.a1 m n + (1 - c.l) * P.a0 m n) * P.ov n (Function.update q k t)
        - (∑ n ∈ range P.nsd, (c.l * P.a1 c.ref n + (1 - c.l) * P.a0 c.ref n) * P.ov n (Function.update q k t))
          / P.ov c.ref (Function.update q k t) * P.ov m (Function.update q k t) := by
      funext t; simp [Problem.F]
    rw [e]
    have hne' : P.ov c.ref (Function.update q k (q k)) ≠ 0 := by rw [Function.update_eq_self]; exact hne
    refine ((h2 m).fun_sub (((h2 c.ref).fun_div (h1 c.ref) hne').fun_mul (h1 m))).congr_deriv ?_
    simp only [freeCoeffMatrix, D.nproj, if_pos hm, hin, Bool.false_eq_true, if_false, hj, applyOp, D.nsd,
      Function.update_eq_self, D.ovlp]
    have hE' : ∑ n ∈ range P.nsd, (c.l * P.a1 c.ref n + (1 - c.l) * P.a0 c.ref n) * P.ov n q
        = c.energy * P.ov c.ref q := by
      rw [hE]; field_simp
    rw [hE']
    field_simp
    ring

/-- **C83.**  `d2_g_lambda_wfnparams` is the mixed derivative of the energy-free equations with respect to
`l` and a parameter. -/
theorem C83_mixed (D : DescribesFree P c q) (hov : ∀ n, DifferentiableAt ℝ (P.ov n) q) (m : ℕ) (hm : m < P.nproj)
    (k : Fin K) :
    HasDerivAt (fun t => deriv (fun s => P.F c.ref c.inorm m s (Function.update q k t)) c.l)
      (freeDer2GLambda c m k) (q k) := by
  have e0 : (fun t => deriv (fun s => P.F c.ref c.inorm m s (Function.update q k t)) c.l) = fun t =>
      ∑ n ∈ range P.nsd, (P.a1 m n - P.a0 m n) * P.ov n (Function.update q k t)
        - (∑ n ∈ range P.nsd, (P.a1 c.ref n - P.a0 c.ref n) * P.ov n (Function.update q k t))
          / (if c.inorm then 1 else P.ov c.ref (Function.update q k t)) * P.ov m (Function.update q k t) := by
    funext t
    exact (hasDerivAt_free P c.ref c.inorm m _ c.l).deriv
  rw [e0]
  have h1 := fun n => hasDerivAt_along (hov n) k
  have h2 : ∀ m, HasDerivAt (fun t => ∑ n ∈ range P.nsd, (P.a1 m n - P.a0 m n) * P.ov n (Function.update q k t))
      (∑ n ∈ range P.nsd, c.fpot m n * c.dOvlp n k) (q k) := by
    intro m
    simp only [D.fpot, D.dOvlp]
    exact HasDerivAt.fun_sum fun n _ => (h1 n).const_mul _
  simp only [← D.dOvlp] at h1
  have hr := D.ref
  cases hin : c.inorm with
  | true =>
    simp only [if_true, div_one]
    refine ((h2 m).fun_sub ((h2 c.ref).fun_mul (h1 m))).congr_deriv ?_
    simp only [freeDer2GLambda, der2GLambda, derGLambda, D.nproj, if_pos hm, if_pos hr, hin, if_true, applyOp, D.nsd,
      Function.update_eq_self, D.ovlp, D.fpot]
    ring
  | false =>
    have hne := D.nonzero hin
    have hne' : P.ov c.ref (Function.update q k (q k)) ≠ 0 := by rw [Function.update_eq_self]; exact hne
    simp only [Bool.false_eq_true, if_false]
    refine ((h2 m).fun_sub (((h2 c.ref).fun_div (h1 c.ref) hne').fun_mul (h1 m))).congr_deriv ?_
    simp only [freeDer2GLambda, der2GLambda, derGLambda, D.nproj, if_pos hm, if_pos hr, hin, Bool.false_eq_true,
      if_false, applyOp, D.nsd, Function.update_eq_self, D.ovlp, D.fpot]
    field_simp
    ring

/-- **C83.**  The first derivatives of an exact solution of the energy-free equations solve the linear
system of order 1. -/
theorem C83_first_partial (p : ℝ → Fin K → ℝ) (D : DescribesFree P c (p c.l)) (qao : ℕ) (prev : ℕ → ℕ → ℝ)
    (hov : ∀ n, DifferentiableAt ℝ (P.ov n) (p c.l)) (hp : ∀ k, DifferentiableAt ℝ (fun t => p t k) c.l)
    (m : ℕ) (hm : m < P.nproj) (hsol : ∀ᶠ t in 𝓝 c.l, P.F c.ref c.inorm m t (p t) = 0) :
    ∑ k : Fin K, freeCoeffMatrix c m k * deriv (fun t => p t k) c.l = constantTerms c true 1 qao prev m := by
  simp only [constantTerms, if_true, arrays]
  have hFd : DifferentiableAt ℝ (fun q => P.F c.ref c.inorm m c.l q) (p c.l) := by
    unfold Problem.F
    cases hin : c.inorm with
    | true => simp only [if_true]; fun_prop
    | false =>
      have := D.nonzero hin
      simp only [Bool.false_eq_true, if_false]
      fun_prop (disch := assumption)
  have hco : ∀ k : Fin K, freeCoeffMatrix c m k = fderiv ℝ (fun q => P.F c.ref c.inorm m c.l q) (p c.l) (Pi.single k 1) :=
    fun k => (C83_jacobian D hov m hm k).unique (hasDerivAt_along hFd k)
  have h1 := hasDerivAt_curve (fun q => P.F c.ref c.inorm m c.l q) p c.l hFd hp
  simp only [hco]
  -- the equations are affine in `l` for fixed parameters
  have hsplit : ∀ t, P.F c.ref c.inorm m t (p t) = P.F c.ref c.inorm m c.l (p t)
      + (t - c.l) * (∑ n ∈ range P.nsd, (P.a1 m n - P.a0 m n) * P.ov n (p t)
        - (∑ n ∈ range P.nsd, (P.a1 c.ref n - P.a0 c.ref n) * P.ov n (p t))
          / (if c.inorm then 1 else P.ov c.ref (p t)) * P.ov m (p t)) := by
    intro t
    have e : ∀ m, ∑ n ∈ range P.nsd, (t * P.a1 m n + (1 - t) * P.a0 m n) * P.ov n (p t)
        = ∑ n ∈ range P.nsd, (c.l * P.a1 m n + (1 - c.l) * P.a0 m n) * P.ov n (p t)
          + (t - c.l) * ∑ n ∈ range P.nsd, (P.a1 m n - P.a0 m n) * P.ov n (p t) := by
      intro m
      rw [mul_sum, ← sum_add_distrib]
      apply sum_congr rfl; intro n _
      ring
    simp only [Problem.F]
    rw [e m, e c.ref]
    ring
  have hcont : DifferentiableAt ℝ (fun t => ∑ n ∈ range P.nsd, (P.a1 m n - P.a0 m n) * P.ov n (p t)
        - (∑ n ∈ range P.nsd, (P.a1 c.ref n - P.a0 c.ref n) * P.ov n (p t))
          / (if c.inorm then 1 else P.ov c.ref (p t)) * P.ov m (p t)) c.l := by
    have hc := fun n => (hasDerivAt_curve (P.ov n) p c.l (hov n) hp).differentiableAt
    cases hin : c.inorm with
    | true => simp only [if_true]; fun_prop
    | false =>
      have := D.nonzero hin
      simp only [Bool.false_eq_true, if_false]
      fun_prop (disch := assumption)
  have h2 := h1.fun_add (((hasDerivAt_id' c.l).sub_const c.l).fun_mul hcont.hasDerivAt)
  have hz : HasDerivAt (fun t => P.F c.ref c.inorm m t (p t)) 0 c.l :=
    (hasDerivAt_const c.l (0 : ℝ)).congr_of_eventuallyEq hsol
  rw [funext hsplit] at hz
  have h3 := h2.unique hz
  have h4 := (C83_lambda D m hm).unique (hasDerivAt_free P c.ref c.inorm m (p c.l) c.l)
  rw [h4]
  simp only [sub_self, zero_mul, add_zero, one_mul] at h3
  linarith

end

/-- the same calculation with a frozen energy: `p(l) = l` solves the energy-free equations -/
noncomputable def freeContainer : Container ℝ := { affineContainer with activeEnergy := false }

example : DescribesFree affineProblem freeContainer (fun _ => freeContainer.l) ∧
    (∀ m < 2, ∀ t, affineProblem.F 0 false m t (fun _ => t) = 0) ∧ freeCoeffMatrix freeContainer 1 0 = 1 := by
  have D := affine_describes
  refine ⟨⟨rfl, rfl, rfl, rfl, by simp [freeContainer, affineContainer, affineProblem], D.ham, D.fpot, D.ovlp, D.dOvlp,
    D.jac, ?_, ?_⟩, ?_, ?_⟩
  · simp [freeContainer, affineContainer, affineProblem, sum_range_succ]
  · intro _
    simp [freeContainer, affineContainer, affineProblem]
  · intro m hm t
    have hm' : m = 0 ∨ m = 1 := by omega
    rcases hm' with rfl | rfl
    · simp [Problem.F, affineProblem, sum_range_succ]
    · simp [Problem.F, affineProblem, sum_range_succ]
      ring
  · simp [freeCoeffMatrix, coeffMatrix, freeContainer, affineContainer, applyOp, sum_range_succ]

/-- a problem of two determinants with intermediate normalization: overlaps `1` and `p`, solution `p(l) = l` -/
noncomputable def quadraticProblem : Problem 1 where
  nproj := 2
  nsd := 2
  nequation := 2
  a1 := fun m n => if m = 0 then (if n = 0 then 0 else 1) else (if n = 0 then 1 else 0)
  a0 := fun m n => if m = 0 then (if n = 0 then 0 else 1) else (if n = 0 then 0 else -1)
  ov := fun n q => (if n = 0 then 1 else 0) + ∑ k : Fin 1, (if n = 0 then 0 else 1) * q k
  con := fun _ q => 0 + ∑ k : Fin 1, 0 * q k

/-- its energy-free container at `l = 0` -/
noncomputable def quadraticContainer : Container ℝ where
  nproj := 2
  nsd := 2
  nequation := 2
  ncol := 1
  activeEnergy := false
  l := 0
  ham := fun m n => if m = 0 then (if n = 0 then 0 else 1) else (if n = 0 then 0 else -1)
  fpot := fun m n => if m = 0 then 0 else 1
  ovlp := fun n => if n = 0 then 1 else 0
  dOvlp := fun n _ => if n = 0 then 0 else 1
  ddOvlp := fun _ _ _ => 0
  energy := 0
  jac := fun m _ => if m = 0 then 1 else -1
  ref := 0
  inorm := true

/-- **C83, disagreement.**  The energy-free equations are not affine in the parameters even if the overlaps are,
and the constant terms of order 2 lack their second derivatives.  With two determinants, overlaps `1` and `p` and
intermediate normalization, `p(l) = l` solves the equations for all `l`, but its second derivative does not solve
the linear system of order 2: `C p'' = 0` and the right side is `-2`, with either approximation order. -/
theorem C83_second :
    DescribesFree quadraticProblem quadraticContainer (fun _ => quadraticContainer.l) ∧
    (∀ m < 2, ∀ t, quadraticProblem.F 0 true m t (fun _ => t) = 0) ∧
    (∑ k : Fin 1, freeCoeffMatrix quadraticContainer 1 k * iteratedDeriv 2 (fun t : ℝ => t) 0 = 0) ∧
    ∀ qao E, constantTerms quadraticContainer true 2 qao (derivs (fun t (_ : Fin 1) => t) E 0) 1 = -2 := by
  have hd : ∀ n (k : Fin 1), quadraticContainer.dOvlp n k
      = fderiv ℝ (quadraticProblem.ov n) (fun _ => quadraticContainer.l) (Pi.single k 1) := by
    intro n k
    have := (hasFDerivAt_affine (if n = 0 then 1 else 0) (fun _ : Fin 1 => if n = 0 then (0 : ℝ) else 1) fun _ => 0).2 k
    exact this.symm
  have hder : iteratedDeriv 2 (fun t : ℝ => t) 0 = 0 := by
    rw [iteratedDeriv_fun_id]; simp
  refine ⟨⟨rfl, rfl, rfl, rfl, by simp [quadraticContainer, quadraticProblem], ?_, ?_, ?_, hd, ?_, ?_, ?_⟩, ?_, ?_, ?_⟩
  · intro m n
    simp [quadraticContainer, quadraticProblem]
  · intro m n
    simp only [quadraticContainer, quadraticProblem]
    split_ifs <;> norm_num
  · intro n
    simp [quadraticContainer, quadraticProblem]
  · intro m hm k
    obtain rfl : k = 0 := Subsingleton.elim _ _
    have hm' : m = 0 ∨ m = 1 := by simp [quadraticProblem] at hm; omega
    rcases hm' with rfl | rfl
    · have e : (fun t : ℝ => quadraticProblem.G 0 quadraticContainer.l (Function.update (fun _ => quadraticContainer.l) 0 t)
          quadraticContainer.energy) = fun t => t := by
        funext t
        simp [Problem.G, quadraticProblem, quadraticContainer, sum_range_succ]
      rw [e]
      simpa [quadraticContainer] using hasDerivAt_id' (0 : ℝ)
    · have e : (fun t : ℝ => quadraticProblem.G 1 quadraticContainer.l (Function.update (fun _ => quadraticContainer.l) 0 t)
          quadraticContainer.energy) = fun t => -t := by
        funext t
        simp [Problem.G, quadraticProblem, quadraticContainer, sum_range_succ]
      rw [e]
      simpa [quadraticContainer] using (hasDerivAt_id' (0 : ℝ)).fun_neg
  · simp [quadraticContainer, quadraticProblem, sum_range_succ]
  · intro h
    simp [quadraticContainer] at h
  · intro m hm t
    have hm' : m = 0 ∨ m = 1 := by omega
    rcases hm' with rfl | rfl
    · simp [Problem.F, quadraticProblem, sum_range_succ]
    · simp [Problem.F, quadraticProblem, sum_range_succ]
      ring
  · rw [hder]; simp
  · intro qao E
    have h1 : derivs (fun t (_ : Fin 1) => t) E 0 0 0 = 1 := by
      rw [derivs, dif_pos Nat.one_pos, iteratedDeriv_fun_id]; simp
    rw [constantTerms]
    simp [quadraticContainer, arrays, freeDer2GLambda, der2GLambda, derGLambda, applyOp, sum_range_succ, h1]

/-- **C83.**  What the containers refuse: an energy-free container of a problem with an active energy (`TypeError`), and intermediate
normalization without its constraint (`KeyError`). -/
theorem C83_checks (efree inorm constrained activeEnergy : Bool) :
    (checkContainer efree inorm constrained activeEnergy = .error .typeError ↔ efree = true ∧ activeEnergy = true) ∧
    (checkContainer efree inorm constrained activeEnergy = .error .keyError ↔
      ¬ (efree = true ∧ activeEnergy = true) ∧ inorm = true ∧ constrained = false) ∧
    (checkContainer efree inorm constrained activeEnergy = .ok () ↔
      ¬ (efree = true ∧ activeEnergy = true) ∧ (inorm = true → constrained = true)) := by
  cases efree <;> cases inorm <;> cases constrained <;> cases activeEnergy <;> simp [checkContainer]

end Fanpy.Props
