import Mathlib.Data.List.GetD
import Mathlib.Tactic.Linarith
import Mathlib.Tactic.Ring
import Mathlib.Analysis.Calculus.Deriv.Pi
import Mathlib.Analysis.Calculus.Deriv.Add
import Mathlib.Analysis.Calculus.Deriv.Mul
import Mathlib.Analysis.Calculus.Deriv.Pow
import Mathlib.Analysis.Calculus.FDeriv.Symmetric
import Verif.Lemmas.FANPT

/-!
# C81 and C82: the linear systems of FANPT with the energy as a parameter
-/

namespace Fanpy.Props

open Fanpy.FANPT Finset Filter Topology

/-- The equations of a FANPT calculation: projections of the Schrödinger equation with the
Hamiltonian `l * ham1 + (1 - l) * ham0`, and constraints on the parameters. -/
structure Problem (K : ℕ) where
  nproj : ℕ
  nsd : ℕ
  nequation : ℕ
  a1 : ℕ → ℕ → ℝ
  a0 : ℕ → ℕ → ℝ
  ov : ℕ → (Fin K → ℝ) → ℝ
  con : ℕ → (Fin K → ℝ) → ℝ

/-- `G_m(l, p, E)` -/
noncomputable def Problem.G {K : ℕ} (P : Problem K) (m : ℕ) (t : ℝ) (q : Fin K → ℝ) (e : ℝ) : ℝ :=
  if m < P.nproj then ∑ n ∈ range P.nsd, (t * P.a1 m n + (1 - t) * P.a0 m n) * P.ov n q - e * P.ov m q
  else P.con m q

/-- The container holds the data of the problem at the parameters `q`: in particular `jac` is the
Jacobian of the equations at the Hamiltonian of the container (C79). -/
structure Describes {K : ℕ} (P : Problem K) (c : Container ℝ) (q : Fin K → ℝ) : Prop where
  nproj : c.nproj = P.nproj
  nsd : c.nsd = P.nsd
  nequation : c.nequation = P.nequation
  ncol : c.ncol = K
  active : c.activeEnergy = true
  ham : ∀ m n, c.ham m n = c.l * P.a1 m n + (1 - c.l) * P.a0 m n
  fpot : ∀ m n, c.fpot m n = P.a1 m n - P.a0 m n
  ovlp : ∀ n, c.ovlp n = P.ov n q
  dOvlp : ∀ n (k : Fin K), c.dOvlp n k = fderiv ℝ (P.ov n) q (Pi.single k 1)
  jac : ∀ m < P.nequation, ∀ k : Fin K,
    HasDerivAt (fun t => P.G m c.l (Function.update q k t) c.energy) (c.jac m k) (q k)
  jacE : ∀ m < P.nequation, HasDerivAt (fun e => P.G m c.l q e) (c.jac m K) c.energy

/-- The derivatives of a curve, in the layout of the array of responses. -/
noncomputable def derivs {K : ℕ} (p : ℝ → Fin K → ℝ) (E : ℝ → ℝ) (l : ℝ) (o a : ℕ) : ℝ :=
  if h : a < K then iteratedDeriv (o + 1) (fun t => p t ⟨a, h⟩) l else iteratedDeriv (o + 1) E l

theorem derivs_fin {K : ℕ} (p : ℝ → Fin K → ℝ) (E : ℝ → ℝ) (l : ℝ) (o : ℕ) (k : Fin K) :
    derivs p E l o k = iteratedDeriv (o + 1) (fun t => p t k) l := by
  simp [derivs]

theorem derivs_energy {K : ℕ} (p : ℝ → Fin K → ℝ) (E : ℝ → ℝ) (l : ℝ) (o : ℕ) :
    derivs p E l o K = iteratedDeriv (o + 1) E l := by
  simp [derivs]

section
variable {K : ℕ} {P : Problem K} {c : Container ℝ} {q : Fin K → ℝ}

theorem hasDerivAt_along {f : (Fin K → ℝ) → ℝ} (hf : DifferentiableAt ℝ f q) (k : Fin K) :
    HasDerivAt (fun t => f (Function.update q k t)) (fderiv ℝ f q (Pi.single k 1)) (q k) := by
  have h := hasDerivAt_update q k (q k)
  have hf' : HasFDerivAt f (fderiv ℝ f q) (Function.update q k (q k)) := by
    rw [Function.update_eq_self]; exact hf.hasFDerivAt
  exact hf'.comp_hasDerivAt _ h

theorem jac_proj (D : Describes P c q) (hov : ∀ n, DifferentiableAt ℝ (P.ov n) q) {m : ℕ} (hm : m < P.nproj)
    (hme : m < P.nequation) (k : Fin K) :
    c.jac m k = ∑ n ∈ range P.nsd, c.ham m n * c.dOvlp n k - c.energy * c.dOvlp m k := by
  have h := D.jac m hme k
  simp only [Problem.G, if_pos hm] at h
  refine h.unique ?_
  simp only [D.ham, D.dOvlp]
  exact (HasDerivAt.fun_sum fun n _ => (hasDerivAt_along (hov n) k).const_mul _).fun_sub
    ((hasDerivAt_along (hov m) k).const_mul _)

theorem jac_con (D : Describes P c q) {m : ℕ} (hcon : DifferentiableAt ℝ (P.con m) q) (hm : ¬ m < P.nproj)
    (hme : m < P.nequation) (k : Fin K) : c.jac m k = fderiv ℝ (P.con m) q (Pi.single k 1) := by
  have h := D.jac m hme k
  simp only [Problem.G, if_neg hm] at h
  exact h.unique (hasDerivAt_along hcon k)

theorem jac_energy (D : Describes P c q) {m : ℕ} (hm : m < P.nproj) (hme : m < P.nequation) :
    c.jac m K = -P.ov m q := by
  have h := D.jacE m hme
  simp only [Problem.G, if_pos hm] at h
  refine h.unique ?_
  simpa using ((hasDerivAt_id' c.energy).mul_const (P.ov m q)).const_sub
    (∑ n ∈ range P.nsd, (c.l * P.a1 m n + (1 - c.l) * P.a0 m n) * P.ov n q)

theorem jac_energy_con (D : Describes P c q) {m : ℕ} (hm : ¬ m < P.nproj) (hme : m < P.nequation) :
    c.jac m K = 0 := by
  have h := D.jacE m hme
  simp only [Problem.G, if_neg hm] at h
  exact h.unique (hasDerivAt_const _ _)

theorem sum_op (D : Describes P c q) (a : ℕ → ℕ → ℝ) (m : ℕ) (d : ℕ → Fin K → ℝ) (r : Fin K → ℝ) :
    ∑ n ∈ range P.nsd, a m n * ∑ k, d n k * r k = ∑ k, (∑ n ∈ range c.nsd, a m n * d n k) * r k := by
  rw [D.nsd]
  simp only [mul_sum, sum_mul]
  rw [sum_comm]
  apply sum_congr rfl
  intro k _
  apply sum_congr rfl
  intro n _
  ring

end

/-- **C81.**  For any differentiable overlaps and constraints: the first derivatives of an exact
solution of the equations with respect to `l` solve the linear system of order 1. -/
theorem C81_first {K : ℕ} (P : Problem K) (c : Container ℝ) (p : ℝ → Fin K → ℝ) (E : ℝ → ℝ) (qao : ℕ)
    (prev : ℕ → ℕ → ℝ) (D : Describes P c (p c.l)) (hE0 : E c.l = c.energy)
    (hov : ∀ n, DifferentiableAt ℝ (P.ov n) (p c.l)) (hcon : ∀ m, DifferentiableAt ℝ (P.con m) (p c.l))
    (hp : ∀ k, DifferentiableAt ℝ (fun t => p t k) c.l) (hE : DifferentiableAt ℝ E c.l)
    (m : ℕ) (hm : m < P.nequation) (hsol : ∀ᶠ t in 𝓝 c.l, P.G m t (p t) (E t) = 0) :
    (∑ k : Fin K, c.jac m k * deriv (fun t => p t k) c.l) + c.jac m K * deriv E c.l
      = constantTerms c false 1 qao prev m := by
  have hz : HasDerivAt (fun t => P.G m t (p t) (E t)) 0 c.l :=
    (hasDerivAt_const c.l (0 : ℝ)).congr_of_eventuallyEq hsol
  simp only [constantTerms, if_true, arrays, Bool.false_eq_true, if_false, derGLambda, D.nproj]
  by_cases h : m < P.nproj
  · simp only [Problem.G, if_pos h] at hz
    have h1 := fun n => hasDerivAt_curve (P.ov n) p c.l (hov n) hp
    have hlin : ∀ n, HasDerivAt (fun t : ℝ => t * P.a1 m n + (1 - t) * P.a0 m n) (c.fpot m n) c.l := by
      intro n
      refine (((hasDerivAt_id' c.l).mul_const (P.a1 m n)).fun_add
        (((hasDerivAt_const c.l (1 : ℝ)).fun_sub (hasDerivAt_id' c.l)).mul_const (P.a0 m n))).congr_deriv ?_
      rw [D.fpot]; ring
    have h2 := (HasDerivAt.fun_sum (u := range P.nsd) fun n _ => (hlin n).fun_mul (h1 n)).fun_sub
      (hE.hasDerivAt.fun_mul (h1 m))
    have h3 := h2.unique hz
    rw [if_pos h, applyOp, jac_energy D h hm]
    simp only [jac_proj D hov h hm]
    simp only [← D.dOvlp, ← D.ham, ← D.ovlp, hE0, sum_add_distrib] at h3
    rw [sum_op D c.ham m (fun n k => c.dOvlp n k)] at h3
    rw [D.nsd] at h3 ⊢
    simp only [sub_mul, sum_sub_distrib, ← D.ovlp]
    rw [mul_sum] at h3
    simp only [mul_assoc] at h3 ⊢
    linarith
  · simp only [Problem.G, if_neg h] at hz
    rw [if_neg h, jac_energy_con D h hm]
    simp only [jac_con D (hcon m) h hm]
    rw [(hasDerivAt_curve (P.con m) p c.l (hcon m) hp).unique hz]
    ring

/-- The overlaps and the constraints are affine functions of the parameters, with the coefficients
`d` and `w`.  (CI wavefunctions; intermediate normalization and frozen parameters.) -/
structure Affine {K : ℕ} (P : Problem K) (b : ℕ → ℝ) (d : ℕ → Fin K → ℝ) (v : ℕ → ℝ) (w : ℕ → Fin K → ℝ) : Prop where
  ov : ∀ n q, P.ov n q = b n + ∑ k, d n k * q k
  con : ∀ m q, P.con m q = v m + ∑ k, w m k * q k

theorem hasFDerivAt_affine {K : ℕ} (b : ℝ) (d : Fin K → ℝ) (q : Fin K → ℝ) :
    DifferentiableAt ℝ (fun q : Fin K → ℝ => b + ∑ k, d k * q k) q ∧
    ∀ k, fderiv ℝ (fun q : Fin K → ℝ => b + ∑ k, d k * q k) q (Pi.single k 1) = d k := by
  have hd : DifferentiableAt ℝ (fun q : Fin K → ℝ => b + ∑ k, d k * q k) q := by fun_prop
  refine ⟨hd, fun k => ?_⟩
  have h1 := hasDerivAt_along hd k
  refine h1.unique ?_
  have : (fun t => b + ∑ j, d j * Function.update q k t j) = fun t => b + (∑ j ∈ univ.erase k, d j * q j + d k * t) := by
    funext t
    rw [← sum_erase_add _ _ (mem_univ k), Function.update_self]
    congr 2
    apply sum_congr rfl
    intro j hj
    rw [Function.update_of_ne (ne_of_mem_erase hj)]
  rw [this]
  exact (((hasDerivAt_id' (q k)).const_mul (d k)).const_add _).const_add b |>.congr_deriv (mul_one _)

/-- the derivative of order `M + 1` of an equation along a curve, and the linear system -/
theorem affine_identity {K : ℕ} {P : Problem K} {c : Container ℝ} {b : ℕ → ℝ} {d : ℕ → Fin K → ℝ}
    {v : ℕ → ℝ} {w : ℕ → Fin K → ℝ} (A : Affine P b d v w) (p : ℝ → Fin K → ℝ) (E : ℝ → ℝ)
    (D : Describes P c (p c.l)) (hE0 : E c.l = c.energy) (M : ℕ)
    (hp : ∀ k, ContDiffAt ℝ (M + 1 : ℕ) (fun t => p t k) c.l) (hE : ContDiffAt ℝ (M + 1 : ℕ) E c.l)
    (m : ℕ) (hm : m < P.nequation) :
    iteratedDeriv (M + 1) (fun t => P.G m t (p t) (E t)) c.l
      = (∑ k : Fin K, c.jac m k * iteratedDeriv (M + 1) (fun t => p t k) c.l)
        + c.jac m K * iteratedDeriv (M + 1) E c.l - constantTerms c false (M + 1) 2 (derivs p E c.l) m := by
  have hov : ∀ n, P.ov n = fun q => b n + ∑ k, d n k * q k := fun n => funext (A.ov n)
  have hcon : ∀ m, P.con m = fun q => v m + ∑ k, w m k * q k := fun m => funext (A.con m)
  have hovd : ∀ n, DifferentiableAt ℝ (P.ov n) (p c.l) := fun n => by
    rw [hov]; exact (hasFDerivAt_affine _ _ _).1
  have hcond : ∀ m, DifferentiableAt ℝ (P.con m) (p c.l) := fun m => by
    rw [hcon]; exact (hasFDerivAt_affine _ _ _).1
  have hdO : ∀ n (k : Fin K), c.dOvlp n k = d n k := fun n k => by
    rw [D.dOvlp, hov]; exact (hasFDerivAt_affine _ _ _).2 k
  by_cases h : m < P.nproj
  · have e1 : (fun t => P.G m t (p t) (E t)) = fun t =>
        ∑ n ∈ range P.nsd, (t * P.a1 m n + (1 - t) * P.a0 m n) * (b n + ∑ k, d n k * p t k)
          - E t * (b m + ∑ k, d m k * p t k) := by
      funext t
      simp only [Problem.G, if_pos h, A.ov]
    rw [e1, iteratedDeriv_projected P.nsd m (P.a1 m) (P.a0 m) (fun n t => b n + ∑ k, d n k * p t k) E c.l M
      (fun n => contDiffAt_affine_curve _ _ _ _ _ hp) hE]
    have hder : ∀ n i, i ≤ M → iteratedDeriv (i + 1) (fun t => b n + ∑ k, d n k * p t k) c.l
        = ∑ k : Fin K, c.dOvlp n k * iteratedDeriv (i + 1) (fun t => p t k) c.l := by
      intro n i hi
      rw [iteratedDeriv_affine_curve _ _ _ _ _ fun k => (hp k).of_le (by exact_mod_cast Nat.succ_le_succ hi)]
      simp only [hdO]
    simp only [hder _ M le_rfl, ← D.ham, ← D.fpot]
    rw [sum_range_succ, sum_range_succ', jac_energy D h hm]
    simp only [jac_proj D hovd h hm, Nat.sub_zero, Nat.sub_self, iteratedDeriv_zero, Nat.choose_zero_right,
      Nat.choose_self, Nat.cast_one, one_mul, hE0, hder m M le_rfl]
    rw [sum_op D c.ham m (fun n k => c.dOvlp n k), ← A.ov]
    simp only [D.nsd]
    simp only [sub_mul, sum_sub_distrib, mul_assoc, ← mul_sum]
    cases M with
    | zero =>
      simp only [constantTerms, arrays, derGLambda, applyOp, D.nproj, if_pos h, D.nsd, D.ovlp, if_true, Bool.false_eq_true,
        if_false, range_zero, sum_empty, iteratedDeriv_zero, A.ov, Nat.cast_zero, zero_add, one_mul]
      ring
    | succ M =>
      have h1 : M + 1 + 1 ≠ 1 := by omega
      simp only [constantTerms, arrays, if_neg h1, D.active, if_true, Bool.false_eq_true, if_false,
        show ¬ (2 = 3) by omega, D.ncol, sum_range, der2GLambda, der2GE, D.nproj, if_pos h, rVector,
        derivs_fin, derivs_energy, applyOp, D.nsd, hder _ M (Nat.le_succ M)]
      rw [show M + 1 + 1 - 2 + 1 = M + 1 by omega]
      have e2 : ∑ i ∈ range (M + 1), ((M + 1 + 1).choose (i + 1) : ℝ) * (iteratedDeriv (i + 1) E c.l
            * iteratedDeriv (M + 1 + 1 - (i + 1)) (fun t => b m + ∑ k, d m k * p t k) c.l)
          = ∑ k : Fin K, c.dOvlp m k * ∑ o ∈ Ico 1 (M + 1 + 1), ((M + 1 + 1).factorial : ℝ)
              / ((o.factorial : ℝ) * ((M + 1 + 1 - o).factorial : ℝ)) * iteratedDeriv (o - 1 + 1) E c.l
              * iteratedDeriv (M + 1 + 1 - o - 1 + 1) (fun t => p t k) c.l := by
        simp only [mul_sum]
        rw [sum_comm, sum_Ico_eq_sum_range]
        apply sum_congr rfl
        intro i hi
        have hi' := mem_range.mp hi
        rw [show M + 1 + 1 - (i + 1) = (M - i) + 1 by omega, hder m (M - i) (by omega), mul_sum, mul_sum]
        apply sum_congr rfl
        intro k _
        rw [show 1 + i = i + 1 by omega, choose_eq_div _ _ (by omega),
          show M + 1 + 1 - (i + 1) = (M - i) + 1 by omega]
        simp only [Nat.add_sub_cancel]
        ring

      have e3 := sum_op D c.fpot m (fun n k => c.dOvlp n k) fun k => iteratedDeriv (M + 1) (fun t => p t k) c.l
      simp only [D.nsd] at e3
      simp only [sum_range] at e2 e3
      simp only [neg_mul, sum_neg_distrib]
      rw [e2, e3]
      push_cast
      ring
  · have e1 : (fun t => P.G m t (p t) (E t)) = fun t => v m + ∑ k, w m k * p t k := by
      funext t
      simp only [Problem.G, if_neg h, A.con]
    rw [e1, iteratedDeriv_affine_curve _ _ _ _ _ hp, jac_energy_con D h hm]
    have hj : ∀ k : Fin K, c.jac m k = w m k := fun k => by
      rw [jac_con D (hcond m) h hm, hcon]; exact (hasFDerivAt_affine _ _ _).2 k
    simp only [hj]
    have : constantTerms c false (M + 1) 2 (derivs p E c.l) m = 0 := by
      simp only [constantTerms, arrays, derGLambda, der2GLambda, der2GE, D.nproj, if_neg h, Bool.false_eq_true, if_false,
        show ¬ (2 = 3) by omega, zero_mul, sum_const_zero, mul_zero, neg_zero, sub_zero]
      split_ifs <;> rfl
    rw [this]
    ring

/-- **C81.**  If the overlaps and the constraints are affine, then the derivatives of *every* order
`N >= 1` of an exact solution solve the linear system of order `N` of FANPT, in which the right side is
made from the derivatives of lower order. -/
theorem C81_orders_partial {K : ℕ} (P : Problem K) (c : Container ℝ) (b : ℕ → ℝ) (d : ℕ → Fin K → ℝ)
    (v : ℕ → ℝ) (w : ℕ → Fin K → ℝ) (A : Affine P b d v w) (p : ℝ → Fin K → ℝ) (E : ℝ → ℝ)
    (D : Describes P c (p c.l)) (hE0 : E c.l = c.energy) (N : ℕ) (hN : 1 ≤ N)
    (hp : ∀ k, ContDiffAt ℝ N (fun t => p t k) c.l) (hE : ContDiffAt ℝ N E c.l)
    (m : ℕ) (hm : m < P.nequation) (hsol : ∀ᶠ t in 𝓝 c.l, P.G m t (p t) (E t) = 0) :
    (∑ k : Fin K, c.jac m k * iteratedDeriv N (fun t => p t k) c.l) + c.jac m K * iteratedDeriv N E c.l
      = constantTerms c false N 2 (derivs p E c.l) m := by
  obtain ⟨M, rfl⟩ : ∃ M, N = M + 1 := ⟨N - 1, by omega⟩
  have h := affine_identity A p E D hE0 M hp hE m hm
  rw [Filter.EventuallyEq.iteratedDeriv_eq _ (g := fun _ => (0 : ℝ)) hsol] at h
  simp only [iteratedDeriv_fun_const_zero] at h
  linarith

/-- the responses that enter the right side of the system of order `order` -/
theorem constantTerms_congr (c : Container ℝ) (hc : c.activeEnergy = true) (order qao : ℕ) (f g : ℕ → ℕ → ℝ)
    (h : ∀ o, o + 1 < order → ∀ a ≤ c.ncol, f o a = g o a) (ho : 1 ≤ order) (m : ℕ) :
    constantTerms c false order qao f m = constantTerms c false order qao g m := by
  rw [constantTerms, constantTerms]
  by_cases h1 : order = 1
  · rw [if_pos h1, if_pos h1]
  · have hr : ∀ k < c.ncol, rVector c order f k = rVector c order g k := by
      intro k hk
      apply sum_congr rfl
      intro o hom
      have := mem_Ico.mp hom
      rw [h (o - 1) (by omega) _ le_rfl, h (order - o - 1) (by omega) k hk.le]
    have hb : ∀ k < c.ncol, f (order - 2) k = g (order - 2) k := fun k hk => h _ (by omega) k hk.le
    rw [if_neg h1, if_neg h1, hc]
    simp only [if_true]
    have e1 : ∑ k ∈ range c.ncol, (arrays c false).d2GLambda m k * f (order - 2) k
        = ∑ k ∈ range c.ncol, (arrays c false).d2GLambda m k * g (order - 2) k :=
      sum_congr rfl fun k hk => by rw [hb k (mem_range.mp hk)]
    have e2 : ∑ k ∈ range c.ncol, der2GE c m k * rVector c order f k
        = ∑ k ∈ range c.ncol, der2GE c m k * rVector c order g k :=
      sum_congr rfl fun k hk => by rw [hr k (mem_range.mp hk)]
    rw [e1, e2]
    have he : ∀ (t : ℕ → ℕ → ℕ → ℝ) (i j : ℕ), i + 1 < order → j + 1 < order →
        einsum c t (f i) (f j) m = einsum c t (g i) (g j) m := by
      intro t i j hi hj
      apply sum_congr rfl
      intro k hk
      apply sum_congr rfl
      intro l hl
      rw [h i hi k (mem_range.mp hk).le, h j hj l (mem_range.mp hl).le]
    by_cases h2 : order = 2
    · simp only [h2, if_true]
      rw [he _ 0 0 (by omega) (by omega)]
    · by_cases h3 : order = 3
      · simp only [h3, if_true]
        rw [he (der2G c) 1 0 (by omega) (by omega), he (der3GE c) 1 0 (by omega) (by omega),
          he (der3GLambda c) 0 0 (by omega) (by omega), he (der2G c) 0 0 (by omega) (by omega),
          h 0 (by omega) _ le_rfl]
      · simp only [if_neg h2, if_neg h3]

theorem responses_length (c : Container ℝ) (efree : Bool) (qao : ℕ) (solve : (ℕ → ℝ) → ℕ → ℝ) :
    ∀ n, (responses c efree qao solve n).length = n
  | 0 => rfl
  | n + 1 => by rw [responses, List.length_append, responses_length]; rfl

theorem responses_getD_succ (c : Container ℝ) (efree : Bool) (qao : ℕ) (solve : (ℕ → ℝ) → ℕ → ℝ) (n : ℕ) :
    (responses c efree qao solve (n + 1)).getD n (fun _ => 0)
      = solve (constantTerms c efree (n + 1) qao fun i => (responses c efree qao solve n).getD i fun _ => 0) := by
  rw [responses, List.getD_append_right _ _ _ _ (by rw [responses_length]), responses_length, Nat.sub_self]
  rfl

theorem responses_getD_lt (c : Container ℝ) (efree : Bool) (qao : ℕ) (solve : (ℕ → ℝ) → ℕ → ℝ) (i : ℕ) :
    ∀ n, i < n → (responses c efree qao solve n).getD i (fun _ => 0)
      = (responses c efree qao solve (i + 1)).getD i (fun _ => 0)
  | n + 1, h => by
    by_cases hi : i = n
    · subst hi; rfl
    · rw [responses, List.getD_append _ _ _ _ (by rw [responses_length]; omega)]
      exact responses_getD_lt c efree qao solve i n (by omega)

/-- **C81.**  If the linear systems determine their solution and `lstsq` returns it, then, for affine
overlaps and constraints, row `o` of the array of responses has the derivatives of order `o + 1` of
the exact solution. -/
theorem C81_responses_partial {K : ℕ} (P : Problem K) (c : Container ℝ) (b : ℕ → ℝ) (d : ℕ → Fin K → ℝ)
    (v : ℕ → ℝ) (w : ℕ → Fin K → ℝ) (A : Affine P b d v w) (p : ℝ → Fin K → ℝ) (E : ℝ → ℝ)
    (D : Describes P c (p c.l)) (hE0 : E c.l = c.energy) (N : ℕ)
    (hp : ∀ k, ContDiffAt ℝ N (fun t => p t k) c.l) (hE : ContDiffAt ℝ N E c.l)
    (hsol : ∀ m < P.nequation, ∀ᶠ t in 𝓝 c.l, P.G m t (p t) (E t) = 0)
    (solve : (ℕ → ℝ) → ℕ → ℝ)
    (hsolve : ∀ (r x : ℕ → ℝ),
      (∀ m < P.nequation, (∑ k : Fin K, c.jac m k * x k) + c.jac m K * x K = r m) → ∀ a ≤ K, solve r a = x a)
    (o : ℕ) (ho : o < N) :
    (∀ k : Fin K, (responses c false 2 solve N).getD o (fun _ => 0) k = iteratedDeriv (o + 1) (fun t => p t k) c.l) ∧
    (responses c false 2 solve N).getD o (fun _ => 0) K = iteratedDeriv (o + 1) E c.l := by
  have key : ∀ o < N, ∀ a ≤ K, (responses c false 2 solve N).getD o (fun _ => 0) a = derivs p E c.l o a := by
    intro o
    induction o using Nat.strong_induction_on with
    | _ o ih =>
      intro ho a ha
      rw [responses_getD_lt _ _ _ _ _ _ ho, responses_getD_succ]
      refine hsolve _ (derivs p E c.l o) ?_ a ha
      intro m hm
      have h := C81_orders_partial P c b d v w A p E D hE0 (o + 1) (by omega)
        (fun k => (hp k).of_le (by exact_mod_cast ho)) (hE.of_le (by exact_mod_cast ho)) m hm (hsol m hm)
      simp only [derivs_fin, derivs_energy]
      rw [h]
      apply constantTerms_congr c D.active _ _ _ _ _ (by omega)
      intro i hi a' ha'
      rw [D.ncol] at ha'
      rw [← ih i (by omega) (by omega) a' ha', responses_getD_lt _ _ _ _ i N (by omega),
        responses_getD_lt _ _ _ _ i o (by omega)]
  exact ⟨fun k => by rw [key o ho k k.2.le, derivs_fin], by rw [key o ho K le_rfl, derivs_energy]⟩

theorem contDiffAt_corrections (l : ℝ) (resp : List (ℕ → ℝ)) (a : ℝ) (k N : ℕ) :
    ContDiffAt ℝ N (fun t => a + corrections l t resp k) l := by
  unfold corrections
  fun_prop

theorem iteratedDeriv_corrections (l a : ℝ) (resp : List (ℕ → ℝ)) (k i : ℕ) (hi : i < resp.length) :
    iteratedDeriv (i + 1) (fun t => a + corrections l t resp k) l = resp.getD i (fun _ => 0) k := by
  rw [iteratedDeriv_const_add (Nat.succ_pos i)]
  unfold corrections
  have hc : ∀ o, ContDiffAt ℝ (i + 1 : ℕ) (fun t : ℝ => resp.getD o (fun _ => 0) k
      * ((t - l) ^ (o + 1) / ((o + 1).factorial : ℝ))) l := fun o => by fun_prop
  rw [iteratedDeriv_fun_sum fun o _ => hc o]
  have h1 : ∀ o, iteratedDeriv (i + 1) (fun t : ℝ => resp.getD o (fun _ => 0) k
      * ((t - l) ^ (o + 1) / ((o + 1).factorial : ℝ))) l
      = if o = i then resp.getD i (fun _ => 0) k else 0 := by
    intro o
    rw [iteratedDeriv_const_mul_field, iteratedDeriv_div_const]
    have := congrFun (iteratedDeriv_comp_sub_const (i + 1) (fun s : ℝ => s ^ (o + 1)) l) l
    rw [this, sub_self, iteratedDeriv_fun_pow_zero]
    by_cases h : o = i
    · subst h
      simp only [if_true]
      rw [div_self (by exact_mod_cast (Nat.factorial_pos _).ne'), mul_one]
    · rw [if_neg (by omega), if_neg h]
      simp
  simp only [h1]
  rw [sum_ite_eq', if_pos (mem_range.mpr hi)]

/-- **C81.**  If the start is a solution of the equations and the linear systems up to the order `N`
were solved exactly, then, for affine overlaps and constraints, the Taylor polynomials of the
parameters and of the energy satisfy the equations up to terms of order `N + 1`: all derivatives of
the residual up to the order `N` vanish at the start. -/
theorem C81_residual_partial {K : ℕ} (P : Problem K) (c : Container ℝ) (b : ℕ → ℝ) (d : ℕ → Fin K → ℝ)
    (v : ℕ → ℝ) (w : ℕ → Fin K → ℝ) (A : Affine P b d v w) (q : Fin K → ℝ) (D : Describes P c q)
    (N : ℕ) (solve : (ℕ → ℝ) → ℕ → ℝ)
    (hsolve : ∀ o < N, ∀ m < P.nequation,
      (∑ k : Fin K, c.jac m k * (responses c false 2 solve N).getD o (fun _ => 0) k)
        + c.jac m K * (responses c false 2 solve N).getD o (fun _ => 0) K
      = constantTerms c false (o + 1) 2 (fun i => (responses c false 2 solve N).getD i fun _ => 0) m)
    (m : ℕ) (hm : m < P.nequation) (h0 : P.G m c.l q c.energy = 0) (i : ℕ) (hi : i ≤ N) :
    iteratedDeriv i (fun t => P.G m t (fun k => q k + corrections c.l t (responses c false 2 solve N) k)
      (energyResponse c t (responses c false 2 solve N))) c.l = 0 := by
  have hz : ∀ k, corrections c.l c.l (responses c false 2 solve N) k = 0 := by
    intro k
    rw [corrections]
    exact sum_eq_zero fun o _ => by simp
  have hq : (fun k : Fin K => q k + corrections c.l c.l (responses c false 2 solve N) k) = q := by
    funext k; rw [hz, add_zero]
  cases i with
  | zero => simpa [energyResponse, hq, hz] using h0
  | succ M =>
    have h := affine_identity A (fun t k => q k + corrections c.l t (responses c false 2 solve N) k)
      (fun t => energyResponse c t (responses c false 2 solve N)) (by rw [hq]; exact D)
      (by rw [energyResponse, hz, add_zero]) M (fun k => contDiffAt_corrections _ _ _ _ _)
      (by
        have := contDiffAt_corrections c.l (responses c false 2 solve N) c.energy c.ncol (M + 1)
        exact this) m hm
    rw [h]
    have hd : ∀ o < N, ∀ a ≤ K, derivs (fun t (k : Fin K) => q k + corrections c.l t (responses c false 2 solve N) k)
        (fun t => energyResponse c t (responses c false 2 solve N)) c.l o a
        = (responses c false 2 solve N).getD o (fun _ => 0) a := by
      intro o ho a ha
      rw [derivs]
      by_cases h : a < K
      · rw [dif_pos h, iteratedDeriv_corrections _ _ _ _ _ (by rw [responses_length]; exact ho)]
      · rw [dif_neg h]
        simp only [energyResponse]
        rw [iteratedDeriv_corrections _ _ _ _ _ (by rw [responses_length]; exact ho), D.ncol,
          show a = K by omega]
    have e := hsolve M (by omega) m hm
    rw [constantTerms_congr c D.active (M + 1) 2 _
      (fun i => (responses c false 2 solve N).getD i fun _ => 0) ?_ (by omega), ← e]
    · simp only [← hd M (by omega) _ (Nat.le_of_lt (Fin.is_lt _)), ← hd M (by omega) K le_rfl, derivs_fin, derivs_energy]
      ring
    · intro o ho a ha
      exact hd o (by omega) a (by rw [← D.ncol]; exact ha)

/-- **C81, disagreement.**  The rows of constraints have no constant terms beyond the Jacobian.  For
the norm constraint `sum_n <n|Psi> ** 2 - 1`, which is the default constraint of the interface, the
second derivatives of an exact solution satisfy the row only if the wavefunction does not change in
first order at all. -/
theorem C81_norm {K : ℕ} (P : Problem K) (c : Container ℝ) (b : ℕ → ℝ) (d : ℕ → Fin K → ℝ)
    (hov : ∀ n q, P.ov n q = b n + ∑ k, d n k * q k) (p : ℝ → Fin K → ℝ) (E : ℝ → ℝ) (qao : ℕ)
    (D : Describes P c (p c.l)) (hp : ∀ k, ContDiffAt ℝ 2 (fun t => p t k) c.l)
    (m : ℕ) (hm : m < P.nequation) (hmp : ¬ m < P.nproj)
    (hcon : ∀ q, P.con m q = ∑ n ∈ range P.nsd, P.ov n q ^ 2 - 1)
    (hsol : ∀ᶠ t in 𝓝 c.l, P.G m t (p t) (E t) = 0) :
    (∑ k : Fin K, c.jac m k * iteratedDeriv 2 (fun t => p t k) c.l) + c.jac m K * iteratedDeriv 2 E c.l
        = constantTerms c false 2 qao (derivs p E c.l) m ↔
      ∀ n < P.nsd, deriv (fun t => P.ov n (p t)) c.l = 0 := by
  have h0 : constantTerms c false 2 qao (derivs p E c.l) m = 0 := by
    simp only [constantTerms, arrays, der2GLambda, der2GE, D.nproj, if_neg hmp, Bool.false_eq_true, if_false,
      zero_mul, sum_const_zero, mul_zero, neg_zero, sub_zero, einsum, der2G]
    split_ifs <;> simp at *
  have hovf : ∀ n, P.ov n = fun q => b n + ∑ k, d n k * q k := fun n => funext (hov n)
  have hovd : ∀ n, DifferentiableAt ℝ (P.ov n) (p c.l) := fun n => by
    rw [hovf]; exact (hasFDerivAt_affine _ _ _).1
  have hj : ∀ k : Fin K, c.jac m k = ∑ n ∈ range P.nsd, 2 * P.ov n (p c.l) * d n k := by
    intro k
    have h := D.jac m hm k
    simp only [Problem.G, if_neg hmp, hcon] at h
    refine h.unique ?_
    have h1 := fun n => hasDerivAt_along (hovd n) k
    have h2 := (HasDerivAt.fun_sum (u := range P.nsd) fun n _ => (h1 n).fun_pow 2).sub_const 1
    refine h2.congr_deriv ?_
    apply sum_congr rfl
    intro n _
    rw [Function.update_eq_self]
    have : fderiv ℝ (P.ov n) (p c.l) (Pi.single k 1) = d n k := by
      rw [hovf]; exact (hasFDerivAt_affine _ _ _).2 k
    rw [this]
    norm_num
  -- second derivative of the constraint along the curve
  have hcn : ∀ n, ContDiffAt ℝ (1 + 1 : ℕ) (fun t => b n + ∑ k, d n k * p t k) c.l := fun n =>
    contDiffAt_affine_curve _ _ _ _ _ hp
  have hz : iteratedDeriv 2 (fun t => ∑ n ∈ range P.nsd, P.ov n (p t) * P.ov n (p t)) c.l = 0 := by
    have : (fun t => ∑ n ∈ range P.nsd, P.ov n (p t) * P.ov n (p t)) =ᶠ[𝓝 c.l] fun _ => (1 : ℝ) := by
      filter_upwards [hsol] with t ht
      simp only [Problem.G, if_neg hmp, hcon] at ht
      simp only [← sq]
      linarith
    rw [Filter.EventuallyEq.iteratedDeriv_eq _ this]
    simp [iteratedDeriv_const]
  simp only [hov] at hz
  rw [show (2 : ℕ) = 1 + 1 from rfl, iteratedDeriv_fun_sum fun n _ => (hcn n).mul (hcn n)] at hz
  have hs : ∀ n, iteratedDeriv (1 + 1) (fun t => (b n + ∑ k, d n k * p t k) * (b n + ∑ k, d n k * p t k)) c.l
      = 2 * P.ov n (p c.l) * (∑ k, d n k * iteratedDeriv 2 (fun t => p t k) c.l)
        + 2 * deriv (fun t => P.ov n (p t)) c.l ^ 2 := by
    intro n
    rw [iteratedDeriv_fun_mul (hcn n) (hcn n), sum_range_succ, sum_range_succ, sum_range_succ, sum_range_zero,
      iteratedDeriv_affine_curve _ _ _ _ _ hp]
    simp only [hov, Nat.sub_zero, Nat.sub_self, iteratedDeriv_zero, iteratedDeriv_one, Nat.add_sub_cancel,
      Nat.choose_zero_right, Nat.choose_self, Nat.choose_one_right, iteratedDeriv_affine_curve _ _ _ _ _ hp]
    push_cast
    ring
  simp only [hs, sum_add_distrib] at hz
  have hlhs : (∑ k : Fin K, c.jac m k * iteratedDeriv 2 (fun t => p t k) c.l)
      = ∑ n ∈ range P.nsd, 2 * P.ov n (p c.l) * ∑ k, d n k * iteratedDeriv 2 (fun t => p t k) c.l := by
    simp only [hj, sum_mul, mul_sum]
    rw [sum_comm]
    apply sum_congr rfl; intro n _
    apply sum_congr rfl; intro k _
    ring
  rw [h0, jac_energy_con D hmp hm, zero_mul, add_zero, hlhs]
  constructor
  · intro h
    rw [h, zero_add] at hz
    intro n hn
    have := (sum_eq_zero_iff_of_nonneg fun n _ => by positivity).mp hz n (mem_range.mpr hn)
    have h2 : deriv (fun t => P.ov n (p t)) c.l ^ 2 = 0 := by linarith
    exact pow_eq_zero_iff (two_ne_zero) |>.mp h2
  · intro h
    rw [sum_eq_zero (s := range P.nsd) (f := fun n => 2 * deriv (fun t => P.ov n (p t)) c.l ^ 2), add_zero] at hz
    · exact hz
    · intro n hn
      rw [h n (mem_range.mp hn)]; norm_num

end Fanpy.Props
