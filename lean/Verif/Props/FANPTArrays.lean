import Verif.Props.FANPTQuasi

/-!
# C82: the arrays of second derivatives
-/

namespace Fanpy.Props

open Fanpy.FANPT Finset Filter Topology

/-- second partial derivatives of a linear combination -/
theorem second_sum {K : ℕ} (f : ℕ → (Fin K → ℝ) → ℝ) (hf : ∀ n, ContDiff ℝ 2 (f n)) (N : ℕ) (b : ℕ → ℝ)
    (q u v : Fin K → ℝ) :
    fderiv ℝ (fun q => fderiv ℝ (fun q => ∑ n ∈ range N, b n * f n q) q u) q v
      = ∑ n ∈ range N, b n * fderiv ℝ (fun q => fderiv ℝ (f n) q u) q v := by
  have hd : ∀ n q, DifferentiableAt ℝ (f n) q := fun n q => ((hf n).differentiable (by simp)).differentiableAt
  have hdd : ∀ n q, DifferentiableAt ℝ (fun q => fderiv ℝ (f n) q u) q := fun n q =>
    (((hf n).fderiv_right (m := 1) (by norm_num)).differentiable (by simp)).differentiableAt.clm_apply
      (differentiableAt_const u)
  have e1 : (fun q => fderiv ℝ (fun q => ∑ n ∈ range N, b n * f n q) q u)
      = fun q => ∑ n ∈ range N, b n * fderiv ℝ (f n) q u := by
    funext q
    rw [fderiv_fun_sum fun n _ => (hd n q).const_mul (b n)]
    simp only [_root_.sum_apply]
    apply sum_congr rfl; intro n _
    rw [fderiv_const_mul (hd n q)]
    rfl
  rw [e1, fderiv_fun_sum fun n _ => (hdd n q).const_mul (b n)]
  simp only [_root_.sum_apply]
  apply sum_congr rfl; intro n _
  rw [fderiv_const_mul (hdd n q)]
  rfl

/-- **C82.**  The three arrays with second derivatives by the parameters, as computed for pairs of
parameters in any order, are the second derivatives of the equations, of their derivatives by `l` and
of their derivatives by the energy.  The rows of constraints are zero. -/
theorem C82_arrays {K : ℕ} (P : Problem K) (c : Container ℝ) (q : Fin K → ℝ) (D : Describes P c q)
    (hov : ∀ n, ContDiff ℝ 2 (P.ov n))
    (hdd : ∀ n (k j : Fin K), c.ddOvlp n k j
      = fderiv ℝ (fun q => fderiv ℝ (P.ov n) q (Pi.single k 1)) q (Pi.single j 1))
    (m : ℕ) (k j : Fin K) :
    (m < P.nproj →
      der2G c m k j = fderiv ℝ (fun q => fderiv ℝ (fun q => P.G m c.l q c.energy) q (Pi.single k 1)) q
        (Pi.single j 1) ∧
      der3GLambda c m k j = fderiv ℝ (fun q => fderiv ℝ (fun q => deriv (fun t => P.G m t q c.energy) c.l) q
        (Pi.single k 1)) q (Pi.single j 1) ∧
      der3GE c m k j = fderiv ℝ (fun q => fderiv ℝ (fun q => deriv (fun e => P.G m c.l q e) c.energy) q
        (Pi.single k 1)) q (Pi.single j 1)) ∧
    (P.nproj ≤ m → der2G c m k j = 0 ∧ der3GLambda c m k j = 0 ∧ der3GE c m k j = 0) := by
  have hmm := fun n k j => minmax (P := P) hdd hov n k j
  refine ⟨fun h => ⟨?_, ?_, ?_⟩, fun h => ?_⟩
  · -- the energy is put into the coefficient of one more term
    have e : (fun q => P.G m c.l q c.energy) = fun q => ∑ n ∈ range (P.nsd + 1),
        (if n < P.nsd then c.ham m n else -c.energy) * (if n < P.nsd then P.ov n else P.ov m) q := by
      funext q
      rw [sum_range_succ]
      simp only [Problem.G, if_pos h, lt_irrefl, if_false]
      rw [sub_eq_add_neg, ← neg_mul]
      congr 1
      apply sum_congr rfl; intro n hn
      rw [if_pos (mem_range.mp hn), if_pos (mem_range.mp hn), D.ham]
    rw [e, second_sum (fun n => if n < P.nsd then P.ov n else P.ov m) (fun n => by split <;> exact hov _),
      sum_range_succ]
    simp only [lt_irrefl, if_false, der2G, D.nproj, if_pos h, applyOp, hmm, D.nsd, ← hdd]
    rw [sub_eq_add_neg, ← neg_mul]
    congr 1
    apply sum_congr rfl; intro n hn
    simp only [if_pos (mem_range.mp hn), ← hdd]
  · have e : (fun q => deriv (fun t => P.G m t q c.energy) c.l)
        = fun q => ∑ n ∈ range P.nsd, c.fpot m n * P.ov n q := by
      funext q
      simp only [Problem.G, if_pos h, D.fpot]
      refine (HasDerivAt.sub_const _ ?_).deriv
      apply HasDerivAt.fun_sum
      intro n _
      refine ((((hasDerivAt_id' c.l).mul_const (P.a1 m n)).fun_add
        (((hasDerivAt_const c.l (1 : ℝ)).fun_sub (hasDerivAt_id' c.l)).mul_const (P.a0 m n))).mul_const
          (P.ov n q)).congr_deriv ?_
      ring
    rw [e, second_sum _ hov]
    simp only [der3GLambda, D.nproj, if_pos h, applyOp, hmm, D.nsd, hdd]
  · have e : (fun q => deriv (fun e => P.G m c.l q e) c.energy) = fun q => ∑ n ∈ range 1, (-1) * P.ov m q := by
      funext q
      simp only [Problem.G, if_pos h, sum_range_one, neg_one_mul]
      refine ((((hasDerivAt_id' c.energy).mul_const (P.ov m q)).const_sub _).congr_deriv ?_).deriv
      ring
    rw [e, second_sum (fun _ => P.ov m) (fun _ => hov m) 1 (fun _ => -1)]
    simp [der3GE, D.nproj, h, hdd]
  · simp [der2G, der3GLambda, der3GE, D.nproj, Nat.not_lt.mpr h]

/-- third derivative along a curve of a function with constant second derivatives -/
theorem iteratedDeriv_three_curve {K : ℕ} (f : (Fin K → ℝ) → ℝ) (p : ℝ → Fin K → ℝ) (l : ℝ) (hf : ContDiff ℝ 2 f)
    (B : Fin K → Fin K → ℝ)
    (hB : ∀ k j q, fderiv ℝ (fun q => fderiv ℝ f q (Pi.single k 1)) q (Pi.single j 1) = B k j)
    (hp : ∀ k, ContDiffAt ℝ 3 (fun t => p t k) l) :
    iteratedDeriv 3 (fun t => f (p t)) l
      = ∑ k, fderiv ℝ f (p l) (Pi.single k 1) * iteratedDeriv 3 (fun t => p t k) l
        + 3 * ∑ k, ∑ j, B k j * iteratedDeriv 2 (fun t => p t k) l * deriv (fun t => p t j) l := by
  have hsymm : ∀ k j, B k j = B j k := fun k j => by rw [← hB k j (p l), ← hB j k (p l), second_symm f hf]
  have hev : ∀ᶠ t in 𝓝 l, ∀ k, ContDiffAt ℝ 3 (fun t => p t k) t := by
    rw [eventually_all]
    intro k
    exact (hp k).eventually (by simp)
  have hd2 : iteratedDeriv 2 (fun t => f (p t)) =ᶠ[𝓝 l]
      fun t => ∑ k, fderiv ℝ f (p t) (Pi.single k 1) * iteratedDeriv 2 (fun t => p t k) t
        + ∑ k, ∑ j, B k j * deriv (fun t => p t k) t * deriv (fun t => p t j) t := by
    filter_upwards [hev] with t ht
    rw [iteratedDeriv_two_curve f p t hf fun k => (ht k).of_le (by norm_num)]
    simp only [hB]
  rw [show (3 : ℕ) = 2 + 1 from rfl, iteratedDeriv_succ, hd2.deriv_eq]
  have hpl : ∀ k, DifferentiableAt ℝ (fun t => p t k) l := fun k => (hp k).differentiableAt (by simp)
  have hg : ∀ k : Fin K, ContDiff ℝ 1 fun q => fderiv ℝ f q (Pi.single k 1) := fun k =>
    (hf.fderiv_right (m := 1) (by norm_num)).clm_apply contDiff_const
  have c1 : ∀ k, HasDerivAt (deriv (fun t => p t k)) (iteratedDeriv 2 (fun t => p t k) l) l := by
    intro k
    rw [show (2 : ℕ) = 1 + 1 from rfl, iteratedDeriv_succ, iteratedDeriv_one]
    have : ContDiffAt ℝ 2 (deriv fun t => p t k) l := (hp k).derivWithin (by norm_num)
    exact (this.differentiableAt (by simp)).hasDerivAt
  have c2 : ∀ k, HasDerivAt (iteratedDeriv 2 (fun t => p t k)) (iteratedDeriv 3 (fun t => p t k) l) l := by
    intro k
    have e : iteratedDeriv 2 (fun t => p t k) = deriv (deriv fun t => p t k) := by
      rw [show (2 : ℕ) = 1 + 1 from rfl, iteratedDeriv_succ, iteratedDeriv_one]
    have e3 : iteratedDeriv 3 (fun t => p t k) = deriv (deriv (deriv fun t => p t k)) := by
      rw [show (3 : ℕ) = 2 + 1 from rfl, iteratedDeriv_succ, e]
    rw [e3, e]
    have h1 : ContDiffAt ℝ 2 (deriv fun t => p t k) l := (hp k).derivWithin (by norm_num)
    have : ContDiffAt ℝ 1 (deriv (deriv fun t => p t k)) l := h1.derivWithin (by norm_num)
    exact (this.differentiableAt (by simp)).hasDerivAt
  have h2 : ∀ k, HasDerivAt (fun t => fderiv ℝ f (p t) (Pi.single k 1) * iteratedDeriv 2 (fun t => p t k) t)
      ((∑ j, B k j * deriv (fun t => p t j) l) * iteratedDeriv 2 (fun t => p t k) l
        + fderiv ℝ f (p l) (Pi.single k 1) * iteratedDeriv 3 (fun t => p t k) l) l := by
    intro k
    have e1 := hasDerivAt_curve _ p l ((hg k).differentiable (by simp)).differentiableAt hpl
    simp only [hB] at e1
    exact e1.mul (c2 k)
  have h3 : ∀ k j, HasDerivAt (fun t => B k j * deriv (fun t => p t k) t * deriv (fun t => p t j) t)
      (B k j * iteratedDeriv 2 (fun t => p t k) l * deriv (fun t => p t j) l
        + B k j * deriv (fun t => p t k) l * iteratedDeriv 2 (fun t => p t j) l) l := fun k j =>
    ((c1 k).const_mul (B k j)).mul (c1 j)
  rw [((HasDerivAt.fun_sum fun k _ => h2 k).fun_add
    (HasDerivAt.fun_sum fun k _ => HasDerivAt.fun_sum fun j _ => h3 k j)).deriv]
  have s1 : ∑ k, ((∑ j, B k j * deriv (fun t => p t j) l) * iteratedDeriv 2 (fun t => p t k) l
        + fderiv ℝ f (p l) (Pi.single k 1) * iteratedDeriv 3 (fun t => p t k) l)
      = ∑ k, fderiv ℝ f (p l) (Pi.single k 1) * iteratedDeriv 3 (fun t => p t k) l
        + ∑ k, ∑ j, B k j * iteratedDeriv 2 (fun t => p t k) l * deriv (fun t => p t j) l := by
    rw [sum_add_distrib, add_comm]
    congr 1
    apply sum_congr rfl; intro k _
    rw [sum_mul]
    apply sum_congr rfl; intro j _
    ring
  have s2 : ∑ k, ∑ j, B k j * deriv (fun t => p t k) l * iteratedDeriv 2 (fun t => p t j) l
      = ∑ k, ∑ j, B k j * iteratedDeriv 2 (fun t => p t k) l * deriv (fun t => p t j) l := by
    rw [sum_comm]
    apply sum_congr rfl; intro k _
    apply sum_congr rfl; intro j _
    rw [hsymm j k]
    ring
  simp only [sum_add_distrib] at s1 ⊢
  rw [s1, s2]
  ring

/-- **C82, the third order.**  For overlaps with constant second derivatives the third derivatives of an
exact solution solve the rows of the projected equations of the linear system of order 3 of the code up
to one term: the code has the second derivatives of the parameters where the chain rule has the first. -/
theorem C82_third_partial {K : ℕ} (P : Problem K) (c : Container ℝ) (p : ℝ → Fin K → ℝ) (E : ℝ → ℝ)
    (D : Describes P c (p c.l)) (hE0 : E c.l = c.energy) (hov : ∀ n, ContDiff ℝ 3 (P.ov n))
    (hdd : ∀ n (k j : Fin K) q, c.ddOvlp n k j
      = fderiv ℝ (fun q => fderiv ℝ (P.ov n) q (Pi.single k 1)) q (Pi.single j 1))
    (hp : ∀ k, ContDiffAt ℝ 3 (fun t => p t k) c.l) (hE : ContDiffAt ℝ 3 E c.l)
    (m : ℕ) (hm : m < P.nequation) (h : m < P.nproj)
    (hsol : ∀ᶠ t in 𝓝 c.l, P.G m t (p t) (E t) = 0) :
    (∑ k : Fin K, c.jac m k * iteratedDeriv 3 (fun t => p t k) c.l) + c.jac m K * iteratedDeriv 3 E c.l
      = constantTerms c false 3 3 (derivs p E c.l) m
        + 3 * deriv E c.l * ∑ k : Fin K, ∑ j : Fin K, c.ddOvlp m k j
          * (deriv (fun t => p t k) c.l - iteratedDeriv 2 (fun t => p t k) c.l) * deriv (fun t => p t j) c.l := by
  have hz := Filter.EventuallyEq.iteratedDeriv_eq 3 (g := fun _ => (0 : ℝ)) hsol
  simp only [iteratedDeriv_fun_const_zero] at hz
  have hov2 : ∀ n, ContDiff ℝ 2 (P.ov n) := fun n => (hov n).of_le (by norm_num)
  have hovd : ∀ n, DifferentiableAt ℝ (P.ov n) (p c.l) := fun n =>
    ((hov n).differentiable (by simp)).differentiableAt
  have hpd : ∀ k, DifferentiableAt ℝ (fun t => p t k) c.l := fun k => (hp k).differentiableAt (by simp)
  have hcd : ∀ n, ContDiffAt ℝ (2 + 1 : ℕ) (fun t => P.ov n (p t)) c.l := fun n =>
    (hov n).contDiffAt.comp c.l (contDiffAt_pi.mpr hp)
  have e1 : (fun t => P.G m t (p t) (E t)) = fun t =>
      ∑ n ∈ range P.nsd, (t * P.a1 m n + (1 - t) * P.a0 m n) * P.ov n (p t) - E t * P.ov m (p t) := by
    funext t
    simp only [Problem.G, if_pos h]
  rw [e1, show (3 : ℕ) = 2 + 1 from rfl,
    iteratedDeriv_projected P.nsd m (P.a1 m) (P.a0 m) (fun n t => P.ov n (p t)) E c.l 2 hcd hE] at hz
  have hd1 : ∀ n, deriv (fun t => P.ov n (p t)) c.l = ∑ k : Fin K, c.dOvlp n k * deriv (fun t => p t k) c.l := by
    intro n
    simp only [D.dOvlp]
    exact (hasDerivAt_curve _ _ _ (hovd n) hpd).deriv
  have hd2 : ∀ n, iteratedDeriv 2 (fun t => P.ov n (p t)) c.l
      = ∑ k : Fin K, c.dOvlp n k * iteratedDeriv 2 (fun t => p t k) c.l
        + ∑ k : Fin K, ∑ j : Fin K, c.ddOvlp n k j * deriv (fun t => p t k) c.l * deriv (fun t => p t j) c.l := by
    intro n
    rw [iteratedDeriv_two_curve (P.ov n) p c.l (hov2 n) fun k => (hp k).of_le (by norm_num)]
    simp only [D.dOvlp, ← hdd]
  have hd3 : ∀ n, iteratedDeriv (2 + 1) (fun t => P.ov n (p t)) c.l
      = ∑ k : Fin K, c.dOvlp n k * iteratedDeriv (2 + 1) (fun t => p t k) c.l
        + 3 * ∑ k : Fin K, ∑ j : Fin K, c.ddOvlp n k j * iteratedDeriv 2 (fun t => p t k) c.l
          * deriv (fun t => p t j) c.l := by
    intro n
    simp only [D.dOvlp]
    exact iteratedDeriv_three_curve (P.ov n) p c.l (hov2 n) (fun k j => c.ddOvlp n k j)
      (fun k j q => (hdd n k j q).symm) hp
  simp only [← D.ham, ← D.fpot, hd3, hd2] at hz
  rw [sum_range_succ, sum_range_succ, sum_range_succ, sum_range_succ, sum_range_zero] at hz
  simp only [Nat.sub_zero, Nat.sub_self, iteratedDeriv_zero, Nat.choose_zero_right, Nat.choose_self,
    Nat.choose_one_right, Nat.add_sub_cancel, iteratedDeriv_one, hE0, show 2 + 1 - 2 = 1 from rfl,
    show Nat.choose (2 + 1) 2 = 3 from rfl, hd1, hd2, hd3, mul_add, sum_add_distrib] at hz
  rw [sum_op D c.ham m (fun n k => c.dOvlp n k), sum_op D c.fpot m (fun n k => c.dOvlp n k)] at hz
  have e3 : ∀ (a : ℕ → ℕ → ℝ) (u v : Fin K → ℝ), ∑ n ∈ range P.nsd, a m n * ∑ k : Fin K, ∑ j : Fin K,
        c.ddOvlp n k j * u k * v j
      = ∑ k : Fin K, ∑ j : Fin K, (∑ n ∈ range c.nsd, a m n * c.ddOvlp n k j) * u k * v j := by
    intro a u v
    rw [D.nsd]
    simp only [mul_sum, sum_mul]
    rw [sum_comm]
    apply sum_congr rfl; intro k _
    rw [sum_comm]
    apply sum_congr rfl; intro j _
    apply sum_congr rfl; intro n _
    ring
  have e3' : ∑ n ∈ range P.nsd, c.ham m n * (3 * ∑ k : Fin K, ∑ j : Fin K,
        c.ddOvlp n k j * iteratedDeriv 2 (fun t => p t k) c.l * deriv (fun t => p t j) c.l)
      = 3 * ∑ n ∈ range P.nsd, c.ham m n * ∑ k : Fin K, ∑ j : Fin K,
        c.ddOvlp n k j * iteratedDeriv 2 (fun t => p t k) c.l * deriv (fun t => p t j) c.l := by
    rw [mul_sum (range P.nsd)]
    apply sum_congr rfl; intro n _
    ring
  rw [e3', e3 c.ham (fun k => iteratedDeriv 2 (fun t => p t k) c.l) (fun j => deriv (fun t => p t j) c.l),
    e3 c.fpot (fun k => deriv (fun t => p t k) c.l) (fun j => deriv (fun t => p t j) c.l)] at hz
  have hK := fun f : ℕ → ℝ => sum_range (n := K) f
  have hmm := fun n k j => minmax (P := P) (fun n k j => hdd n k j (p c.l)) hov2 n k j
  rw [jac_energy D h hm]
  simp only [jac_proj D hovd h hm]
  have s5 : ∀ f : ℕ → ℝ, ∑ o ∈ Ico 1 3, f o = f 1 + f 2 := fun f => by
    rw [show Ico 1 3 = {1, 2} from rfl, sum_pair (by norm_num)]
  simp only [constantTerms, arrays, show ¬ (3 = 1) by omega, show ¬ (3 = 2) by omega, D.active, if_true,
    Bool.false_eq_true, if_false,
    D.ncol, hK, der2GLambda, der2GE, D.nproj, if_pos h, rVector, derivs_fin, derivs_energy, applyOp, einsum,
    der2G, der3GE, der3GLambda, hmm, s5, Nat.sub_self, iteratedDeriv_one,
    show 3 - 1 - 1 + 1 = 2 from rfl, show 3 - 2 - 1 + 1 = 1 from rfl, show 3 - 1 = 2 from rfl, show 3 - 2 = 1 from rfl]
  simp only [D.nsd] at hz ⊢
  generalize hX : (∑ x : Fin K, ∑ j : Fin K, (∑ i ∈ range P.nsd, c.ham m i * c.ddOvlp i x j)
      * iteratedDeriv 2 (fun t => p t x) c.l * deriv (fun t => p t j) c.l) = X at hz
  generalize hY : (∑ x : Fin K, ∑ j : Fin K, c.ddOvlp m x j
      * iteratedDeriv 2 (fun t => p t x) c.l * deriv (fun t => p t j) c.l) = Y at hz
  generalize hZ : (∑ x : Fin K, ∑ j : Fin K, c.ddOvlp m x j
      * deriv (fun t => p t x) c.l * deriv (fun t => p t j) c.l) = Z at hz
  have e4 : ∑ x : Fin K, ∑ j : Fin K, (∑ i ∈ range P.nsd, c.ham m i * c.ddOvlp i x j - c.energy * c.ddOvlp m x j)
        * iteratedDeriv 2 (fun t => p t x) c.l * deriv (fun t => p t j) c.l = X - c.energy * Y := by
    rw [← hX, ← hY]
    simp only [sub_mul, sum_sub_distrib, mul_sum, mul_assoc]
  have e6 : ∑ x : Fin K, ∑ j : Fin K, c.ddOvlp m x j
      * (deriv (fun t => p t x) c.l - iteratedDeriv 2 (fun t => p t x) c.l) * deriv (fun t => p t j) c.l = Z - Y := by
    rw [← hY, ← hZ]
    simp only [mul_sub, sub_mul, sum_sub_distrib]
  have e7 : ∑ x : Fin K, ∑ j : Fin K, -c.ddOvlp m x j
      * iteratedDeriv 2 (fun t => p t x) c.l * deriv (fun t => p t j) c.l = -Y := by
    rw [← hY]
    simp only [neg_mul, sum_neg_distrib]
  rw [e4, e6, e7]
  have e5 : ∑ x : Fin K, -c.dOvlp m x * (((Nat.factorial 3 : ℕ) : ℝ) / (((Nat.factorial 1 : ℕ) : ℝ)
        * ((Nat.factorial 2 : ℕ) : ℝ)) * deriv E c.l * iteratedDeriv 2 (fun t => p t x) c.l
        + ((Nat.factorial 3 : ℕ) : ℝ) / (((Nat.factorial 2 : ℕ) : ℝ)
        * ((Nat.factorial 1 : ℕ) : ℝ)) * iteratedDeriv 2 E c.l * deriv (fun t => p t x) c.l)
      = -3 * deriv E c.l * ∑ x : Fin K, c.dOvlp m x * iteratedDeriv 2 (fun t => p t x) c.l
        - 3 * iteratedDeriv 2 E c.l * ∑ x : Fin K, c.dOvlp m x * deriv (fun t => p t x) c.l := by
    rw [mul_sum, mul_sum, ← sum_sub_distrib]
    apply sum_congr rfl; intro k _
    norm_num [Nat.factorial]
    ring
  rw [e5]
  have e8 : ∑ k : Fin K, (∑ n ∈ range P.nsd, c.ham m n * c.dOvlp n k - c.energy * c.dOvlp m k)
        * iteratedDeriv 3 (fun t => p t k) c.l
      = ∑ k : Fin K, (∑ n ∈ range P.nsd, c.ham m n * c.dOvlp n k) * iteratedDeriv 3 (fun t => p t k) c.l
        - c.energy * ∑ k : Fin K, c.dOvlp m k * iteratedDeriv 3 (fun t => p t k) c.l := by
    simp only [sub_mul, sum_sub_distrib, mul_sum, mul_assoc]
  rw [e8]
  push_cast at hz ⊢
  linarith

/-- **C82, the third order, rows of affine constraints.** -/
theorem C82_third_constraints {K : ℕ} (P : Problem K) (c : Container ℝ) (p : ℝ → Fin K → ℝ) (E : ℝ → ℝ)
    (D : Describes P c (p c.l)) (hp : ∀ k, ContDiffAt ℝ 3 (fun t => p t k) c.l)
    (m : ℕ) (hm : m < P.nequation) (h : P.nproj ≤ m)
    (hcon : ∃ (v : ℝ) (w : Fin K → ℝ), ∀ q, P.con m q = v + ∑ k, w k * q k)
    (hsol : ∀ᶠ t in 𝓝 c.l, P.G m t (p t) (E t) = 0) :
    (∑ k : Fin K, c.jac m k * iteratedDeriv 3 (fun t => p t k) c.l) + c.jac m K * iteratedDeriv 3 E c.l
      = constantTerms c false 3 3 (derivs p E c.l) m := by
  have hz := Filter.EventuallyEq.iteratedDeriv_eq 3 (g := fun _ => (0 : ℝ)) hsol
  simp only [iteratedDeriv_fun_const_zero] at hz
  have h' : ¬ m < P.nproj := Nat.not_lt.mpr h
  obtain ⟨v, w, hcon⟩ := hcon
  have hconf : P.con m = fun q => v + ∑ k, w k * q k := funext hcon
  have e1 : (fun t => P.G m t (p t) (E t)) = fun t => v + ∑ k, w k * p t k := by
    funext t
    simp only [Problem.G, if_neg h', hcon]
  have hp' : ∀ k, ContDiffAt ℝ (2 + 1 : ℕ) (fun t => p t k) c.l := hp
  rw [e1, show (3 : ℕ) = 2 + 1 from rfl, iteratedDeriv_affine_curve _ _ _ _ _ hp'] at hz
  have hj : ∀ k : Fin K, c.jac m k = w k := fun k => by
    rw [jac_con D (by rw [hconf]; exact (hasFDerivAt_affine _ _ _).1) h' hm, hconf]
    exact (hasFDerivAt_affine _ _ _).2 k
  rw [jac_energy_con D h' hm]
  simp only [hj]
  have : constantTerms c false 3 3 (derivs p E c.l) m = 0 := by
    simp [constantTerms, arrays, der2GLambda, der2GE, der2G, der3GE, der3GLambda, einsum, D.nproj, h']
  rw [this, zero_mul, add_zero]
  exact hz

/-- the hypotheses are met by the overlap `p ** 2`, where the arrays are not zero, and by its solution
`p = 1 + l`, `E = l` -/
example : Describes cubicProblem cubicContainer (fun _ => 1 + cubicContainer.l) ∧
    (∀ n, ContDiff ℝ 3 (cubicProblem.ov n)) ∧
    (∀ n (k j : Fin 1) q, cubicContainer.ddOvlp n k j
      = fderiv ℝ (fun q => fderiv ℝ (cubicProblem.ov n) q (Pi.single k 1)) q (Pi.single j 1)) ∧
    ContDiffAt ℝ 3 (fun t : ℝ => 1 + t) 0 ∧ (∀ t, cubicProblem.G 0 t (fun _ => 1 + t) t = 0) ∧
    der3GLambda cubicContainer 0 0 0 = 2 ∧ der3GE cubicContainer 0 0 0 = -2 := by
  refine ⟨C82_third.2.1, fun n => ?_, fun n k j q => ?_, by fun_prop, C82_third.1, ?_, ?_⟩
  · simp only [cubicProblem]; fun_prop
  · have e : (fun q => fderiv ℝ (cubicProblem.ov n) q (Pi.single k 1)) = fun q : Fin 1 → ℝ => 2 * q 0 := by
      funext q; exact fderiv_square q k
    obtain rfl : j = 0 := Subsingleton.elim _ _
    have hl : HasFDerivAt (fun q : Fin 1 → ℝ => 2 * q 0)
        ((2 : ℝ) • (ContinuousLinearMap.proj 0 : (Fin 1 → ℝ) →L[ℝ] ℝ)) q :=
      (ContinuousLinearMap.proj (R := ℝ) (φ := fun _ : Fin 1 => ℝ) 0).hasFDerivAt.const_mul 2
    rw [e, hl.fderiv]
    simp [cubicContainer]
  · simp [der3GLambda, cubicContainer, applyOp]
  · simp [der3GE, cubicContainer]

end Fanpy.Props
