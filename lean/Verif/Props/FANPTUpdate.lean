import Mathlib.Analysis.SpecificLimits.Basic
import Mathlib.Tactic.Module
import Verif.Props.FANPTFree

/-!
# C84–C86: updates of FANPT, its steps and its Hamiltonians
-/

namespace Fanpy.Props

open Fanpy.FANPT Finset Filter Topology

/-! ## C84 -/

/-- **C84.**  The updated wavefunction parameters: the frozen ones are unchanged, and the active one
number `a` is increased by the correction number `a`. -/
theorem C84_update {R : Type} [Field R] : ∀ (mask : List Bool) (ps ds : List R), mask.length = ps.length →
    ds.length = mask.count true →
    (addCorrections mask ps ds).length = ps.length ∧
    ∀ i, (mask.getD i false = false → (addCorrections mask ps ds)[i]? = ps[i]?) ∧
      (mask.getD i false = true →
        (addCorrections mask ps ds).getD i 0 = ps.getD i 0 + ds.getD ((mask.take i).count true) 0)
  | [], ps, ds, h, _ => by
    obtain rfl : ps = [] := List.length_eq_zero_iff.mp h.symm
    simp [addCorrections]
  | true :: mask, p :: ps, d :: ds, h, hd => by
    obtain ⟨h1, h2⟩ := C84_update mask ps ds (by simpa using h) (by simpa using hd)
    refine ⟨by simp [addCorrections, h1], fun i => ?_⟩
    cases i with
    | zero => simp [addCorrections]
    | succ i => simpa [addCorrections] using h2 i
  | true :: mask, p :: ps, [], h, hd => by simp at hd
  | false :: mask, p :: ps, ds, h, hd => by
    obtain ⟨h1, h2⟩ := C84_update mask ps ds (by simpa using h) (by simpa using hd)
    refine ⟨by simp [addCorrections, h1], fun i => ?_⟩
    cases i with
    | zero => simp [addCorrections]
    | succ i => simpa [addCorrections] using h2 i

/-- **C84.**  For affine overlaps and constraints the corrections are the Taylor polynomials of the exact
solution: the sum of `d^o p / dl^o * (final_l - l) ** o / o!` for `o = 1, .., N`, and likewise for the
energy response. -/
theorem C84_taylor_partial {K : ℕ} (P : Problem K) (c : Container ℝ) (b : ℕ → ℝ) (d : ℕ → Fin K → ℝ)
    (v : ℕ → ℝ) (w : ℕ → Fin K → ℝ) (A : Affine P b d v w) (p : ℝ → Fin K → ℝ) (E : ℝ → ℝ)
    (D : Describes P c (p c.l)) (hE0 : E c.l = c.energy) (N : ℕ)
    (hp : ∀ k, ContDiffAt ℝ N (fun t => p t k) c.l) (hE : ContDiffAt ℝ N E c.l)
    (hsol : ∀ m < P.nequation, ∀ᶠ t in 𝓝 c.l, P.G m t (p t) (E t) = 0)
    (solve : (ℕ → ℝ) → ℕ → ℝ)
    (hsolve : ∀ (r x : ℕ → ℝ),
      (∀ m < P.nequation, (∑ k : Fin K, c.jac m k * x k) + c.jac m K * x K = r m) → ∀ a ≤ K, solve r a = x a)
    (finalL : ℝ) :
    (∀ k : Fin K, p c.l k + corrections c.l finalL (responses c false 2 solve N) k
      = ∑ o ∈ range (N + 1), iteratedDeriv o (fun t => p t k) c.l * (finalL - c.l) ^ o / (o.factorial : ℝ)) ∧
    energyResponse c finalL (responses c false 2 solve N)
      = ∑ o ∈ range (N + 1), iteratedDeriv o E c.l * (finalL - c.l) ^ o / (o.factorial : ℝ) := by
  have h := C81_responses_partial P c b d v w A p E D hE0 N hp hE hsol solve hsolve
  have key : ∀ (a : ℕ) (f : ℝ → ℝ), (∀ o < N, (responses c false 2 solve N).getD o (fun _ => 0) a
      = iteratedDeriv (o + 1) f c.l) → f c.l + corrections c.l finalL (responses c false 2 solve N) a
      = ∑ o ∈ range (N + 1), iteratedDeriv o f c.l * (finalL - c.l) ^ o / (o.factorial : ℝ) := by
    intro a f hf
    rw [sum_range_succ', corrections, responses_length, add_comm]
    congr 1
    · apply sum_congr rfl
      intro o ho
      rw [hf o (mem_range.mp ho), mul_div_assoc]
    · simp
  refine ⟨fun k => key k (fun t => p t k) fun o ho => (h o ho).1 k, ?_⟩
  rw [energyResponse, ← hE0, D.ncol]
  exact key K E fun o ho => (h o ho).2

section
variable {n : ℕ}

open Matrix

/-- **C84.**  If the two matrices are regular then the resummed correction is the solution of the equations
linearized in the parameters: with `t = final_l` it satisfies `(C + t M) x = -t d`. -/
theorem C84_resum_linear (C M : Matrix (Fin n) (Fin n) ℝ) (d : Fin n → ℝ) (t : ℝ) (hC : C.det ≠ 0)
    (hA : (C + t • M).det ≠ 0) :
    ∃ x, resumCorrection C M d t = .ok x ∧ (C + t • M) *ᵥ x = -(t • d) ∧
      ∀ y, (C + t • M) *ᵥ y = -(t • d) → y = x := by
  have hCu : IsUnit C.det := isUnit_iff_ne_zero.mpr hC
  have h1 : C + t • M = C * (t • (C⁻¹ * M) + 1) := by
    rw [Matrix.mul_add, Matrix.mul_one, Matrix.mul_smul, ← Matrix.mul_assoc, Matrix.mul_nonsing_inv C hCu, Matrix.one_mul,
      add_comm]
  have hA' : (t • (C⁻¹ * M) + 1).det ≠ 0 := by
    intro h
    apply hA
    rw [h1, Matrix.det_mul, h, mul_zero]
  have hAu : IsUnit (t • (C⁻¹ * M) + 1).det := isUnit_iff_ne_zero.mpr hA'
  refine ⟨_, by rw [resumCorrection, if_neg hC]; simp only [if_neg hA']; rfl, ?_, ?_⟩
  · rw [Matrix.mulVec_neg, Matrix.mulVec_smul, h1, ← Matrix.mulVec_mulVec,
      Matrix.mulVec_mulVec _ (t • (C⁻¹ * M) + 1), Matrix.mul_nonsing_inv _ hAu, Matrix.one_mulVec,
      Matrix.mulVec_mulVec, Matrix.mul_nonsing_inv C hCu, Matrix.one_mulVec]
  · intro y hy
    have := congrArg (fun z => (t • (C⁻¹ * M) + 1)⁻¹ *ᵥ (C⁻¹ *ᵥ z)) hy
    beta_reduce at this
    rw [h1, Matrix.mulVec_mulVec, Matrix.mulVec_mulVec, Matrix.mul_assoc, ← Matrix.mul_assoc C⁻¹ C, Matrix.nonsing_inv_mul C hCu, Matrix.one_mul,
      Matrix.nonsing_inv_mul _ hAu, Matrix.one_mulVec] at this
    rw [this, Matrix.mulVec_neg, Matrix.mulVec_neg, Matrix.mulVec_smul, Matrix.mulVec_smul]

/-- the arrays of an energy-free container as matrices -/
noncomputable def freeC (c : Container ℝ) (n : ℕ) : Matrix (Fin n) (Fin n) ℝ := Matrix.of fun i j => freeCoeffMatrix c i j
noncomputable def freeM (c : Container ℝ) (n : ℕ) : Matrix (Fin n) (Fin n) ℝ := Matrix.of fun i j => freeDer2GLambda c i j
noncomputable def freeD (c : Container ℝ) (n : ℕ) : Fin n → ℝ := fun i => freeDerGLambda c i

theorem free_responses (c : Container ℝ) (hn : c.ncol = n) (hE : c.activeEnergy = false) (qao : ℕ)
    (solve : (ℕ → ℝ) → ℕ → ℝ)
    (hsolve : ∀ (r : ℕ → ℝ) (i : Fin n), solve r i = ((freeC c n)⁻¹ *ᵥ fun j : Fin n => r j) i) :
    ∀ o, (fun i : Fin n => (responses c true qao solve (o + 1)).getD o (fun _ => 0) i)
      = (((o + 1).factorial : ℝ) * (-1) ^ (o + 1)) • (((freeC c n)⁻¹ * freeM c n) ^ o *ᵥ ((freeC c n)⁻¹ *ᵥ freeD c n))
  | 0 => by
    funext i
    rw [responses_getD_succ, hsolve]
    simp only [constantTerms, if_true, arrays]
    have : (fun j : Fin n => -freeDerGLambda c j) = -freeD c n := rfl
    rw [this, Matrix.mulVec_neg]
    simp
  | o + 1 => by
    have ih := free_responses c hn hE qao solve hsolve o
    funext i
    rw [responses_getD_succ, hsolve]
    have h1 : (fun j : Fin n => constantTerms c true (o + 1 + 1) qao
        (fun i => (responses c true qao solve (o + 1)).getD i fun _ => 0) j)
        = (-((o + 1 + 1 : ℕ) : ℝ)) • (freeM c n *ᵥ
          fun i : Fin n => (responses c true qao solve (o + 1)).getD o (fun _ => 0) i) := by
      funext j
      rw [constantTerms, if_neg (by omega), hE]
      simp only [Bool.false_eq_true, if_false, arrays, if_true, hn, sum_range,
        show o + 1 + 1 - 2 = o by omega, Pi.smul_apply, smul_eq_mul, Matrix.mulVec, dotProduct, freeM, Matrix.of_apply]
    rw [h1, ih, Matrix.mulVec_smul, Matrix.mulVec_smul, Matrix.mulVec_smul, Matrix.mulVec_mulVec, Matrix.mulVec_mulVec,
      ← pow_succ', smul_smul]
    rw [Nat.factorial_succ (o + 1)]
    push_cast
    ring_nf

/-- **C84.**  For a calculation that starts at `l = 0` the resummed correction `x` is the sum of all orders: it
differs from the correction of order `N` (with the linear systems solved by the inverse matrix) by
`(-final_l A) ** N` applied to `x`, for every `N`. -/
theorem C84_resum_remainder_partial (c : Container ℝ) (hn : c.ncol = n) (hE : c.activeEnergy = false) (qao : ℕ)
    (solve : (ℕ → ℝ) → ℕ → ℝ)
    (hsolve : ∀ (r : ℕ → ℝ) (i : Fin n), solve r i = ((freeC c n)⁻¹ *ᵥ fun j : Fin n => r j) i)
    (t : ℝ) (x : Fin n → ℝ) (hx : resumCorrection (freeC c n) (freeM c n) (freeD c n) t = .ok x) (hl : c.l = 0) (N : ℕ) :
    x = (fun i : Fin n => corrections c.l t (responses c true qao solve N) i)
      + ((-t) ^ N) • (((freeC c n)⁻¹ * freeM c n) ^ N *ᵥ x) := by
  generalize hAd : (freeC c n)⁻¹ * freeM c n = A at *
  generalize hbd : (freeC c n)⁻¹ *ᵥ freeD c n = b at *
  have hfix : x = -(t • b) + (-t) • (A *ᵥ x) := by
    rw [resumCorrection] at hx
    by_cases h0 : (freeC c n).det = 0
    · rw [if_pos h0] at hx; cases hx
    · rw [if_neg h0] at hx
      simp only [hAd, hbd] at hx
      by_cases h1 : (t • A + 1).det = 0
      · rw [if_pos h1] at hx; cases hx
      · rw [if_neg h1, Except.ok.injEq] at hx
        have hAu : IsUnit (t • A + 1).det := isUnit_iff_ne_zero.mpr h1
        have h := congrArg (fun B : Matrix (Fin n) (Fin n) ℝ => B *ᵥ b) (Matrix.mul_nonsing_inv _ hAu)
        simp only [Matrix.one_mulVec] at h
        rw [← Matrix.mulVec_mulVec, Matrix.add_mulVec, Matrix.smul_mulVec, Matrix.one_mulVec] at h
        generalize (t • A + 1)⁻¹ *ᵥ b = y at h hx
        rw [← hx, ← h, Matrix.mulVec_neg, Matrix.mulVec_smul]
        module
  have hterm : ∀ o, (fun i : Fin n => (responses c true qao solve (o + 1)).getD o (fun _ => 0) i
      * ((t - c.l) ^ (o + 1) / ((o + 1).factorial : ℝ))) = ((-t) ^ o * (-t)) • (A ^ o *ᵥ b) := by
    intro o
    have h := free_responses c hn hE qao solve hsolve o
    rw [hAd, hbd] at h
    funext i
    have hi := congrFun h i
    beta_reduce at hi
    rw [hi, hl, sub_zero, Pi.smul_apply, Pi.smul_apply, smul_eq_mul, smul_eq_mul, ← pow_succ, neg_pow t (o + 1)]
    have : ((o + 1).factorial : ℝ) ≠ 0 := by exact_mod_cast (Nat.factorial_pos _).ne'
    field_simp
  have hsum : ∀ N, (fun i : Fin n => corrections c.l t (responses c true qao solve N) i)
      = ∑ o ∈ range N, ((-t) ^ o * (-t)) • (A ^ o *ᵥ b) := by
    intro N
    funext i
    rw [corrections, responses_length, Finset.sum_apply]
    apply sum_congr rfl
    intro o ho
    rw [responses_getD_lt _ _ _ _ _ _ (mem_range.mp ho), ← hterm o]
  rw [hsum]
  induction N with
  | zero => simp
  | succ N ih =>
    rw [sum_range_succ]
    have h2 : (-t) ^ N • (A ^ N *ᵥ x) = ((-t) ^ N * (-t)) • (A ^ N *ᵥ b) + (-t) ^ (N + 1) • (A ^ (N + 1) *ᵥ x) := by
      conv_lhs => rw [hfix]
      rw [Matrix.mulVec_add, Matrix.mulVec_neg, Matrix.mulVec_smul, Matrix.mulVec_smul, Matrix.mulVec_mulVec, ← pow_succ]
      module
    rw [add_assoc, ← h2]
    exact ih

/-- **C84.**  In particular, if the powers `(-final_l A) ** N x` tend to zero, then the corrections of order `N`
tend to the resummed correction. -/
theorem C84_resum_limit_partial (c : Container ℝ) (hn : c.ncol = n) (hE : c.activeEnergy = false) (qao : ℕ)
    (solve : (ℕ → ℝ) → ℕ → ℝ)
    (hsolve : ∀ (r : ℕ → ℝ) (i : Fin n), solve r i = ((freeC c n)⁻¹ *ᵥ fun j : Fin n => r j) i)
    (t : ℝ) (x : Fin n → ℝ) (hx : resumCorrection (freeC c n) (freeM c n) (freeD c n) t = .ok x) (hl : c.l = 0)
    (hlim : Tendsto (fun N : ℕ => ((-t) ^ N) • (((freeC c n)⁻¹ * freeM c n) ^ N *ᵥ x)) atTop (𝓝 0)) :
    Tendsto (fun N => fun i : Fin n => corrections c.l t (responses c true qao solve N) i) atTop (𝓝 x) := by
  have h : (fun N => fun i : Fin n => corrections c.l t (responses c true qao solve N) i)
      = fun N : ℕ => x - ((-t) ^ N) • (((freeC c n)⁻¹ * freeM c n) ^ N *ᵥ x) := by
    funext N
    rw [eq_sub_iff_add_eq]
    exact (C84_resum_remainder_partial c hn hE qao solve hsolve t x hx hl N).symm
  rw [h]
  simpa using tendsto_const_nhds.sub hlim

/-- a container with `C = 1`, `M = -1` and `d = -1` (the equation `p - l p - l = 0`): `p(1/2) = 1` -/
example : ∃ c : Container ℝ, c.ncol = 1 ∧ c.activeEnergy = false ∧ c.l = 0 ∧
    freeC c 1 = 1 ∧ freeM c 1 = -1 ∧ (freeD c 1 = fun _ => -1) ∧
    ∃ x, resumCorrection (freeC c 1) (freeM c 1) (freeD c 1) (1 / 2) = .ok x ∧ x 0 = 1 := by
  let c : Container ℝ :=
    { nproj := 2, nsd := 2, nequation := 1, ncol := 1, activeEnergy := false, l := 0, ham := fun _ _ => 0,
      fpot := fun m n => if m = 0 then -1 else 0, ovlp := fun n => if n = 1 then 1 else 0,
      dOvlp := fun n _ => if n = 0 then 1 else 0, ddOvlp := fun _ _ _ => 0, energy := 0, jac := fun _ _ => 1, ref := 1,
      inorm := true }
  have h1 : freeC c 1 = 1 := by
    ext i j
    obtain rfl : i = 0 := Subsingleton.elim _ _
    obtain rfl : j = 0 := Subsingleton.elim _ _
    simp [freeC, freeCoeffMatrix, coeffMatrix, c, applyOp]
  have h2 : freeM c 1 = -1 := by
    ext i j
    obtain rfl : i = 0 := Subsingleton.elim _ _
    obtain rfl : j = 0 := Subsingleton.elim _ _
    simp [freeM, freeDer2GLambda, der2GLambda, derGLambda, c, applyOp, sum_range_succ]
  have h3 : freeD c 1 = fun _ => -1 := by
    funext i
    obtain rfl : i = 0 := Subsingleton.elim _ _
    simp [freeD, freeDerGLambda, derGLambda, c, applyOp, sum_range_succ]
  refine ⟨c, rfl, rfl, rfl, h1, h2, h3, ?_⟩
  rw [h1, h2, h3]
  have hd : ((1 : Matrix (Fin 1) (Fin 1) ℝ) + (1 / 2 : ℝ) • (-1 : Matrix (Fin 1) (Fin 1) ℝ)).det ≠ 0 := by
    rw [Matrix.det_fin_one]
    norm_num
  obtain ⟨x, hx, hx2, -⟩ := C84_resum_linear (1 : Matrix (Fin 1) (Fin 1) ℝ) (-1) (fun _ => -1) (1 / 2) (by simp) hd
  refine ⟨x, hx, ?_⟩
  have := congrFun hx2 0
  simp [Matrix.add_mulVec, Matrix.smul_mulVec, Matrix.neg_mulVec] at this
  linarith

/-- **C84, disagreement.**  The resummed correction uses `final_l` and not `final_l - l`.  For the equation
`p + l = 0` (`C = 1`, `M = 0`, `d = 1`) started at `l = 1/2` and `final_l = 1` the parameter changes by `-1/2`,
as all orders of the perturbation series say, but the resummed correction is `-1`. -/
theorem C84_resum_start :
    resumCorrection (1 : Matrix (Fin 1) (Fin 1) ℝ) 0 (fun _ => 1) 1 = .ok (fun _ => -1) ∧
    ∀ N, corrections (1 / 2 : ℝ) 1 ((List.range (N + 1)).map fun o _ => if o = 0 then -1 else 0) 0 = -1 / 2 := by
  constructor
  · rw [resumCorrection]
    simp only [Matrix.det_one, one_ne_zero, if_false, mul_zero, smul_zero, zero_add, inv_one, Matrix.one_mulVec, one_smul]
    rfl
  · intro N
    rw [corrections, List.length_map, List.length_range, sum_eq_single_of_mem 0 (mem_range.mpr (Nat.succ_pos N))]
    · simp
      norm_num
    · intro o ho hne
      have : ((List.range (N + 1)).map fun o (_ : ℕ) => if o = 0 then (-1 : ℝ) else 0).getD o (fun _ => 0)
          = fun _ => if o = 0 then (-1 : ℝ) else 0 := by
        rw [List.getD_eq_getElem _ _ (by simpa using mem_range.mp ho), List.getElem_map, List.getElem_range]
      rw [this]
      simp [hne]

end

/-- **C84.**  Which calculations are resummed: those that ask for it, with a frozen energy and as many equations
as active parameters. -/
theorem C84_resum_choice (activeEnergy resum : Bool) (nequation nactive : ℕ) :
    assignResum activeEnergy resum nequation nactive = true ↔
      resum = true ∧ activeEnergy = false ∧ nequation = nactive := by
  cases activeEnergy <;> cases resum <;> simp [assignResum]

/-- **C84.**  The new energy: if overlaps `y` solve the equation of the reference determinant for the new operator with the energy
`E`, then the energy computed from overlaps `x` differs from `E` by the residual of `x - y` in this equation, divided by the overlap
of the reference (which is 1 with intermediate normalization); so it is exact for the exact overlaps. -/
theorem C84_energy {R : Type} [Field R] (c : Container R) (op : ℕ → ℕ → R) (x y : ℕ → R) (E : R)
    (hE : ∑ n ∈ range c.nsd, op c.ref n * y n = E * y c.ref) (hx : x c.ref ≠ 0) (hi : c.inorm = true → x c.ref = 1) :
    newEnergy c op x - E = (∑ n ∈ range c.nsd, op c.ref n * (x n - y n) - E * (x c.ref - y c.ref)) / x c.ref ∧
    (x = y → newEnergy c op x = E) := by
  have key : newEnergy c op x = (∑ n ∈ range c.nsd, op c.ref n * x n) / x c.ref := by
    unfold newEnergy applyOp
    cases h : c.inorm with
    | false => simp
    | true => simp [hi h]
  have first : newEnergy c op x - E =
      (∑ n ∈ range c.nsd, op c.ref n * (x n - y n) - E * (x c.ref - y c.ref)) / x c.ref := by
    rw [key]
    simp only [mul_sub, sum_sub_distrib, hE]
    field_simp
    ring
  refine ⟨first, ?_⟩
  intro h
  subst h
  exact sub_eq_zero.1 (by rw [first]; simp)

/-- **C84**, disagreement with "this E satisfies the 2n + 1 rule": the error of the energy is of the same order as that of the
overlaps.  For the operator `[[0, 1], [0, 0]]`, the exact overlaps `(1, 0)` and the energy 0, an error `d` of the second overlap
makes an error `d` of the energy. -/
theorem C84_energy_order_disagrees :
    ∃ (c : Container ℝ) (op : ℕ → ℕ → ℝ) (y : ℕ → ℝ) (E : ℝ), c.nsd = 2 ∧ c.nproj = 2 ∧ c.ref = 0 ∧ y 0 = 1 ∧
      (∀ m < c.nproj, ∑ n ∈ range c.nsd, op m n * y n = E * y m) ∧
      ∀ d : ℝ, newEnergy c op (fun n => y n + if n = 1 then d else 0) - E = d := by
  refine ⟨quadraticContainer, fun m n => if m = 0 ∧ n = 1 then 1 else 0, fun n => if n = 0 then 1 else 0, 0, rfl, rfl, rfl, by simp,
    ?_, ?_⟩
  · intro m _
    simp [quadraticContainer, sum_range_succ]
  · intro d
    simp [newEnergy, applyOp, quadraticContainer, sum_range_succ]

/-- **C84.**  The updater accepts exactly `l < final_l <= 1` and nonnegative orders; the constant terms accept
the orders for which the array of previous responses has the shape `(order - 1, nactive)`. -/
theorem C84_checks (l finalL : ℝ) (finalOrder order : ℤ) (qao : Option ℕ) (nactive : ℕ) (shape : Option (ℕ × ℕ)) :
    (checkUpdater l finalL finalOrder = .ok () ↔ l < finalL ∧ finalL ≤ 1 ∧ 0 ≤ finalOrder) ∧
    (checkTerms order qao nactive shape = .ok () ↔
      (qao = none ∨ qao = some 2 ∨ qao = some 3) ∧
        (order = 1 ∨ ∃ r : ℕ, shape = some (r, nactive) ∧ order = r + 1)) ∧
    (∀ e, checkTerms order qao nactive shape = .error e → e = .valueError ∨ e = .typeError) := by
  refine ⟨?_, ?_, ?_⟩
  · rw [checkUpdater]
    by_cases h1 : l < finalL ∧ finalL ≤ 1
    · rw [if_neg (by simpa using h1)]
      by_cases h2 : finalOrder < 0
      · rw [if_pos h2]; simp; intro _ _; exact h2
      · rw [if_neg h2]; simp only [true_iff]; exact ⟨h1.1, h1.2, by omega⟩
    · rw [if_pos h1]; simp only [reduceCtorEq, false_iff]; tauto
  · have hq : (qao = none ∨ qao = some 2 ∨ qao = some 3) ↔ ¬ (qao.getD 2 ≠ 2 ∧ qao.getD 2 ≠ 3) := by
      cases qao with
      | none => simp
      | some q => simp; omega
    rw [checkTerms.eq_def, hq]
    by_cases h1 : order < 0
    · rw [if_pos h1]
      simp only [reduceCtorEq, false_iff]
      rintro ⟨-, h | ⟨r, -, h⟩⟩ <;> omega
    · rw [if_neg h1]
      by_cases h2 : qao.getD 2 ≠ 2 ∧ qao.getD 2 ≠ 3
      · rw [if_pos h2]; simp only [reduceCtorEq, false_iff]; tauto
      · rw [if_neg h2]
        by_cases h3 : order = 1
        · rw [if_pos h3]; simp [h3, h2]
        · rw [if_neg h3]
          cases shape with
          | none => simp [h3]
          | some s =>
            obtain ⟨r, k⟩ := s
            simp only [Option.some.injEq, Prod.mk.injEq]
            by_cases h4 : (r : ℤ) ≠ order - 1 ∨ k ≠ nactive
            · rw [if_pos h4]
              simp only [reduceCtorEq, false_iff]
              rintro ⟨-, h | ⟨r', ⟨rfl, rfl⟩, h⟩⟩ <;> omega
            · rw [if_neg h4]
              push Not at h4
              simp only [true_iff]
              exact ⟨h2, Or.inr ⟨r, ⟨rfl, h4.2⟩, by omega⟩⟩
  · intro e he
    rw [checkTerms.eq_def] at he
    split at he
    · cases he; exact Or.inl rfl
    split at he
    · cases he; exact Or.inl rfl
    split at he
    · cases he
    split at he
    · cases he; exact Or.inr rfl
    · split at he
      · cases he; exact Or.inl rfl
      · cases he

/-! ## C85 -/

/-- **C85.**  The steps of `FANPT.optimize`: step `i` goes from `lambda_i + i * h` to `lambda_i + (i + 1) * h` with
`h = (lambda_f - lambda_i) / steps`; the steps follow each other and the last one ends at `lambda_f`; if
`0 <= lambda_i < lambda_f <= 1` then every step passes the check of the updater. -/
theorem C85_schedule_partial (li lf : ℝ) (steps : ℕ) (hs : 0 < steps) :
    (schedule li lf steps).length = steps ∧
    (∀ i < steps, (schedule li lf steps).getD i (0, 0)
      = (li + i * ((lf - li) / steps), li + (i + 1) * ((lf - li) / steps))) ∧
    ((schedule li lf steps).getD (steps - 1) (0, 0)).2 = lf ∧
    (li < lf → lf ≤ 1 → ∀ s ∈ schedule li lf steps, checkUpdater s.1 s.2 1 = .ok ()) := by
  have hpos : (0 : ℝ) < steps := by exact_mod_cast hs
  have hget : ∀ i < steps, (schedule li lf steps).getD i (0, 0)
      = (li + i * ((lf - li) / steps), li + (i + 1) * ((lf - li) / steps)) := by
    intro i hi
    rw [schedule, List.getD_eq_getElem _ _ (by simpa using hi), List.getElem_map, List.getElem_range]
    simp only [Prod.mk.injEq, true_and]
    ring
  refine ⟨by simp [schedule], hget, ?_, ?_⟩
  · rw [hget _ (by omega)]
    simp only
    have : ((steps - 1 : ℕ) : ℝ) + 1 = steps := by
      rw [Nat.cast_sub hs]; push_cast; ring
    rw [this]
    field_simp
    ring
  · intro h1 h2 s hsm
    rw [schedule, List.mem_map] at hsm
    obtain ⟨i, hi, rfl⟩ := hsm
    have hi' : i + 1 ≤ steps := List.mem_range.mp hi
    have hstep : 0 < (lf - li) / steps := div_pos (by linarith) hpos
    rw [(C84_checks _ _ 1 0 none 0 none).1]
    refine ⟨by simpa using hstep, ?_, by norm_num⟩
    have h3 : ((i : ℝ) + 1) * ((lf - li) / steps) ≤ steps * ((lf - li) / steps) :=
      mul_le_mul_of_nonneg_right (by exact_mod_cast hi') hstep.le
    have h4 : (steps : ℝ) * ((lf - li) / steps) = lf - li := by field_simp
    simp only
    linarith

/-- **C85, disagreement.**  An argument that is zero is ignored: `optimize(lambda_i=0.0)` of an object with
`lambda_i=0.5` starts at `0.5`, and `final_order=0` uses the stored order. -/
theorem C85_zero_ignored (stored : ℝ) : orElse (some 0) stored = stored ∧ orElse none stored = stored ∧
    ∀ v, v ≠ 0 → orElse (some v) stored = v := by
  refine ⟨by simp [orElse], rfl, fun v hv => by simp [orElse, hv]⟩

/-- **C85.**  From the second step on, the sparse operator of the objective, from which the coefficient matrix is
made, belongs to the Hamiltonian of the container. -/
theorem C85_objective (h1 h0 : Ham ℝ) (li lf : ℝ) (steps i : ℕ) (hi : i + 1 < steps) :
    (objectiveHams h1 h0 li lf steps).getD (i + 1) h0
      = linearCombHam h1 h0 ((schedule li lf steps).getD (i + 1) (0, 0)).1
          (1 - ((schedule li lf steps).getD (i + 1) (0, 0)).1) := by
  have hs : 0 < steps := by omega
  have hget := (C85_schedule_partial li lf steps hs).2.1
  have hlen := (C85_schedule_partial li lf steps hs).1
  rw [hget (i + 1) hi, objectiveHams, List.getD_cons_succ,
    List.getD_eq_getElem _ _ (by rw [List.length_map, hlen]; omega), List.getElem_map]
  have : (schedule li lf steps)[i]'(by rw [hlen]; omega) = (schedule li lf steps).getD i (0, 0) := by
    rw [List.getD_eq_getElem _ _ (by rw [hlen]; omega)]
  rw [this, hget i (by omega)]
  push_cast
  rfl

/-- **C85, disagreement.**  In the first step the operator of the objective belongs to `ham0`, which is the
Hamiltonian of the container only if `lambda_i = 0` (or `ham1 = ham0`). -/
theorem C85_first_step (h1 h0 : Ham ℝ) (li lf : ℝ) (steps : ℕ) (hs : 0 < steps) :
    (objectiveHams h1 h0 li lf steps).getD 0 h1 = h0 ∧
    (linearCombHam h1 h0 ((schedule li lf steps).getD 0 (0, 0)).1 (1 - ((schedule li lf steps).getD 0 (0, 0)).1) = h0 ↔
      li = 0 ∨ h1 = h0) := by
  refine ⟨rfl, ?_⟩
  rw [(C85_schedule_partial li lf steps hs).2.1 0 hs]
  simp only [Nat.cast_zero, zero_mul, add_zero]
  cases h1 with
  | mk e1 o1 t1 =>
    cases h0 with
    | mk e0 o0 t0 =>
      simp only [linearCombHam, Ham.mk.injEq, funext_iff]
      have key : ∀ a b : ℝ, li * a + (1 - li) * b = b ↔ li = 0 ∨ a = b := by
        intro a b
        rw [← sub_eq_zero, show li * a + (1 - li) * b - b = li * (a - b) by ring, mul_eq_zero, sub_eq_zero]
      simp only [key]
      by_cases h : li = 0
      · simp [h]
      · simp [h]

/-! ## C86 -/

/-- **C86.**  `reduce_to_fock` keeps the integrals `<p q | r s>` with `r = q` (exchange) or `s = q` (Coulomb) and
multiplies the other ones by `lambda_val`. -/
theorem C86_fock {R : Type} [Field R] (two : ℕ → ℕ → ℕ → ℕ → R) (lam : R) (p q r s : ℕ) :
    ((r = q ∨ s = q) → reduceToFock two lam p q r s = two p q r s) ∧
    (¬ (r = q ∨ s = q) → reduceToFock two lam p q r s = lam * two p q r s) := by
  simp only [reduceToFock]
  constructor
  · rintro (h | h)
    · rw [if_pos h]
    · rw [if_pos h, ite_self]
  · intro h
    rw [if_neg (fun h' => h (Or.inl h')), if_neg (fun h' => h (Or.inr h')), mul_comm]

/-- **C86, disagreement.**  The reduced integrals are not symmetric in the two electrons, although the integrals
are: `<0 1 | 2 1>` is kept and `<1 0 | 1 2>` is set to zero. -/
theorem C86_asymmetric : ∃ two : ℕ → ℕ → ℕ → ℕ → ℚ, (∀ p q r s, two p q r s = two q p s r) ∧
    reduceToFock two 0 0 1 2 1 = 1 ∧ reduceToFock two 0 1 0 1 2 = 0 :=
  ⟨fun _ _ _ _ => 1, fun _ _ _ _ => rfl, by simp [reduceToFock], by simp [reduceToFock]⟩

/-- **C86.**  If `pyci.sparse_op` is linear in the Hamiltonian then the operator of a container is
`l * H1 + (1 - l) * H0` and that of the fluctuation potential is its derivative `H1 - H0` with respect to `l`. -/
theorem C86_operators_partial (op : Ham ℝ → ℕ → ℕ → ℝ)
    (hop : ∀ h1 h0 a1 a0 m n, op (linearCombHam h1 h0 a1 a0) m n = a1 * op h1 m n + a0 * op h0 m n)
    (h1 h0 : Ham ℝ) (l : ℝ) (m n : ℕ) :
    (operators op h1 h0 l).1 m n = l * op h1 m n + (1 - l) * op h0 m n ∧
    (operators op h1 h0 l).2 m n = op h1 m n - op h0 m n ∧
    HasDerivAt (fun t => (operators op h1 h0 t).1 m n) ((operators op h1 h0 l).2 m n) l := by
  have e : ∀ t, (operators op h1 h0 t).1 m n = t * op h1 m n + (1 - t) * op h0 m n := fun t => by
    exact hop _ _ _ _ _ _
  have e2 : (operators op h1 h0 l).2 m n = op h1 m n - op h0 m n := by
    refine (hop _ _ _ _ _ _).trans ?_; ring
  refine ⟨e l, e2, ?_⟩
  rw [funext e, e2]
  refine (((hasDerivAt_id' l).mul_const (op h1 m n)).fun_add
    (((hasDerivAt_const l (1 : ℝ)).fun_sub (hasDerivAt_id' l)).mul_const (op h0 m n))).congr_deriv ?_
  ring

/-- a linear operator: the diagonal elements of the one-electron part -/
example : ∀ (h1 h0 : Ham ℝ) (a1 a0 : ℝ) (m n : ℕ),
    (fun (h : Ham ℝ) (m n : ℕ) => h.one m n + h.two m n n m) (linearCombHam h1 h0 a1 a0) m n
      = a1 * (h1.one m n + h1.two m n n m) + a0 * (h0.one m n + h0.two m n n m) := by
  intro h1 h0 a1 a0 m n
  simp only [linearCombHam]
  ring

/-- a step of a schedule, a mask with a frozen parameter -/
example : schedule (0 : ℚ) 1 2 = [(0, 1 / 2), (1 / 2, 1)] ∧
    addCorrections [true, false, true] [(1 : ℚ), 2, 3] [1 / 2, 1 / 4] = [3 / 2, 2, 13 / 4] := by
  constructor
  · norm_num [schedule, List.range_succ]
  · norm_num [addCorrections]

end Fanpy.Props
