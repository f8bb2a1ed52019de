import Verif.Lemmas.Borchardt
import Verif.Props.Permanent
import Mathlib.LinearAlgebra.Matrix.Notation

/-!
# C21 — `permanent_borchardt`

For `lambdas`, `epsilons` without repetitions and without common element (that is: no division by zero in the Cauchy
matrix and in the ratio of determinants) the function returns the permanent of the matrix with entries
`zeta_j * eta_i / (lambda_i - epsilon_j)`.  The determinants in the denominators are proved non-zero.
-/

namespace Fanpy.Props
open Fanpy.MathTools Fanpy.It

/-- One orientation of the computation: `m` rows, not more than the `n` columns. -/
theorem borchardt_core {R : Type*} [Field R] (m n : ℕ) (xs ys ws : ℕ → R) (C : ℕ → ℕ → R)
    (hC : ∀ i j, i < m → j < n → C i j = 1 / (xs i - ys j))
    (hx : ∀ i j, i < m → j < m → xs i = xs j → i = j) (hy : ∀ i j, i < n → j < n → ys i = ys j → i = j)
    (hxy : ∀ i j, i < m → j < n → xs i ≠ ys j) :
    cauchySum m n C ws = ∑ e : Fin m ↪ Fin n, ∏ i : Fin m, ws (e i) * C i (e i) := by
  rw [cauchySum, foldl_add, zero_add]
  rw [← comb_perm_sum m n (fun i k => ws k * C i k)]
  congr 1
  apply List.map_congr_left
  intro c hc
  obtain ⟨hc1, hc2⟩ := mem_comb.1 hc
  have hcn : c.Nodup := hc1.nodup List.nodup_range
  have hci : ∀ j : Fin m, (j : ℕ) < c.length := fun j => by rw [hc2]; exact j.2
  have hcD : ∀ j : Fin m, c.getD j 0 = c[(j : ℕ)]'(hci j) := fun j => by
    rw [List.getD_eq_getElem?_getD, List.getElem?_eq_getElem (hci j)]; rfl
  have hclt : ∀ j : Fin m, c.getD j 0 < n := fun j => by
    rw [hcD]; exact List.mem_range.1 (hc1.subset (List.getElem_mem _))
  let x : Fin m → R := fun i => xs i
  let y : Fin m → R := fun j => ys (c.getD j 0)
  have e1 : (Matrix.of fun i j : Fin m => C i (c.getD j 0)) = Matrix.of fun i j => 1 / (x i - y j) := by
    ext i j
    exact hC i _ i.2 (hclt j)
  have hxinj : Function.Injective x := fun i j h => Fin.ext (hx _ _ i.2 j.2 h)
  have hyinj : Function.Injective y := by
    intro i j h
    have := hy _ _ (hclt i) (hclt j) h
    rw [hcD, hcD, List.Nodup.getElem_inj_iff hcn] at this
    exact Fin.ext this
  have hne : ∀ i j, x i ≠ y j := fun i j => hxy _ _ i.2 (hclt j)
  rw [e1]
  have hb := borchardt x y hne hyinj
  have hdet := cauchy_det_ne_zero x y hne hxinj hyinj
  have e2 : (Matrix.of fun i j : Fin m => C i (c.getD j 0) ^ 2) = Matrix.of fun i j => (1 / (x i - y j)) ^ 2 := by
    ext i j
    exact congrArg (· ^ 2) (hC i _ i.2 (hclt j))
  rw [e2, hb, mul_div_cancel_left₀ _ hdet, Matrix.permanent, Finset.sum_mul]
  have hprod : (c.map ws).prod = ∏ i : Fin m, ws (c.getD i 0) := by
    have : c.map ws = List.ofFn fun i : Fin m => ws (c.getD i 0) := by
      apply List.ext_getElem
      · simp [hc2]
      · intro k h1 h2
        simp only [List.length_map] at h1
        rw [List.getElem_map, List.getElem_ofFn]
        simp only
        rw [List.getD_eq_getElem?_getD, List.getElem?_eq_getElem h1]; rfl
    rw [this, List.prod_ofFn]
  refine Fintype.sum_equiv (Equiv.inv (Equiv.Perm (Fin m))) _ _ ?_
  intro σ
  rw [hprod, Finset.prod_mul_distrib, mul_comm]
  congr 1
  · exact (Equiv.prod_comp σ⁻¹ (fun i : Fin m => ws (c.getD i 0))).symm
  · rw [← Equiv.prod_comp σ (fun i : Fin m => C i (c.getD ((Equiv.inv _ σ) i : Fin m) 0))]
    apply Finset.prod_congr rfl
    intro i _
    have := congrFun (congrFun e1 (σ i)) i
    simp only [Matrix.of_apply] at this
    have e3 : (Equiv.inv (Equiv.Perm (Fin m)) σ) (σ i) = i := by simp
    rw [e3, Matrix.of_apply]
    exact this.symm

theorem getD_inj {R : Type*} [Zero R] {l : List R} (h : l.Nodup) (i j : ℕ) (hi : i < l.length) (hj : j < l.length)
    (e : l.getD i 0 = l.getD j 0) : i = j := by
  rw [List.getD_eq_getElem?_getD, List.getElem?_eq_getElem hi, List.getD_eq_getElem?_getD,
    List.getElem?_eq_getElem hj] at e
  exact (List.Nodup.getElem_inj_iff h).1 e

theorem getD_mem {R : Type*} [Zero R] {l : List R} {i : ℕ} (hi : i < l.length) : l.getD i 0 ∈ l := by
  rw [List.getD_eq_getElem?_getD, List.getElem?_eq_getElem hi]; exact List.getElem_mem hi

/-- `permanent_borchardt` is the permanent of `zeta_j * eta_i / (lambda_i - epsilon_j)`, for all shapes. -/
theorem C21_borchardt {R : Type*} [Field R] (lambdas epsilons zetas : List R) (etas : Option (List R))
    (hz : zetas.length = epsilons.length) (he : ∀ l, etas = some l → l.length = lambdas.length)
    (h1 : lambdas ≠ []) (h2 : epsilons ≠ []) (hl : lambdas.Nodup) (hep : epsilons.Nodup)
    (hne : ∀ l ∈ lambdas, ∀ e ∈ epsilons, l ≠ e) :
    permanentBorchardt lambdas epsilons zetas etas = .ok (perSpec lambdas.length epsilons.length fun i j =>
      zetas.getD j 0 * (etas.getD (List.replicate lambdas.length 1)).getD i 0 /
        (lambdas.getD i 0 - epsilons.getD j 0)) := by
  have hm : lambdas.length ≠ 0 := by simpa using h1
  have hn : epsilons.length ≠ 0 := by simpa using h2
  have he' : (etas.map List.length).getD lambdas.length = lambdas.length := by
    cases etas with
    | none => rfl
    | some l => exact he l rfl
  have hel : (etas.getD (List.replicate lambdas.length 1)).length = lambdas.length := by
    cases etas with
    | none => simp
    | some l => exact he l rfl
  rw [permanentBorchardt, if_neg (by simp [hz]), if_neg (by simp [he'])]
  generalize hetas : etas.getD (List.replicate lambdas.length 1) = ets at hel ⊢
  have hpr : ∀ (l : List R) (k : ℕ), l.length = k → l.prod = ∏ i : Fin k, l.getD i 0 := by
    rintro l k rfl
    conv_lhs => rw [← List.ofFn_getElem (xs := l), List.prod_ofFn]
    apply Finset.prod_congr rfl
    intro i _
    rw [List.getD_eq_getElem?_getD, List.getElem?_eq_getElem i.2]; rfl
  by_cases hs : lambdas.length > epsilons.length
  · simp only [hs, decide_true, if_true, Arr2.transpose]
    rw [if_neg hn]
    have key := borchardt_core epsilons.length lambdas.length (fun i => - epsilons.getD i 0)
      (fun j => - lambdas.getD j 0) (fun j => ets.getD j 0) (fun i j => 1 / (lambdas.getD j 0 - epsilons.getD i 0))
      (fun i j _ _ => by congr 1; ring) (fun i j hi hj h => getD_inj hep i j hi hj (neg_injective h))
      (fun i j hi hj h => getD_inj hl i j hi hj (neg_injective h))
      (fun i j hi hj h => hne _ (getD_mem hj) _ (getD_mem hi) (neg_injective h).symm)
    rw [key, perSpec, if_neg (by omega), Finset.sum_mul, hpr zetas _ hz]
    congr 1
    apply Finset.sum_congr rfl
    intro e _
    rw [← Finset.prod_mul_distrib]
    apply Finset.prod_congr rfl
    intro i _
    ring
  · simp only [hs, decide_false, Bool.false_eq_true, if_false]
    rw [if_neg hm]
    have key := borchardt_core lambdas.length epsilons.length (fun i => lambdas.getD i 0)
      (fun j => epsilons.getD j 0) (fun j => zetas.getD j 0) (fun i j => 1 / (lambdas.getD i 0 - epsilons.getD j 0))
      (fun i j _ _ => rfl) (getD_inj hl) (getD_inj hep)
      (fun i j hi hj h => hne _ (getD_mem hi) _ (getD_mem hj) h)
    rw [key, perSpec, if_pos (by omega), Finset.sum_mul, hpr ets _ hel]
    congr 1
    apply Finset.sum_congr rfl
    intro e _
    rw [← Finset.prod_mul_distrib]
    apply Finset.prod_congr rfl
    intro i _
    ring

/-- In particular it agrees with `permanent_combinatoric` and `permanent_ryser` of that matrix. -/
theorem C21_agrees {R : Type*} [Field R] [CharZero R] (lambdas epsilons zetas : List R) (etas : Option (List R))
    (hz : zetas.length = epsilons.length) (he : ∀ l, etas = some l → l.length = lambdas.length)
    (h1 : lambdas ≠ []) (h2 : epsilons ≠ []) (hl : lambdas.Nodup) (hep : epsilons.Nodup)
    (hne : ∀ l ∈ lambdas, ∀ e ∈ epsilons, l ≠ e) :
    let A : Arr2 R := ⟨lambdas.length, epsilons.length, fun i j =>
      zetas.getD j 0 * (etas.getD (List.replicate lambdas.length 1)).getD i 0 /
        (lambdas.getD i 0 - epsilons.getD j 0)⟩
    permanentBorchardt lambdas epsilons zetas etas = permanentCombinatoric A ∧
      permanentRyser A = (permanentBorchardt lambdas epsilons zetas etas).map some := by
  intro A
  have hm : lambdas.length ≠ 0 := by simpa using h1
  have hn : epsilons.length ≠ 0 := by simpa using h2
  rw [C21_borchardt lambdas epsilons zetas etas hz he h1 h2 hl hep hne, C20_combinatoric A hm hn, C20_ryser A hm hn]
  exact ⟨rfl, rfl⟩

/-- Inconsistent lengths are rejected. -/
theorem C21_errors {R : Type*} [Field R] (lambdas epsilons zetas : List R) (etas : Option (List R))
    (h : zetas.length ≠ epsilons.length ∨ ∃ l, etas = some l ∧ l.length ≠ lambdas.length) :
    permanentBorchardt lambdas epsilons zetas etas = .error .valueError := by
  rw [permanentBorchardt]
  by_cases h0 : zetas.length ≠ epsilons.length
  · rw [if_pos h0]
  · rw [if_neg h0]
    rcases h with h | ⟨l, rfl, h⟩
    · exact absurd h h0
    · rw [if_pos (by simpa using h)]

/-- `adjugate` is the classical adjoint of every nonsingular matrix, so `M * adjugate(M) = det(M)`. -/
theorem C21_adjugate {R : Type*} [Field R] [DecidableEq R] {n : ℕ} (hn : n ≠ 0) (M : Matrix (Fin n) (Fin n) R)
    (hM : M.det ≠ 0) : adjugate M = .ok (some M.adjugate) := by
  rw [MathTools.adjugate, if_neg hn, if_neg hM, Matrix.inv_def, smul_smul, Ring.mul_inverse_cancel _ (isUnit_iff_ne_zero.2 hM),
    one_smul]

/-- the hypotheses are met by `lambdas = [1,2]`, `epsilons = [3,5,7]`, `zetas = [1,1,2]` -/
example : ([1, 2] : List ℚ).Nodup ∧ ([3, 5, 7] : List ℚ).Nodup ∧
    (∀ l ∈ ([1, 2] : List ℚ), ∀ e ∈ ([3, 5, 7] : List ℚ), l ≠ e) ∧ ([1, 1, 2] : List ℚ).length = [3, 5, 7].length := by
  decide +kernel
/-- and for `lambdas = [1,2]`, `epsilons = [3,5]` the value is `1/2 * 1/3 + 1/4 * 1 = 5/12` -/
example : permanentBorchardt ([1, 2] : List ℚ) [3, 5] [1, 1] none = .ok (5 / 12) := by
  refine (C21_agrees [1, 2] [3, 5] [1, 1] none rfl (by simp) (by simp) (by simp) (by simp) (by simp)
    (by norm_num)).1.trans ?_
  decide +kernel

end Fanpy.Props
