import Verif.Model.Params
import Verif.Props.ParamIndex
import Verif.Props.Rotation
import Mathlib.Analysis.SpecialFunctions.Trigonometric.Series
import Mathlib.LinearAlgebra.Matrix.Defs
import Mathlib.Data.Matrix.Mul

/-!
# C57: `unitary_matrix`

The antihermitian matrix whose upper triangle holds the parameters in the order of C30, its Taylor series with the stopping
rule of the code, and its limit for one parameter: the Jacobi rotation of C29 and C31.
-/

namespace Fanpy.Props
open Fanpy.Slater Fanpy.Spec Fanpy.Ham Finset

/-- the entries of the upper triangle of a matrix of dimension `dim`, in the order in which they are stored -/
theorem row_eq (dim x : ℕ) : ((List.range dim).filter fun j => x < j) = List.range' (x + 1) (dim - 1 - x) := by
  by_cases h : x < dim
  · have e : List.range dim = List.range (x + 1) ++ List.range' (x + 1) (dim - 1 - x) := by
      rw [List.range_eq_range', List.range_eq_range']
      have := List.range'_append (s := 0) (m := x + 1) (n := dim - 1 - x) (step := 1)
      rw [show (0 + 1 * (x + 1)) = x + 1 by ring, show (x + 1 + (dim - 1 - x)) = dim by omega] at this
      exact this.symm
    rw [e, List.filter_append, List.filter_eq_nil_iff.2, List.filter_eq_self.2, List.nil_append]
    · intro j hj
      rw [List.mem_range'_1] at hj
      simp; omega
    · intro j hj
      rw [List.mem_range] at hj
      simp; omega
  · rw [show dim - 1 - x = 0 by omega, List.range'_zero, List.filter_eq_nil_iff]
    intro j hj
    rw [List.mem_range] at hj
    simp; omega

theorem list_sum_range (f : ℕ → ℕ) (x : ℕ) : ((List.range x).map f).sum = ∑ r ∈ range x, f r := by
  induction x with
  | zero => rfl
  | succ x ih => rw [List.range_succ, List.map_append, List.sum_append, sum_range_succ, ih]; simp

theorem mem_triuIndices {dim x y : ℕ} : (x, y) ∈ triuIndices dim ↔ x < y ∧ y < dim := by
  simp only [triuIndices, List.mem_flatMap, List.mem_map, List.mem_filter, List.mem_range, decide_eq_true_eq, Prod.mk.injEq]
  constructor
  · rintro ⟨a, _, b, ⟨hb, hab⟩, rfl, rfl⟩
    exact ⟨hab, hb⟩
  · rintro ⟨h1, h2⟩
    exact ⟨x, by omega, y, ⟨h2, h1⟩, rfl, rfl⟩

/-- C57. The pair `(x, y)` is at the position of the parameter whose `param_ind_to_rowcol_ind` is `(x, y)` (C30). -/
theorem C57_triu_position {dim x y : ℕ} (hxy : x < y) (hy : y < dim) :
    ((triuIndices dim).idxOf (x, y) : ℤ) = triuPos dim x y := by
  have e : List.range dim = List.range x ++ x :: List.range' (x + 1) (dim - 1 - x) := by
    rw [List.range_eq_range', List.range_eq_range', ← List.range'_succ]
    have := List.range'_append (s := 0) (m := x) (n := dim - 1 - x + 1) (step := 1)
    rw [show (0 + 1 * x) = x by ring, show (x + (dim - 1 - x + 1)) = dim by omega] at this
    exact this.symm
  have h1 : (x, y) ∉ (List.range x).flatMap fun i => ((List.range dim).filter fun j => i < j).map fun j => (i, j) := by
    simp only [List.mem_flatMap, List.mem_map, List.mem_range, Prod.mk.injEq, not_exists, not_and]
    intro a ha b _ hab
    omega
  have h2 : (x, y) ∈ ((List.range dim).filter fun j => x < j).map fun j => (x, j) := by
    simp [hxy, hy]
  unfold triuIndices
  have e' : ((List.range dim).flatMap fun i => ((List.range dim).filter fun j => i < j).map fun j => (i, j)) =
      (List.range x).flatMap (fun i => ((List.range dim).filter fun j => i < j).map fun j => (i, j)) ++
        ((((List.range dim).filter fun j => x < j).map fun j => (x, j)) ++
          (List.range' (x + 1) (dim - 1 - x)).flatMap
            (fun i => ((List.range dim).filter fun j => i < j).map fun j => (i, j))) := by
    conv_lhs => arg 2; rw [e]
    rw [List.flatMap_append, List.flatMap_cons]
  rw [e', List.idxOf_append_of_notMem h1, List.idxOf_append_of_mem h2]
  have hlen : ((List.range x).flatMap (fun i => ((List.range dim).filter fun j => i < j).map fun j => (i, j))).length =
      ∑ r ∈ range x, (dim - 1 - r) := by
    rw [List.length_flatMap]
    simp only [List.length_map, row_eq, List.length_range']
    exact list_sum_range _ x
  have hrow : ((((List.range dim).filter fun j => x < j).map fun j => (x, j))).idxOf (x, y) = y - x - 1 := by
    have hnd : ((((List.range dim).filter fun j => x < j).map fun j => (x, j))).Nodup :=
      ((List.nodup_range).filter _).map (fun a b h => by simpa using h)
    have hl : y - x - 1 < ((((List.range dim).filter fun j => x < j).map fun j => (x, j))).length := by
      rw [List.length_map, row_eq, List.length_range']; omega
    have hg : ((((List.range dim).filter fun j => x < j).map fun j => (x, j)))[y - x - 1] = (x, y) := by
      simp only [row_eq, List.getElem_map, List.getElem_range']
      congr 1; omega
    conv_lhs => rw [← hg]
    exact hnd.idxOf_getElem _ hl
  rw [hlen, hrow, triuPos]
  push_cast [Nat.cast_sub]
  have : ∀ r ∈ range x, ((dim - 1 - r : ℕ) : ℤ) = (dim : ℤ) - 1 - r := by
    intro r hr
    rw [mem_range] at hr
    omega
  rw [sum_congr rfl this]
  omega

/-- C57. The matrix is antisymmetric, with the parameters in the upper triangle, in the order of C30. -/
theorem C57_antiherm {R : Type} [CommRing R] (dim : ℕ) (el : List R) :
    (∀ x y, x < y → y < dim → antiherm dim el x y = el.getD (triuPos dim x y).toNat 0) ∧
    (∀ x y, antiherm dim el y x = -antiherm dim el x y) ∧ ∀ x, antiherm dim el x x = 0 := by
  refine ⟨fun x y hxy hy => ?_, fun x y => ?_, fun x => ?_⟩
  · simp only [antiherm]
    rw [if_pos (mem_triuIndices.2 ⟨hxy, hy⟩), if_neg (fun h => by have := mem_triuIndices.1 h; omega), sub_zero,
      ← C57_triu_position hxy hy, Int.toNat_natCast]
  · simp only [antiherm]; ring
  · simp only [antiherm]; ring

section
variable {F : Type} [Field F]

/-- C57. A number of elements that is `m (m - 1) / 2` gives a matrix of dimension `m`; any other number is rejected. -/
theorem C57_size (small huge : (ℕ → ℕ → F) → Bool) (expm : (ℕ → ℕ → F) → ℕ → ℕ → F) (nt : ℕ) (el : List F) :
    (∀ m, 1 ≤ m → el.length = m * (m - 1) / 2 → ∃ u, unitaryMatrix small huge expm nt el = .ok (m, u)) ∧
    ((∀ m, el.length ≠ m * (m - 1) / 2) → unitaryMatrix small huge expm nt el = .error .valueError) := by
  constructor
  · intro m hm hl
    have e : 1 + 8 * el.length = (2 * m - 1) * (2 * m - 1) := by
      obtain ⟨k, rfl⟩ : ∃ k, m = k + 1 := ⟨m - 1, by omega⟩
      rw [Nat.add_sub_cancel] at hl
      have h2 : 2 * el.length = (k + 1) * k := by
        obtain ⟨t, ht⟩ := Nat.even_mul_succ_self k
        rw [mul_comm] at hl
        rw [hl, mul_comm (k + 1), ht]; omega
      rw [show 2 * (k + 1) - 1 = 2 * k + 1 by omega]
      nlinarith
    have es : (1 + 8 * el.length).sqrt = 2 * m - 1 := by rw [e]; exact Nat.sqrt_eq _
    simp only [unitaryMatrix, es]
    rw [if_neg (not_not.2 e.symm), show (1 + (2 * m - 1)) / 2 = m by omega]
    exact ⟨_, rfl⟩
  · intro h
    simp only [unitaryMatrix]
    rw [if_pos]
    intro he
    obtain ⟨s, hs⟩ : ∃ s, s = (1 + 8 * el.length).sqrt := ⟨_, rfl⟩
    rw [← hs] at he
    have hodd : s % 2 = 1 := by
      by_contra hev
      obtain ⟨k, rfl⟩ : ∃ k, s = 2 * k := ⟨s / 2, by omega⟩
      have : 2 * (2 * (k * k)) = 1 + 8 * el.length := by rw [← he]; ring
      omega
    obtain ⟨k, rfl⟩ : ∃ k, s = 2 * k + 1 := ⟨s / 2, by omega⟩
    apply h (k + 1)
    rw [Nat.add_sub_cancel]
    obtain ⟨t, ht⟩ := Nat.even_mul_succ_self k
    have h1 : (2 * k + 1) * (2 * k + 1) = 1 + 4 * (k * (k + 1)) := by ring
    rw [h1, ht] at he
    rw [mul_comm, ht]
    omega

/-- the terms of the Taylor series as they are computed: `a`, then each the one before times `a` divided by its number -/
def taylorTerm (dim : ℕ) (a : ℕ → ℕ → F) : ℕ → ℕ → ℕ → F
  | 0 => idMat
  | 1 => a
  | k + 2 => fun i j => matMul dim (taylorTerm dim a (k + 1)) a i j / (k + 2 : ℕ)

theorem taylorTerm_step (dim : ℕ) (a : ℕ → ℕ → F) (k i j : ℕ) :
    taylorTerm dim a (k + 2) i j = matMul dim (taylorTerm dim a (k + 1)) a i j / (k + 2 : ℕ) := rfl

/-- C57. These are the terms of the exponential series. -/
theorem C57_term_pow [CharZero F] (dim : ℕ) (a : ℕ → ℕ → F) (k : ℕ) (i j : Fin dim) :
    taylorTerm dim a k i j = ((Matrix.of fun i j : Fin dim => a i j) ^ k) i j / (k.factorial : F) := by
  have step : ∀ k : ℕ, (∀ i j : Fin dim, taylorTerm dim a (k + 1) i j =
      ((Matrix.of fun i j : Fin dim => a i j) ^ (k + 1)) i j / ((k + 1).factorial : F)) := by
    intro k
    induction k with
    | zero => intro i j; simp [taylorTerm]
    | succ k ih =>
      intro i j
      rw [taylorTerm_step, pow_succ, Matrix.mul_apply]
      simp only [matMul]
      rw [Finset.sum_range (fun l => taylorTerm dim a (k + 1) i l * a l j)]
      rw [Nat.factorial_succ (k + 1), Nat.cast_mul, mul_comm ((k + 1 + 1 : ℕ) : F), ← div_div]
      congr 1
      rw [div_eq_mul_inv, Finset.sum_mul]
      exact Finset.sum_congr rfl fun l _ => by rw [ih i l, Matrix.of_apply]; ring
  cases k with
  | zero => simp [taylorTerm, idMat, Matrix.one_apply, Fin.ext_iff]
  | succ k => exact step k i j

theorem taylorLoop_eq (dim : ℕ) (small huge : (ℕ → ℕ → F) → Bool) (expm : (ℕ → ℕ → F) → ℕ → ℕ → F) (a : ℕ → ℕ → F) :
    ∀ (fuel n : ℕ) (u : ℕ → ℕ → F), 1 ≤ n → (∀ i j, u i j = ∑ k ∈ range n, taylorTerm dim a k i j) →
      ∃ m, n ≤ m ∧ m ≤ n + fuel ∧ (∀ k, n ≤ k → k < m → small (taylorTerm dim a k) = false) ∧
        (∀ k, n < k → k < m → huge (taylorTerm dim a k) = false) ∧
        ((n < m ∧ huge (taylorTerm dim a m) = true ∧
            taylorLoop dim small huge expm a fuel n u (taylorTerm dim a n) = expm a) ∨
          ((n < m → huge (taylorTerm dim a m) = false) ∧ (small (taylorTerm dim a m) = true ∨ m = n + fuel) ∧
            ∀ i j, taylorLoop dim small huge expm a fuel n u (taylorTerm dim a n) i j =
              ∑ k ∈ range m, taylorTerm dim a k i j)) := by
  intro fuel
  induction fuel with
  | zero =>
    intro n u hn hu
    exact ⟨n, le_rfl, le_rfl, fun k h1 h2 => absurd h1 (by omega), fun k h1 h2 => absurd h1 (by omega),
      .inr ⟨fun h => absurd h (by omega), .inr rfl, hu⟩⟩
  | succ fuel ih =>
    intro n u hn hu
    by_cases hs : small (taylorTerm dim a n) = true
    · refine ⟨n, le_rfl, by omega, fun k h1 h2 => absurd h1 (by omega), fun k h1 h2 => absurd h1 (by omega),
        .inr ⟨fun h => absurd h (by omega), .inl hs, fun i j => ?_⟩⟩
      rw [taylorLoop, if_pos hs, hu]
    · have hc : (fun i j => dotMat dim (taylorTerm dim a n) a i j / ((n + 1 : ℕ) : F)) = taylorTerm dim a (n + 1) := by
        obtain ⟨t, rfl⟩ : ∃ t, n = t + 1 := ⟨n - 1, by omega⟩
        rfl
      have hu' : ∀ i j, (fun i j => u i j + taylorTerm dim a n i j) i j = ∑ k ∈ range (n + 1), taylorTerm dim a k i j := by
        intro i j
        rw [sum_range_succ, ← hu]
      by_cases hh : huge (taylorTerm dim a (n + 1)) = true
      · refine ⟨n + 1, by omega, by omega, ?_, fun k h1 h2 => absurd h1 (by omega), .inl ⟨by omega, hh, ?_⟩⟩
        · intro k h1 h2
          obtain rfl : k = n := by omega
          simpa using hs
        · rw [taylorLoop, if_neg hs]
          simp only [hc]
          rw [if_pos hh]
      · obtain ⟨m, m1, m2, m3, m4, m5⟩ := ih (n + 1) _ (by omega) hu'
        have hrun : taylorLoop dim small huge expm a (fuel + 1) n u (taylorTerm dim a n) =
            taylorLoop dim small huge expm a fuel (n + 1) (fun i j => u i j + taylorTerm dim a n i j)
              (taylorTerm dim a (n + 1)) := by
          rw [taylorLoop, if_neg hs]
          simp only [hc]
          rw [if_neg hh]
        refine ⟨m, by omega, by omega, ?_, ?_, ?_⟩
        · intro k h1 h2
          by_cases hk : k = n
          · subst hk; simpa using hs
          · exact m3 k (by omega) h2
        · intro k h1 h2
          by_cases hk : k = n + 1
          · subst hk; simpa using hh
          · exact m4 k (by omega) h2
        · rw [hrun]
          rcases m5 with ⟨p1, p2, p3⟩ | ⟨p1, p2, p3⟩
          · exact .inl ⟨by omega, p2, p3⟩
          · refine .inr ⟨fun _ => ?_, ?_, p3⟩
            · by_cases hm : m = n + 1
              · subst hm; simpa using hh
              · exact p1 (by omega)
            · rcases p2 with p2 | p2
              · exact .inl p2
              · exact .inr (by omega)

/-- C57. The result is the partial sum of the Taylor series of the exponential of the antihermitian matrix up to (but not
including) the first term whose norm does not exceed the threshold, and of at most `num_threshold` terms; if a term beyond
the first is huge before that, the result is that of `scipy.linalg.expm`. -/
theorem C57_taylor (small huge : (ℕ → ℕ → F) → Bool) (expm : (ℕ → ℕ → F) → ℕ → ℕ → F) (nt : ℕ) (hnt : 1 ≤ nt) (el : List F)
    (dim : ℕ) (u : ℕ → ℕ → F) (hu : unitaryMatrix small huge expm nt el = .ok (dim, u)) :
    ∃ m, 1 ≤ m ∧ m ≤ nt ∧ (∀ k, 1 ≤ k → k < m → small (taylorTerm dim (antiherm dim el) k) = false) ∧
      (∀ k, 1 < k → k < m → huge (taylorTerm dim (antiherm dim el) k) = false) ∧
      ((1 < m ∧ huge (taylorTerm dim (antiherm dim el) m) = true ∧ u = expm (antiherm dim el)) ∨
        ((1 < m → huge (taylorTerm dim (antiherm dim el) m) = false) ∧
          (small (taylorTerm dim (antiherm dim el) m) = true ∨ m = nt) ∧
          ∀ i j, u i j = ∑ k ∈ range m, taylorTerm dim (antiherm dim el) k i j)) := by
  simp only [unitaryMatrix] at hu
  split_ifs at hu with h
  simp only [Except.ok.injEq, Prod.mk.injEq] at hu
  obtain ⟨hd, hu⟩ := hu
  rw [hd] at hu
  obtain ⟨m, m1, m2, m3, m4, m5⟩ := taylorLoop_eq dim small huge expm (antiherm dim el) (nt - 1) 1
    (fun i j => if i = j then 1 else 0) le_rfl (fun i j => by simp [taylorTerm, idMat])
  rw [show 1 + (nt - 1) = nt by omega] at m2 m5
  have e : taylorTerm dim (antiherm dim el) 1 = antiherm dim el := rfl
  rw [e, hu] at m5
  exact ⟨m, m1, m2, m3, m4, m5⟩

end

theorem one_param_mat {dim x y : ℕ} (hxy : x < y) (hy : y < dim) (θ : ℝ) (el : List ℝ)
    (hel : ∀ k, el.getD k 0 = if (k : ℤ) = triuPos dim x y then θ else 0) :
    ∀ i j, antiherm dim el i j = if i = x ∧ j = y then θ else if i = y ∧ j = x then -θ else 0 := by
  have hup : ∀ i j, (if (i, j) ∈ triuIndices dim then el.getD ((triuIndices dim).idxOf (i, j)) 0 else 0) =
      if i = x ∧ j = y then θ else 0 := by
    intro i j
    by_cases h : (i, j) ∈ triuIndices dim
    · rw [if_pos h, hel]
      obtain ⟨h1, h2⟩ := mem_triuIndices.1 h
      have key : ((triuIndices dim).idxOf (i, j) : ℤ) = triuPos dim x y ↔ i = x ∧ j = y := by
        rw [← C57_triu_position hxy hy]
        constructor
        · intro he
          have := (List.idxOf_inj (mem_triuIndices.2 ⟨h1, h2⟩) (y := (x, y))).1 (by exact_mod_cast he)
          simpa using this
        · rintro ⟨rfl, rfl⟩; rfl
      by_cases hk : i = x ∧ j = y
      · rw [if_pos (key.2 hk), if_pos hk]
      · rw [if_neg (fun hh => hk (key.1 hh)), if_neg hk]
    · rw [if_neg h, if_neg]
      rintro ⟨rfl, rfl⟩
      exact h (mem_triuIndices.2 ⟨hxy, hy⟩)
  intro i j
  simp only [antiherm, hup]
  by_cases h1 : i = x ∧ j = y
  · rw [if_pos h1, if_pos h1, if_neg (fun h => by omega), sub_zero]
  · rw [if_neg h1, if_neg h1]
    by_cases h2 : i = y ∧ j = x
    · rw [if_pos h2, if_pos ⟨h2.2, h2.1⟩, zero_sub]
    · rw [if_neg h2, if_neg (fun h => h2 ⟨h.2, h.1⟩), sub_zero]

theorem one_param_mul {dim x y : ℕ} (hxy : x < y) (hy : y < dim) (θ : ℝ) (el : List ℝ)
    (hel : ∀ k, el.getD k 0 = if (k : ℤ) = triuPos dim x y then θ else 0) :
    ∀ (t : ℕ → ℕ → ℝ) i j, matMul dim t (antiherm dim el) i j =
      if j = y then t i x * θ else if j = x then -(t i y * θ) else 0 := by
  have hA := one_param_mat hxy hy θ el hel
  intro t i j
  simp only [matMul, hA]
  have e : ∀ l ∈ range dim, t i l * (if l = x ∧ j = y then θ else if l = y ∧ j = x then -θ else 0) =
      (if l = x then (if j = y then t i x * θ else 0) else 0) + (if l = y then (if j = x then -(t i y * θ) else 0) else 0) := by
    intro l _
    by_cases h1 : l = x
    · subst h1
      have hne : l ≠ y := by omega
      by_cases h2 : j = y
      · simp [h2, hne]
      · simp [h2, hne]
    · by_cases h2 : l = y
      · subst h2
        by_cases h3 : j = x
        · simp [h1, h3]
        · simp [h1, h3]
      · simp [h1, h2]
  rw [sum_congr rfl e, sum_add_distrib, sum_ite_eq' , sum_ite_eq', if_pos (mem_range.2 (by omega)),
    if_pos (mem_range.2 hy)]
  by_cases h2 : j = y
  · rw [if_pos h2, if_pos h2, if_neg (by omega), add_zero]
  · rw [if_neg h2, if_neg h2, zero_add]

theorem one_param_term {dim x y : ℕ} (hxy : x < y) (hy : y < dim) (θ : ℝ) (el : List ℝ)
    (hel : ∀ k, el.getD k 0 = if (k : ℤ) = triuPos dim x y then θ else 0) :
    ∀ k i j, taylorTerm dim (antiherm dim el) (2 * k + 1) i j =
      ((-1) ^ k * θ ^ (2 * k + 1) / ((2 * k + 1).factorial : ℝ)) *
        (if i = x ∧ j = y then 1 else if i = y ∧ j = x then -1 else 0) ∧
      taylorTerm dim (antiherm dim el) (2 * k + 2) i j =
      ((-1) ^ (k + 1) * θ ^ (2 * k + 2) / ((2 * k + 2).factorial : ℝ)) *
        (if i = x ∧ j = x then 1 else if i = y ∧ j = y then 1 else 0) := by
  have hA := one_param_mat hxy hy θ el hel
  have hmul := one_param_mul hxy hy θ el hel
  intro k
  have even_of_odd : ∀ k, (∀ i j, taylorTerm dim (antiherm dim el) (2 * k + 1) i j =
      ((-1) ^ k * θ ^ (2 * k + 1) / ((2 * k + 1).factorial : ℝ)) *
      (if i = x ∧ j = y then 1 else if i = y ∧ j = x then -1 else 0)) → ∀ i j,
      taylorTerm dim (antiherm dim el) (2 * k + 2) i j =
      ((-1) ^ (k + 1) * θ ^ (2 * k + 2) / ((2 * k + 2).factorial : ℝ)) *
      (if i = x ∧ j = x then 1 else if i = y ∧ j = y then 1 else 0) := by
    intro k hk i j
    have hf : (((2 * k + 1).factorial : ℕ) : ℝ) ≠ 0 := by exact_mod_cast (Nat.factorial_pos _).ne'
    have hf2 : ((2 * k + 2 : ℕ) : ℝ) ≠ 0 := by positivity
    rw [taylorTerm_step, hmul, hk, hk, Nat.factorial_succ (2 * k + 1), Nat.cast_mul]
    have hne : x ≠ y := by omega
    by_cases h1 : j = y
    · subst h1
      by_cases h2 : i = j
      · subst h2; simp [Ne.symm hne]; field_simp; ring
      · simp [h2, hne, Ne.symm hne]
    · by_cases h2 : j = x
      · subst h2
        by_cases h3 : i = j
        · subst h3; simp [hne]; field_simp; ring
        · simp [h3, hne, Ne.symm hne]
      · simp [h1, h2]
  have odd : ∀ i j, taylorTerm dim (antiherm dim el) (2 * k + 1) i j =
      ((-1) ^ k * θ ^ (2 * k + 1) / ((2 * k + 1).factorial : ℝ)) *
      (if i = x ∧ j = y then 1 else if i = y ∧ j = x then -1 else 0) := by
    induction k with
    | zero =>
      intro i j
      simp only [mul_zero, zero_add, taylorTerm, hA]
      split_ifs <;> simp
    | succ k ih =>
      intro i j
      have he := even_of_odd k ih
      have hf : (((2 * k + 2).factorial : ℕ) : ℝ) ≠ 0 := by exact_mod_cast (Nat.factorial_pos _).ne'
      have hf2 : ((2 * k + 3 : ℕ) : ℝ) ≠ 0 := by positivity
      rw [show 2 * (k + 1) + 1 = (2 * k + 1) + 2 by ring, taylorTerm_step, hmul, show 2 * k + 1 + 1 = 2 * k + 2 by ring,
        he, he, show 2 * k + 1 + 2 = (2 * k + 2) + 1 by ring, Nat.factorial_succ (2 * k + 2), Nat.cast_mul]
      have hne : x ≠ y := by omega
      by_cases h1 : j = y
      · subst h1
        by_cases h2 : i = x
        · subst h2; simp; field_simp; ring
        · simp [h2, hne, Ne.symm hne]
      · by_cases h2 : j = x
        · subst h2
          by_cases h3 : i = y
          · subst h3; simp [hne, Ne.symm hne]; field_simp; ring
          · simp [h3, hne, Ne.symm hne]
        · simp [h1, h2]
  exact fun i j => ⟨odd i j, even_of_odd k odd i j⟩

theorem even_odd_sum (f : ℕ → ℝ) (θ a b p q : ℝ) (h0 : f 0 = a)
    (ho : ∀ k, f (2 * k + 1) = ((-1) ^ k * θ ^ (2 * k + 1) / ((2 * k + 1).factorial : ℝ)) * p)
    (he : ∀ k, f (2 * k + 2) = ((-1) ^ (k + 1) * θ ^ (2 * k + 2) / ((2 * k + 2).factorial : ℝ)) * q)
    (hb : b = a + (Real.cos θ - 1) * q + Real.sin θ * p) : HasSum f b := by
  have h1 : HasSum (fun k => f (2 * k + 1)) (Real.sin θ * p) := by
    simp only [ho]
    exact (Real.hasSum_sin θ).mul_right _
  have h2 : HasSum (fun k => f (2 * (k + 1))) ((Real.cos θ - 1) * q) := by
    have e : (fun k => f (2 * (k + 1))) =
        fun k => ((-1) ^ (k + 1) * θ ^ (2 * (k + 1)) / ((2 * (k + 1)).factorial : ℝ)) * q := funext fun k => he k
    rw [e]
    apply HasSum.mul_right
    have h := (hasSum_nat_add_iff' 1).2 (Real.hasSum_cos θ)
    rw [sum_range_one] at h
    simpa only [mul_zero, pow_zero, Nat.factorial_zero, Nat.cast_one, mul_one, div_one] using h
  have h3 : HasSum (fun k => f (2 * k)) (a + (Real.cos θ - 1) * q) := by
    rw [add_comm]
    have h := (hasSum_nat_add_iff (f := fun k => f (2 * k)) 1).1 h2
    rw [sum_range_one, mul_zero, h0] at h
    exact h
  rw [hb]
  exact HasSum.even_add_odd h3 h1

/-- C57. For one parameter `θ`, that of the pair `(x, y)`, and zeros otherwise, the Taylor series converges to the matrix of
the Jacobi rotation of the orbitals `x` and `y` by `θ`. -/
theorem C57_one_parameter {dim x y : ℕ} (hxy : x < y) (hy : y < dim) (θ : ℝ) (el : List ℝ)
    (hel : ∀ k, el.getD k 0 = if (k : ℤ) = triuPos dim x y then θ else 0) (i j : ℕ) :
    HasSum (fun k => taylorTerm dim (antiherm dim el) k i j) (givens (Real.cos θ) (Real.sin θ) x y i j) := by
  have hodd := one_param_term hxy hy θ el hel
  refine even_odd_sum _ θ (idMat i j) _ _ _ rfl (fun k => (hodd k i j).1) (fun k => (hodd k i j).2) ?_
  simp only [givens, idMat]
  have hne : x ≠ y := by omega
  by_cases a1 : j = x
  · subst a1
    by_cases a2 : i = j
    · subst a2; simp [hne]
    · by_cases a3 : i = y
      · subst a3; simp [a2, hne]
      · simp [a2, a3]
  · by_cases a4 : j = y
    · subst a4
      by_cases a2 : i = j
      · subst a2; simp [a1]
      · by_cases a3 : i = x
        · subst a3; simp [a1, a2]
        · simp [a1, a2, a3]
    · by_cases a2 : i = j
      · subst a2; simp [a1, a4]
      · simp [a1, a2, a4]

/-! concrete cases: three parameters give a matrix of dimension three; two parameters are rejected -/

example : ∃ u, unitaryMatrix (F := ℚ) (fun _ => false) (fun _ => false) (fun a => a) 3 [0, 2, 0] = .ok (3, u) ∧
    u 0 2 = 2 ∧ u 2 0 = -2 ∧ u 0 0 = 1 - 2 ∧ u 1 1 = 1 := by
  have e : (1 + 8 * ([0, 2, 0] : List ℚ).length).sqrt = 5 := Nat.sqrt_eq 5
  simp only [unitaryMatrix, e]
  refine ⟨_, rfl, ?_⟩
  decide +kernel

example : unitaryMatrix (F := ℚ) (fun _ => false) (fun _ => false) (fun a => a) 1000 [1, 2] = .error .valueError := by
  exact (C57_size _ _ _ _ _).2 fun m => by
    rcases m with _ | _ | _ | m
    · decide
    · decide
    · decide
    · have : 6 ≤ (m + 1 + 1 + 1) * (m + 1 + 1 + 1 - 1) := by
        rw [show m + 1 + 1 + 1 - 1 = m + 2 by omega]; nlinarith
      simp only [List.length_cons, List.length_nil]
      omega

example : ∀ k, ([0, (2 : ℝ), 0] : List ℝ).getD k 0 = if (k : ℤ) = triuPos 3 0 2 then 2 else 0 := by
  intro k
  rcases k with _ | _ | _ | k
  · simp [triuPos]
  · simp [triuPos]
  · simp [triuPos]
  · simp [triuPos]; omega

end Fanpy.Props
