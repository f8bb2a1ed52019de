import Verif.Model.MPS
import Verif.Lemmas.Chain
import Verif.Lemmas.Bits2
import Mathlib.Algebra.BigOperators.Fin
import Mathlib.Analysis.SpecialFunctions.Pow.Real

/-! # C45: matrix product states -/

namespace Fanpy.Props
open Fanpy.Slater Fanpy.MPS Fanpy.Spec Fanpy.Lemmas Finset

set_option linter.unusedSectionVars false

variable {R : Type} [Field R]

/-! ## The layout of the parameters -/

/-- the index of the parameter in row `i` and column `j` of the matrix of the spatial orbital `k` for the occupation `n`,
in a state of `K` orbitals and bond dimension `D` -/
def mpsIndex (K D k n i j : ℕ) : ℕ :=
  if k = 0 then n * D + j
  else if k < K - 1 then 4 * D + 4 * D ^ 2 * (k - 1) + n * D ^ 2 + i * D + j
  else 4 * D + 4 * D ^ 2 * (k - 1) + n * D + i

/-- the number of parameters -/
def mpsSize (K D : ℕ) : ℕ := 4 * D + 4 * D ^ 2 * (K - 2) + 4 * D

/-- The number of rows of the matrix of orbital `k` (or of columns of the matrix of orbital `k - 1`). -/
def mpsDim (K D k : ℕ) : ℕ := if k = 0 ∨ k = K then 1 else D

/-- the occupation of a spatial orbital: 0 (none), 1 (alpha), 2 (beta), 3 (both) -/
def mpsOcc (K sd k : ℕ) : ℕ := (if k ∈ occSet sd then 1 else 0) + (if k + K ∈ occSet sd then 2 else 0)

theorem mpsOcc_lt (K sd k : ℕ) : mpsOcc K sd k < 4 := by rw [mpsOcc]; split_ifs <;> omega

/-- the start of the block of the matrix of orbital `k` -/
def mpsStart (D k : ℕ) : ℕ := if k = 0 then 0 else 4 * D + 4 * D ^ 2 * (k - 1)

variable {K D : ℕ}

theorem mpsIndex_eq (hK : 2 ≤ K) {k n i j : ℕ} (hk : k < K) (hi : i < mpsDim K D k) (hj : j < mpsDim K D (k + 1)) :
    mpsIndex K D k n i j = mpsStart D k + (n * (mpsDim K D k * mpsDim K D (k + 1)) + (i * mpsDim K D (k + 1) + j)) := by
  rw [mpsIndex, mpsStart]
  rcases Nat.eq_zero_or_pos k with rfl | h0
  · have h1 : mpsDim K D 0 = 1 := by simp [mpsDim]
    have h2 : mpsDim K D (0 + 1) = D := by rw [mpsDim, if_neg (by omega)]
    rw [h1] at hi
    rw [if_pos rfl, if_pos rfl, h1, h2]
    obtain rfl : i = 0 := by omega
    ring
  · have h1 : mpsDim K D k = D := by rw [mpsDim, if_neg (by omega)]
    rw [if_neg (show ¬ k = 0 by omega), if_neg (show ¬ k = 0 by omega), h1]
    by_cases hl : k < K - 1
    · have h2 : mpsDim K D (k + 1) = D := by rw [mpsDim, if_neg (by omega)]
      rw [if_pos hl, h2]
      ring
    · have h2 : mpsDim K D (k + 1) = 1 := by rw [mpsDim, if_pos (by omega)]
      rw [h2] at hj
      rw [if_neg hl, h2]
      obtain rfl : j = 0 := by omega
      ring

theorem mpsStart_add (_hK : 2 ≤ K) {k k' : ℕ} (hk : k < k') (hk' : k' < K) :
    mpsStart D k + 4 * (mpsDim K D k * mpsDim K D (k + 1)) ≤ mpsStart D k' := by
  rw [mpsStart, mpsStart, if_neg (show k' ≠ 0 by omega)]
  have h2 : mpsDim K D (k + 1) = D := by rw [mpsDim, if_neg (by omega)]
  rw [h2]
  rcases Nat.eq_zero_or_pos k with rfl | h0
  · have h1 : mpsDim K D 0 = 1 := by simp [mpsDim]
    rw [h1, if_pos rfl]
    omega
  · have h1 : mpsDim K D k = D := by rw [mpsDim, if_neg (by omega)]
    rw [h1, if_neg (by omega)]
    have : 4 * D ^ 2 * (k - 1) + 4 * (D * D) = 4 * D ^ 2 * (k - 1 + 1) := by ring
    have h3 : 4 * D ^ 2 * (k - 1 + 1) ≤ 4 * D ^ 2 * (k' - 1) := Nat.mul_le_mul_left _ (by omega)
    omega

theorem mpsStart_last (hK : 2 ≤ K) {k : ℕ} (hk : k < K) :
    mpsStart D k + 4 * (mpsDim K D k * mpsDim K D (k + 1)) ≤ mpsSize K D := by
  have hl : mpsStart D (K - 1) + 4 * (mpsDim K D (K - 1) * mpsDim K D (K - 1 + 1)) = mpsSize K D := by
    rw [mpsStart, if_neg (by omega), mpsDim, if_neg (by omega), mpsDim, if_pos (by omega), mpsSize,
      show K - 1 - 1 = K - 2 by omega, mul_one]
  rcases Nat.lt_or_ge k (K - 1) with h | h
  · have := mpsStart_add (D := D) hK h (by omega)
    omega
  · obtain rfl : k = K - 1 := by omega
    exact hl.le

theorem block_lt {n i j a b : ℕ} (hn : n < 4) (hi : i < a) (hj : j < b) : n * (a * b) + (i * b + j) < 4 * (a * b) := by
  have h1 : i * b + j < a * b := by
    calc i * b + j < i * b + b := by omega
      _ = (i + 1) * b := by ring
      _ ≤ a * b := Nat.mul_le_mul_right _ hi
  calc n * (a * b) + (i * b + j) < n * (a * b) + a * b := by omega
    _ = (n + 1) * (a * b) := by ring
    _ ≤ 4 * (a * b) := Nat.mul_le_mul_right _ hn

theorem block_decompose {n i j a b : ℕ} (hi : i < a) (hj : j < b) :
    (n * (a * b) + (i * b + j)) / (a * b) = n ∧ (n * (a * b) + (i * b + j)) % (a * b) = i * b + j ∧
      (i * b + j) / b = i ∧ (i * b + j) % b = j := by
  have h1 : i * b + j < a * b := by
    calc i * b + j < i * b + b := by omega
      _ = (i + 1) * b := by ring
      _ ≤ a * b := Nat.mul_le_mul_right _ hi
  have hab : 0 < a * b := by omega
  have hb : 0 < b := by omega
  refine ⟨?_, ?_, ?_, ?_⟩
  · rw [mul_comm n, Nat.mul_add_div hab, Nat.div_eq_of_lt h1, add_zero]
  · rw [mul_comm n, Nat.mul_add_mod, Nat.mod_eq_of_lt h1]
  · rw [mul_comm i, Nat.mul_add_div hb, Nat.div_eq_of_lt hj, add_zero]
  · rw [mul_comm i, Nat.mul_add_mod, Nat.mod_eq_of_lt hj]

/-- `(k, n, i, j)` is a parameter -/
def MpsValid (K D k n i j : ℕ) : Prop := k < K ∧ n < 4 ∧ i < mpsDim K D k ∧ j < mpsDim K D (k + 1)

theorem mpsIndex_inj (hK : 2 ≤ K) {k n i j k' n' i' j' : ℕ} (h : MpsValid K D k n i j) (h' : MpsValid K D k' n' i' j')
    (he : mpsIndex K D k n i j = mpsIndex K D k' n' i' j') : k = k' ∧ n = n' ∧ i = i' ∧ j = j' := by
  obtain ⟨hk, hn, hi, hj⟩ := h
  obtain ⟨hk', hn', hi', hj'⟩ := h'
  rw [mpsIndex_eq hK hk hi hj, mpsIndex_eq hK hk' hi' hj'] at he
  have b1 := block_lt hn hi hj
  have b2 := block_lt hn' hi' hj'
  obtain rfl : k = k' := by
    rcases Nat.lt_trichotomy k k' with h | h | h
    · have := mpsStart_add (D := D) hK h hk'; omega
    · exact h
    · have := mpsStart_add (D := D) hK h hk; omega
  obtain ⟨a1, a2, a3, a4⟩ := block_decompose (n := n) hi hj
  obtain ⟨c1, c2, c3, c4⟩ := block_decompose (n := n') hi' hj'
  have e := Nat.add_left_cancel he
  refine ⟨rfl, ?_, ?_, ?_⟩
  · rw [← a1, ← c1, e]
  · rw [← a3, ← c3, ← a2, ← c2, e]
  · rw [← a4, ← c4, ← a2, ← c2, e]

theorem mpsIndex_lt (hK : 2 ≤ K) {k n i j : ℕ} (h : MpsValid K D k n i j) : mpsIndex K D k n i j < mpsSize K D := by
  obtain ⟨hk, hn, hi, hj⟩ := h
  rw [mpsIndex_eq hK hk hi hj]
  have b1 := block_lt hn hi hj
  have := mpsStart_last (D := D) hK hk
  omega

/-! ## The shapes and the matrices -/

theorem matrixShape_ok (w : Wfn R) (hK : 2 ≤ w.nspatial) {k : ℕ} (hk : k < w.nspatial) :
    w.matrixShape k = .ok (mpsDim w.nspatial w.dimension k, mpsDim w.nspatial w.dimension (k + 1)) := by
  rw [Wfn.matrixShape, if_neg (not_not.2 hk)]
  split_ifs with h0 h1
  · subst h0
    rw [mpsDim, if_pos (Or.inl rfl), mpsDim, if_neg (by omega)]
  · rw [mpsDim, if_neg (by omega), mpsDim, if_neg (by omega)]
  · rw [mpsDim, if_neg (by omega), mpsDim, if_pos (by omega)]

theorem matrixIndices_ok (w : Wfn R) (hK : 2 ≤ w.nspatial) {k : ℕ} (hk : k < w.nspatial) :
    w.matrixIndices k = .ok (mpsStart w.dimension k,
      mpsStart w.dimension k + 4 * (mpsDim w.nspatial w.dimension k * mpsDim w.nspatial w.dimension (k + 1))) := by
  rw [Wfn.matrixIndices, matrixShape_ok w hK hk, matrixShape_ok w hK (show 0 < w.nspatial by omega),
    matrixShape_ok w hK (show 1 < w.nspatial by omega)]
  simp only [bind, Except.bind, pure, Except.pure, shapeSize]
  split_ifs with h0
  · rw [mpsStart, if_pos h0, mul_assoc, zero_add]
  · rw [mpsStart, if_neg h0, mul_assoc]
    have h1 : mpsDim w.nspatial w.dimension 0 = 1 := by simp [mpsDim]
    have h2 : mpsDim w.nspatial w.dimension (0 + 1) = w.dimension := by rw [mpsDim, if_neg (by omega)]
    rw [h1, h2]
    rcases Nat.lt_or_ge 1 (k) with h | h
    · have h4 : mpsDim w.nspatial w.dimension (1 + 1) = w.dimension := by rw [mpsDim, if_neg (by omega)]
      rw [h4]
      congr 2 <;> ring
    · obtain rfl : k = 1 := by omega
      simp [mul_assoc]

theorem shapeSize_eq (a b : ℕ) : shapeSize (a, b) = 4 * (a * b) := by rw [shapeSize, mul_assoc]

/-- the entries of the matrices selected by the occupations -/
def mpsMat (w : Wfn R) (occ : ℕ → ℕ) (k i j : ℕ) : R := w.params (mpsStart w.dimension k + (occ k *
  (mpsDim w.nspatial w.dimension k * mpsDim w.nspatial w.dimension (k + 1)) + (i * mpsDim w.nspatial w.dimension (k + 1) + j)))

theorem matrix_ok (w : Wfn R) (hK : 2 ≤ w.nspatial) (hp : mpsSize w.nspatial w.dimension ≤ w.nparams) (occ : ℕ → ℕ) {k : ℕ}
    (hk : k < w.nspatial) : w.matrix k (occ k) = .ok ⟨mpsDim w.nspatial w.dimension k, mpsDim w.nspatial w.dimension (k + 1),
      mpsMat w occ k⟩ := by
  rw [Wfn.matrix, matrixIndices_ok w hK hk, matrixShape_ok w hK hk]
  simp only [bind, Except.bind, pure, Except.pure]
  rw [if_neg (by have := mpsStart_last (D := w.dimension) hK hk; omega)]
  rfl

theorem dot_ok {m n p : ℕ} (f g : ℕ → ℕ → R) : (Mat.mk m n f).dot (Mat.mk n p g) =
    .ok ⟨m, p, fun i j => ∑ x ∈ range n, f i x * g x j⟩ := by
  rw [Mat.dot, if_neg (by simp)]
  have : ∀ i j, ((List.range n).map fun k => f i k * g k j).sum = ∑ x ∈ range n, f i x * g x j := fun i j => by
    rw [← List.sum_toFinset _ List.nodup_range, List.toFinset_range]
  simp only [this]

theorem foldlM_right (w : Wfn R) (hK : 2 ≤ w.nspatial) (hp : mpsSize w.nspatial w.dimension ≤ w.nparams) (occ : ℕ → ℕ)
    (a m : ℕ) (h : a + m < w.nspatial) :
    (List.range' (a + 1) m).foldlM (w.olpStep occ)
      ⟨mpsDim w.nspatial w.dimension a, mpsDim w.nspatial w.dimension (a + 1), mpsMat w occ a⟩ =
    .ok ⟨mpsDim w.nspatial w.dimension a, mpsDim w.nspatial w.dimension (a + m + 1),
      chain (mpsDim w.nspatial w.dimension) (mpsMat w occ) a m⟩ := by
  induction m with
  | zero => rfl
  | succ m ih =>
    rw [List.range'_1_concat, List.foldlM_append, ih (by omega)]
    simp only [bind, Except.bind, List.foldlM_cons, List.foldlM_nil, Wfn.olpStep]
    rw [show a + 1 + m = a + m + 1 by omega, matrix_ok w hK hp occ (show a + m + 1 < w.nspatial by omega)]
    simp only
    rw [dot_ok]
    rfl

theorem foldlM_left (w : Wfn R) (hK : 2 ≤ w.nspatial) (hp : mpsSize w.nspatial w.dimension ≤ w.nparams) (occ : ℕ → ℕ)
    (d m t : ℕ) (h : m + t < w.nspatial) :
    (List.range m).reverse.foldlM (w.leftStep occ)
      ⟨mpsDim w.nspatial w.dimension m, d, chain (mpsDim w.nspatial w.dimension) (mpsMat w occ) m t⟩ =
    .ok ⟨mpsDim w.nspatial w.dimension 0, d, chain (mpsDim w.nspatial w.dimension) (mpsMat w occ) 0 (t + m)⟩ := by
  induction m generalizing t with
  | zero => rfl
  | succ m ih =>
    rw [List.range_succ, List.reverse_append, List.reverse_singleton, List.singleton_append, List.foldlM_cons, Wfn.leftStep,
      matrix_ok w hK hp occ (show m < w.nspatial by omega)]
    simp only [bind, Except.bind]
    rw [dot_ok, ← chain_cons]
    simp only
    rw [ih (t + 1) (by omega), show t + 1 + m = t + (m + 1) by omega]

/-! ## The overlap -/

theorem occupation_ok (w : Wfn R) (hs : 0 < w.nspatial) {sd : ℕ} (hsd : sd < 2 ^ (2 * w.nspatial)) :
    ∃ occ, w.occupation sd = .ok occ ∧ ∀ k < w.nspatial, occ k = mpsOcc w.nspatial sd k := by
  have hmem : ∀ k, (k ∈ occIndices (some (sd % 2 ^ w.nspatial)) ↔ k < w.nspatial ∧ k ∈ occSet sd) := by
    intro k
    rw [mem_occIndices, Nat.testBit_mod_two_pow, mem_occSet]
    simp
  have hmem' : ∀ k, (k ∈ occIndices (some (sd / 2 ^ w.nspatial)) ↔ k + w.nspatial ∈ occSet sd) := by
    intro k
    rw [mem_occIndices, Nat.testBit_div_two_pow, mem_occSet]
  rw [Wfn.occupation, splitSpin_ok hs]
  simp only [bind, Except.bind]
  rw [if_neg, if_neg]
  · refine ⟨_, rfl, fun k hk => ?_⟩
    simp only [hmem, hmem', mpsOcc, hk, true_and]
  · rw [List.any_eq_true]
    rintro ⟨k, hk, hk'⟩
    rw [decide_eq_true_eq] at hk'
    have := lt_two_pow_iff.1 hsd _ ((hmem' k).1 hk)
    omega
  · rw [List.any_eq_true]
    rintro ⟨k, hk, hk'⟩
    rw [decide_eq_true_eq] at hk'
    have := ((hmem k).1 hk).1
    omega

/-- determinants with orbitals beyond `nspin` are rejected -/
theorem occupation_error (w : Wfn R) (hs : 0 < w.nspatial) {sd : ℕ} (hsd : ¬ sd < 2 ^ (2 * w.nspatial)) :
    w.occupation sd = .error .indexError := by
  rw [lt_two_pow_iff] at hsd
  push Not at hsd
  obtain ⟨i, hi, hi'⟩ := hsd
  rw [Wfn.occupation, splitSpin_ok hs]
  simp only [bind, Except.bind]
  rw [if_neg, if_pos]
  · rw [List.any_eq_true]
    refine ⟨i - w.nspatial, ?_, by rw [decide_eq_true_eq]; omega⟩
    rw [mem_occIndices, Nat.testBit_div_two_pow, show i - w.nspatial + w.nspatial = i by omega]
    exact mem_occSet.1 hi
  · rw [List.any_eq_true]
    rintro ⟨k, hk, hk'⟩
    rw [decide_eq_true_eq] at hk'
    rw [mem_occIndices, Nat.testBit_mod_two_pow] at hk
    simp at hk
    omega

theorem mpsMat_eq (w : Wfn R) (hK : 2 ≤ w.nspatial) {sd : ℕ} {occ : ℕ → ℕ}
    (ho : ∀ k < w.nspatial, occ k = mpsOcc w.nspatial sd k) {k i j : ℕ} (hk : k < w.nspatial)
    (hi : i < mpsDim w.nspatial w.dimension k) (hj : j < mpsDim w.nspatial w.dimension (k + 1)) :
    mpsMat w occ k i j = w.params (mpsIndex w.nspatial w.dimension k (mpsOcc w.nspatial sd k) i j) := by
  rw [mpsMat, mpsIndex_eq hK hk hi hj, ho k hk]

theorem overlap_chain (w : Wfn R) (hK : 2 ≤ w.nspatial) (hp : mpsSize w.nspatial w.dimension ≤ w.nparams) {sd : ℕ}
    {occ : ℕ → ℕ} (ho : w.occupation sd = .ok occ) :
    w.overlap sd = .ok (chain (mpsDim w.nspatial w.dimension) (mpsMat w occ) 0 (w.nspatial - 1) 0 0) := by
  rw [Wfn.overlap, ho]
  simp only [bind, Except.bind]
  rw [matrix_ok w hK hp occ (show 0 < w.nspatial by omega)]
  simp only
  have := foldlM_right w hK hp occ 0 (w.nspatial - 1) (by omega)
  rw [zero_add] at this
  rw [this]
  have h1 : mpsDim w.nspatial w.dimension (0 + (w.nspatial - 1) + 1) = 1 := by rw [mpsDim, if_pos (by omega)]
  have h0 : mpsDim w.nspatial w.dimension 0 = 1 := by simp [mpsDim]
  simp only [Mat.item, h1, h0]
  simp

/-- The product of the matrices selected by the occupation of each spatial orbital. -/
def mpsProduct (K D : ℕ) (P : ℕ → R) (sd : ℕ) : R :=
  let first : Fin D → R := fun j => P (mpsIndex K D 0 (mpsOcc K sd 0) 0 j)
  let mid : ℕ → Matrix (Fin D) (Fin D) R := fun k => Matrix.of fun i j => P (mpsIndex K D k (mpsOcc K sd k) i j)
  let last : Fin D → R := fun i => P (mpsIndex K D (K - 1) (mpsOcc K sd (K - 1)) i 0)
  dotProduct (Matrix.vecMul first ((List.range' 1 (K - 2)).map mid).prod) last

theorem chain_product (w : Wfn R) (hK : 2 ≤ w.nspatial) {sd : ℕ} {occ : ℕ → ℕ}
    (ho : ∀ k < w.nspatial, occ k = mpsOcc w.nspatial sd k) :
    chain (mpsDim w.nspatial w.dimension) (mpsMat w occ) 0 (w.nspatial - 1) 0 0 =
      mpsProduct w.nspatial w.dimension w.params sd := by
  have hd : ∀ k, 0 < k → k < w.nspatial → mpsDim w.nspatial w.dimension k = w.dimension := by
    intro k h1 h2
    rw [mpsDim, if_neg (by omega)]
  have h0 : mpsDim w.nspatial w.dimension 0 = 1 := by simp [mpsDim]
  have hK1 : mpsDim w.nspatial w.dimension w.nspatial = 1 := by simp [mpsDim]
  have key : ∀ m, m + 1 < w.nspatial → ∀ j : Fin w.dimension,
      chain (mpsDim w.nspatial w.dimension) (mpsMat w occ) 0 m 0 j = Matrix.vecMul
        (fun j : Fin w.dimension => w.params (mpsIndex w.nspatial w.dimension 0 (mpsOcc w.nspatial sd 0) 0 j))
        ((List.range' 1 m).map fun k => Matrix.of fun i j : Fin w.dimension =>
          w.params (mpsIndex w.nspatial w.dimension k (mpsOcc w.nspatial sd k) i j)).prod j := by
    intro m
    induction m with
    | zero =>
      intro _ j
      simp only [List.range'_zero, List.map_nil, List.prod_nil, Matrix.vecMul_one, chain]
      exact mpsMat_eq w hK ho (by omega) (by omega) (by rw [hd 1 (by omega) (by omega)]; exact j.2)
    | succ m ih =>
      intro hm j
      rw [List.range'_1_concat, List.map_append, List.prod_append, List.map_singleton, List.prod_singleton,
        ← Matrix.vecMul_vecMul, Matrix.vecMul, dotProduct, chain, zero_add, hd (m + 1) (by omega) (by omega)]
      refine (Finset.sum_range _).trans ?_
      apply sum_congr rfl
      intro x _
      rw [ih (by omega), mpsMat_eq w hK ho (by omega) (by rw [hd (m + 1) (by omega) (by omega)]; exact x.2)
        (by rw [hd (m + 1 + 1) (by omega) (by omega)]; exact j.2), Matrix.of_apply, add_comm 1 m]
  obtain ⟨m, hm⟩ : ∃ m, w.nspatial = m + 2 := ⟨w.nspatial - 2, by omega⟩
  rw [mpsProduct, dotProduct, show w.nspatial - 1 = m + 1 by omega, show w.nspatial - 2 = m by omega, chain, zero_add,
    hd (m + 1) (by omega) (by omega)]
  refine (Finset.sum_range _).trans ?_
  apply sum_congr rfl
  intro x _
  rw [key m (by omega), mpsMat_eq w hK ho (by omega) (by rw [hd (m + 1) (by omega) (by omega)]; exact x.2)
    (by rw [← hm, hK1]; omega)]

/-- C45: the overlap is the product of the matrices selected by the occupations. -/
theorem C45_overlap (w : Wfn R) (hK : 2 ≤ w.nspatial) (hp : mpsSize w.nspatial w.dimension ≤ w.nparams) {sd : ℕ}
    (hsd : sd < 2 ^ (2 * w.nspatial)) :
    w.overlap sd = .ok (mpsProduct w.nspatial w.dimension w.params sd) := by
  obtain ⟨occ, h1, h2⟩ := occupation_ok w (by omega) hsd
  rw [overlap_chain w hK hp h1, chain_product w hK h2]

-- three spatial orbitals, bond dimension two
example : (⟨3, 6, 2, 32, fun i => (i : ℚ)⟩ : Wfn ℚ).overlap 0b001011 = .ok (mpsProduct 3 2 (fun i => (i : ℚ)) 0b001011) :=
  C45_overlap ⟨3, 6, 2, 32, fun i => (i : ℚ)⟩ (by decide) (by decide) (by decide)

/-- C45: a determinant with orbitals beyond `nspin` is an `IndexError`. -/
theorem C45_outside (w : Wfn R) (hs : 0 < w.nspatial) {sd : ℕ} (hsd : ¬ sd < 2 ^ (2 * w.nspatial)) :
    w.overlap sd = .error .indexError ∧ ∀ deriv, w.overlapDeriv sd deriv = .error .indexError := by
  have := occupation_error w hs hsd
  constructor
  · rw [Wfn.overlap, this]; rfl
  · intro deriv
    rw [Wfn.overlapDeriv, Wfn.derivArray, this]; rfl

/-! ## Decomposition of the parameter index -/

/-- C45: `decompose_index` is the inverse of the layout. -/
theorem C45_decompose (w : Wfn R) (hK : 2 ≤ w.nspatial) {k n i j : ℕ}
    (h : MpsValid w.nspatial w.dimension k n i j) :
    w.decompose (mpsIndex w.nspatial w.dimension k n i j) = .ok (k, n, i, j) := by
  obtain ⟨hk, hn, hi, hj⟩ := h
  obtain ⟨a1, a2, a3, a4⟩ := block_decompose (n := n) hi hj
  have hlt := block_lt hn hi hj
  have h0 : mpsDim w.nspatial w.dimension 0 = 1 := by simp [mpsDim]
  have h1 : mpsDim w.nspatial w.dimension (0 + 1) = w.dimension := by rw [mpsDim, if_neg (by omega)]
  rw [mpsIndex_eq hK hk hi hj, Wfn.decompose, matrixIndices_ok w hK (show 0 < w.nspatial by omega)]
  simp only [bind, Except.bind, pure, Except.pure]
  rcases Nat.eq_zero_or_pos k with rfl | hpos
  · have hm : mpsStart w.dimension 0 = 0 := by simp [mpsStart]
    rw [if_pos (by rw [hm]; omega)]
    rw [matrixShape_ok w hK (show 0 < w.nspatial by omega)]
    simp only [shapeSize_eq, hm, zero_add] at hlt a1 a2 a3 a4 ⊢
    rw [if_neg (by omega), a1, a2, a3, a4]
  · have hst := mpsStart_add (D := w.dimension) hK hpos hk
    rw [if_neg (by omega), matrixShape_ok w hK (show 1 < w.nspatial by omega)]
    simp only
    have h2 : mpsDim w.nspatial w.dimension 1 = w.dimension := by rw [mpsDim, if_neg (by omega)]
    have h3 : mpsDim w.nspatial w.dimension k = w.dimension := by rw [mpsDim, if_neg (by omega)]
    have hD : 0 < w.dimension := by omega
    have hind : (mpsStart w.dimension k + (n * (mpsDim w.nspatial w.dimension k * mpsDim w.nspatial w.dimension (k + 1)) +
        (i * mpsDim w.nspatial w.dimension (k + 1) + j)) - (mpsStart w.dimension 0 +
          4 * (mpsDim w.nspatial w.dimension 0 * mpsDim w.nspatial w.dimension (0 + 1)))) /
        shapeSize (mpsDim w.nspatial w.dimension 1, mpsDim w.nspatial w.dimension (1 + 1)) + 1 = k := by
      have e : mpsStart w.dimension k = 4 * w.dimension + 4 * w.dimension ^ 2 * (k - 1) := by rw [mpsStart, if_neg (by omega)]
      rw [e, h0, h1]
      simp only [mpsStart, if_true, shapeSize_eq]
      generalize hx : n * (mpsDim w.nspatial w.dimension k * mpsDim w.nspatial w.dimension (k + 1)) +
        (i * mpsDim w.nspatial w.dimension (k + 1) + j) = x at *
      have hsub : 4 * w.dimension + 4 * w.dimension ^ 2 * (k - 1) + x - (0 + 4 * (1 * w.dimension)) =
          4 * w.dimension ^ 2 * (k - 1) + x := by omega
      rw [hsub]
      rcases Nat.lt_or_ge 2 w.nspatial with h | h
      · have h4 : mpsDim w.nspatial w.dimension (1 + 1) = w.dimension := by rw [mpsDim, if_neg (by omega)]
        have hle : mpsDim w.nspatial w.dimension (k + 1) ≤ w.dimension := by rw [mpsDim]; split_ifs <;> omega
        have hx' : x < 4 * w.dimension ^ 2 := by
          calc x < _ := hlt
            _ ≤ 4 * (w.dimension * w.dimension) := by rw [h3]; gcongr
            _ = _ := by ring
        rw [h4, show 4 * (w.dimension * w.dimension) = 4 * w.dimension ^ 2 by ring, Nat.mul_add_div (by positivity),
          Nat.div_eq_of_lt hx']
        omega
      · have hk1 : k = 1 := by omega
        subst hk1
        rw [h2] at hlt
        rw [Nat.sub_self, mul_zero, zero_add, Nat.div_eq_of_lt]
        exact hlt
    rw [hind, matrixIndices_ok w hK hk]
    simp only
    rw [matrixShape_ok w hK hk]
    simp only [shapeSize_eq]
    rw [Nat.add_sub_cancel_left, if_neg (by omega), a1, a2, a3, a4]

theorem mpsIndex_surj (hK : 2 ≤ K) {p : ℕ} (hp : p < mpsSize K D) :
    ∃ k n i j, MpsValid K D k n i j ∧ mpsIndex K D k n i j = p := by
  have hD : 0 < D := by
    rcases Nat.eq_zero_or_pos D with rfl | h
    · simp [mpsSize] at hp
    · exact h
  have hin : ∀ k, k < K → mpsStart D k ≤ p → p < mpsStart D k + 4 * (mpsDim K D k * mpsDim K D (k + 1)) →
      ∃ k n i j, MpsValid K D k n i j ∧ mpsIndex K D k n i j = p := by
    intro k hk h1 h2
    set a := mpsDim K D k with ha
    set b := mpsDim K D (k + 1) with hb
    have hb0 : 0 < b := by rw [hb, mpsDim]; split_ifs <;> omega
    have ha0 : 0 < a := by rw [ha, mpsDim]; split_ifs <;> omega
    have hab : 0 < a * b := Nat.mul_pos ha0 hb0
    have hn : (p - mpsStart D k) / (a * b) < 4 := by rw [Nat.div_lt_iff_lt_mul hab]; omega
    have hi : (p - mpsStart D k) % (a * b) / b < a := by
      rw [Nat.div_lt_iff_lt_mul hb0]; exact Nat.mod_lt _ hab
    have hj : (p - mpsStart D k) % (a * b) % b < b := Nat.mod_lt _ hb0
    refine ⟨k, _, _, _, ⟨hk, hn, hi, hj⟩, ?_⟩
    rw [mpsIndex_eq hK hk hi hj, ← ha, ← hb]
    have e1 := Nat.div_add_mod (p - mpsStart D k) (a * b)
    have e2 := Nat.div_add_mod ((p - mpsStart D k) % (a * b)) b
    rw [mul_comm] at e1 e2
    omega
  by_contra hne
  have : ∀ k, k < K → mpsStart D k ≤ p := by
    intro k
    induction k with
    | zero => intro _; simp [mpsStart]
    | succ k ih =>
      intro hk
      by_contra hlt
      have h1 := ih (by omega)
      apply hne (hin k (by omega) h1 _)
      have : mpsStart D (k + 1) = mpsStart D k + 4 * (mpsDim K D k * mpsDim K D (k + 1)) := by
        rw [mpsStart, if_neg (by omega), mpsStart]
        have h2 : mpsDim K D (k + 1) = D := by rw [mpsDim, if_neg (by omega)]
        rw [h2, mpsDim]
        rcases Nat.eq_zero_or_pos k with rfl | h0
        · simp
        · rw [if_neg (by omega), if_neg (by omega)]
          obtain ⟨c, rfl⟩ : ∃ c, k = c + 1 := ⟨k - 1, by omega⟩
          simp only [Nat.add_sub_cancel]
          ring
      omega
  apply hne (hin (K - 1) (by omega) (this (K - 1) (by omega)) _)
  rw [mpsStart, if_neg (by omega), mpsDim, if_neg (by omega), mpsDim, if_pos (by omega), show K - 1 - 1 = K - 2 by omega, mul_one]
  rw [mpsSize] at hp
  exact hp

/-- C45: every index below the number of parameters is the index of exactly one matrix element. -/
theorem C45_layout (hK : 2 ≤ K) :
    (∀ p, p < mpsSize K D ↔ ∃ k n i j, MpsValid K D k n i j ∧ mpsIndex K D k n i j = p) ∧
    ∀ {k n i j k' n' i' j'}, MpsValid K D k n i j → MpsValid K D k' n' i' j' →
      mpsIndex K D k n i j = mpsIndex K D k' n' i' j' → k = k' ∧ n = n' ∧ i = i' ∧ j = j' := by
  refine ⟨fun p => ⟨mpsIndex_surj hK, ?_⟩, fun h h' he => mpsIndex_inj hK h h' he⟩
  rintro ⟨k, n, i, j, h, rfl⟩
  exact mpsIndex_lt hK h

example : mpsIndex 4 3 2 1 2 0 = 63 ∧ MpsValid 4 3 2 1 2 0 := ⟨by decide, by decide, by decide, by decide, by decide⟩

/-! ## Derivatives -/

theorem rightTemp_ok (w : Wfn R) (hK : 2 ≤ w.nspatial) (hp : mpsSize w.nspatial w.dimension ≤ w.nparams) (occ : ℕ → ℕ)
    {k : ℕ} (hk : k + 1 < w.nspatial) : w.rightTemp occ k = .ok (some ⟨mpsDim w.nspatial w.dimension (k + 1), 1,
      chain (mpsDim w.nspatial w.dimension) (mpsMat w occ) (k + 1) (w.nspatial - k - 2)⟩) := by
  rw [Wfn.rightTemp, if_pos (by omega), matrix_ok w hK hp occ hk]
  simp only [bind, Except.bind, pure, Except.pure]
  have := foldlM_right w hK hp occ (k + 1) (w.nspatial - (k + 2)) (by omega)
  rw [this]
  simp only
  have h1 : mpsDim w.nspatial w.dimension (k + 1 + (w.nspatial - (k + 2)) + 1) = 1 := by rw [mpsDim, if_pos (by omega)]
  rw [h1, show w.nspatial - (k + 2) = w.nspatial - k - 2 by omega]

theorem leftTemp_ok (w : Wfn R) (hK : 2 ≤ w.nspatial) (hp : mpsSize w.nspatial w.dimension ≤ w.nparams) (occ : ℕ → ℕ)
    {k : ℕ} (hk : k + 1 < w.nspatial) : w.leftTemp occ (k + 1) = .ok (some ⟨1, mpsDim w.nspatial w.dimension (k + 1),
      chain (mpsDim w.nspatial w.dimension) (mpsMat w occ) 0 k⟩) := by
  rw [Wfn.leftTemp, if_pos (by omega), Nat.add_sub_cancel, matrix_ok w hK hp occ (show k < w.nspatial by omega)]
  simp only [bind, Except.bind, pure, Except.pure]
  have := foldlM_left w hK hp occ (mpsDim w.nspatial w.dimension (k + 1)) k 0 (by omega)
  rw [chain, zero_add] at this
  rw [this]
  simp only
  have h1 : mpsDim w.nspatial w.dimension 0 = 1 := by simp [mpsDim]
  rw [h1]

/-- the block of derivatives -/
theorem derivBlock_ok (w : Wfn R) (hK : 2 ≤ w.nspatial) (hp : mpsSize w.nspatial w.dimension ≤ w.nparams) {sd : ℕ}
    {occ : ℕ → ℕ} (ho : w.occupation sd = .ok occ) {k : ℕ} (hk : k < w.nspatial) :
    ∃ f, w.derivBlock sd k = .ok ⟨mpsDim w.nspatial w.dimension k, mpsDim w.nspatial w.dimension (k + 1), f⟩ ∧
      ∀ i < mpsDim w.nspatial w.dimension k, ∀ j < mpsDim w.nspatial w.dimension (k + 1), f i j =
        leftVec (mpsDim w.nspatial w.dimension) (mpsMat w occ) k i *
          rightVec (mpsDim w.nspatial w.dimension) (mpsMat w occ) w.nspatial k j := by
  rw [Wfn.derivBlock, ho]
  simp only [bind, Except.bind]
  have h0 : mpsDim w.nspatial w.dimension 0 = 1 := by simp [mpsDim]
  by_cases hl : k + 1 < w.nspatial
  · rw [rightTemp_ok w hK hp occ hl]
    simp only
    cases k with
    | zero =>
      rw [Wfn.leftTemp, if_neg (by omega)]
      simp only [pure, Except.pure, blockOf, Mat.tr]
      rw [h0]
      refine ⟨_, rfl, fun i hi j _ => ?_⟩
      obtain rfl : i = 0 := by omega
      rw [leftVec, rightVec, if_pos hl]
      simp
    | succ k =>
      rw [leftTemp_ok w hK hp occ (by omega)]
      have h1 : mpsDim w.nspatial w.dimension (k + 1) = w.dimension := by rw [mpsDim, if_neg (by omega)]
      have h2 : mpsDim w.nspatial w.dimension (k + 1 + 1) = w.dimension := by rw [mpsDim, if_neg (by omega)]
      have e1 : castDim 1 w.dimension = .ok w.dimension := by
        by_cases h : 1 = w.dimension
        · rw [castDim, if_pos h, ← h]
        · rw [castDim, if_neg h, if_pos rfl]
      have e2 : castDim w.dimension 1 = .ok w.dimension := by
        by_cases h : w.dimension = 1
        · rw [castDim, if_pos h]
        · rw [castDim, if_neg h, if_neg h, if_pos rfl]
      simp only [blockOf, Mat.times, h1, h2, e1, e2, bind, Except.bind, pure, Except.pure, Mat.tr]
      refine ⟨_, rfl, fun i hi j hj => ?_⟩
      have a1 : (if w.dimension = 1 then 0 else i) = i := by split_ifs <;> omega
      have a2 : (if w.dimension = 1 then 0 else j) = j := by split_ifs <;> omega
      rw [leftVec, rightVec, if_pos hl, a1, a2]
      simp
  · obtain ⟨m, hm⟩ : ∃ m, k = m + 1 := ⟨k - 1, by omega⟩
    subst hm
    rw [Wfn.rightTemp, if_neg (by omega), leftTemp_ok w hK hp occ (by omega)]
    simp only [pure, Except.pure, blockOf, Mat.tr]
    have h1 : mpsDim w.nspatial w.dimension (m + 1 + 1) = 1 := by rw [mpsDim, if_pos (by omega)]
    rw [h1]
    refine ⟨_, rfl, fun i _ j hj => ?_⟩
    obtain rfl : j = 0 := by omega
    rw [leftVec, rightVec, if_neg hl, if_pos rfl, mul_one]

theorem blockSlice_eq (w : Wfn R) (hK : 2 ≤ w.nspatial) {k : ℕ} (hk : k < w.nspatial) (n : ℕ) :
    w.blockSlice k n = (mpsStart w.dimension k + n * (mpsDim w.nspatial w.dimension k * mpsDim w.nspatial w.dimension (k + 1)),
      mpsDim w.nspatial w.dimension k * mpsDim w.nspatial w.dimension (k + 1)) := by
  rw [Wfn.blockSlice, mpsStart]
  split_ifs with h0 h1
  · subst h0
    have e0 : mpsDim w.nspatial w.dimension 0 = 1 := by simp [mpsDim]
    have e1 : mpsDim w.nspatial w.dimension (0 + 1) = w.dimension := by rw [mpsDim, if_neg (by omega)]
    rw [e0, e1]
    congr 1 <;> ring
  · have e0 : mpsDim w.nspatial w.dimension k = w.dimension := by rw [mpsDim, if_neg (by omega)]
    have e1 : mpsDim w.nspatial w.dimension (k + 1) = w.dimension := by rw [mpsDim, if_neg (by omega)]
    rw [e0, e1]
    congr 1 <;> ring
  · have e0 : mpsDim w.nspatial w.dimension k = w.dimension := by rw [mpsDim, if_neg (by omega)]
    have e1 : mpsDim w.nspatial w.dimension (k + 1) = 1 := by rw [mpsDim, if_pos (by omega)]
    rw [e0, e1]
    congr 1 <;> ring

/-- the array of derivatives -/
theorem derivArray_ok (w : Wfn R) (hK : 2 ≤ w.nspatial) (hp : mpsSize w.nspatial w.dimension ≤ w.nparams) {sd : ℕ}
    {occ : ℕ → ℕ} (ho : w.occupation sd = .ok occ) (ho' : ∀ k < w.nspatial, occ k = mpsOcc w.nspatial sd k) :
    ∃ d, w.derivArray sd = .ok d ∧ (∀ p, mpsSize w.nspatial w.dimension ≤ p → d p = 0) ∧
      ∀ k n i j, MpsValid w.nspatial w.dimension k n i j →
      d (mpsIndex w.nspatial w.dimension k n i j) = if n = mpsOcc w.nspatial sd k then
        leftVec (mpsDim w.nspatial w.dimension) (mpsMat w occ) k i *
          rightVec (mpsDim w.nspatial w.dimension) (mpsMat w occ) w.nspatial k j else 0 := by
  have key : ∀ m ≤ w.nspatial, ∃ d, (List.range m).foldlM (w.derivStep sd occ) (fun _ => (0 : R)) = .ok d ∧
      (∀ p, mpsSize w.nspatial w.dimension ≤ p → d p = 0) ∧ ∀ k n i j, MpsValid w.nspatial w.dimension k n i j →
      d (mpsIndex w.nspatial w.dimension k n i j) = if k < m ∧ n = mpsOcc w.nspatial sd k then
        leftVec (mpsDim w.nspatial w.dimension) (mpsMat w occ) k i *
          rightVec (mpsDim w.nspatial w.dimension) (mpsMat w occ) w.nspatial k j else 0 := by
    intro m
    induction m with
    | zero => intro _; exact ⟨_, rfl, by simp, by simp⟩
    | succ m ih =>
      intro hm
      obtain ⟨d, h1, hz, h2⟩ := ih (by omega)
      obtain ⟨f, f1, f2⟩ := derivBlock_ok w hK hp ho (show m < w.nspatial by omega)
      have hocc : occ m < 4 := by rw [ho' m (by omega)]; exact mpsOcc_lt ..
      have hlast := mpsStart_last (D := w.dimension) hK (show m < w.nspatial by omega)
      have hin : mpsStart w.dimension m + occ m * (mpsDim w.nspatial w.dimension m * mpsDim w.nspatial w.dimension (m + 1)) +
          mpsDim w.nspatial w.dimension m * mpsDim w.nspatial w.dimension (m + 1) ≤ mpsSize w.nspatial w.dimension := by
        refine le_trans ?_ hlast
        have : (occ m + 1) * (mpsDim w.nspatial w.dimension m * mpsDim w.nspatial w.dimension (m + 1)) ≤
            4 * (mpsDim w.nspatial w.dimension m * mpsDim w.nspatial w.dimension (m + 1)) := Nat.mul_le_mul_right _ hocc
        rw [add_mul, one_mul] at this
        omega
      rw [List.range_succ, List.foldlM_append, h1]
      simp only [bind, Except.bind, List.foldlM_cons, List.foldlM_nil, Wfn.derivStep, f1,
        blockSlice_eq w hK (show m < w.nspatial by omega), assignSlice]
      rw [if_pos (by omega)]
      refine ⟨_, rfl, fun p hpp => ?_, fun k n i j hv => ?_⟩
      · rw [if_neg (by omega), hz p hpp]
      obtain ⟨hk, hn, hi, hj⟩ := hv
      obtain ⟨a1, a2, a3, a4⟩ := block_decompose (n := n) hi hj
      split_ifs with hs hc hc
      · obtain ⟨hc1, hc2⟩ := hc
        -- the index lies in the block of orbital `m`
        set q := mpsIndex w.nspatial w.dimension k n i j - (mpsStart w.dimension m + occ m *
          (mpsDim w.nspatial w.dimension m * mpsDim w.nspatial w.dimension (m + 1))) with hq
        have hq' : q < mpsDim w.nspatial w.dimension m * mpsDim w.nspatial w.dimension (m + 1) := by omega
        have hb0 : 0 < mpsDim w.nspatial w.dimension (m + 1) := by
          rcases Nat.eq_zero_or_pos (mpsDim w.nspatial w.dimension (m + 1)) with h | h
          · rw [h, mul_zero] at hq'; omega
          · exact h
        have hqi : q / mpsDim w.nspatial w.dimension (m + 1) < mpsDim w.nspatial w.dimension m := by
          rw [Nat.div_lt_iff_lt_mul hb0]; exact hq'
        have hqj : q % mpsDim w.nspatial w.dimension (m + 1) < mpsDim w.nspatial w.dimension (m + 1) := Nat.mod_lt _ hb0
        have he : mpsIndex w.nspatial w.dimension k n i j = mpsIndex w.nspatial w.dimension m (occ m)
            (q / mpsDim w.nspatial w.dimension (m + 1)) (q % mpsDim w.nspatial w.dimension (m + 1)) := by
          rw [mpsIndex_eq hK (show m < w.nspatial by omega) hqi hqj, mul_comm (q / _), Nat.div_add_mod]
          omega
        obtain ⟨rfl, rfl, hi', hj'⟩ := mpsIndex_inj hK ⟨hk, hn, hi, hj⟩ ⟨by omega, hocc, hqi, hqj⟩ he
        rw [← hi', ← hj', f2 i hi j hj]
      · exfalso
        set q := mpsIndex w.nspatial w.dimension k n i j - (mpsStart w.dimension m + occ m *
          (mpsDim w.nspatial w.dimension m * mpsDim w.nspatial w.dimension (m + 1))) with hq
        have hq' : q < mpsDim w.nspatial w.dimension m * mpsDim w.nspatial w.dimension (m + 1) := by omega
        have hb0 : 0 < mpsDim w.nspatial w.dimension (m + 1) := by
          rcases Nat.eq_zero_or_pos (mpsDim w.nspatial w.dimension (m + 1)) with h | h
          · rw [h, mul_zero] at hq'; omega
          · exact h
        have hqi : q / mpsDim w.nspatial w.dimension (m + 1) < mpsDim w.nspatial w.dimension m := by
          rw [Nat.div_lt_iff_lt_mul hb0]; exact hq'
        have hqj : q % mpsDim w.nspatial w.dimension (m + 1) < mpsDim w.nspatial w.dimension (m + 1) := Nat.mod_lt _ hb0
        have he : mpsIndex w.nspatial w.dimension k n i j = mpsIndex w.nspatial w.dimension m (occ m)
            (q / mpsDim w.nspatial w.dimension (m + 1)) (q % mpsDim w.nspatial w.dimension (m + 1)) := by
          rw [mpsIndex_eq hK (show m < w.nspatial by omega) hqi hqj, mul_comm (q / _), Nat.div_add_mod]
          omega
        obtain ⟨rfl, rfl, hi', hj'⟩ := mpsIndex_inj hK ⟨hk, hn, hi, hj⟩ ⟨by omega, hocc, hqi, hqj⟩ he
        exact hc ⟨by omega, ho' k hk⟩
      · obtain ⟨hc1, hc2⟩ := hc
        rw [h2 k n i j ⟨hk, hn, hi, hj⟩, if_pos]
        refine ⟨?_, hc2⟩
        by_contra hkm
        obtain rfl : k = m := by omega
        apply hs
        rw [mpsIndex_eq hK hk hi hj, hc2, ho' k hk]
        have := (block_lt (n := 0) (by omega) hi hj)
        have h1 : i * mpsDim w.nspatial w.dimension (k + 1) + j <
            mpsDim w.nspatial w.dimension k * mpsDim w.nspatial w.dimension (k + 1) := by
          calc i * mpsDim w.nspatial w.dimension (k + 1) + j <
              i * mpsDim w.nspatial w.dimension (k + 1) + mpsDim w.nspatial w.dimension (k + 1) := by omega
            _ = (i + 1) * mpsDim w.nspatial w.dimension (k + 1) := by ring
            _ ≤ _ := Nat.mul_le_mul_right _ hi
        omega
      · rw [h2 k n i j ⟨hk, hn, hi, hj⟩, if_neg]
        rintro ⟨h3, h4⟩
        exact hc ⟨by omega, h4⟩
  obtain ⟨d, h1, hz, h2⟩ := key w.nspatial le_rfl
  refine ⟨d, ?_, hz, fun k n i j hv => ?_⟩
  · rw [Wfn.derivArray, ho]
    exact h1
  · rw [h2 k n i j hv]
    simp only [hv.1, true_and]

/-- C45: the derivatives. The overlap is affine in every parameter, `get_overlap(sd, deriv)` gives the slopes. -/
theorem C45_deriv (w : Wfn R) (hK : 2 ≤ w.nspatial) (hp : mpsSize w.nspatial w.dimension ≤ w.nparams) {sd : ℕ}
    (hsd : sd < 2 ^ (2 * w.nspatial)) :
    ∃ (v : R) (d : ℕ → R), w.overlap sd = .ok v ∧
      (∀ deriv, (∀ i ∈ deriv, i < w.nparams) → w.overlapDeriv sd deriv = .ok (deriv.map d)) ∧
      ∀ p < w.nparams, ∀ h, ({ w with params := fun q => if q = p then w.params q + h else w.params q } : Wfn R).overlap sd =
        .ok (v + h * d p) := by
  obtain ⟨occ, h1, h2⟩ := occupation_ok w (by omega) hsd
  obtain ⟨d, d1, dz, d2⟩ := derivArray_ok w hK hp h1 h2
  refine ⟨_, d, overlap_chain w hK hp h1, ?_, ?_⟩
  · intro deriv hdv
    rw [Wfn.overlapDeriv, d1]
    simp only [bind, Except.bind]
    induction deriv with
    | nil => rfl
    | cons i l ih =>
      rw [List.mapM_cons, if_pos (hdv i (List.mem_cons_self ..)), ih fun i hi => hdv i (List.mem_cons_of_mem _ hi)]
      rfl
  · intro p _ h
    rcases Nat.lt_or_ge p (mpsSize w.nspatial w.dimension) with hpp | hpp
    swap
    · -- the parameters beyond the last matrix are not used
      rw [dz p hpp, mul_zero, add_zero]
      set w' : Wfn R := ⟨w.nelec, w.nspin, w.dimension, w.nparams, fun q =>
        if q = p then w.params q + h else w.params q⟩ with hw'
      have hch : w'.overlap sd = .ok (chain (mpsDim w.nspatial w.dimension) (mpsMat w' occ) 0 (w.nspatial - 1) 0 0) :=
        overlap_chain w' hK hp h1
      rw [hch]
      have h0 : mpsDim w.nspatial w.dimension 0 = 1 := by simp [mpsDim]
      have hK1 : mpsDim w.nspatial w.dimension w.nspatial = 1 := by simp [mpsDim]
      congr 1
      refine chain_congr _ (fun k _ hk i hi j hj => ?_) 0 (by omega) 0
        (by rw [show 0 + (w.nspatial - 1) + 1 = w.nspatial by omega, hK1]; omega)
      have hk' : k < w.nspatial := by omega
      have : mpsMat w' occ k i j = if mpsIndex w.nspatial w.dimension k (mpsOcc w.nspatial sd k) i j = p then
            w.params (mpsIndex w.nspatial w.dimension k (mpsOcc w.nspatial sd k) i j) + h
          else w.params (mpsIndex w.nspatial w.dimension k (mpsOcc w.nspatial sd k) i j) :=
        mpsMat_eq w' hK h2 hk' hi hj
      rw [this, if_neg, mpsMat_eq w hK h2 hk' hi hj]
      have := mpsIndex_lt hK ⟨hk', mpsOcc_lt w.nspatial sd k, hi, hj⟩
      omega
    obtain ⟨k, n, i, j, hv, rfl⟩ := mpsIndex_surj hK hpp
    set w' : Wfn R := ⟨w.nelec, w.nspin, w.dimension, w.nparams, fun q =>
      if q = mpsIndex w.nspatial w.dimension k n i j then w.params q + h else w.params q⟩ with hw'
    have hch : w'.overlap sd = .ok (chain (mpsDim w.nspatial w.dimension) (mpsMat w' occ) 0 (w.nspatial - 1) 0 0) :=
      overlap_chain w' hK hp h1
    rw [hch, d2 k n i j hv]
    congr 1
    have h0 : mpsDim w.nspatial w.dimension 0 = 1 := by simp [mpsDim]
    have hK1 : mpsDim w.nspatial w.dimension w.nspatial = 1 := by simp [mpsDim]
    have hent : ∀ k' < w.nspatial, ∀ i' < mpsDim w.nspatial w.dimension k', ∀ j' < mpsDim w.nspatial w.dimension (k' + 1),
        mpsMat w' occ k' i' j' = mpsMat w occ k' i' j' +
          if (k' = k ∧ n = mpsOcc w.nspatial sd k) ∧ i' = i ∧ j' = j then h else 0 := by
      intro k' hk' i' hi' j' hj'
      rw [mpsMat_eq w hK h2 hk' hi' hj']
      have : mpsMat w' occ k' i' j' = if mpsIndex w.nspatial w.dimension k' (mpsOcc w.nspatial sd k') i' j' =
          mpsIndex w.nspatial w.dimension k n i j then
            w.params (mpsIndex w.nspatial w.dimension k' (mpsOcc w.nspatial sd k') i' j') + h
          else w.params (mpsIndex w.nspatial w.dimension k' (mpsOcc w.nspatial sd k') i' j') :=
        mpsMat_eq w' hK h2 hk' hi' hj'
      rw [this]
      by_cases he : mpsIndex w.nspatial w.dimension k' (mpsOcc w.nspatial sd k') i' j' = mpsIndex w.nspatial w.dimension k n i j
      · obtain ⟨rfl, rfl, rfl, rfl⟩ := mpsIndex_inj hK ⟨hk', mpsOcc_lt .., hi', hj'⟩ hv he
        rw [if_pos rfl, if_pos ⟨⟨rfl, rfl⟩, rfl, rfl⟩]
      · rw [if_neg, if_neg, add_zero]
        · rintro ⟨⟨rfl, rfl⟩, rfl, rfl⟩
          exact he rfl
        · exact he
    by_cases hn : n = mpsOcc w.nspatial sd k
    · rw [if_pos hn]
      exact chain_shift (mpsDim w.nspatial w.dimension) h h0 hK1 hv.1 hv.2.2.1 hv.2.2.2 (by simpa [hn] using hent)
    · rw [if_neg hn, mul_zero, add_zero]
      refine chain_congr _ (fun k' _ hk' i' hi' j' hj' => ?_) 0 (by omega) 0 ?_
      · have := hent k' (by omega) i' hi' j' hj'
        rw [if_neg (by tauto), add_zero] at this
        exact this
      · rw [show 0 + (w.nspatial - 1) + 1 = w.nspatial by omega, hK1]; omega

example : ∃ (v : ℚ) (d : ℕ → ℚ), (⟨3, 6, 2, 32, fun i => (i : ℚ)⟩ : Wfn ℚ).overlap 0b001011 = .ok v ∧
    (⟨3, 6, 2, 32, fun i => (i : ℚ)⟩ : Wfn ℚ).overlapDeriv 0b001011 [3, 17] = .ok [d 3, d 17] := by
  obtain ⟨v, d, h1, h2, -⟩ := C45_deriv ⟨3, 6, 2, 32, fun i => (i : ℚ)⟩ (by decide) (by decide)
    (sd := 0b001011) (by decide)
  exact ⟨v, d, h1, h2 [3, 17] (by decide)⟩

/-! ## The default parameters -/

/-- an entry of the default matrices in the order of the flattened array -/
theorem defaultMatrix_ok (w : Wfn R) (hK : 2 ≤ w.nspatial) (scale : R) (occ : ℕ → ℕ) {k : ℕ} (hk : k < w.nspatial) :
    ∃ f, w.defaultMatrix scale occ k =
        .ok (4 * (mpsDim w.nspatial w.dimension k * mpsDim w.nspatial w.dimension (k + 1)), f) ∧
      ∀ n i j, i < mpsDim w.nspatial w.dimension k → j < mpsDim w.nspatial w.dimension (k + 1) →
        f (n * (mpsDim w.nspatial w.dimension k * mpsDim w.nspatial w.dimension (k + 1)) +
          (i * mpsDim w.nspatial w.dimension (k + 1) + j)) =
        if n = occ k ∧ (0 < k ∧ k < w.nspatial - 1 → i = j) then scale else 0 := by
  rw [Wfn.defaultMatrix, matrixShape_ok w hK hk]
  simp only [bind, Except.bind, pure, Except.pure, shapeSize_eq]
  split_ifs with h0 h1
  · subst h0
    refine ⟨_, rfl, fun n i j hi hj => ?_⟩
    obtain ⟨a1, a2, a3, a4⟩ := block_decompose (n := n) hi hj
    have h0 : mpsDim w.nspatial w.dimension 0 = 1 := by simp [mpsDim]
    have : i = 0 := by omega
    simp only [a1, a2, a3]
    simp only [this, and_true, lt_irrefl, false_and, false_imp_iff]
  · refine ⟨_, rfl, fun n i j hi hj => ?_⟩
    obtain ⟨a1, a2, a3, a4⟩ := block_decompose (n := n) hi hj
    simp only [a1, a2, a3, a4, h1, show 0 < k by omega, true_and, true_imp_iff]
  · refine ⟨_, rfl, fun n i j hi hj => ?_⟩
    obtain ⟨a1, a2, a3, a4⟩ := block_decompose (n := n) hi hj
    have h1' : mpsDim w.nspatial w.dimension (k + 1) = 1 := by rw [mpsDim, if_pos (by omega)]
    have : j = 0 := by omega
    simp only [a1, a2, a4]
    simp only [this, h1, and_true, and_false, false_imp_iff]

/-- the default parameters in the layout -/
theorem defaultParams_ok (w : Wfn R) (hK : 2 ≤ w.nspatial) (scale : R) {g : ℕ} (hg : ground w.nelec w.nspin = .ok g)
    {occ : ℕ → ℕ} (ho : w.occupation g = .ok occ) :
    ∃ f, w.defaultParams scale = .ok (mpsSize w.nspatial w.dimension, f) ∧
      ∀ k n i j, MpsValid w.nspatial w.dimension k n i j → f (mpsIndex w.nspatial w.dimension k n i j) =
        if n = occ k ∧ (0 < k ∧ k < w.nspatial - 1 → i = j) then scale else 0 := by
  have key : ∀ m ≤ w.nspatial, ∃ ms f, (List.range m).mapM (w.defaultMatrix scale occ) = .ok ms ∧
      ms.foldl hstack (0, fun _ => 0) = (if m = w.nspatial then mpsSize w.nspatial w.dimension else mpsStart w.dimension m, f) ∧
      ∀ k n i j, k < m → MpsValid w.nspatial w.dimension k n i j → f (mpsIndex w.nspatial w.dimension k n i j) =
        if n = occ k ∧ (0 < k ∧ k < w.nspatial - 1 → i = j) then scale else 0 := by
    intro m
    induction m with
    | zero =>
      intro _
      refine ⟨[], fun _ => 0, rfl, ?_, by simp⟩
      rw [if_neg (by omega)]
      simp [mpsStart]
    | succ m ih =>
      intro hm
      obtain ⟨ms, f, h1, h2, h3⟩ := ih (by omega)
      obtain ⟨g, g1, g2⟩ := defaultMatrix_ok w hK scale occ (show m < w.nspatial by omega)
      rw [if_neg (by omega)] at h2
      refine ⟨ms ++ [(4 * (mpsDim w.nspatial w.dimension m * mpsDim w.nspatial w.dimension (m + 1)), g)],
        fun i => if i < mpsStart w.dimension m then f i else g (i - mpsStart w.dimension m), ?_, ?_, ?_⟩
      · rw [List.range_succ, List.mapM_append, h1]
        simp only [bind, Except.bind, List.mapM_cons, List.mapM_nil, g1]
        rfl
      · rw [List.foldl_append, h2]
        simp only [List.foldl_cons, List.foldl_nil, hstack]
        congr 1
        split_ifs with hl
        · rw [mpsStart, if_neg (by omega), mpsDim, if_neg (by omega), mpsDim, if_pos (by omega), mul_one, mpsSize,
            show m - 1 = w.nspatial - 2 by omega]
        · have e : mpsDim w.nspatial w.dimension (m + 1) = w.dimension := by rw [mpsDim, if_neg (by omega)]
          rw [e, mpsStart, mpsStart, if_neg (show ¬ m + 1 = 0 by omega)]
          rcases Nat.eq_zero_or_pos m with rfl | h0
          · have e0 : mpsDim w.nspatial w.dimension 0 = 1 := by simp [mpsDim]
            rw [e0, if_pos rfl]
            simp
          · have e0 : mpsDim w.nspatial w.dimension m = w.dimension := by rw [mpsDim, if_neg (by omega)]
            obtain ⟨c, rfl⟩ : ∃ c, m = c + 1 := ⟨m - 1, by omega⟩
            rw [e0, if_neg (by omega)]
            simp only [Nat.add_sub_cancel]
            ring
      · intro k n i j hkm hv
        obtain ⟨hk, hn, hi, hj⟩ := hv
        simp only
        rcases Nat.lt_or_ge k m with h | h
        · rw [if_pos, h3 k n i j h ⟨hk, hn, hi, hj⟩]
          rw [mpsIndex_eq hK hk hi hj]
          have := mpsStart_add (D := w.dimension) hK h (by omega)
          have := block_lt hn hi hj
          omega
        · obtain rfl : k = m := by omega
          rw [mpsIndex_eq hK hk hi hj, if_neg (by omega), Nat.add_sub_cancel_left, g2 n i j hi hj]
  obtain ⟨ms, f, h1, h2, h3⟩ := key w.nspatial le_rfl
  refine ⟨f, ?_, fun k n i j hv => h3 k n i j hv.1 hv⟩
  rw [Wfn.defaultParams, hg]
  simp only [bind, Except.bind, ho, h1, pure, Except.pure]
  rw [h2, if_pos rfl]

theorem mpsOcc_injective {K sd g : ℕ} (hsd : sd < 2 ^ (2 * K)) (hg : g < 2 ^ (2 * K))
    (h : ∀ k < K, mpsOcc K sd k = mpsOcc K g k) : sd = g := by
  apply occSet_injective
  have key : ∀ k < K, (k ∈ occSet sd ↔ k ∈ occSet g) ∧ (k + K ∈ occSet sd ↔ k + K ∈ occSet g) := by
    intro k hk
    have := h k hk
    rw [mpsOcc, mpsOcc] at this
    split_ifs at this <;> simp_all
  ext i
  rcases Nat.lt_or_ge i K with hi | hi
  · exact (key i hi).1
  · rcases Nat.lt_or_ge i (2 * K) with hi' | hi'
    · have := (key (i - K) (by omega)).2
      rwa [Nat.sub_add_cancel hi] at this
    · constructor
      · intro h; have := lt_two_pow_iff.1 hsd i h; omega
      · intro h; have := lt_two_pow_iff.1 hg i h; omega

/-- C45: with the default parameters the overlap with the ground determinant is `dimension * scale ^ nspatial`, the other
overlaps vanish. -/
theorem C45_default (w : Wfn R) (hK : 2 ≤ w.nspatial) (scale : R) {g : ℕ} (hg : ground w.nelec w.nspin = .ok g)
    (hgK : g < 2 ^ (2 * w.nspatial)) :
    ∃ f, w.defaultParams scale = .ok (mpsSize w.nspatial w.dimension, f) ∧ ∀ sd < 2 ^ (2 * w.nspatial),
      ({ w with nparams := mpsSize w.nspatial w.dimension, params := f } : Wfn R).overlap sd =
        .ok (if sd = g then w.dimension * scale ^ w.nspatial else 0) := by
  obtain ⟨occ, o1, o2⟩ := occupation_ok w (by omega) hgK
  obtain ⟨f, f1, f2⟩ := defaultParams_ok w hK scale hg o1
  refine ⟨f, f1, fun sd hsd => ?_⟩
  obtain ⟨occ', o1', o2'⟩ := occupation_ok w (by omega) hsd
  set w' : Wfn R := ⟨w.nelec, w.nspin, w.dimension, mpsSize w.nspatial w.dimension, f⟩ with hw'
  have hch : w'.overlap sd = .ok (chain (mpsDim w.nspatial w.dimension) (mpsMat w' occ') 0 (w.nspatial - 1) 0 0) :=
    overlap_chain w' hK le_rfl o1'
  rw [hch]
  have h0 : mpsDim w.nspatial w.dimension 0 = 1 := by simp [mpsDim]
  have hK1 : mpsDim w.nspatial w.dimension w.nspatial = 1 := by simp [mpsDim]
  have hd : ∀ k, 0 < k → k < w.nspatial → mpsDim w.nspatial w.dimension k = w.dimension := by
    intro k h1 h2
    rw [mpsDim, if_neg (by omega)]
  have hent : ∀ k < w.nspatial, ∀ i < mpsDim w.nspatial w.dimension k, ∀ j < mpsDim w.nspatial w.dimension (k + 1),
      mpsMat w' occ' k i j = if mpsOcc w.nspatial sd k = mpsOcc w.nspatial g k ∧ (0 < k ∧ k < w.nspatial - 1 → i = j)
        then scale else 0 := by
    intro k hk i hi j hj
    have : mpsMat w' occ' k i j = f (mpsIndex w.nspatial w.dimension k (mpsOcc w.nspatial sd k) i j) :=
      mpsMat_eq w' hK o2' hk hi hj
    rw [this, f2 k _ i j ⟨hk, mpsOcc_lt .., hi, hj⟩, o2 k hk]
  have hchain : ∀ m, m + 1 < w.nspatial → ∀ j < w.dimension,
      chain (mpsDim w.nspatial w.dimension) (mpsMat w' occ') 0 m 0 j =
        if ∀ k ≤ m, mpsOcc w.nspatial sd k = mpsOcc w.nspatial g k then scale ^ (m + 1) else 0 := by
    intro m
    induction m with
    | zero =>
      intro hm j hj
      rw [chain, hent 0 (by omega) 0 (by omega) j (by rw [hd _ (by omega) (by omega)]; exact hj)]
      simp
    | succ m ih =>
      intro hm j hj
      rw [chain, zero_add]
      simp only
      rw [hd (m + 1) (by omega) (by omega), sum_eq_single_of_mem j (mem_range.2 hj)]
      · rw [ih (by omega) j hj, hent (m + 1) (by omega) j (by rw [hd _ (by omega) (by omega)]; exact hj) j
          (by rw [hd _ (by omega) (by omega)]; exact hj)]
        simp only [implies_true, and_true]
        by_cases hA : ∀ k ≤ m, mpsOcc w.nspatial sd k = mpsOcc w.nspatial g k
        · by_cases hB : mpsOcc w.nspatial sd (m + 1) = mpsOcc w.nspatial g (m + 1)
          · rw [if_pos hA, if_pos hB, if_pos, pow_succ scale (m + 1)]
            intro k hk
            rcases Nat.lt_or_ge k (m + 1) with h | h
            · exact hA k (by omega)
            · obtain rfl : k = m + 1 := by omega
              exact hB
          · rw [if_neg hB, mul_zero, if_neg]
            exact fun h => hB (h _ le_rfl)
        · rw [if_neg hA, zero_mul, if_neg]
          exact fun h => hA fun k hk => h k (by omega)
      · intro x hx hxj
        rw [mem_range] at hx
        rw [hent (m + 1) (by omega) x (by rw [hd _ (by omega) (by omega)]; exact hx) j
          (by rw [hd _ (by omega) (by omega)]; exact hj), if_neg, mul_zero]
        rintro ⟨-, h⟩
        exact hxj (h ⟨by omega, by omega⟩)
  congr 1
  obtain ⟨m, hm⟩ : ∃ m, w.nspatial = m + 2 := ⟨w.nspatial - 2, by omega⟩
  rw [show w.nspatial - 1 = m + 1 by omega, chain, zero_add]
  simp only
  rw [hd (m + 1) (by omega) (by omega)]
  have hiff : sd = g ↔ (∀ k ≤ m, mpsOcc w.nspatial sd k = mpsOcc w.nspatial g k) ∧
      mpsOcc w.nspatial sd (m + 1) = mpsOcc w.nspatial g (m + 1) := by
    constructor
    · rintro rfl; exact ⟨fun _ _ => rfl, rfl⟩
    · rintro ⟨h1, h2⟩
      refine mpsOcc_injective hsd hgK fun k hk => ?_
      rcases Nat.lt_or_ge k (m + 1) with h | h
      · exact h1 k (by omega)
      · obtain rfl : k = m + 1 := by omega
        exact h2
  have hterm : ∀ x ∈ range w.dimension, chain (mpsDim w.nspatial w.dimension) (mpsMat w' occ') 0 m 0 x *
      mpsMat w' occ' (m + 1) x 0 = if sd = g then scale ^ w.nspatial else 0 := by
    intro x hx
    rw [mem_range] at hx
    rw [hchain m (by omega) x hx, hent (m + 1) (by omega) x (by rw [hd _ (by omega) (by omega)]; exact hx) 0
      (by rw [show m + 1 + 1 = w.nspatial by omega, hK1]; omega)]
    have : ∀ x : ℕ, (0 < m + 1 ∧ m + 1 < w.nspatial - 1 → x = 0) := by omega
    by_cases hA : ∀ k ≤ m, mpsOcc w.nspatial sd k = mpsOcc w.nspatial g k
    · by_cases hB : mpsOcc w.nspatial sd (m + 1) = mpsOcc w.nspatial g (m + 1)
      · rw [if_pos hA, if_pos ⟨hB, this x⟩, if_pos (hiff.2 ⟨hA, hB⟩), ← pow_succ, hm]
      · rw [if_pos hA, if_neg fun h => hB h.1, mul_zero, if_neg fun h => hB (hiff.1 h).2]
    · rw [if_neg hA, zero_mul, if_neg fun h => hA (hiff.1 h).1]
  rw [sum_congr rfl hterm, sum_const, card_range]
  split_ifs <;> simp

/-- C45: the scale of the code makes the default wavefunction the ground determinant. -/
theorem C45_default_scale {K D : ℕ} (hK : 0 < K) (hD : 0 < D) :
    (D : ℝ) * ((D : ℝ) ^ (-1 / (K : ℝ))) ^ K = 1 := by
  have hD' : (0 : ℝ) < D := by exact_mod_cast hD
  have hK' : (K : ℝ) ≠ 0 := by positivity
  rw [← Real.rpow_natCast, ← Real.rpow_mul hD'.le, div_mul_cancel₀ _ hK', Real.rpow_neg_one, mul_inv_cancel₀ hD'.ne']

example : ∃ f, (⟨3, 6, 2, 0, fun _ => 0⟩ : Wfn ℚ).defaultParams (1 / 2) = .ok (32, f) ∧
    (⟨3, 6, 2, 32, f⟩ : Wfn ℚ).overlap 0b001011 = .ok (1 / 4) ∧ (⟨3, 6, 2, 32, f⟩ : Wfn ℚ).overlap 0b001101 = .ok 0 := by
  obtain ⟨f, h1, h2⟩ := C45_default (⟨3, 6, 2, 0, fun _ => 0⟩ : Wfn ℚ) (by decide) (1 / 2) (g := 0b001011) rfl (by decide)
  refine ⟨f, h1, ?_, ?_⟩
  · refine (h2 0b001011 (by decide)).trans ?_
    rw [if_pos rfl]
    norm_num [Wfn.nspatial]
  · exact h2 0b001101 (by decide)

/-! ## Errors -/

/-- C45: with too few parameters (which `assign_params` accepts) the overlap is a `ValueError`. -/
theorem C45_short_params (w : Wfn R) (hK : 2 ≤ w.nspatial) (hp : w.nparams < mpsSize w.nspatial w.dimension) {sd : ℕ}
    (hsd : sd < 2 ^ (2 * w.nspatial)) : w.overlap sd = .error .valueError := by
  obtain ⟨occ, h1, h2⟩ := occupation_ok w (by omega) hsd
  have hmat : ∀ k < w.nspatial, (∃ e, w.matrix k (occ k) = .ok ⟨mpsDim w.nspatial w.dimension k, mpsDim w.nspatial w.dimension (k + 1), e⟩) ∨
      w.matrix k (occ k) = .error .valueError := by
    intro k hk
    rw [Wfn.matrix, matrixIndices_ok w hK hk, matrixShape_ok w hK hk]
    simp only [bind, Except.bind, pure, Except.pure]
    split_ifs with h
    · right; rfl
    · left; exact ⟨_, rfl⟩
  have hlast : w.matrix (w.nspatial - 1) (occ (w.nspatial - 1)) = .error .valueError := by
    rw [Wfn.matrix, matrixIndices_ok w hK (show w.nspatial - 1 < w.nspatial by omega),
      matrixShape_ok w hK (show w.nspatial - 1 < w.nspatial by omega)]
    simp only [bind, Except.bind, pure, Except.pure]
    rw [if_pos]
    rw [mpsStart, if_neg (by omega), mpsDim, if_neg (by omega), mpsDim, if_pos (by omega), mul_one,
      show w.nspatial - 1 - 1 = w.nspatial - 2 by omega]
    exact hp
  have hfold : ∀ m, m + 1 < w.nspatial → ∀ e, (∃ f, (List.range' 1 m).foldlM (w.olpStep occ)
      ⟨mpsDim w.nspatial w.dimension 0, mpsDim w.nspatial w.dimension 1, e⟩ =
        .ok ⟨mpsDim w.nspatial w.dimension 0, mpsDim w.nspatial w.dimension (m + 1), f⟩) ∨
      (List.range' 1 m).foldlM (w.olpStep occ) ⟨mpsDim w.nspatial w.dimension 0, mpsDim w.nspatial w.dimension 1, e⟩ =
        .error .valueError := by
    intro m
    induction m with
    | zero => intro _ e; left; exact ⟨e, rfl⟩
    | succ m ih =>
      intro hm e
      rw [List.range'_1_concat, List.foldlM_append]
      rcases ih (by omega) e with ⟨f, hf⟩ | hf
      · rw [hf]
        simp only [bind, Except.bind, List.foldlM_cons, List.foldlM_nil, Wfn.olpStep]
        rw [show 1 + m = m + 1 by omega]
        rcases hmat (m + 1) (by omega) with ⟨g, hg⟩ | hg
        · left
          rw [hg]
          simp only
          rw [dot_ok]
          exact ⟨_, rfl⟩
        · right
          rw [hg]
      · right
        rw [hf]
        rfl
  rw [Wfn.overlap, h1]
  simp only [bind, Except.bind]
  rcases hmat 0 (by omega) with ⟨e, he⟩ | he
  · rw [he]
    simp only
    obtain ⟨m, hm⟩ : ∃ m, w.nspatial = m + 2 := ⟨w.nspatial - 2, by omega⟩
    rw [show w.nspatial - 1 = m + 1 by omega, List.range'_1_concat, List.foldlM_append]
    rw [show w.nspatial - 1 = 1 + m by omega] at hlast
    rcases hfold m (by omega) e with ⟨f, hf⟩ | hf
    · rw [zero_add, hf]
      simp only [bind, Except.bind, List.foldlM_cons, List.foldlM_nil, Wfn.olpStep]
      rw [hlast]
    · rw [zero_add, hf]
      rfl
  · rw [he]

example : (⟨3, 6, 2, 31, fun i => (i : ℚ)⟩ : Wfn ℚ).overlap 0b001011 = .error .valueError :=
  C45_short_params ⟨3, 6, 2, 31, fun i => (i : ℚ)⟩ (by decide) (by decide) (by decide)

/-- C45: indices beyond the last parameter are rejected by `decompose_index`. -/
theorem C45_decompose_error (w : Wfn R) (hK : 2 ≤ w.nspatial) (hD : 0 < w.dimension) {p : ℕ}
    (hp : mpsSize w.nspatial w.dimension ≤ p) : w.decompose p = .error .valueError := by
  have h0 : mpsDim w.nspatial w.dimension 0 = 1 := by simp [mpsDim]
  have h1 : mpsDim w.nspatial w.dimension (0 + 1) = w.dimension := by rw [mpsDim, if_neg (by omega)]
  have hm : mpsStart w.dimension 0 = 0 := by simp [mpsStart]
  have hsize : mpsSize w.nspatial w.dimension = 4 * w.dimension + 4 * w.dimension ^ 2 * (w.nspatial - 2) + 4 * w.dimension := rfl
  rw [Wfn.decompose, matrixIndices_ok w hK (show 0 < w.nspatial by omega)]
  simp only [bind, Except.bind, pure, Except.pure]
  rw [if_neg (by rw [hm, h0, h1]; omega), matrixShape_ok w hK (show 1 < w.nspatial by omega)]
  simp only [shapeSize_eq, hm, h0, h1, zero_add, one_mul]
  set q := (p - 4 * w.dimension) / (4 * (w.dimension * mpsDim w.nspatial w.dimension (1 + 1))) + 1 with hq
  have hq1 : w.nspatial - 1 ≤ q := by
    rw [hq]
    rcases Nat.lt_or_ge 2 w.nspatial with h | h
    · have h4 : mpsDim w.nspatial w.dimension (1 + 1) = w.dimension := by rw [mpsDim, if_neg (by omega)]
      rw [h4]
      have : w.nspatial - 2 ≤ (p - 4 * w.dimension) / (4 * (w.dimension * w.dimension)) := by
        rw [Nat.le_div_iff_mul_le (by positivity)]
        have : (w.nspatial - 2) * (4 * (w.dimension * w.dimension)) = 4 * w.dimension ^ 2 * (w.nspatial - 2) := by ring
        omega
      omega
    · exact le_trans (by omega) (Nat.le_add_left 1 _)
  by_cases hqK : q < w.nspatial
  · obtain hqe : q = w.nspatial - 1 := by omega
    rw [matrixIndices_ok w hK hqK]
    simp only
    rw [matrixShape_ok w hK hqK]
    simp only [shapeSize_eq]
    rw [if_pos]
    rw [hqe, mpsStart, if_neg (by omega), mpsDim, if_neg (by omega), mpsDim, if_pos (by omega), mul_one,
      show w.nspatial - 1 - 1 = w.nspatial - 2 by omega]
    omega
  · have : w.matrixIndices q = .error .valueError := by
      rw [Wfn.matrixIndices, Wfn.matrixShape, if_pos hqK]
      rfl
    rw [this]

example : (⟨3, 6, 2, 32, fun i => (i : ℚ)⟩ : Wfn ℚ).decompose 32 = .error .valueError :=
  C45_decompose_error ⟨3, 6, 2, 32, fun i => (i : ℚ)⟩ (by decide) (by decide) (by decide)

/-- C45: one spatial orbital: the matrix is a row, the overlap is a `ValueError` unless the bond dimension is one, and the
derivatives are an `AttributeError`. -/
theorem C45_one_orbital : ∃ w : Wfn ℚ, MPS.init 1 2 none 16 (fun _ => 1) = .ok w ∧ w.overlap 1 = .error .valueError ∧
    w.overlapDeriv 1 [0] = .error .attributeError :=
  ⟨⟨1, 2, 2, 16, fun _ => 1⟩, rfl, by decide +kernel, by decide +kernel⟩

end Fanpy.Props
