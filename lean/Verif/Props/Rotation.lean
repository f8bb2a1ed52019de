import Verif.Lemmas.Rotation
import Mathlib.Analysis.SpecialFunctions.Trigonometric.Basic

/-!
# C29: orbital rotations by a Jacobi angle and by a matrix
-/

namespace Fanpy.Props
open Finset Fanpy.Spec Fanpy.Ham Fanpy.Lemmas

variable {R : Type} [CommRing R]

/-- two generalized Hamiltonians have the same number of orbitals and the same integrals -/
def SameInts (H K : GenHam R) : Prop :=
  H.norb = K.norb ∧ (∀ i j, i < H.norb → j < H.norb → H.one i j = K.one i j) ∧
    ∀ i j k l, i < H.norb → j < H.norb → k < H.norb → l < H.norb → H.two i j k l = K.two i j k l

/-- two unrestricted Hamiltonians have the same number of orbitals and the same integrals -/
def SameIntsU (H K : UnrHam R) : Prop :=
  H.norb = K.norb ∧ (∀ i j, i < H.norb → j < H.norb → H.oneA i j = K.oneA i j ∧ H.oneB i j = K.oneB i j) ∧
    ∀ i j k l, i < H.norb → j < H.norb → k < H.norb → l < H.norb →
      H.twoAA i j k l = K.twoAA i j k l ∧ H.twoAB i j k l = K.twoAB i j k l ∧ H.twoBB i j k l = K.twoBB i j k l

theorem rotateJacobi_ok (H : GenHam R) {p q : ℕ} (hp : p < H.norb) (hq : q < H.norb) (hpq : p ≠ q) (c s : R) :
    H.rotateJacobi p q c s = .ok { H with
      one := jacobiOne c s (min p q) (max p q) H.one, two := jacobiTwo c s (min p q) (max p q) H.two } := by
  unfold GenHam.rotateJacobi
  rw [if_neg (by exact_mod_cast hpq), if_neg (by omega)]
  by_cases h : p > q
  · simp [h, h.le]
  · have : p ≤ q := by omega
    simp [this, this.not_gt]

theorem rotateMatrix_ok (H : GenHam R) (m : ℕ) (u : ℕ → ℕ → R) : H.rotateMatrix H.norb m u =
    .ok { H with norb := m, one := matrixOne H.norb u H.one, two := matrixTwo H.norb u u H.two } := by
  rw [GenHam.rotateMatrix, if_neg (not_not.2 rfl)]

theorem rotateMatrixU_ok (H : UnrHam R) (m : ℕ) (u v : ℕ → ℕ → R) : H.rotateMatrix H.norb H.norb m u v =
    .ok { H with
      norb := m
      oneA := matrixOne H.norb u H.oneA
      oneB := matrixOne H.norb v H.oneB
      twoAA := matrixTwo H.norb u u H.twoAA
      twoAB := matrixTwo H.norb u v H.twoAB
      twoBB := matrixTwo H.norb v v H.twoBB } := by
  rw [UnrHam.rotateMatrix, if_neg (by simp)]

/-- C29. `orb_rotate_jacobi((p, q), theta)` gives the integrals of `orb_rotate_matrix` with the Givens matrix of the
smaller and the larger index. -/
theorem C29_jacobi_eq_matrix (H : GenHam R) {p q : ℕ} (hp : p < H.norb) (hq : q < H.norb) (hpq : p ≠ q) (c s : R) :
    ∃ J M, H.rotateJacobi p q c s = .ok J ∧
      H.rotateMatrix H.norb H.norb (givens c s (min p q) (max p q)) = .ok M ∧ SameInts J M := by
  refine ⟨_, _, rotateJacobi_ok H hp hq hpq c s, rotateMatrix_ok H _ _, rfl, ?_, ?_⟩
  · intro i j hi hj
    replace hi : i < H.norb := hi
    replace hj : j < H.norb := hj
    exact jacobiOne_eq (by omega) (by omega) (by omega) c s H.one hi hj
  · intro i j k l hi hj hk hl
    replace hi : i < H.norb := hi
    exact jacobiTwo_eq (by omega) (by omega) (by omega) c s H.two hi hj hk hl

/-- C29. The order of the two indices does not matter. -/
theorem C29_jacobi_comm (H : GenHam R) (p q : ℤ) (c s : R) : H.rotateJacobi p q c s = H.rotateJacobi q p c s := by
  unfold GenHam.rotateJacobi
  by_cases h : p = q
  · subst h; rfl
  · rw [if_neg h, if_neg (Ne.symm h)]
    by_cases hr : 0 ≤ p ∧ p < H.norb ∧ 0 ≤ q ∧ q < H.norb
    · rw [if_neg (not_not.2 hr), if_neg (not_not.2 ⟨hr.2.2.1, hr.2.2.2, hr.1, hr.2.1⟩)]
      rcases lt_or_gt_of_ne h with h1 | h1
      · simp [h1, h1.not_gt]
      · simp [h1, h1.not_gt]
    · rw [if_pos hr, if_pos (by omega)]

/-- C29. Equal or out of range indices are rejected. -/
theorem C29_jacobi_error (H : GenHam R) (p q : ℤ) (c s : R)
    (h : p = q ∨ p < 0 ∨ q < 0 ∨ (H.norb : ℤ) ≤ p ∨ (H.norb : ℤ) ≤ q) : H.rotateJacobi p q c s = .error .valueError := by
  unfold GenHam.rotateJacobi
  by_cases h1 : p = q
  · rw [if_pos h1]
  · rw [if_neg h1, if_pos (by omega)]

/-- C29. A transformation matrix with the wrong number of rows is rejected. -/
theorem C29_matrix_error (H : GenHam R) (rows cols : ℕ) (u : ℕ → ℕ → R) (h : rows ≠ H.norb) :
    H.rotateMatrix rows cols u = .error .valueError := by
  rw [GenHam.rotateMatrix, if_pos h]

/-- C29. Rotating by `u` (`n × m`) and then by `v` (`m × k`) is rotating by the matrix product. -/
theorem C29_compose (H : GenHam R) (m k : ℕ) (u v : ℕ → ℕ → R) :
    ∃ H1 H2 H3, H.rotateMatrix H.norb m u = .ok H1 ∧ H1.rotateMatrix m k v = .ok H2 ∧
      H.rotateMatrix H.norb k (matMul m u v) = .ok H3 ∧ SameInts H2 H3 := by
  refine ⟨_, _, _, rotateMatrix_ok H _ _, rotateMatrix_ok _ _ _, rotateMatrix_ok H _ _, rfl, ?_, ?_⟩
  · intro i j _ _
    exact matrixOne_comp H.norb m u v H.one i j
  · intro a b c d _ _ _ _
    exact matrixTwo_comp H.norb m u u v v H.two a b c d

/-- C29. The identity leaves the integrals unchanged. -/
theorem C29_identity (H : GenHam R) :
    ∃ K, H.rotateMatrix H.norb H.norb idMat = .ok K ∧ SameInts K H := by
  refine ⟨_, rotateMatrix_ok H _ _, rfl, ?_, ?_⟩
  · intro i j hi hj
    exact matrixOne_id hi hj H.one
  · intro a b c d ha hb hc hd
    exact matrixTwo_id ha hb hc hd H.two

/-- C29. Rotating by `theta` and then by `-theta` restores the Hamiltonian. -/
theorem C29_inverse (H : GenHam ℝ) {p q : ℕ} (hp : p < H.norb) (hq : q < H.norb) (hpq : p ≠ q) (θ : ℝ) :
    (H.rotateJacobi p q (Real.cos θ) (Real.sin θ) >>= fun J => J.rotateJacobi p q (Real.cos (-θ)) (Real.sin (-θ))) =
      .ok H := by
  rw [rotateJacobi_ok H hp hq hpq]
  simp only [bind, Except.bind]
  have e : ∀ J : GenHam ℝ, J.norb = H.norb → J.rotateJacobi p q (Real.cos (-θ)) (Real.sin (-θ)) = .ok { J with
      one := jacobiOne (Real.cos (-θ)) (Real.sin (-θ)) (min p q) (max p q) J.one
      two := jacobiTwo (Real.cos (-θ)) (Real.sin (-θ)) (min p q) (max p q) J.two } :=
    fun J hJ => rotateJacobi_ok J (hJ ▸ hp) (hJ ▸ hq) hpq _ _
  rw [e { H with one := jacobiOne _ _ _ _ H.one, two := jacobiTwo _ _ _ _ H.two } rfl, Real.cos_neg, Real.sin_neg]
  have hcs : Real.cos θ * Real.cos θ + Real.sin θ * Real.sin θ = 1 := by
    have := Real.cos_sq_add_sin_sq θ
    linarith [sq (Real.cos θ), sq (Real.sin θ)]
  simp only
  rw [jacobiOne_inv (by omega) _ _ hcs, jacobiTwo_inv (by omega) _ _ hcs]

/-- C29. Symmetric one-electron integrals stay symmetric. -/
theorem C29_one_symmetric (H K : GenHam R) (m : ℕ) (u : ℕ → ℕ → R) (hK : H.rotateMatrix H.norb m u = .ok K)
    (hs : ∀ i j, H.one i j = H.one j i) (i j : ℕ) : K.one i j = K.one j i := by
  rw [GenHam.rotateMatrix, if_neg (not_not.2 rfl)] at hK
  cases hK
  simp only [matrixOne_eq]
  rw [Finset.sum_comm]
  exact sum_congr rfl fun a _ => sum_congr rfl fun b _ => by rw [hs b a]; ring

/-- C29. The symmetries `⟨ij|kl⟩ = ⟨ji|lk⟩`, `⟨ij|kl⟩ = ⟨kl|ij⟩` and `⟨ij|kl⟩ = ⟨kj|il⟩` of the two-electron integrals are
preserved, each on its own. -/
theorem C29_two_symmetric (H K : GenHam R) (m : ℕ) (u : ℕ → ℕ → R) (hK : H.rotateMatrix H.norb m u = .ok K) :
    ((∀ i j k l, H.two i j k l = H.two j i l k) → ∀ i j k l, K.two i j k l = K.two j i l k) ∧
    ((∀ i j k l, H.two i j k l = H.two k l i j) → ∀ i j k l, K.two i j k l = K.two k l i j) ∧
    ((∀ i j k l, H.two i j k l = H.two k j i l) → ∀ i j k l, K.two i j k l = K.two k j i l) := by
  rw [GenHam.rotateMatrix, if_neg (not_not.2 rfl)] at hK
  cases hK
  simp only [matrixTwo_eq]
  refine ⟨fun hs i j k l => ?_, fun hs i j k l => ?_, fun hs i j k l => ?_⟩
  · rw [Finset.sum_comm]
    refine sum_congr rfl fun a _ => sum_congr rfl fun b _ => ?_
    rw [Finset.sum_comm]
    exact sum_congr rfl fun c _ => sum_congr rfl fun d _ => by rw [hs b a d c]; ring
  · calc _ = ∑ i_1 ∈ range H.norb, ∑ k_1 ∈ range H.norb, ∑ j_1 ∈ range H.norb, ∑ l_1 ∈ range H.norb,
          u i_1 i * u j_1 j * u k_1 k * u l_1 l * H.two i_1 j_1 k_1 l_1 :=
        sum_congr rfl fun _ _ => Finset.sum_comm
      _ = ∑ k_1 ∈ range H.norb, ∑ i_1 ∈ range H.norb, ∑ j_1 ∈ range H.norb, ∑ l_1 ∈ range H.norb,
          u i_1 i * u j_1 j * u k_1 k * u l_1 l * H.two i_1 j_1 k_1 l_1 := Finset.sum_comm
      _ = ∑ k_1 ∈ range H.norb, ∑ i_1 ∈ range H.norb, ∑ l_1 ∈ range H.norb, ∑ j_1 ∈ range H.norb,
          u i_1 i * u j_1 j * u k_1 k * u l_1 l * H.two i_1 j_1 k_1 l_1 :=
        sum_congr rfl fun _ _ => sum_congr rfl fun _ _ => Finset.sum_comm
      _ = ∑ k_1 ∈ range H.norb, ∑ l_1 ∈ range H.norb, ∑ i_1 ∈ range H.norb, ∑ j_1 ∈ range H.norb,
          u i_1 i * u j_1 j * u k_1 k * u l_1 l * H.two i_1 j_1 k_1 l_1 :=
        sum_congr rfl fun _ _ => Finset.sum_comm
      _ = _ := sum_congr rfl fun a _ => sum_congr rfl fun b _ => sum_congr rfl fun c _ => sum_congr rfl fun d _ => by
        rw [hs c d a b]; ring
  · calc _ = ∑ i_1 ∈ range H.norb, ∑ k_1 ∈ range H.norb, ∑ j_1 ∈ range H.norb, ∑ l_1 ∈ range H.norb,
          u i_1 i * u j_1 j * u k_1 k * u l_1 l * H.two i_1 j_1 k_1 l_1 :=
        sum_congr rfl fun _ _ => Finset.sum_comm
      _ = ∑ k_1 ∈ range H.norb, ∑ i_1 ∈ range H.norb, ∑ j_1 ∈ range H.norb, ∑ l_1 ∈ range H.norb,
          u i_1 i * u j_1 j * u k_1 k * u l_1 l * H.two i_1 j_1 k_1 l_1 := Finset.sum_comm
      _ = ∑ k_1 ∈ range H.norb, ∑ j_1 ∈ range H.norb, ∑ i_1 ∈ range H.norb, ∑ l_1 ∈ range H.norb,
          u i_1 i * u j_1 j * u k_1 k * u l_1 l * H.two i_1 j_1 k_1 l_1 :=
        sum_congr rfl fun _ _ => Finset.sum_comm
      _ = _ := sum_congr rfl fun a _ => sum_congr rfl fun b _ => sum_congr rfl fun c _ => sum_congr rfl fun d _ => by
        rw [hs c b a d]; ring

/-! ### The operator is the same -/

theorem sum_orth {n m : ℕ} {u : ℕ → ℕ → R} (ho : ∀ i j, i < n → j < n → ∑ a ∈ range m, u i a * u j a = idMat i j)
    {M : Type} [AddCommGroup M] [Module R M] (X : ℕ → M) (i : ℕ) (hi : i < n) :
    ∑ a ∈ range m, u i a • ∑ j ∈ range n, u j a • X j = X i := by
  simp only [Finset.smul_sum, smul_smul]
  rw [Finset.sum_comm]
  simp only [← Finset.sum_smul]
  rw [sum_congr rfl fun j hj => by rw [ho i j hi (mem_range.1 hj)]]
  simp [idMat, hi]

/-- C29. The one-electron operator does not depend on the orbitals in which it is written: with the rotated integrals and
the creators and annihilators of the rotated orbitals it is the operator of the original integrals, whenever the matrix
has orthonormal rows. -/
theorem C29_operator_one (H K : GenHam R) (m : ℕ) (u : ℕ → ℕ → R) (hK : H.rotateMatrix H.norb m u = .ok K)
    (ho : ∀ i j, i < H.norb → j < H.norb → ∑ a ∈ range m, u i a * u j a = idMat i j) (v : Fock R) :
    ∑ a ∈ range m, ∑ b ∈ range m, K.one a b • creRot H.norb u a (annRot H.norb u b v) =
      ∑ i ∈ range H.norb, ∑ j ∈ range H.norb, H.one i j • creOp i (annOp j v) := by
  rw [GenHam.rotateMatrix, if_neg (not_not.2 rfl)] at hK
  cases hK
  set n := H.norb
  have key : ∀ B : ℕ → ℕ → Fock R, ∑ a ∈ range m, ∑ b ∈ range m, matrixOne n u H.one a b • B a b =
      ∑ i ∈ range n, ∑ j ∈ range n, H.one i j • ∑ a ∈ range m, u i a • ∑ b ∈ range m, u j b • B a b := by
    intro B
    simp only [matrixOne_eq, Finset.sum_smul, Finset.smul_sum, smul_smul]
    calc _ = ∑ a ∈ range m, ∑ i ∈ range n, ∑ b ∈ range m, ∑ j ∈ range n, (u i a * u j b * H.one i j) • B a b :=
          sum_congr rfl fun _ _ => Finset.sum_comm
      _ = ∑ i ∈ range n, ∑ a ∈ range m, ∑ b ∈ range m, ∑ j ∈ range n, (u i a * u j b * H.one i j) • B a b :=
          Finset.sum_comm
      _ = ∑ i ∈ range n, ∑ a ∈ range m, ∑ j ∈ range n, ∑ b ∈ range m, (u i a * u j b * H.one i j) • B a b :=
          sum_congr rfl fun _ _ => sum_congr rfl fun _ _ => Finset.sum_comm
      _ = ∑ i ∈ range n, ∑ j ∈ range n, ∑ a ∈ range m, ∑ b ∈ range m, (u i a * u j b * H.one i j) • B a b :=
          sum_congr rfl fun _ _ => Finset.sum_comm
      _ = _ := sum_congr rfl fun _ _ => sum_congr rfl fun _ _ => sum_congr rfl fun _ _ => sum_congr rfl fun _ _ => by
          congr 1; ring
  rw [key]
  refine sum_congr rfl fun i hi => sum_congr rfl fun j hj => ?_
  congr 1
  have h1 : ∀ a, ∑ b ∈ range m, u j b • creRot n u a (annRot n u b v) = creRot n u a (annOp j v) := by
    intro a
    have := sum_orth ho (fun j => annOp j v) j (mem_range.1 hj)
    rw [← this]
    simp only [annRot, LinearMap.sum_apply, LinearMap.smul_apply, map_sum, map_smul]
  simp only [h1]
  have := sum_orth ho (fun i => creOp i (annOp j v)) i (mem_range.1 hi)
  rw [← this]
  simp only [creRot, LinearMap.sum_apply, LinearMap.smul_apply]

/-- C29. The same for the two-electron operator `∑ g_ijkl a†_i a†_j a_l a_k`. -/
theorem C29_operator_two (H K : GenHam R) (m : ℕ) (u : ℕ → ℕ → R) (hK : H.rotateMatrix H.norb m u = .ok K)
    (ho : ∀ i j, i < H.norb → j < H.norb → ∑ a ∈ range m, u i a * u j a = idMat i j) (v : Fock R) :
    ∑ a ∈ range m, ∑ b ∈ range m, ∑ c ∈ range m, ∑ d ∈ range m,
        K.two a b c d • creRot H.norb u a (creRot H.norb u b (annRot H.norb u d (annRot H.norb u c v))) =
      ∑ i ∈ range H.norb, ∑ j ∈ range H.norb, ∑ k ∈ range H.norb, ∑ l ∈ range H.norb,
        H.two i j k l • creOp i (creOp j (annOp l (annOp k v))) := by
  rw [GenHam.rotateMatrix, if_neg (not_not.2 rfl)] at hK
  cases hK
  set n := H.norb
  -- one axis at a time
  have axis : ∀ (f : ℕ → R) (X : ℕ → Fock R),
      ∑ a ∈ range m, (∑ i ∈ range n, f i * u i a) • X a = ∑ i ∈ range n, f i • ∑ a ∈ range m, u i a • X a := by
    intro f X
    simp only [Finset.sum_smul, Finset.smul_sum, smul_smul]
    exact Finset.sum_comm
  have hann : ∀ (L : Fock R →ₗ[R] Fock R) (w : Fock R) (l : ℕ), l < n →
      ∑ d ∈ range m, u l d • L (annRot n u d w) = L (annOp l w) := by
    intro L w l hl
    have := sum_orth ho (fun j => annOp j w) l hl
    rw [← this]
    simp only [annRot, LinearMap.sum_apply, LinearMap.smul_apply, map_sum, map_smul]
  have hcre : ∀ (L : Fock R →ₗ[R] Fock R) (w : Fock R) (l : ℕ), l < n →
      ∑ d ∈ range m, u l d • L (creRot n u d w) = L (creOp l w) := by
    intro L w l hl
    have := sum_orth ho (fun j => creOp j w) l hl
    rw [← this]
    simp only [creRot, LinearMap.sum_apply, LinearMap.smul_apply, map_sum, map_smul]
  simp only [matrixTwo]
  -- axis four
  have s4 : ∀ a b c, ∑ d ∈ range m, (∑ l ∈ range n, (∑ k ∈ range n, (∑ j ∈ range n, (∑ i ∈ range n,
      H.two i j k l * u i a) * u j b) * u k c) * u l d) • creRot n u a (creRot n u b (annRot n u d (annRot n u c v))) =
      ∑ l ∈ range n, (∑ k ∈ range n, (∑ j ∈ range n, (∑ i ∈ range n, H.two i j k l * u i a) * u j b) * u k c) •
        creRot n u a (creRot n u b (annOp l (annRot n u c v))) := by
    intro a b c
    rw [axis]
    refine sum_congr rfl fun l hl => ?_
    congr 1
    exact hann (creRot n u a ∘ₗ creRot n u b) _ l (mem_range.1 hl)
  simp only [s4]
  have s3 : ∀ a b, ∑ c ∈ range m, ∑ l ∈ range n, (∑ k ∈ range n, (∑ j ∈ range n, (∑ i ∈ range n,
      H.two i j k l * u i a) * u j b) * u k c) • creRot n u a (creRot n u b (annOp l (annRot n u c v))) =
      ∑ l ∈ range n, ∑ k ∈ range n, (∑ j ∈ range n, (∑ i ∈ range n, H.two i j k l * u i a) * u j b) •
        creRot n u a (creRot n u b (annOp l (annOp k v))) := by
    intro a b
    rw [Finset.sum_comm]
    refine sum_congr rfl fun l hl => ?_
    rw [axis]
    refine sum_congr rfl fun k hk => ?_
    congr 1
    exact hann (creRot n u a ∘ₗ creRot n u b ∘ₗ annOp l) _ k (mem_range.1 hk)
  simp only [s3]
  have s2 : ∀ a, ∑ b ∈ range m, ∑ l ∈ range n, ∑ k ∈ range n, (∑ j ∈ range n, (∑ i ∈ range n,
      H.two i j k l * u i a) * u j b) • creRot n u a (creRot n u b (annOp l (annOp k v))) =
      ∑ l ∈ range n, ∑ k ∈ range n, ∑ j ∈ range n, (∑ i ∈ range n, H.two i j k l * u i a) •
        creRot n u a (creOp j (annOp l (annOp k v))) := by
    intro a
    rw [Finset.sum_comm]
    refine sum_congr rfl fun l hl => ?_
    rw [Finset.sum_comm]
    refine sum_congr rfl fun k hk => ?_
    rw [axis]
    refine sum_congr rfl fun j hj => ?_
    rw [hcre (creRot n u a) _ j (mem_range.1 hj)]
  simp only [s2]
  rw [Finset.sum_comm]
  have s1 : ∀ l, ∑ a ∈ range m, ∑ k ∈ range n, ∑ j ∈ range n, (∑ i ∈ range n,
      H.two i j k l * u i a) • creRot n u a (creOp j (annOp l (annOp k v))) =
      ∑ k ∈ range n, ∑ j ∈ range n, ∑ i ∈ range n, H.two i j k l • creOp i (creOp j (annOp l (annOp k v))) := by
    intro l
    rw [Finset.sum_comm]
    refine sum_congr rfl fun k hk => ?_
    rw [Finset.sum_comm]
    refine sum_congr rfl fun j hj => ?_
    rw [axis]
    refine sum_congr rfl fun i hi => ?_
    congr 1
    exact hcre LinearMap.id _ i (mem_range.1 hi)
  simp only [s1]
  calc ∑ l ∈ range n, ∑ k ∈ range n, ∑ j ∈ range n, ∑ i ∈ range n,
        H.two i j k l • creOp i (creOp j (annOp l (annOp k v)))
      = ∑ l ∈ range n, ∑ k ∈ range n, ∑ i ∈ range n, ∑ j ∈ range n,
        H.two i j k l • creOp i (creOp j (annOp l (annOp k v))) :=
        sum_congr rfl fun _ _ => sum_congr rfl fun _ _ => Finset.sum_comm
    _ = ∑ l ∈ range n, ∑ i ∈ range n, ∑ k ∈ range n, ∑ j ∈ range n,
        H.two i j k l • creOp i (creOp j (annOp l (annOp k v))) := sum_congr rfl fun _ _ => Finset.sum_comm
    _ = ∑ i ∈ range n, ∑ l ∈ range n, ∑ k ∈ range n, ∑ j ∈ range n,
        H.two i j k l • creOp i (creOp j (annOp l (annOp k v))) := Finset.sum_comm
    _ = ∑ i ∈ range n, ∑ l ∈ range n, ∑ j ∈ range n, ∑ k ∈ range n,
        H.two i j k l • creOp i (creOp j (annOp l (annOp k v))) :=
        sum_congr rfl fun _ _ => sum_congr rfl fun _ _ => Finset.sum_comm
    _ = ∑ i ∈ range n, ∑ j ∈ range n, ∑ l ∈ range n, ∑ k ∈ range n,
        H.two i j k l • creOp i (creOp j (annOp l (annOp k v))) := sum_congr rfl fun _ _ => Finset.sum_comm
    _ = _ := sum_congr rfl fun _ _ => sum_congr rfl fun _ _ => Finset.sum_comm

/-- The hypothesis of `C29_operator_one` and `C29_operator_two` holds for the Givens matrix of any angle. -/
theorem C29_givens_orthogonal {n p q : ℕ} (hp : p < n) (hq : q < n) (hpq : p ≠ q) (c s : R) (hcs : c * c + s * s = 1)
    (i j : ℕ) (_hi : i < n) (hj : j < n) : ∑ a ∈ range n, givens c s p q i a * givens c s p q j a = idMat i j := by
  have h : ∀ k, k < n → ∀ f : ℕ → R, ∑ a ∈ range n, f a * givens c s p q k a =
      if k = p then f p * c + f q * s else if k = q then f q * c - f p * s else f k := by
    intro k hk f
    by_cases h1 : k = p
    · subst h1
      rw [if_pos rfl, ← sum_two hp hq hpq f c s]
      refine sum_congr rfl fun a _ => ?_
      unfold givens
      by_cases ha : a = k
      · simp [ha]
      · by_cases hb : a = q
        · subst hb; simp [ha]
        · simp [ha, hb, Ne.symm ha]
    · by_cases h2 : k = q
      · subst h2
        rw [if_neg h1, if_pos rfl, sub_eq_add_neg, add_comm, ← mul_neg, ← sum_two hp hq hpq f (-s) c]
        refine sum_congr rfl fun a _ => ?_
        unfold givens
        by_cases ha : a = p
        · subst ha; simp [h1]
        · by_cases hb : a = k
          · subst hb; simp [ha]
          · simp [ha, hb, Ne.symm hb]
      · rw [if_neg h1, if_neg h2]
        rw [Finset.sum_eq_single k]
        · simp [givens, h1, h2]
        · intro b _ hb
          by_cases h3 : b = p
          · simp [givens, h3, h1, h2]
          · by_cases h4 : b = q
            · simp [givens, h4, h1, h2]
            · simp [givens, h3, h4, Ne.symm hb]
        · intro hh; exact absurd (mem_range.2 hk) hh
  rw [h j hj (fun a => givens c s p q i a)]
  unfold givens idMat
  by_cases j1 : j = p
  · subst j1
    by_cases i1 : i = j
    · subst i1; simp [hpq.symm, hcs]
    · by_cases i2 : i = q
      · subst i2; simp [i1]; ring
      · simp [i1, i2, hpq.symm]
  · by_cases j2 : j = q
    · subst j2
      by_cases i1 : i = p
      · subst i1; simp [j1, Ne.symm j1]; ring
      · by_cases i2 : i = j
        · subst i2; simp [i1, hcs]
        · simp [i1, i2, j1]
    · simp [j1, j2]

/-! ### Stale caches -/

/-- two-electron integrals with `⟨01|01⟩ = ⟨10|10⟩ = 1` and zero otherwise -/
def onePair (i j k l : ℕ) : ℤ := if (i, j, k, l) = (0, 1, 0, 1) ∨ (i, j, k, l) = (1, 0, 1, 0) then 1 else 0

/-- The rotations do not refresh the cached contractions, so that diagonal matrix elements after `orb_rotate_jacobi` are
those of the old orbitals: here exchanging orbitals 1 and 2 (angle `pi/2`) has to give `⟨02|02⟩ = 1`, `⟨01|01⟩ = 0`, and
`integrate_sd_sd(0b11, 0b11)` still returns `1`. -/
theorem C29_stale_cache :
    ∃ J : GenHam ℤ, (GenHam.ofInts 3 (fun _ _ => 0) onePair).rotateJacobi 1 2 0 1 = .ok J ∧
      J.two 0 1 0 1 = 0 ∧ genSdSd J 3 3 = .ok 1 ∧ genSdSd J.cacheTwoInts 3 3 = .ok 0 := by
  refine ⟨_, rfl, by decide, by decide +kernel, by decide +kernel⟩

/-- C29. After refreshing the caches the Hamiltonian is the one constructed from the rotated integrals. -/
theorem C29_refresh (H J : GenHam R) (p q : ℤ) (c s : R) (_ : H.rotateJacobi p q c s = .ok J) :
    J.cacheTwoInts = GenHam.ofInts J.norb J.one J.two := rfl

/-! ### Unrestricted orbitals -/

/-- C29. Unrestricted orbitals: a rotation of alpha orbitals `p`, `q` is the transformation with the Givens matrix for
alpha and the identity for beta; of beta orbitals `n + p`, `n + q` the other way around. -/
theorem C29_unrestricted_jacobi_eq_matrix (H : UnrHam R) {p q : ℕ} (hp : p < H.norb) (hq : q < H.norb) (hpq : p ≠ q)
    (c s : R) :
    (∃ J M, H.rotateJacobi p q c s = .ok J ∧
      H.rotateMatrix H.norb H.norb H.norb (givens c s (min p q) (max p q)) idMat = .ok M ∧ SameIntsU J M) ∧
    ∃ J M, H.rotateJacobi (H.norb + p : ℕ) (H.norb + q : ℕ) c s = .ok J ∧
      H.rotateMatrix H.norb H.norb H.norb idMat (givens c s (min p q) (max p q)) = .ok M ∧ SameIntsU J M := by
  have hn : 0 < H.norb := by omega
  constructor
  · have e : H.rotateJacobi p q c s = .ok { H with
        oneA := jacobiOne c s (min p q) (max p q) H.oneA
        twoAA := jacobiTwo c s (min p q) (max p q) H.twoAA
        twoAB := jacobiTwo13 c s (min p q) (max p q) H.twoAB } := by
      unfold UnrHam.rotateJacobi
      rw [if_neg (by exact_mod_cast hpq), if_neg (by omega)]
      simp only [Int.toNat_natCast, Nat.div_eq_of_lt hp, Nat.div_eq_of_lt hq, ne_eq, not_true, if_false]
      by_cases h : p > q
      · simp [h, h.le, Nat.div_eq_of_lt hq, Nat.mod_eq_of_lt hp, Nat.mod_eq_of_lt hq]
      · have : p ≤ q := by omega
        simp [this, Nat.div_eq_of_lt hp, Nat.mod_eq_of_lt hp, Nat.mod_eq_of_lt hq, Nat.not_lt.2 this]
    refine ⟨_, _, e, rotateMatrixU_ok H _ _ _, rfl, ?_, ?_⟩
    · intro i j hi hj
      exact ⟨jacobiOne_eq (by omega) (by omega) (by omega) c s _ hi hj, (matrixOne_id hi hj _).symm⟩
    · intro i j k l hi hj hk hl
      exact ⟨jacobiTwo_eq (by omega) (by omega) (by omega) c s _ hi hj hk hl,
        jacobiTwo13_eq (by omega) (by omega) (by omega) c s _ hi hj hk hl, (matrixTwo_id hi hj hk hl _).symm⟩
  · have d : ∀ r, r < H.norb → (H.norb + r) / H.norb = 1 := by
      intro r hr
      rw [Nat.add_div_left _ hn, Nat.div_eq_of_lt hr]
    have e : H.rotateJacobi (H.norb + p : ℕ) (H.norb + q : ℕ) c s = .ok { H with
        oneB := jacobiOne c s (min p q) (max p q) H.oneB
        twoBB := jacobiTwo c s (min p q) (max p q) H.twoBB
        twoAB := jacobiTwo24 c s (min p q) (max p q) H.twoAB } := by
      unfold UnrHam.rotateJacobi
      rw [if_neg (by omega), if_neg (by omega)]
      simp only [Int.toNat_natCast, d p hp, d q hq, ne_eq, not_true, if_false]
      by_cases h : p > q
      · have h' : ((H.norb + p : ℕ) : ℤ) > ((H.norb + q : ℕ) : ℤ) := by omega
        rw [if_pos h']
        simp [h.le, d q hq, Nat.mod_eq_of_lt hp, Nat.mod_eq_of_lt hq]
      · have h' : ¬ ((H.norb + p : ℕ) : ℤ) > ((H.norb + q : ℕ) : ℤ) := by omega
        have : p ≤ q := by omega
        rw [if_neg h']
        simp [this, d p hp, Nat.mod_eq_of_lt hp, Nat.mod_eq_of_lt hq]
    refine ⟨_, _, e, rotateMatrixU_ok H _ _ _, rfl, ?_, ?_⟩
    · intro i j hi hj
      exact ⟨(matrixOne_id hi hj _).symm, jacobiOne_eq (by omega) (by omega) (by omega) c s _ hi hj⟩
    · intro i j k l hi hj hk hl
      exact ⟨(matrixTwo_id hi hj hk hl _).symm,
        jacobiTwo24_eq (by omega) (by omega) (by omega) c s _ hi hj hk hl,
        jacobiTwo_eq (by omega) (by omega) (by omega) c s _ hi hj hk hl⟩

/-- C29. Unrestricted orbitals: equal, out of range or spin-mixing indices are rejected. -/
theorem C29_unrestricted_error (H : UnrHam R) (p q : ℤ) (c s : R)
    (h : p = q ∨ p < 0 ∨ q < 0 ∨ (2 * H.norb : ℤ) ≤ p ∨ (2 * H.norb : ℤ) ≤ q ∨ (p < H.norb ∧ (H.norb : ℤ) ≤ q) ∨
      (q < H.norb ∧ (H.norb : ℤ) ≤ p)) : H.rotateJacobi p q c s = .error .valueError := by
  unfold UnrHam.rotateJacobi
  by_cases h1 : p = q
  · rw [if_pos h1]
  · rw [if_neg h1]
    by_cases h2 : 0 ≤ p ∧ p < 2 * H.norb ∧ 0 ≤ q ∧ q < 2 * H.norb
    · rw [if_neg (not_not.2 h2), if_pos]
      have hn : 0 < H.norb := by omega
      intro he
      have : (p < H.norb ∧ (H.norb : ℤ) ≤ q) ∨ (q < H.norb ∧ (H.norb : ℤ) ≤ p) := by omega
      rcases this with ⟨hl, hr⟩ | ⟨hl, hr⟩
      · have e1 : p.toNat / H.norb = 0 := Nat.div_eq_of_lt (by omega)
        have e2 : 1 ≤ q.toNat / H.norb := (Nat.one_le_div_iff hn).2 (by omega)
        omega
      · have e1 : q.toNat / H.norb = 0 := Nat.div_eq_of_lt (by omega)
        have e2 : 1 ≤ p.toNat / H.norb := (Nat.one_le_div_iff hn).2 (by omega)
        omega
    · rw [if_pos h2]

/-- C29. Unrestricted orbitals: rotations by matrices compose. -/
theorem C29_unrestricted_compose (H : UnrHam R) (m k : ℕ) (u u' v v' : ℕ → ℕ → R) :
    ∃ H1 H2 H3, H.rotateMatrix H.norb H.norb m u u' = .ok H1 ∧ H1.rotateMatrix m m k v v' = .ok H2 ∧
      H.rotateMatrix H.norb H.norb k (matMul m u v) (matMul m u' v') = .ok H3 ∧ SameIntsU H2 H3 := by
  refine ⟨_, _, _, rotateMatrixU_ok H _ _ _, rotateMatrixU_ok _ _ _ _, rotateMatrixU_ok H _ _ _, rfl, ?_, ?_⟩
  · intro i j _ _
    exact ⟨matrixOne_comp H.norb m u v H.oneA i j, matrixOne_comp H.norb m u' v' H.oneB i j⟩
  · intro a b c d _ _ _ _
    exact ⟨matrixTwo_comp H.norb m u u v v H.twoAA a b c d, matrixTwo_comp H.norb m u u' v v' H.twoAB a b c d,
      matrixTwo_comp H.norb m u' u' v' v' H.twoBB a b c d⟩

/-- C29. Unrestricted orbitals: rotating by `theta` and then by `-theta` restores the Hamiltonian. -/
theorem C29_unrestricted_inverse (H : UnrHam ℝ) (p q : ℤ) (θ : ℝ) (J : UnrHam ℝ)
    (hJ : H.rotateJacobi p q (Real.cos θ) (Real.sin θ) = .ok J) :
    J.rotateJacobi p q (Real.cos (-θ)) (Real.sin (-θ)) = .ok H := by
  have hcs : Real.cos θ * Real.cos θ + Real.sin θ * Real.sin θ = 1 := by
    have := Real.cos_sq_add_sin_sq θ
    linarith [sq (Real.cos θ), sq (Real.sin θ)]
  unfold UnrHam.rotateJacobi at hJ
  by_cases h1 : p = q
  · rw [if_pos h1] at hJ; cases hJ
  rw [if_neg h1] at hJ
  by_cases h2 : 0 ≤ p ∧ p < 2 * H.norb ∧ 0 ≤ q ∧ q < 2 * H.norb
  swap
  · rw [if_pos h2] at hJ; cases hJ
  rw [if_neg (not_not.2 h2)] at hJ
  by_cases h3 : p.toNat / H.norb = q.toNat / H.norb
  swap
  · rw [if_pos h3] at hJ; cases hJ
  rw [if_neg (not_not.2 h3)] at hJ
  have hne : ∀ a b : ℕ, a ≠ b → a / H.norb = b / H.norb → a % H.norb ≠ b % H.norb := by
    intro a b hab hd hm
    apply hab
    rw [← Nat.div_add_mod a H.norb, ← Nat.div_add_mod b H.norb, hd, hm]
  rw [Real.cos_neg, Real.sin_neg]
  generalize hpq : (if p > q then (q.toNat, p.toNat) else (p.toNat, q.toNat)) = pq at hJ
  have hmod : pq.1 % H.norb ≠ pq.2 % H.norb := by
    rw [← hpq]
    split_ifs
    · exact hne _ _ (by omega) h3.symm
    · exact hne _ _ (by omega) h3
  simp only at hJ
  split_ifs at hJ with h4
  · cases hJ
    unfold UnrHam.rotateJacobi
    rw [if_neg h1, if_neg (not_not.2 h2), if_neg (not_not.2 h3), hpq]
    simp only [h4, if_true, jacobiOne_inv hmod _ _ hcs, jacobiTwo_inv hmod _ _ hcs, jacobiTwo13_inv hmod _ _ hcs]
  · cases hJ
    unfold UnrHam.rotateJacobi
    rw [if_neg h1, if_neg (not_not.2 h2), if_neg (not_not.2 h3), hpq]
    simp only [h4, if_false, jacobiOne_inv hmod _ _ hcs, jacobiTwo_inv hmod _ _ hcs, jacobiTwo24_inv hmod _ _ hcs]

/-! ### Non-trivial cases -/

/-- a rotation by the angle with cosine 3/5 and sine 4/5 (in units of 1/5 over the integers) -/
example : jacobiOne (3 : ℤ) 4 0 1 (fun i j => if i = 0 ∧ j = 0 then 1 else 0) 0 0 = 9 ∧
    jacobiOne (3 : ℤ) 4 0 1 (fun i j => if i = 0 ∧ j = 0 then 1 else 0) 0 1 = 12 ∧
    jacobiOne (3 : ℤ) 4 0 1 (fun i j => if i = 0 ∧ j = 0 then 1 else 0) 1 1 = 16 := by decide

end Fanpy.Props
