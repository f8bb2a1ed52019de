import Mathlib.LinearAlgebra.Finsupp.LinearCombination
import Mathlib.Tactic.Ring
import Mathlib.Data.Finset.Sort
import Verif.Spec.ListSign

/-!
# Specification: fermionic Fock space

Basis vectors are finite sets of occupied orbitals; `annOp i` and `creOp i` are the annihilation and creation
operators with the usual phase `(-1)^(number of occupied orbitals below i)`.  The canonical anticommutation relations
(`car_ann`, `car_cre`, `car_ann_cre`) and the adjointness of the two (`annOp_adjoint`) are proved, so this is the
textbook algebra and does not depend on the code under study.
-/

namespace Fanpy.Spec
open Finset

variable {R : Type*} [CommRing R]

/-- Fock space over the orbitals `ℕ` (finite linear combinations of determinants). -/
abbrev Fock (R : Type*) [CommRing R] := Finset ℕ →₀ R

/-- the determinant `s` with coefficient one -/
noncomputable def ket (s : Finset ℕ) : Fock R := Finsupp.single s 1

/-- Jordan–Wigner phase `(-1)^(#occupied orbitals below i)`. -/
def phase (s : Finset ℕ) (i : ℕ) : ℤ := (-1) ^ (s.filter (· < i)).card

/-- annihilation operator -/
noncomputable def annOp (i : ℕ) : Fock R →ₗ[R] Fock R :=
  Finsupp.linearCombination R (fun s => if i ∈ s then Finsupp.single (s.erase i) ((phase s i : ℤ) : R) else 0)

/-- creation operator -/
noncomputable def creOp (i : ℕ) : Fock R →ₗ[R] Fock R :=
  Finsupp.linearCombination R (fun s => if i ∈ s then 0 else Finsupp.single (insert i s) ((phase s i : ℤ) : R))

/-- `⟨u, v⟩` for which the determinants are orthonormal (bilinear). -/
noncomputable def inner (u v : Fock R) : R := u.sum fun s c => c * v s

theorem phase_sq (s : Finset ℕ) (i : ℕ) : phase s i * phase s i = 1 := by
  rw [phase, ← mul_pow]; simp

theorem phase_erase (s : Finset ℕ) (i j : ℕ) :
    phase (s.erase j) i = if j ∈ s ∧ j < i then -phase s i else phase s i := by
  unfold phase
  rw [Finset.filter_erase]
  split_ifs with h
  · have hm : j ∈ s.filter (· < i) := by simp [h.1, h.2]
    have := Finset.card_erase_add_one hm
    rw [← this, pow_succ]; ring
  · rw [Finset.erase_eq_of_notMem]; simpa using h

theorem phase_insert (s : Finset ℕ) (i j : ℕ) :
    phase (insert j s) i = if j ∉ s ∧ j < i then -phase s i else phase s i := by
  unfold phase
  rw [Finset.filter_insert]
  by_cases hji : j < i
  · by_cases hjs : j ∈ s
    · rw [if_pos hji, if_neg (by tauto), Finset.insert_eq_of_mem (by simp [hji, hjs])]
    · rw [if_pos hji, if_pos ⟨hjs, hji⟩, Finset.card_insert_of_notMem (by simp [hjs]), pow_succ]; ring
  · rw [if_neg hji, if_neg (by tauto)]

@[simp] theorem annOp_single (i : ℕ) (s : Finset ℕ) (c : R) :
    annOp i (Finsupp.single s c) =
      if i ∈ s then Finsupp.single (s.erase i) (c * ((phase s i : ℤ) : R)) else 0 := by
  rw [annOp, Finsupp.linearCombination_single]
  split_ifs <;> simp

@[simp] theorem creOp_single (i : ℕ) (s : Finset ℕ) (c : R) :
    creOp i (Finsupp.single s c) =
      if i ∈ s then 0 else Finsupp.single (insert i s) (c * ((phase s i : ℤ) : R)) := by
  rw [creOp, Finsupp.linearCombination_single]
  split_ifs <;> simp

/-- `{a_i, a_j} = 0` -/
theorem car_ann (i j : ℕ) (v : Fock R) : annOp i (annOp j v) + annOp j (annOp i v) = 0 := by
  suffices h : (annOp i ∘ₗ annOp j + annOp j ∘ₗ annOp i : Fock R →ₗ[R] Fock R) = 0 from LinearMap.congr_fun h v
  apply Finsupp.lhom_ext
  intro s c
  simp only [LinearMap.add_apply, LinearMap.comp_apply, annOp_single, LinearMap.zero_apply]
  by_cases hij : i = j
  · subst hij
    by_cases hi : i ∈ s <;> simp [hi]
  · by_cases hi : i ∈ s <;> by_cases hj : j ∈ s
    · simp only [hi, hj, if_true, annOp_single, Finset.mem_erase, ne_eq, hij, Ne.symm hij, not_false_eq_true,
        true_and, phase_erase, Finset.erase_right_comm (a := j) (b := i), ← Finsupp.single_add]
      rw [Finsupp.single_eq_zero]
      rcases lt_or_gt_of_ne hij with h | h
      · simp [h, h.not_gt]; ring
      · simp [h, h.not_gt]; ring
    all_goals simp [hi, hj]

/-- `{a†_i, a†_j} = 0` -/
theorem car_cre (i j : ℕ) (v : Fock R) : creOp i (creOp j v) + creOp j (creOp i v) = 0 := by
  suffices h : (creOp i ∘ₗ creOp j + creOp j ∘ₗ creOp i : Fock R →ₗ[R] Fock R) = 0 from LinearMap.congr_fun h v
  apply Finsupp.lhom_ext
  intro s c
  simp only [LinearMap.add_apply, LinearMap.comp_apply, creOp_single, LinearMap.zero_apply]
  by_cases hij : i = j
  · subst hij
    by_cases hi : i ∈ s <;> simp [hi]
  · by_cases hi : i ∈ s <;> by_cases hj : j ∈ s
    rotate_left 3
    · simp only [hi, hj, if_false, creOp_single, Finset.mem_insert, hij, Ne.symm hij, or_false, not_false_eq_true,
        true_and, phase_insert, Finset.insert_comm j i, ← Finsupp.single_add]
      rw [Finsupp.single_eq_zero]
      rcases lt_or_gt_of_ne hij with h | h
      · simp [h, h.not_gt]; ring
      · simp [h, h.not_gt]; ring
    all_goals simp [hi, hj]

/-- `{a_i, a†_j} = δ_ij` -/
theorem car_ann_cre (i j : ℕ) (v : Fock R) :
    annOp i (creOp j v) + creOp j (annOp i v) = if i = j then v else 0 := by
  suffices h : (annOp i ∘ₗ creOp j + creOp j ∘ₗ annOp i : Fock R →ₗ[R] Fock R) =
      if i = j then LinearMap.id else 0 by
    have := LinearMap.congr_fun h v
    rw [LinearMap.add_apply] at this
    simp only [LinearMap.comp_apply] at this
    rw [this]; split_ifs <;> rfl
  apply Finsupp.lhom_ext
  intro s c
  simp only [LinearMap.add_apply, LinearMap.comp_apply, creOp_single, annOp_single]
  have hsq : ∀ t : Finset ℕ, ((phase t i : ℤ) : R) * ((phase t i : ℤ) : R) = 1 := by
    intro t; rw [← Int.cast_mul, phase_sq]; simp
  by_cases hij : i = j
  · subst hij
    by_cases hi : i ∈ s
    · simp only [hi, if_true, map_zero, creOp_single, Finset.mem_erase, ne_eq, not_true, false_and, if_false,
        Finset.insert_erase hi, phase_erase, lt_irrefl, and_false, zero_add]
      rw [mul_assoc, hsq, mul_one]; rfl
    · simp only [hi, if_false, map_zero, annOp_single, Finset.mem_insert, true_or, if_true,
        Finset.erase_insert hi, phase_insert, lt_irrefl, and_false, add_zero]
      rw [mul_assoc, hsq, mul_one]; rfl
  · rw [if_neg hij, LinearMap.zero_apply]
    by_cases hi : i ∈ s <;> by_cases hj : j ∈ s
    rotate_left 1
    · have : (insert j s).erase i = insert j (s.erase i) := Finset.erase_insert_of_ne (Ne.symm hij)
      simp only [hi, hj, if_false, if_true, creOp_single, annOp_single, Finset.mem_insert, Finset.mem_erase, hij,
        Ne.symm hij, false_or, ne_eq, not_false_eq_true, and_false, true_and, phase_insert, phase_erase, this,
        ← Finsupp.single_add]
      rw [Finsupp.single_eq_zero]
      rcases lt_or_gt_of_ne hij with h | h
      · simp [h, h.not_gt]; ring
      · simp [h, h.not_gt]; ring
    all_goals simp [hi, hj, hij, Ne.symm hij]

theorem inner_single (s : Finset ℕ) (c : R) (v : Fock R) : inner (Finsupp.single s c) v = c * v s := by
  simp [inner]

/-- `⟨a_i u, v⟩ = ⟨u, a†_i v⟩` for determinants (and hence for all vectors). -/
theorem annOp_adjoint (i : ℕ) (s t : Finset ℕ) (c d : R) :
    inner (annOp i (Finsupp.single s c)) (Finsupp.single t d) =
      inner (Finsupp.single s c) (creOp i (Finsupp.single t d)) := by
  rw [annOp_single, creOp_single, inner_single]
  by_cases hi : i ∈ s <;> by_cases ht : i ∈ t
  · simp only [hi, ht, if_true, inner_single, Finsupp.single_apply]
    rw [if_neg]
    · simp
    · rintro rfl; simp at ht
  · simp only [hi, ht, if_true, if_false, inner_single, Finsupp.single_apply]
    have h : t = s.erase i ↔ insert i t = s := by
      constructor
      · rintro rfl; exact Finset.insert_erase hi
      · rintro rfl; exact (Finset.erase_insert ht).symm
    by_cases he : t = s.erase i
    · rw [if_pos he, if_pos (h.1 he), he, phase_erase]; simp; ring
    · rw [if_neg he, if_neg (fun hh => he (h.2 hh))]; simp
  · simp [hi, ht, inner]
  · simp only [hi, ht, if_false, Finsupp.single_apply]
    rw [if_neg]
    · simp [inner]
    · rintro rfl; simp at hi

/-- apply the annihilators in list order: `a_{l_n} ⋯ a_{l_1}` -/
noncomputable def annString (l : List ℕ) (v : Fock R) : Fock R := l.foldl (fun v i => annOp i v) v

/-- apply the creators in list order: `a†_{l_n} ⋯ a†_{l_1}` -/
noncomputable def creString (l : List ℕ) (v : Fock R) : Fock R := l.foldl (fun v i => creOp i v) v

end Fanpy.Spec
