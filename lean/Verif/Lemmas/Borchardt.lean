import Verif.Lemmas.Permanent
import Verif.Lemmas.Bulk
import Mathlib.LinearAlgebra.Matrix.Permanent
import Mathlib.LinearAlgebra.Matrix.ToLinearEquiv
import Mathlib.LinearAlgebra.Matrix.Hadamard
import Mathlib.Algebra.Polynomial.Roots
import Mathlib.Algebra.Polynomial.BigOperators
import Mathlib.Tactic.FieldSimp

/-! Borchardt's theorem and the nonsingularity of Cauchy matrices. -/

namespace Fanpy.MathTools
open Fanpy.It

/-- determinant times permanent, as a sum of determinants -/
theorem det_mul_permanent {R : Type*} [CommRing R] {n : ℕ} (C : Matrix (Fin n) (Fin n) R) :
    C.det * C.permanent = ∑ π : Equiv.Perm (Fin n), (Matrix.of fun i j => C i j * C i (π j)).det := by
  rw [Matrix.det_apply C, Matrix.permanent, Finset.sum_mul_sum]
  simp only [Matrix.det_apply]
  rw [Finset.sum_comm (s := (Finset.univ : Finset (Equiv.Perm (Fin n)))) (t := Finset.univ)
    (f := fun π σ => Equiv.Perm.sign σ • ∏ i, (Matrix.of fun i j => C i j * C i (π j)) (σ i) i)]
  apply Finset.sum_congr rfl
  intro σ _
  refine Fintype.sum_equiv ((Equiv.inv (Equiv.Perm (Fin n))).trans (Equiv.mulRight σ)) _ _ ?_
  intro τ
  rw [smul_mul_assoc]
  congr 1
  have e : ∀ π : Equiv.Perm (Fin n), ∏ i, (Matrix.of fun i j => C i j * C i (π j)) (σ i) i =
      (∏ i, C (σ i) i) * ∏ i, C (σ i) (π i) := fun π => Finset.prod_mul_distrib
  rw [e]
  congr 1
  rw [← Equiv.prod_comp (τ⁻¹ * σ) (fun i => C (τ i) i)]
  apply Finset.prod_congr rfl
  intro i _
  simp

variable {R : Type*} [Field R] {n : ℕ}

/-- Borchardt's identity -/
theorem borchardt (x y : Fin n → R) (hxy : ∀ i j, x i ≠ y j) (hy : Function.Injective y) :
    (Matrix.of fun i j => (1 / (x i - y j)) ^ 2).det =
      (Matrix.of fun i j => 1 / (x i - y j)).det * (Matrix.of fun i j => 1 / (x i - y j)).permanent := by
  rw [det_mul_permanent, Finset.sum_eq_single (1 : Equiv.Perm (Fin n))]
  · congr 1
    ext i j
    simp [pow_two]
  · intro π _ hπ
    obtain ⟨j0, hj0⟩ : ∃ j, π j ≠ j := by
      by_contra h
      push Not at h
      exact hπ (Equiv.ext h)
    apply Matrix.exists_mulVec_eq_zero_iff.1
    refine ⟨fun j => y j - y (π j), ?_, ?_⟩
    · intro h
      have := congrFun h j0
      simp only [Pi.zero_apply, sub_eq_zero] at this
      exact hj0 (hy this).symm
    · funext i
      simp only [Matrix.mulVec, dotProduct, Matrix.of_apply, Pi.zero_apply]
      have : ∀ j, 1 / (x i - y j) * (1 / (x i - y (π j))) * (y j - y (π j)) =
          1 / (x i - y j) - 1 / (x i - y (π j)) := by
        intro j
        have h1 : x i - y j ≠ 0 := sub_ne_zero.2 (hxy i j)
        have h2 : x i - y (π j) ≠ 0 := sub_ne_zero.2 (hxy i (π j))
        field_simp
        ring
      rw [Finset.sum_congr rfl (fun j _ => this j), Finset.sum_sub_distrib,
        Equiv.sum_comp π (fun j => 1 / (x i - y j)), sub_self]
  · intro h; exact absurd (Finset.mem_univ _) h

open Polynomial in
/-- Cauchy matrices with distinct parameters are nonsingular -/
theorem cauchy_det_ne_zero (x y : Fin n → R) (hxy : ∀ i j, x i ≠ y j) (hx : Function.Injective x)
    (hy : Function.Injective y) : (Matrix.of fun i j => 1 / (x i - y j)).det ≠ 0 := by
  intro h0
  obtain ⟨w, hw, hCw⟩ := Matrix.exists_mulVec_eq_zero_iff.2 h0
  let P : R[X] := ∑ j, C (w j) * ∏ k ∈ Finset.univ.erase j, (X - C (y k))
  have hroot : ∀ i, P.eval (x i) = 0 := by
    intro i
    have h1 := congrFun hCw i
    simp only [Matrix.mulVec, dotProduct, Matrix.of_apply, Pi.zero_apply] at h1
    have h2 : P.eval (x i) = (∏ k, (x i - y k)) * ∑ j, 1 / (x i - y j) * w j := by
      simp only [P, eval_finsetSum, eval_mul, eval_C, eval_prod, eval_sub, eval_X]
      rw [Finset.mul_sum]
      apply Finset.sum_congr rfl
      intro j _
      rw [← Finset.mul_prod_erase _ _ (Finset.mem_univ j)]
      have : x i - y j ≠ 0 := sub_ne_zero.2 (hxy i j)
      field_simp
    rw [h2, h1, mul_zero]
  have hP : P = 0 := by
    apply Polynomial.eq_zero_of_natDegree_lt_card_of_eval_eq_zero P hx hroot
    rw [Fintype.card_fin]
    have hn : 0 < n := by
      rcases Nat.eq_zero_or_pos n with rfl | h
      · exact absurd (Subsingleton.elim w 0) hw
      · exact h
    have : P.natDegree ≤ n - 1 := by
      apply Polynomial.natDegree_sum_le_of_forall_le
      intro j _
      refine (natDegree_C_mul_le _ _).trans ?_
      rw [natDegree_prod_of_monic _ _ (fun k _ => monic_X_sub_C _)]
      simp [Finset.card_erase_of_mem]
    omega
  apply hw
  funext j
  have h3 : P.eval (y j) = w j * ∏ k ∈ Finset.univ.erase j, (y j - y k) := by
    simp only [P, eval_finsetSum, eval_mul, eval_C, eval_prod, eval_sub, eval_X]
    rw [Finset.sum_eq_single j]
    · intro b _ hb
      rw [Finset.prod_eq_zero (Finset.mem_erase.2 ⟨hb.symm, Finset.mem_univ _⟩) (sub_self _), mul_zero]
    · intro h; exact absurd (Finset.mem_univ _) h
  rw [hP, eval_zero] at h3
  rcases mul_eq_zero.1 h3.symm with h | h
  · exact h
  · exfalso
    rw [Finset.prod_eq_zero_iff] at h
    obtain ⟨k, hk, hk2⟩ := h
    exact (Finset.mem_erase.1 hk).1 (hy (sub_eq_zero.1 hk2)).symm

/-- embeddings are increasing lists followed by permutations -/
theorem comb_perm_sum {S : Type*} [CommSemiring S] (m n : ℕ) (f : ℕ → ℕ → S) :
    ((comb (List.range n) m).map fun c => ∑ σ : Equiv.Perm (Fin m), ∏ i : Fin m, f i (c.getD (σ i) 0)).sum =
      ∑ e : Fin m ↪ Fin n, ∏ i : Fin m, f i (e i) := by
  rw [← List.sum_toFinset _ (comb_nodup m List.nodup_range), Finset.sum_sigma']
  have hmem : ∀ c ∈ (comb (List.range n) m).toFinset, c.Sublist (List.range n) ∧ c.length = m := by
    intro c hc
    exact mem_comb.1 (List.mem_toFinset.1 hc)
  have hget : ∀ c ∈ (comb (List.range n) m).toFinset, ∀ i : Fin m, c.getD i 0 ∈ c ∧ c.getD i 0 < n := by
    intro c hc i
    obtain ⟨h1, h2⟩ := hmem c hc
    have hi : (i : ℕ) < c.length := by rw [h2]; exact i.2
    have : c.getD i 0 ∈ c := by
      rw [List.getD_eq_getElem?_getD, List.getElem?_eq_getElem hi]; exact List.getElem_mem hi
    exact ⟨this, List.mem_range.1 (h1.subset this)⟩
  have hinj : ∀ c ∈ (comb (List.range n) m).toFinset, ∀ i j : Fin m, c.getD i 0 = c.getD j 0 → i = j := by
    intro c hc i j h
    obtain ⟨h1, h2⟩ := hmem c hc
    have hi : (i : ℕ) < c.length := by rw [h2]; exact i.2
    have hj : (j : ℕ) < c.length := by rw [h2]; exact j.2
    rw [List.getD_eq_getElem?_getD, List.getElem?_eq_getElem hi, List.getD_eq_getElem?_getD,
      List.getElem?_eq_getElem hj] at h
    exact Fin.ext ((List.Nodup.getElem_inj_iff (h1.nodup List.nodup_range)).1 h)
  refine Finset.sum_bij (fun p hp => ⟨fun i => ⟨p.1.getD (p.2 i) 0, (hget p.1 (Finset.mem_sigma.1 hp).1 _).2⟩, ?_⟩)
    ?_ ?_ ?_ ?_
  · intro i j h
    exact p.2.injective (hinj p.1 (Finset.mem_sigma.1 hp).1 _ _ (Fin.mk.inj h))
  · intro p hp; exact Finset.mem_univ _
  · rintro ⟨c, σ⟩ hp ⟨c', σ'⟩ hp' h
    have hc := (Finset.mem_sigma.1 hp).1
    have hc' := (Finset.mem_sigma.1 hp').1
    have hval : ∀ i, c.getD (σ i) 0 = c'.getD (σ' i) 0 := by
      intro i
      exact Fin.mk.inj (DFunLike.congr_fun h i)
    have hsub : ∀ (c c' : List ℕ) (σ σ' : Equiv.Perm (Fin m)), c ∈ (comb (List.range n) m).toFinset →
        c' ∈ (comb (List.range n) m).toFinset → (∀ i, c.getD (σ i) 0 = c'.getD (σ' i) 0) → c ⊆ c' := by
      intro c c' σ σ' hc hc' hval a ha
      obtain ⟨k, hk, rfl⟩ := List.getElem_of_mem ha
      have hk' : k < m := by rw [← (hmem c hc).2]; exact hk
      have := hval (σ.symm ⟨k, hk'⟩)
      rw [Equiv.apply_symm_apply] at this
      simp only at this
      rw [List.getD_eq_getElem?_getD, List.getElem?_eq_getElem hk] at this
      have h2 := (hget c' hc' (σ' (σ.symm ⟨k, hk'⟩))).1
      rw [← this] at h2
      exact h2
    have h1 := (hmem c hc).1
    have h1' := (hmem c' hc').1
    have hs : c.Pairwise (· < ·) := List.Pairwise.sublist h1 List.pairwise_lt_range
    have hs' : c'.Pairwise (· < ·) := List.Pairwise.sublist h1' List.pairwise_lt_range
    have hperm : c.Perm c' := by
      rw [List.perm_ext_iff_of_nodup (h1.nodup List.nodup_range) (h1'.nodup List.nodup_range)]
      intro a
      exact ⟨fun h => hsub c c' σ σ' hc hc' hval h, fun h => hsub c' c σ' σ hc' hc (fun i => (hval i).symm) h⟩
    have e : c = c' := hperm.eq_of_pairwise (fun a b _ _ h h' => absurd h (lt_asymm h')) hs hs'
    subst e
    have : σ = σ' := Equiv.ext fun i => hinj c hc _ _ (hval i)
    rw [this]
  · intro e _
    let c := (List.range n).filter (fun k => decide (∃ i, (e i : ℕ) = k))
    have hcs : c.Sublist (List.range n) := List.filter_sublist
    have hcn : c.Nodup := hcs.nodup List.nodup_range
    have hcl : c.length = m := by
      rw [← List.toFinset_card_of_nodup hcn]
      have : c.toFinset = Finset.univ.image (fun i : Fin m => (e i : ℕ)) := by
        ext k
        simp only [c, List.mem_toFinset, List.mem_filter, List.mem_range, decide_eq_true_eq, Finset.mem_image,
          Finset.mem_univ, true_and]
        constructor
        · rintro ⟨_, h⟩; exact h
        · rintro ⟨i, rfl⟩; exact ⟨(e i).2, i, rfl⟩
      rw [this, Finset.card_image_of_injective _ (fun i j h => e.injective (Fin.ext h))]; simp
    have hc : c ∈ (comb (List.range n) m).toFinset := List.mem_toFinset.2 (mem_comb.2 ⟨hcs, hcl⟩)
    have hex : ∀ i : Fin m, ∃ k : Fin m, c.getD k 0 = e i := by
      intro i
      have : (e i : ℕ) ∈ c := by
        simp only [c, List.mem_filter, List.mem_range, decide_eq_true_eq]
        exact ⟨(e i).2, i, rfl⟩
      obtain ⟨k, hk, hk2⟩ := List.getElem_of_mem this
      refine ⟨⟨k, hcl ▸ hk⟩, ?_⟩
      simp only
      rw [List.getD_eq_getElem?_getD, List.getElem?_eq_getElem hk]; exact hk2
    choose s hs using hex
    have hsi : Function.Injective s := by
      intro i j h
      have := hs i
      rw [h, hs j] at this
      exact e.injective (Fin.ext this.symm)
    refine ⟨⟨c, Equiv.ofBijective s (Finite.injective_iff_bijective.1 hsi)⟩,
      Finset.mem_sigma.2 ⟨hc, Finset.mem_univ _⟩, ?_⟩
    ext i
    exact hs i
  · intro p hp
    rfl

end Fanpy.MathTools
