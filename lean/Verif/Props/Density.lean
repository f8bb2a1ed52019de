import Verif.Lemmas.DensityPairs

/-!
# C32: density matrices

`density_matrix` (`fanpy/ham/density.py`) returns the expectation values `⟨ψ|a†_i a_j|ψ⟩` and `⟨ψ|a†_i a†_j a_l a_k|ψ⟩` of
the vector `ψ = ∑ x |s⟩` of Fock space, summed over the spins for restricted orbitals and in spin blocks for unrestricted
orbitals.  They have the traces they should have.  With a positive threshold every entry is off by at most the number of
determinants times the threshold.  `is_chemist_notation` permutes the axes in a way that is not the chemists' notation.
-/

namespace Fanpy.Props
open Fanpy.Ham Fanpy.Spec Fanpy.Slater Fanpy.Lemmas Finset

variable {R : Type} [Field R] [LinearOrder R] [IsStrictOrderedRing R]

/-- C32, generalized orbitals: the entries are expectation values in the vector of the determinants. -/
theorem C32_generalized (coeffs : List R) (sds : List ℕ) (n : ℕ) (thr : R) (ht : thr ≤ 0)
    (hs : ∀ s ∈ sds, s < 2 ^ (2 * n)) (hne : coeffs.zip sds ≠ []) (hn : sds.Nodup) :
    ∃ D G, densityMatrix coeffs sds n false thr .generalized = .ok ([D], [G]) ∧
      (∀ i < 2 * n, ∀ j < 2 * n, D i j = rdm1 (ciVec coeffs sds) i j) ∧
      ∀ i < 2 * n, ∀ j < 2 * n, ∀ k < 2 * n, ∀ l < 2 * n, G i j k l = rdm2 (ciVec coeffs sds) i j k l := by
  obtain ⟨ms, h1, h2⟩ := densityMatrix_all coeffs sds n thr ht .generalized hs hne hn false
  obtain ⟨D, G, rfl, h3, h4⟩ := holds_generalized h2
  exact ⟨D, G, h1, h3, h4⟩

/-- C32, restricted orbitals: the entries are sums over the spins. -/
theorem C32_restricted (coeffs : List R) (sds : List ℕ) (n : ℕ) (thr : R) (ht : thr ≤ 0)
    (hs : ∀ s ∈ sds, s < 2 ^ (2 * n)) (hne : coeffs.zip sds ≠ []) (hn : sds.Nodup) :
    ∃ D G, densityMatrix coeffs sds n false thr .restricted = .ok ([D], [G]) ∧
      (∀ i < n, ∀ j < n, D i j = ∑ σ ∈ range 2, rdm1 (ciVec coeffs sds) (i + σ * n) (j + σ * n)) ∧
      ∀ i < n, ∀ j < n, ∀ k < n, ∀ l < n, G i j k l =
        ∑ σ ∈ range 2, ∑ τ ∈ range 2, rdm2 (ciVec coeffs sds) (i + σ * n) (j + τ * n) (k + σ * n) (l + τ * n) := by
  obtain ⟨ms, h1, h2⟩ := densityMatrix_all coeffs sds n thr ht .restricted hs hne hn false
  obtain ⟨D, G, rfl, h3, h4⟩ := holds_restricted h2
  refine ⟨D, G, h1, fun i hi j hj => ?_, fun i hi j hj k hk l hl => ?_⟩
  · rw [h3 i hi j hj]; simp [sum_range_succ]
  · rw [h4 i hi j hj k hk l hl]; simp [sum_range_succ]; ring

/-- C32, unrestricted orbitals: the entries are the blocks of alpha and beta orbitals. -/
theorem C32_unrestricted (coeffs : List R) (sds : List ℕ) (n : ℕ) (thr : R) (ht : thr ≤ 0)
    (hs : ∀ s ∈ sds, s < 2 ^ (2 * n)) (hne : coeffs.zip sds ≠ []) (hn : sds.Nodup) :
    ∃ Da Db Gaa Gab Gbb, densityMatrix coeffs sds n false thr .unrestricted = .ok ([Da, Db], [Gaa, Gab, Gbb]) ∧
      (∀ i < n, ∀ j < n, Da i j = rdm1 (ciVec coeffs sds) i j ∧ Db i j = rdm1 (ciVec coeffs sds) (i + n) (j + n)) ∧
      ∀ i < n, ∀ j < n, ∀ k < n, ∀ l < n,
        Gaa i j k l = rdm2 (ciVec coeffs sds) i j k l ∧
        Gab i j k l = rdm2 (ciVec coeffs sds) i (j + n) k (l + n) ∧
        Gbb i j k l = rdm2 (ciVec coeffs sds) (i + n) (j + n) (k + n) (l + n) := by
  obtain ⟨ms, h1, h2⟩ := densityMatrix_all coeffs sds n thr ht .unrestricted hs hne hn false
  obtain ⟨Da, Db, Gaa, Gab, Gbb, rfl, h3, h4⟩ := holds_unrestricted h2
  exact ⟨Da, Db, Gaa, Gab, Gbb, h1, h3, h4⟩

omit [Field R] [LinearOrder R] [IsStrictOrderedRing R] in
private theorem zip_ok {coeffs : List R} {sds : List ℕ} {n N : ℕ}
    (hs : ∀ s ∈ sds, s < 2 ^ (2 * n) ∧ (occSet s).card = N) :
    ∀ p ∈ coeffs.zip sds, p.2 < 2 ^ (2 * n) ∧ (occSet p.2).card = N :=
  fun p hp => hs _ (List.of_mem_zip (a := p.1) (b := p.2) hp).2

/-- C32, traces with generalized orbitals: `N ⟨ψ|ψ⟩`, and `N - 1` times the one-electron density. -/
theorem C32_trace_generalized (coeffs : List R) (sds : List ℕ) (n N : ℕ) (thr : R) (ht : thr ≤ 0)
    (hs : ∀ s ∈ sds, s < 2 ^ (2 * n) ∧ (occSet s).card = N) (hne : coeffs.zip sds ≠ []) (hn : sds.Nodup) :
    ∃ D G, densityMatrix coeffs sds n false thr .generalized = .ok ([D], [G]) ∧
      ∑ i ∈ range (2 * n), D i i = N * Spec.inner (ciVec coeffs sds) (ciVec coeffs sds) ∧
      ∀ i < 2 * n, ∀ k < 2 * n, ∑ j ∈ range (2 * n), G i j k j = (N - 1) * D i k := by
  obtain ⟨D, G, h1, h2, h3⟩ := C32_generalized coeffs sds n thr ht (fun s h => (hs s h).1) hne hn
  refine ⟨D, G, h1, ?_, fun i hi k hk => ?_⟩
  · rw [sum_congr rfl fun i hi => h2 i (mem_range.1 hi) i (mem_range.1 hi)]
    exact rdm1_trace (2 * n) N (coeffs.zip sds) (zip_ok hs)
  · rw [h2 i hi k hk, sum_congr rfl fun j hj => h3 i hi j (mem_range.1 hj) k hk j (mem_range.1 hj)]
    exact rdm2_trace (2 * n) N (coeffs.zip sds) (zip_ok hs) i k

omit [LinearOrder R] [IsStrictOrderedRing R] in
private theorem sum_two_mul (n : ℕ) (f : ℕ → R) : ∑ i ∈ range (2 * n), f i = ∑ i ∈ range n, f i + ∑ i ∈ range n, f (i + n) := by
  rw [two_mul, sum_range_add]
  simp only [add_comm n]

/-- C32, traces with restricted orbitals. -/
theorem C32_trace_restricted (coeffs : List R) (sds : List ℕ) (n N : ℕ) (thr : R) (ht : thr ≤ 0)
    (hs : ∀ s ∈ sds, s < 2 ^ (2 * n) ∧ (occSet s).card = N) (hne : coeffs.zip sds ≠ []) (hn : sds.Nodup) :
    ∃ D G, densityMatrix coeffs sds n false thr .restricted = .ok ([D], [G]) ∧
      ∑ i ∈ range n, D i i = N * Spec.inner (ciVec coeffs sds) (ciVec coeffs sds) ∧
      ∀ i < n, ∀ k < n, ∑ j ∈ range n, G i j k j = (N - 1) * D i k := by
  obtain ⟨D, G, h1, h2, h3⟩ := C32_restricted coeffs sds n thr ht (fun s h => (hs s h).1) hne hn
  have hv : ciVec coeffs sds = vecOf (coeffs.zip sds) := rfl
  refine ⟨D, G, h1, ?_, fun i hi k hk => ?_⟩
  · rw [sum_congr rfl fun i hi => h2 i (mem_range.1 hi) i (mem_range.1 hi)]
    have : _ = (N : R) * Spec.inner (ciVec coeffs sds) (ciVec coeffs sds) := rdm1_trace (2 * n) N (coeffs.zip sds) (zip_ok hs)
    rw [sum_two_mul, ← hv] at this
    simpa [sum_range_succ, sum_add_distrib] using this
  · rw [h2 i hi k hk, sum_congr rfl fun j hj => h3 i hi j (mem_range.1 hj) k hk j (mem_range.1 hj)]
    have e1 := rdm2_trace (2 * n) N (coeffs.zip sds) (zip_ok hs) i k
    have e2 := rdm2_trace (2 * n) N (coeffs.zip sds) (zip_ok hs) (i + n) (k + n)
    rw [sum_two_mul, ← hv] at e1 e2
    simp only [sum_range_succ, range_zero, sum_empty, zero_add, zero_mul, add_zero, one_mul, sum_add_distrib, mul_add]
    rw [← e1, ← e2]
    exact add_add_add_comm _ _ _ _

/-- C32, traces with unrestricted orbitals. -/
theorem C32_trace_unrestricted (coeffs : List R) (sds : List ℕ) (n N : ℕ) (thr : R) (ht : thr ≤ 0)
    (hs : ∀ s ∈ sds, s < 2 ^ (2 * n) ∧ (occSet s).card = N) (hne : coeffs.zip sds ≠ []) (hn : sds.Nodup) :
    ∃ Da Db Gaa Gab Gbb, densityMatrix coeffs sds n false thr .unrestricted = .ok ([Da, Db], [Gaa, Gab, Gbb]) ∧
      ∑ i ∈ range n, Da i i + ∑ i ∈ range n, Db i i = N * Spec.inner (ciVec coeffs sds) (ciVec coeffs sds) ∧
      ∀ i < n, ∀ k < n,
        ∑ j ∈ range n, (Gaa i j k j + Gab i j k j) = (N - 1) * Da i k ∧
        ∑ j ∈ range n, (Gab j i j k + Gbb i j k j) = (N - 1) * Db i k := by
  obtain ⟨Da, Db, Gaa, Gab, Gbb, h1, h2, h3⟩ := C32_unrestricted coeffs sds n thr ht (fun s h => (hs s h).1) hne hn
  refine ⟨Da, Db, Gaa, Gab, Gbb, h1, ?_, fun i hi k hk => ⟨?_, ?_⟩⟩
  · rw [sum_congr rfl fun i hi => (h2 i (mem_range.1 hi) i (mem_range.1 hi)).1,
      sum_congr rfl fun i hi => (h2 i (mem_range.1 hi) i (mem_range.1 hi)).2]
    have := rdm1_trace (2 * n) N (coeffs.zip sds) (zip_ok hs)
    rwa [sum_two_mul] at this
  · have e1 := rdm2_trace (2 * n) N (coeffs.zip sds) (zip_ok hs) i k
    rw [sum_two_mul, ← sum_add_distrib] at e1
    rw [(h2 i hi k hk).1]
    refine Eq.trans (sum_congr rfl fun j hj => ?_) e1
    have := h3 i hi j (mem_range.1 hj) k hk j (mem_range.1 hj)
    rw [this.1, this.2.1]
    rfl
  · have e1 := rdm2_trace (2 * n) N (coeffs.zip sds) (zip_ok hs) (i + n) (k + n)
    rw [sum_two_mul, ← sum_add_distrib] at e1
    rw [(h2 i hi k hk).2]
    refine Eq.trans (sum_congr rfl fun j hj => ?_) e1
    rw [(h3 j (mem_range.1 hj) i hi j (mem_range.1 hj) k hk).2.1, (h3 i hi j (mem_range.1 hj) k hk j (mem_range.1 hj)).2.2,
      rdm2_swap]
    rfl

/-- C32, truncation: every entry is within the number of determinants times the threshold. -/
theorem C32_truncation (coeffs : List R) (sds : List ℕ) (n : ℕ) (thr : R) (ht : 0 ≤ thr)
    (hs : ∀ s ∈ sds, s < 2 ^ (2 * n)) (hlen : coeffs.length = sds.length) (hne : sds ≠ []) (hn : sds.Nodup) :
    ∃ D G, densityMatrix coeffs sds n false thr .generalized = .ok ([D], [G]) ∧
      (∀ i < 2 * n, ∀ j < 2 * n, |D i j - rdm1 (ciVec coeffs sds) i j| ≤ sds.length * thr) ∧
      ∀ i < 2 * n, ∀ j < 2 * n, ∀ k < 2 * n, ∀ l < 2 * n,
        |G i j k l - rdm2 (ciVec coeffs sds) i j k l| ≤ sds.length * thr := by
  have hz : coeffs.zip sds ≠ [] := by
    intro h
    have := congrArg List.length h
    rw [List.length_zip, hlen, min_self, List.length_nil] at this
    exact hne (List.eq_nil_of_length_eq_zero this)
  obtain ⟨ms, F1, F2, h1, h2, h3, h4⟩ := densityMatrix_any coeffs sds n thr ht .generalized hs hz hn false
  rw [List.length_zip, hlen, min_self] at h3 h4
  obtain ⟨D, G, rfl, h5, h6⟩ := holds_generalized h2
  refine ⟨D, G, h1, fun i hi j hj => ?_, fun i hi j hj k hk l hl => ?_⟩
  · rw [h5 i hi j hj]; exact h3 i j
  · rw [h6 i hi j hj k hk l hl]; exact h4 i j k l

omit [IsStrictOrderedRing R] in
/-- C32: no determinants, `ValueError`. -/
theorem C32_empty (coeffs : List R) (sds : List ℕ) (h : coeffs = [] ∨ sds = []) (n : ℕ) (chem : Bool) (thr : R) (ob : OrbType) :
    densityMatrix coeffs sds n chem thr ob = .error .valueError := by
  have : coeffs.zip sds = [] := by rcases h with rfl | rfl <;> simp
  have : sortedSds coeffs sds = [] := by rw [sortedSds, this]; exact List.mergeSort_nil
  simp [densityMatrix, this]

/-- C32: what `is_chemist_notation` returns. -/
theorem C32_chemist (coeffs : List R) (sds : List ℕ) (n : ℕ) (thr : R) (ht : thr ≤ 0)
    (hs : ∀ s ∈ sds, s < 2 ^ (2 * n)) (hne : coeffs.zip sds ≠ []) (hn : sds.Nodup) :
    ∃ D G, densityMatrix coeffs sds n true thr .generalized = .ok ([D], [G]) ∧
      (∀ i < 2 * n, ∀ j < 2 * n, D i j = rdm1 (ciVec coeffs sds) i j) ∧
      ∀ i < 2 * n, ∀ j < 2 * n, ∀ k < 2 * n, ∀ l < 2 * n, G i j k l = rdm2 (ciVec coeffs sds) i l j k := by
  obtain ⟨ms, h1, h2⟩ := densityMatrix_all coeffs sds n thr ht .generalized hs hne hn true
  obtain ⟨D, G, rfl, h3, h4⟩ := holds_generalized h2
  exact ⟨D, chemist G, h1, h3, fun i hi j hj k hk l hl => h4 i hi l hl j hj k hk⟩

/-- C32: the chemists' `Γ_ijkl = ⟨a†_i a†_k a_l a_j⟩` is not what the code returns: for the determinant `0b11` of one
spatial orbital the entry `[0, 1, 1, 0]` is `0`, not `-1`. -/
theorem C32_chemist_wrong : ∃ D G, densityMatrix [(1 : ℚ)] [0b11] 1 true 0 .generalized = .ok ([D], [G]) ∧
    G 0 1 1 0 = 0 ∧ rdm2 (ciVec [(1 : ℚ)] [0b11]) 0 1 1 0 = -1 := by
  obtain ⟨D, G, h1, -, h3⟩ := C32_chemist [(1 : ℚ)] [0b11] 1 0 le_rfl (by simp) (by simp) (by simp)
  have ho : occSet 0b11 = {0, 1} := by decide +kernel
  have hv : ciVec [(1 : ℚ)] [0b11] = ket {0, 1} := by simp [ciVec, ← ho]
  refine ⟨D, G, h1, ?_, ?_⟩
  · rw [h3 0 (by norm_num) 1 (by norm_num) 1 (by norm_num) 0 (by norm_num), hv, rdm2]
    have := twoME_eq (R := ℚ) {0, 1} {0, 1} 0 0 1 1
    rw [twoME] at this
    rw [this]
    simp
  · rw [hv, rdm2]
    have := twoME_eq (R := ℚ) {0, 1} {0, 1} 0 1 1 0
    rw [twoME] at this
    rw [this, if_pos (by decide)]
    have : eps {0, 1} 0 1 * eps {0, 1} 1 0 = -1 := by decide
    rw [this]; rfl

/-- A vector of two determinants of two electrons in two spatial orbitals meets the hypotheses. -/
example : ∃ D G, densityMatrix [(3 / 5 : ℚ), 4 / 5] [0b0101, 0b1010] 2 false 0 .restricted = .ok ([D], [G]) ∧
    ∑ i ∈ range 2, D i i = (2 : ℕ) * Spec.inner (ciVec [(3 / 5 : ℚ), 4 / 5] [0b0101, 0b1010])
      (ciVec [(3 / 5 : ℚ), 4 / 5] [0b0101, 0b1010]) ∧
    ∀ i < 2, ∀ k < 2, ∑ j ∈ range 2, G i j k j = ((2 : ℕ) - 1) * D i k :=
  C32_trace_restricted [(3 / 5 : ℚ), 4 / 5] [0b0101, 0b1010] 2 2 0 le_rfl (by decide +kernel) (by simp) (by decide)

/-- A threshold that cuts: the second determinant of `[1, 1/100]` is dropped at `1/10`. -/
example : allPairs (1 / 10 : ℚ) 2 0 [(1, 0b0101), (1 / 100, 0b1010)] = [((1, 0b0101), 1, 0b0101)] := by
  simp [allPairs, rowPairs]; norm_num

end Fanpy.Props
