import Verif.Lemmas.GenHam
import Mathlib.Algebra.CharZero.Defs
import Mathlib.Data.Rat.Cast.Defs
import Mathlib.Tactic.FieldSimp
import Mathlib.Tactic.NormNum

/-!
# C22: generalized Hamiltonian matrix elements are those of second quantisation
-/

namespace Fanpy.Props
open Finset Fanpy.Spec Fanpy.Slater Fanpy.Ham Fanpy.Lemmas

variable {F : Type} [Field F] [CharZero F]

/-- C22. `integrate_sd_sd_decomposed`: the first component is the one-electron part `⟨sd1|∑ h_ij a†_i a_j|sd2⟩`, and the
other two add up to the two-electron part `1/2 ⟨sd1|∑ g_ijkl a†_i a†_j a_l a_k|sd2⟩`. -/
theorem C22_decomposed (n : ℕ) (h : ℕ → ℕ → F) (g : ℕ → ℕ → ℕ → ℕ → F) (hg : ∀ i j k l, g i j k l = g j i l k)
    (sd1 sd2 : ℕ) (h1 : sd1 < 2 ^ n) (h2 : sd2 < 2 ^ n) (hv : sd1 ≠ 0 ∨ sd2 ≠ 0) :
    ∃ c x, genDecomposed (GenHam.ofInts n h g) sd1 sd2 = .ok (oneBody n h (occSet sd1) (occSet sd2), c, x) ∧
      c + x = 1 / 2 * twoBody n g (occSet sd1) (occSet sd2) := by
  rw [lt_two_pow_iff] at h1 h2
  have h20 : (2 : F) ≠ 0 := two_ne_zero
  rcases sdPair_cases sd1 sd2 with ⟨hl, hc⟩ | ⟨hl, hl2, hc⟩ | ⟨rfl, hd, hs⟩ |
    ⟨a, b, u, hd, hu, ha, hb, hab, e1, e2, hs⟩ |
    ⟨a, b, c, d, u, hd, hu, ha, hb, hc, hdu, hab, hcd, hac, had, hbc, hbd, e1, e2, hs⟩
  · refine ⟨0, 0, ?_, ?_⟩
    · rw [oneBody_far h (Or.inl hc), gen_far_card _ hl]
    · rw [twoBody_far g (Or.inl hc)]; simp
  · refine ⟨0, 0, ?_, ?_⟩
    · rw [oneBody_far h (Or.inr (by omega)), gen_far_order _ hl hl2]
    · rw [twoBody_far g (Or.inr hc)]; simp
  · -- the same determinant
    have hnd := nodup_occIndices sd1
    have hsf := toFinset_occIndices sd1
    rw [gen_same (GenHam.ofInts n h g) h1 (by tauto) hd hs, list_sum_eq hnd, hsf, oneBody_same h h1, twoBody_same g h1]
    refine ⟨_, _, rfl, ?_⟩
    have hc := two_triuSum (fun i j => g i j i j) (fun i j => hg i j i j) (occIndices (some sd1))
    have hx := two_triuSum (fun i j => g i j j i) (fun i j => hg i j j i) (occIndices (some sd1))
    rw [fullSum_eq hnd hnd, hsf] at hc hx
    simp only [Finset.sum_sub_distrib]
    rw [← hc, ← hx]
    simp only [GenHam.ofInts, GenHam.cacheTwoInts]
    field_simp
    ring
  · -- single excitation
    have hub : ∀ i ∈ u, i < n := fun i hi => h1 i (by rw [e1]; exact Finset.mem_insert_of_mem hi)
    have han : a < n := h1 a (by rw [e1]; exact Finset.mem_insert_self _ _)
    have hbn : b < n := h2 b (by rw [e2]; exact Finset.mem_insert_self _ _)
    have hnd := sharedOrbs_nodup sd1 sd2
    rw [gen_single (GenHam.ofInts n h g) h1 h2 hd hs, e1, e2, oneBody_single h ha hb hab han hbn,
      twoBody_single g hub ha hb hab han hbn, list_sum_eq hnd, list_sum_eq hnd, hu]
    refine ⟨_, _, rfl, ?_⟩
    simp only [GenHam.ofInts, GenHam.cacheTwoInts, Finset.sum_add_distrib, Finset.sum_sub_distrib]
    have s1 : ∑ m ∈ u, g a m b m = ∑ m ∈ u, g m a m b := Finset.sum_congr rfl fun m _ => hg _ _ _ _
    have s2 : ∑ m ∈ u, g a m m b = ∑ m ∈ u, g m a b m := Finset.sum_congr rfl fun m _ => hg _ _ _ _
    rw [s1, s2]
    field_simp
    ring
  · -- double excitation
    have hin1 : ∀ i, i = a ∨ i = b → i < n := fun i hi => h1 i (by rw [e1]; rcases hi with rfl | rfl <;> simp)
    have hin2 : ∀ i, i = c ∨ i = d → i < n := fun i hi => h2 i (by rw [e2]; rcases hi with rfl | rfl <;> simp)
    have hfar : 1 < (occSet sd1 \ occSet sd2).card := by
      rw [← diffOrbs_fst_length, hd]; simp
    rw [gen_double (GenHam.ofInts n h g) h1 h2 hd hs, oneBody_far h (Or.inr hfar), e1, e2,
      twoBody_double g ha hb hc hdu hab.ne hcd.ne hac had hbc hbd (hin1 _ (Or.inl rfl)) (hin1 _ (Or.inr rfl))
        (hin2 _ (Or.inl rfl)) (hin2 _ (Or.inr rfl)), hg b a c d, hg b a d c]
    refine ⟨_, _, rfl, ?_⟩
    simp only [GenHam.ofInts, GenHam.cacheTwoInts]
    field_simp
    ring

/-- C22. `integrate_sd_sd(sd1, sd2)` is the matrix element `⟨sd1|H|sd2⟩` in Fock space of
`H = ∑ h_ij a†_i a_j + 1/2 ∑ g_ijkl a†_i a†_j a_l a_k`. -/
theorem C22_generalized (n : ℕ) (h : ℕ → ℕ → F) (g : ℕ → ℕ → ℕ → ℕ → F) (hg : ∀ i j k l, g i j k l = g j i l k)
    (sd1 sd2 : ℕ) (h1 : sd1 < 2 ^ n) (h2 : sd2 < 2 ^ n) (hv : sd1 ≠ 0 ∨ sd2 ≠ 0) :
    genSdSd (GenHam.ofInts n h g) sd1 sd2 = .ok (hamME n h g (occSet sd1) (occSet sd2)) := by
  obtain ⟨c, x, e, hcx⟩ := C22_decomposed n h g hg sd1 sd2 h1 h2 hv
  simp only [genSdSd, e, bind, Except.bind, pure, Except.pure, sumComp, hcx, hamME]

/-- integrals with particle-exchange symmetry, no further symmetry, and a single and a double excitation -/
example : (∀ i j k l : ℕ, ((i * k + 1) * (j * l + 1) + 2 * i + 2 * j : ℤ) = (j * l + 1) * (i * k + 1) + 2 * j + 2 * i) ∧
    genSdSd (GenHam.ofInts 4 (fun i j => (i + 3 * j : ℤ)) (fun i j k l => (i * k + 1) * (j * l + 1) + 2 * i + 2 * j))
      0b0011 0b0110 = .ok (-5) ∧
    genSdSd (GenHam.ofInts 4 (fun i j => (i + 3 * j : ℤ)) (fun i j k l => (i * k + 1) * (j * l + 1) + 2 * i + 2 * j))
      0b0011 0b1100 = .ok 1 ∧
    genSdSd (GenHam.ofInts 4 (fun i j => (i + 3 * j : ℤ)) (fun i j k l => (i * k + 1) * (j * l + 1) + 2 * i + 2 * j))
      0b0101 0b0101 = .ok 12 :=
  ⟨fun i j k l => by ring, by decide, by decide, by decide⟩

omit [CharZero F] in
/-- C22, error branch: the element between two empty determinants raises `ValueError` (the unpacking at
generalized_chemical.py:370), although its value is zero. -/
theorem C22_vacuum (H : GenHam F) (n : ℕ) (h : ℕ → ℕ → F) (g : ℕ → ℕ → ℕ → ℕ → F) :
    genSdSd H 0 0 = .error .valueError ∧ hamME n h g (occSet 0) (occSet 0) = 0 := by
  constructor
  · rfl
  · have : occSet 0 = ∅ := rfl
    rw [hamME, oneBody_same h (by simp [this]), twoBody_same g (by simp [this]), this]; simp

omit [CharZero F] in
/-- C22, the exchange component is minus the Coulomb component of the integrals with the last two indices exchanged -/
theorem C22_exchange (n : ℕ) (h : ℕ → ℕ → F) (g : ℕ → ℕ → ℕ → ℕ → F) (sd1 sd2 : ℕ) (h1 : sd1 < 2 ^ n) (h2 : sd2 < 2 ^ n)
    (hv : sd1 ≠ 0 ∨ sd2 ≠ 0) : ∃ o c x,
    genDecomposed (GenHam.ofInts n h g) sd1 sd2 = .ok (o, c, x) ∧
    genDecomposed (GenHam.ofInts n h (fun i j k l => g i j l k)) sd1 sd2 = .ok (o, -x, -c) := by
  rw [lt_two_pow_iff] at h1 h2
  rcases sdPair_cases sd1 sd2 with ⟨hl, hc⟩ | ⟨hl, hl2, hc⟩ | ⟨rfl, hd, hs⟩ |
    ⟨a, b, u, hd, hu, ha, hb, hab, e1, e2, hs⟩ |
    ⟨a, b, c, d, u, hd, hu, ha, hb, hc, hdu, hab, hcd, hac, had, hbc, hbd, e1, e2, hs⟩
  · exact ⟨0, 0, 0, by rw [gen_far_card _ hl], by rw [gen_far_card _ hl]; simp⟩
  · exact ⟨0, 0, 0, by rw [gen_far_order _ hl hl2], by rw [gen_far_order _ hl hl2]; simp⟩
  · have h0 : sd1 ≠ 0 := by tauto
    rw [gen_same (GenHam.ofInts n h g) h1 h0 hd hs, gen_same (GenHam.ofInts n h _) h1 h0 hd hs]
    exact ⟨_, _, _, rfl, by simp [GenHam.ofInts, GenHam.cacheTwoInts]⟩
  · rw [gen_single (GenHam.ofInts n h g) h1 h2 hd hs, gen_single (GenHam.ofInts n h _) h1 h2 hd hs]
    exact ⟨_, _, _, rfl, by simp [GenHam.ofInts, GenHam.cacheTwoInts]⟩
  · rw [gen_double (GenHam.ofInts n h g) h1 h2 hd hs, gen_double (GenHam.ofInts n h _) h1 h2 hd hs]
    exact ⟨_, _, _, rfl, by simp [GenHam.ofInts, GenHam.cacheTwoInts]⟩

end Fanpy.Props
