import Verif.Lemmas.SenZero
import Verif.Props.SpinHam

/-!
# C25: the seniority-zero Hamiltonian agrees with the restricted one
-/

namespace Fanpy.Props
open Finset Fanpy.Spec Fanpy.Slater Fanpy.Ham Fanpy.Lemmas

variable {R : Type} [CommRing R]

/-- C25. For all determinants of seniority zero, the seniority-zero Hamiltonian computes the same three components as the
restricted one (no symmetry of the integrals is needed). -/
theorem C25_seniority_zero (n : ℕ) (hn : 0 < n) (h : ℕ → ℕ → R) (g : ℕ → ℕ → ℕ → ℕ → R) (sd1 sd2 : ℕ)
    (hs1 : getSeniority sd1 n = .ok 0) (hs2 : getSeniority sd2 n = .ok 0) :
    szDecomposed (GenHam.ofInts n h g) sd1 sd2 = resDecomposed (GenHam.ofInts n h g) sd1 sd2 := by
  have hnorb : (GenHam.ofInts n h g).norb = n := rfl
  have e1 := (seniority_zero_iff hn).1 hs1
  have e2 := (seniority_zero_iff hn).1 hs2
  have hD := diffOrbs_split e1 e2
  obtain ⟨hS1, hS2⟩ := sharedSd_split e1 e2
  have hsp1 : splitSpin sd1 (n : ℤ) = _ := splitSpin_ok hn
  have hsp2 : splitSpin sd2 (n : ℤ) = _ := splitSpin_ok hn
  have hsp3 : splitSpin (sharedSd sd1 sd2) (n : ℤ) = _ := splitSpin_ok hn
  have hA1 : ∀ i ∈ occSet (sd1 % 2 ^ n), i < n := lt_two_pow_iff.1 (Nat.mod_lt _ (Nat.two_pow_pos n))
  have hA2 : ∀ i ∈ occSet (sd2 % 2 ^ n), i < n := lt_two_pow_iff.1 (Nat.mod_lt _ (Nat.two_pow_pos n))
  simp only [szDecomposed, resDecomposed, hnorb, hs1, hs2, hsp1, hsp2, hsp3, bind, Except.bind, and_self, not_true_eq_false,
    if_false, hS1, hS2]
  have hshared : sharedOrbs (sd1 % 2 ^ n) (sd2 % 2 ^ n) = occIndices (some (sd1 % 2 ^ n &&& sd2 % 2 ^ n)) := rfl
  rw [hshared]
  have hgd : guardIdx n (occIndices (some (sd1 % 2 ^ n &&& sd2 % 2 ^ n))) = .ok () :=
    guardIdx_ok fun i hi => hA1 i (by
      rw [← hshared, ← List.mem_toFinset, sharedOrbs_toFinset] at hi
      exact (Finset.mem_inter.1 hi).1)
  have hl1 : (diffOrbs sd1 sd2).1.length = 2 * (diffOrbs (sd1 % 2 ^ n) (sd2 % 2 ^ n)).1.length := by
    rw [hD]; simp; omega
  have hl2 : (diffOrbs sd1 sd2).2.length = 2 * (diffOrbs (sd1 % 2 ^ n) (sd2 % 2 ^ n)).2.length := by
    rw [hD]; simp; omega
  have hub : ∀ i ∈ (sharedOrbs (sd1 % 2 ^ n) (sd2 % 2 ^ n)).toFinset, i < n := fun i hi => by
    rw [sharedOrbs_toFinset] at hi
    exact hA1 i (Finset.mem_inter.1 hi).1
  rcases sdPair_cases (sd1 % 2 ^ n) (sd2 % 2 ^ n) with ⟨hl, hc⟩ | ⟨hl, hl2', hc⟩ | ⟨heq, hd, hs⟩ |
    ⟨a, b, u, hd, hu, ha, hb, hab, f1, f2, hs⟩ |
    ⟨a, b, c, d, u, hd, hu, ha, hb, hc, hdu, hab, hcd, hac, had, hbc, hbd, f1, f2, hs⟩
  · rw [if_pos hl, if_pos (by omega)]
  · rw [if_neg (by omega), if_pos (by omega), if_neg (by omega), if_pos (by omega)]
  · have hsd : sd1 = sd2 := by
      rw [← Nat.div_add_mod sd1 (2 ^ n), ← Nat.div_add_mod sd2 (2 ^ n), e1, e2, heq]
    rw [hd] at hl1 hl2 ⊢
    have hD' : diffOrbs sd1 sd2 = ([], []) := by rw [hD, hd]; rfl
    rw [hD']
    have hs' : signExcite (some sd1) [] [] = .ok 1 := rfl
    simp only [List.length_nil, List.reverse_nil, hs', ne_eq, not_true_eq_false, if_false, if_true, resZero, hnorb, hgd,
      bind, Except.bind]
    rw [if_neg (by omega), if_neg (by omega)]
    simp only [pure, Except.pure, signTimes, Except.ok.injEq, Prod.mk.injEq, Int.cast_one, one_mul]
    refine ⟨by ring, by ring, by ring⟩
  · have hD' : diffOrbs sd1 sd2 = ([a, a + n], [b, b + n]) := by rw [hD, hd]; rfl
    have han : a < n := hA1 a (by rw [f1]; simp)
    have hbn : b < n := hA2 b (by rw [f2]; simp)
    rcases sdPair_cases sd1 sd2 with ⟨hl, hc⟩ | ⟨hl, hl2', hc⟩ | ⟨heq, hd', hs'⟩ |
      ⟨a', b', u', hd', hu', ha', hb', hab', f1', f2', hs'⟩ |
      ⟨a', b', c', d', u', hd', hu', ha', hb', hc', hdu', hab', hcd', hac', had', hbc', hbd', f1', f2', hs'⟩
    · rw [hD'] at hl; simp at hl
    · rw [hD'] at hl2'; simp at hl2'
    · rw [hD'] at hd'; simp at hd'
    · rw [hD'] at hd'; simp at hd'
    · rw [hD'] at hd'
      simp only [Prod.mk.injEq, List.cons.injEq, and_true] at hd'
      obtain ⟨⟨rfl, rfl⟩, rfl, rfl⟩ := hd'
      have hu2 : u' = u ∪ u.image (· + n) := by
        rw [← hu', ← hu, sharedOrbs, sharedOrbs, occIndices_split _ n]
        have := hS1; have := hS2
        simp only [sharedSd] at *
        rw [hS1, hS2]
        ext i; simp
      have hue : ∀ i ∈ u, i < n := fun i hi => hub i (by rw [hu]; exact hi)
      have hsgn : ∀ p, p < n → p ∉ u' → p + n ∉ u' →
          eps (insert p (insert (p + n) u')) p (p + n) = (-1) ^ u.card := by
        intro p hp hpu hpn
        rw [eps, Finset.erase_insert (by simp [hpu]; omega), phase_insert, if_neg (by simp), phase_insert,
          if_neg (by omega), phase_insert, if_neg (by simp), phase_pair hue hp hu2]
      rw [hsgn a han ha' hb', hsgn b hbn hc' hdu', ← mul_pow] at hs'
      have i1 : isAlpha (a : ℤ) (n : ℤ) = _ := isAlpha_ok (i := a) (n := n) (by omega)
      have i2 : isAlpha (b : ℤ) (n : ℤ) = _ := isAlpha_ok (i := b) (n := n) (by omega)
      have i3 : isAlpha ((a + n : ℕ) : ℤ) (n : ℤ) = _ := isAlpha_ok (i := a + n) (n := n) (by omega)
      have i4 : isAlpha ((b + n : ℕ) : ℤ) (n : ℤ) = _ := isAlpha_ok (i := b + n) (n := n) (by omega)
      have s1 : spatialIndex (a : ℤ) (n : ℤ) = _ := spatialIndex_ok (i := a) (n := n) (by omega)
      have s2 : spatialIndex (b : ℤ) (n : ℤ) = _ := spatialIndex_ok (i := b) (n := n) (by omega)
      have s3 : spatialIndex ((a + n : ℕ) : ℤ) (n : ℤ) = _ := spatialIndex_ok (i := a + n) (n := n) (by omega)
      have s4 : spatialIndex ((b + n : ℕ) : ℤ) (n : ℤ) = _ := spatialIndex_ok (i := b + n) (n := n) (by omega)
      have g1 : guardIdx n [a, b] = .ok () := guardIdx_ok (by simp [han, hbn])
      have g2 : guardIdx n [a, a, b, b] = .ok () := guardIdx_ok (by simp [han, hbn])
      have na : ¬ (a + n < n) := by omega
      have nb : ¬ (b + n < n) := by omega
      rw [decide_eq_false na, Nat.cast_add] at i3
      rw [decide_eq_false nb, Nat.cast_add] at i4
      rw [if_neg na, Nat.add_sub_cancel, Nat.cast_add] at s3
      rw [if_neg nb, Nat.add_sub_cancel, Nat.cast_add] at s4
      rw [hD', hd]
      simp [resTwo, hnorb, hs', i1, i2, i3, i4, s1, s2, s3, s4, han, hbn, bind, Except.bind, pure, Except.pure, g1, g2,
        signTimes]
  · rw [hd]
    rw [hd] at hl1 hl2
    simp only [List.length_cons, List.length_nil] at hl1 hl2
    rw [if_neg (by simp), if_pos (by simp), if_neg (by omega), if_pos (by omega)]

/-- C25. A determinant with unpaired electrons gets the value zero from the seniority-zero Hamiltonian. -/
theorem C25_other (n : ℕ) (hn : 0 < n) (H : GenHam R) (hH : H.norb = n) (sd1 sd2 : ℕ)
    (hs : getSeniority sd1 n ≠ .ok 0 ∨ getSeniority sd2 n ≠ .ok 0) :
    szSdSd H sd1 sd2 = .ok 0 := by
  rw [getSeniority_eq hn, getSeniority_eq hn] at hs
  simp only [szSdSd, szDecomposed, hH, getSeniority_eq hn, bind, Except.bind]
  rw [if_pos]
  · simp [sumComp, pure, Except.pure]
  · rintro ⟨h1, h2⟩
    rw [h1, h2] at hs
    simp at hs

/-- C25, corollary: on determinants of seniority zero the seniority-zero Hamiltonian gives the matrix elements of second
quantisation. -/
theorem C25_fock {F : Type} [Field F] [CharZero F] (n : ℕ) (hn : 0 < n) (h : ℕ → ℕ → F)
    (g : ℕ → ℕ → ℕ → ℕ → F) (hg : ∀ i j k l, g i j k l = g j i l k) (sd1 sd2 : ℕ) (h1 : sd1 < 2 ^ (2 * n))
    (h2 : sd2 < 2 ^ (2 * n)) (hs1 : getSeniority sd1 n = .ok 0) (hs2 : getSeniority sd2 n = .ok 0) :
    szSdSd (GenHam.ofInts n h g) sd1 sd2 =
      .ok (hamME (2 * n) (blockOne n h h) (blockTwo n g g g) (occSet sd1) (occSet sd2)) := by
  rw [← C24_restricted_fock n hn h g hg sd1 sd2 h1 h2, szSdSd, resSdSd, C25_seniority_zero n hn h g sd1 sd2 hs1 hs2]

/-- one pair moved, the same determinant, two pairs moved -/
example : getSeniority 0b00110011 4 = .ok 0 ∧ getSeniority 0b01010101 4 = .ok 0 ∧ getSeniority 0b11001100 4 = .ok 0 ∧
    szSdSd (GenHam.ofInts 4 (fun i j => (i + j + 1 : ℤ)) (fun i j k l => 10 * i + j + 2 * k + 3 * l)) 0b00110011 0b01010101
      = .ok 21 ∧
    szSdSd (GenHam.ofInts 4 (fun i j => (i + j + 1 : ℤ)) (fun i j k l => 10 * i + j + 2 * k + 3 * l)) 0b00110011 0b00110011
      = .ok 42 ∧
    szSdSd (GenHam.ofInts 4 (fun i j => (i + j + 1 : ℤ)) (fun i j k l => 10 * i + j + 2 * k + 3 * l)) 0b00110011 0b11001100
      = .ok 0 := by decide

end Fanpy.Props
