import Verif.Props.SeniorityHam

/-!
# C26: the Hamiltonian matrix is symmetric for integrals with real symmetry
-/

namespace Fanpy.Props
open Finset Fanpy.Spec Fanpy.Slater Fanpy.Ham Fanpy.Lemmas

variable {R : Type} [CommRing R]

theorem sharedOrbs_comm (sd1 sd2 : ℕ) : sharedOrbs sd1 sd2 = sharedOrbs sd2 sd1 := by
  rw [sharedOrbs, sharedOrbs, Nat.and_comm]

theorem diffOrbs_swap (sd1 sd2 : ℕ) : diffOrbs sd2 sd1 = ((diffOrbs sd1 sd2).2, (diffOrbs sd1 sd2).1) := by
  simp only [diffOrbs, Nat.xor_comm sd2 sd1]

/-- C26, generalized orbitals. With symmetric one-electron integrals and two-electron integrals with the symmetries
`⟨ij|kl⟩ = ⟨kl|ij⟩` (real orbitals) and `⟨ij|kl⟩ = ⟨ji|lk⟩` (identical particles), each of the three components of the
matrix element is symmetric. -/
theorem C26_generalized (n : ℕ) (h : ℕ → ℕ → R) (g : ℕ → ℕ → ℕ → ℕ → R) (hh : ∀ i j, h i j = h j i)
    (hr : ∀ i j k l, g i j k l = g k l i j) (hg : ∀ i j k l, g i j k l = g j i l k) (sd1 sd2 : ℕ)
    (h1 : sd1 < 2 ^ n) (h2 : sd2 < 2 ^ n) :
    genDecomposed (GenHam.ofInts n h g) sd1 sd2 = genDecomposed (GenHam.ofInts n h g) sd2 sd1 := by
  rw [lt_two_pow_iff] at h1 h2
  have hsw := diffOrbs_swap sd1 sd2
  rcases sdPair_cases sd1 sd2 with ⟨hl, hc⟩ | ⟨hl, hl2, hc⟩ | ⟨rfl, hd, hs⟩ |
    ⟨a, b, u, hd, hu, ha, hb, hab, e1, e2, hs⟩ |
    ⟨a, b, c, d, u, hd, hu, ha, hb, hc, hdu, hab, hcd, hac, had, hbc, hbd, e1, e2, hs⟩
  · rw [gen_far_card _ hl, gen_far_card _ (by rw [hsw]; exact fun e => hl e.symm)]
  · rw [gen_far_order _ hl hl2, gen_far_order _ (by rw [hsw]; exact hl.symm) (by rw [hsw, ← hl]; exact hl2)]
  · rfl
  · rw [hd] at hsw
    rcases sdPair_cases sd2 sd1 with ⟨hl, -⟩ | ⟨-, hl, -⟩ | ⟨-, hd', -⟩ | ⟨a', b', u', hd', hu', -, -, -, -, -, hs'⟩ |
      ⟨a', b', c', d', u', hd', -⟩
    · rw [hsw] at hl; simp at hl
    · rw [hsw] at hl; simp at hl
    · rw [hsw] at hd'; simp at hd'
    · rw [hsw] at hd'
      simp only [Prod.mk.injEq, List.cons.injEq, and_true] at hd'
      obtain ⟨rfl, rfl⟩ := hd'
      have huu : u' = u := by rw [← hu', ← hu, sharedOrbs_comm]
      rw [huu] at hs'
      rw [gen_single (GenHam.ofInts n h g) h1 h2 hd hs, gen_single (GenHam.ofInts n h g) h2 h1 hsw hs',
        sharedOrbs_comm sd2 sd1]
      have e1 : ∀ s, g s a b s = g s b a s := fun s => by rw [hr s a b s, hg]
      have e2 : ∀ s, g s a s b = g s b s a := fun s => hr _ _ _ _
      simp only [GenHam.ofInts, GenHam.cacheTwoInts, e1, e2, hh a b, mul_comm (phase u a)]
    · rw [hsw] at hd'; simp at hd'
  · rw [hd] at hsw
    rcases sdPair_cases sd2 sd1 with ⟨hl, -⟩ | ⟨-, hl, -⟩ | ⟨-, hd', -⟩ | ⟨a', b', u', hd', -⟩ |
      ⟨a', b', c', d', u', hd', hu', -, -, -, -, -, -, -, -, -, -, -, -, hs'⟩
    · rw [hsw] at hl; simp at hl
    · rw [hsw] at hl; simp at hl
    · rw [hsw] at hd'; simp at hd'
    · rw [hsw] at hd'; simp at hd'
    · rw [hsw] at hd'
      simp only [Prod.mk.injEq, List.cons.injEq, and_true] at hd'
      obtain ⟨⟨rfl, rfl⟩, rfl, rfl⟩ := hd'
      have huu : u' = u := by rw [← hu', ← hu, sharedOrbs_comm]
      rw [huu] at hs'
      rw [gen_double (GenHam.ofInts n h g) h1 h2 hd hs, gen_double (GenHam.ofInts n h g) h2 h1 hsw hs']
      have e1 : g a b d c = g c d b a := by rw [hr a b d c, hg]
      simp only [GenHam.ofInts, GenHam.cacheTwoInts, hr a b c d, e1, mul_comm (eps (insert a (insert b u)) a b)]

/-- C26, unrestricted orbitals -/
theorem C26_unrestricted (n : ℕ) (hn : 0 < n) (hA hB : ℕ → ℕ → R) (gAA gAB gBB : ℕ → ℕ → ℕ → ℕ → R)
    (sA : ∀ i j, hA i j = hA j i) (sB : ∀ i j, hB i j = hB j i)
    (rAA : ∀ i j k l, gAA i j k l = gAA k l i j) (rAB : ∀ i j k l, gAB i j k l = gAB k l i j)
    (rBB : ∀ i j k l, gBB i j k l = gBB k l i j) (xAA : ∀ i j k l, gAA i j k l = gAA j i l k)
    (xBB : ∀ i j k l, gBB i j k l = gBB j i l k) (sd1 sd2 : ℕ)
    (h1 : sd1 < 2 ^ (2 * n)) (h2 : sd2 < 2 ^ (2 * n)) :
    unrDecomposed (UnrHam.ofInts n hA hB gAA gAB gBB) sd1 sd2 = unrDecomposed (UnrHam.ofInts n hA hB gAA gAB gBB) sd2 sd1 := by
  by_cases hv : sd1 ≠ 0 ∨ sd2 ≠ 0
  swap
  · have : sd1 = 0 ∧ sd2 = 0 := by omega
    rw [this.1, this.2]
  rw [C23_unrestricted_partial n hn hA hB gAA gAB gBB sd1 sd2 h1 h2 hv, C23_unrestricted_partial n hn hA hB gAA gAB gBB sd2 sd1 h2 h1 hv.symm]
  apply C26_generalized _ _ _ _ _ _ _ _ h1 h2
  · intro i j
    rw [blockOne, blockOne]
    split_ifs
    · exact sA _ _
    · rfl
    · rfl
    · exact sB _ _
  · intro i j k l
    rw [blockTwo, blockTwo]
    by_cases e : (i < n ↔ k < n) ∧ (j < n ↔ l < n)
    · have e' : (k < n ↔ i < n) ∧ (l < n ↔ j < n) := ⟨e.1.symm, e.2.symm⟩
      rw [if_pos e, if_pos e']
      simp only [e'.1, e'.2]
      split_ifs
      · exact rAA _ _ _ _
      · exact rAB _ _ _ _
      · exact rAB _ _ _ _
      · exact rBB _ _ _ _
    · have e' : ¬ ((k < n ↔ i < n) ∧ (l < n ↔ j < n)) := fun h => e ⟨h.1.symm, h.2.symm⟩
      rw [if_neg e, if_neg e']
  · intro i j k l
    rw [blockTwo, blockTwo]
    by_cases e : (i < n ↔ k < n) ∧ (j < n ↔ l < n)
    · have e' : (j < n ↔ l < n) ∧ (i < n ↔ k < n) := ⟨e.2, e.1⟩
      simp only [if_pos e, if_pos e']
      split_ifs
      · exact xAA _ _ _ _
      · rfl
      · rfl
      · exact xBB _ _ _ _
    · have e' : ¬ ((j < n ↔ l < n) ∧ (i < n ↔ k < n)) := fun h => e ⟨h.2, h.1⟩
      rw [if_neg e, if_neg e']

/-- C26, restricted orbitals -/
theorem C26_restricted (n : ℕ) (hn : 0 < n) (h : ℕ → ℕ → R) (g : ℕ → ℕ → ℕ → ℕ → R) (hh : ∀ i j, h i j = h j i)
    (hr : ∀ i j k l, g i j k l = g k l i j) (hg : ∀ i j k l, g i j k l = g j i l k) (sd1 sd2 : ℕ)
    (h1 : sd1 < 2 ^ (2 * n)) (h2 : sd2 < 2 ^ (2 * n)) :
    resDecomposed (GenHam.ofInts n h g) sd1 sd2 = resDecomposed (GenHam.ofInts n h g) sd2 sd1 := by
  rw [C24_restricted_partial n h g hg, C24_restricted_partial n h g hg]
  exact C26_unrestricted n hn h h g g g hh hh hr hr hr hg hg sd1 sd2 h1 h2

/-- C26, seniority-zero Hamiltonian -/
theorem C26_seniority_zero (n : ℕ) (hn : 0 < n) (h : ℕ → ℕ → R) (g : ℕ → ℕ → ℕ → ℕ → R) (hh : ∀ i j, h i j = h j i)
    (hr : ∀ i j k l, g i j k l = g k l i j) (hg : ∀ i j k l, g i j k l = g j i l k) (sd1 sd2 : ℕ)
    (h1 : sd1 < 2 ^ (2 * n)) (h2 : sd2 < 2 ^ (2 * n)) :
    szSdSd (GenHam.ofInts n h g) sd1 sd2 = szSdSd (GenHam.ofInts n h g) sd2 sd1 := by
  by_cases hs : getSeniority sd1 n = .ok 0 ∧ getSeniority sd2 n = .ok 0
  · rw [szSdSd, szSdSd, C25_seniority_zero n hn h g sd1 sd2 hs.1 hs.2, C25_seniority_zero n hn h g sd2 sd1 hs.2 hs.1,
      C26_restricted n hn h g hh hr hg sd1 sd2 h1 h2]
  · have hs' : getSeniority sd1 n ≠ .ok 0 ∨ getSeniority sd2 n ≠ .ok 0 := by tauto
    rw [C25_other n hn (GenHam.ofInts n h g) rfl sd1 sd2 hs', C25_other n hn (GenHam.ofInts n h g) rfl sd2 sd1 hs'.symm]

/-- integrals with all symmetries, and a non-zero element -/
example : (∀ i j : ℕ, (i * j + 1 : ℤ) = j * i + 1) ∧
    (∀ i j k l : ℕ, ((i * k + 1) * (j * l + 1) : ℤ) = (k * i + 1) * (l * j + 1)) ∧
    (∀ i j k l : ℕ, ((i * k + 1) * (j * l + 1) : ℤ) = (j * l + 1) * (i * k + 1)) ∧
    genDecomposed (GenHam.ofInts 4 (fun i j => (i * j + 1 : ℤ)) (fun i j k l => (i * k + 1) * (j * l + 1)))
      0b0011 0b0110 = .ok (-1, -2, 3) :=
  ⟨fun _ _ => by ring, fun _ _ _ _ => by ring, fun _ _ _ _ => by ring, by decide⟩

/-- C26 needs the symmetry of the integrals. -/
example : genSdSd (GenHam.ofInts 2 (fun i j => (i + 3 * j : ℤ)) (fun _ _ _ _ => 0)) 0b01 0b10 = .ok 3 ∧
    genSdSd (GenHam.ofInts 2 (fun i j => (i + 3 * j : ℤ)) (fun _ _ _ _ => 0)) 0b10 0b01 = .ok 1 := by decide

end Fanpy.Props
