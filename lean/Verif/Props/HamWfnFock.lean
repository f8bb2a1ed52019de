import Verif.Props.HamWfn
import Verif.Props.HamWfnSenZero

/-!
# C27, corollaries: `integrate_sd_wfn` against second quantisation
-/

namespace Fanpy.Props
open Finset Fanpy.Spec Fanpy.Slater Fanpy.Ham Fanpy.Lemmas Fanpy.It

variable {F : Type} [Field F] [CharZero F]

omit [CharZero F] in
theorem sumComp_sum (n : ℕ) (f : ℤ → F) (D : ℕ → F × F × F) :
    sumComp (∑ m ∈ range n, scale (f m) (D m)) = ∑ m ∈ range n, f m * sumComp (D m) := by
  induction n with
  | zero => simp [sumComp]
  | succ n ih =>
    rw [Finset.sum_range_succ, Finset.sum_range_succ, ← ih]
    simp only [sumComp, scale, Prod.fst_add, Prod.snd_add]
    ring

/-- C27. The sum of the three components of `integrate_sd_wfn` of the generalized Hamiltonian is the matrix element of the
second-quantised Hamiltonian of `sd` with the wavefunction. -/
theorem C27_generalized_fock (n : ℕ) (h63 : n ≤ 63) (h : ℕ → ℕ → F) (g : ℕ → ℕ → ℕ → ℕ → F)
    (hg : ∀ i j k l, g i j k l = g j i l k) (f : ℤ → F) (sd : ℕ) (hsd : sd < 2 ^ n) :
    ∃ t, genSdWfn (GenHam.ofInts n h g) f sd = .ok t ∧
      sumComp t = ∑ m ∈ range (2 ^ n), f m * hamME n h g (occSet sd) (occSet m) := by
  by_cases h0 : sd = 0
  · subst h0
    refine ⟨_, C27_generalized_vacuum _ f, ?_⟩
    rw [Finset.sum_eq_single 0]
    · rw [(C22_vacuum (GenHam.ofInts n h g) n h g).2]; simp [sumComp]
    · intro m hm hne
      have h1 := C22_generalized n h g hg 0 m (Nat.two_pow_pos n) (Finset.mem_range.1 hm) (Or.inr hne)
      rcases sdPair_cases 0 m with ⟨hl, hc⟩ | ⟨hl, hl2, hc⟩ | ⟨rfl, hd, hs⟩ | ⟨a, b, u, hd, hu, ha, hb, hab, e1, e2, hs⟩ |
        ⟨a, b, c, d, u, hd, hu, ha, hb, hc, hdu, hab, hcd, hac, had, hbc, hbd, e1, e2, hs⟩
      · rw [genSdSd, gen_far_card _ hl] at h1
        have h2 := Except.ok.inj h1
        rw [← h2]; simp [sumComp]
      · rw [show occSet 0 = ∅ from rfl] at hc; simp at hc
      · exact absurd rfl hne
      · rw [show occSet 0 = ∅ from rfl] at e1; exact absurd e1.symm (Finset.insert_ne_empty _ _)
      · rw [show occSet 0 = ∅ from rfl] at e1; exact absurd e1.symm (Finset.insert_ne_empty _ _)
    · intro hh; exact absurd (Finset.mem_range.2 (Nat.two_pow_pos n)) hh
  · obtain ⟨D, hD, -, hS⟩ := C27_generalized (GenHam.ofInts n h g) f sd hsd h0
    refine ⟨_, hS h63, ?_⟩
    have hnorb : (GenHam.ofInts n h g).norb = n := rfl
    rw [hnorb] at hD ⊢
    rw [sumComp_sum]
    apply Finset.sum_congr rfl
    intro m hm
    have h1 := C22_generalized n h g hg sd m hsd (Finset.mem_range.1 hm) (Or.inl h0)
    rw [genSdSd, hD m (Finset.mem_range.1 hm)] at h1
    rw [← Except.ok.inj h1]

/-- C27. The same for the unrestricted Hamiltonian. -/
theorem C27_unrestricted_fock (n : ℕ) (hn : 0 < n) (h63 : 2 * n ≤ 63) (hA hB : ℕ → ℕ → F) (gAA gAB gBB : ℕ → ℕ → ℕ → ℕ → F)
    (sAA : ∀ i j k l, gAA i j k l = gAA j i l k) (sBB : ∀ i j k l, gBB i j k l = gBB j i l k) (f : ℤ → F) (sd : ℕ)
    (hsd : sd < 2 ^ (2 * n)) :
    ∃ t, unrSdWfn (UnrHam.ofInts n hA hB gAA gAB gBB) f sd = .ok t ∧ sumComp t =
      ∑ m ∈ range (2 ^ (2 * n)), f m * hamME (2 * n) (blockOne n hA hB) (blockTwo n gAA gAB gBB) (occSet sd) (occSet m) := by
  obtain ⟨D, hD, hS⟩ := C27_unrestricted (UnrHam.ofInts n hA hB gAA gAB gBB) hn h63 f sd hsd
  refine ⟨_, hS, ?_⟩
  have hnorb : (UnrHam.ofInts n hA hB gAA gAB gBB).norb = n := rfl
  rw [hnorb] at hD ⊢
  rw [sumComp_sum]
  apply Finset.sum_congr rfl
  intro m hm
  have h1 := C23_unrestricted_fock n hn hA hB gAA gAB gBB sAA sBB sd m hsd (Finset.mem_range.1 hm)
  rw [unrSdSd, hD m (Finset.mem_range.1 hm)] at h1
  rw [← Except.ok.inj h1]

/-- C27. The same for the restricted Hamiltonian, except for 32 spatial orbitals (`C27_word_64`). -/
theorem C27_restricted_fock_partial (n : ℕ) (hn : 0 < n) (h32 : n ≠ 32) (h : ℕ → ℕ → F) (g : ℕ → ℕ → ℕ → ℕ → F)
    (hg : ∀ i j k l, g i j k l = g j i l k) (f : ℤ → F) (sd : ℕ) (hsd : sd < 2 ^ (2 * n)) :
    ∃ t, resSdWfn (GenHam.ofInts n h g) f sd = .ok t ∧ sumComp t =
      ∑ m ∈ range (2 ^ (2 * n)), f m * hamME (2 * n) (blockOne n h h) (blockTwo n g g g) (occSet sd) (occSet m) := by
  obtain ⟨D, hD, hS⟩ := C27_restricted_partial n hn h32 h g hg f sd hsd
  refine ⟨_, hS, ?_⟩
  rw [sumComp_sum]
  apply Finset.sum_congr rfl
  intro m hm
  have h1 := C24_restricted_fock n hn h g hg sd m hsd (Finset.mem_range.1 hm)
  rw [resSdSd, hD m (Finset.mem_range.1 hm)] at h1
  rw [← Except.ok.inj h1]

/-- integrals and a determinant that meet the hypotheses -/
example : (∀ i j k l : ℕ, ((i * k + 1) * (j * l + 1) : ℚ) = (j * l + 1) * (i * k + 1)) ∧
    0b0101 < 2 ^ 4 ∧ (0b010101 : ℕ) < 2 ^ (2 * 3) := ⟨fun _ _ _ _ => by ring, by norm_num, by norm_num⟩

end Fanpy.Props
