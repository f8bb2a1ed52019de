import Verif.Props.SdList

/-! # Excitation level and seniority -/

namespace Fanpy.Lemmas
open Fanpy.Slater Fanpy.Spec Fanpy.Props

/-- number of spatial orbitals with one electron -/
def senOf (sd n : ℕ) : ℕ := (symmDiff (alphaSet sd n) (betaSet sd n)).card

theorem excLevel_split (g x n : ℕ) :
    excLevel g x = (alphaSet g n \ alphaSet x n).card + (betaSet g n \ betaSet x n).card := by
  have hb : (betaSet g n \ betaSet x n).card = ((occSet g \ occSet x).filter (n ≤ ·)).card := by
    rw [← Finset.card_image_of_injective (betaSet g n \ betaSet x n) (add_left_injective n)]
    congr 1
    ext i
    simp only [Finset.mem_image, Finset.mem_sdiff, mem_betaSet, Finset.mem_filter, mem_occSet]
    constructor
    · rintro ⟨j, h, rfl⟩
      exact ⟨h, by omega⟩
    · rintro ⟨h, hi⟩
      exact ⟨i - n, by simpa [Nat.sub_add_cancel hi] using h, by omega⟩
  have ha : alphaSet g n \ alphaSet x n = (occSet g \ occSet x).filter (· < n) := by
    ext i
    simp only [Finset.mem_sdiff, mem_alphaSet, Finset.mem_filter, mem_occSet]
    tauto
  rw [ha, hb, excLevel, ← Finset.card_filter_add_card_filter_not (s := occSet g \ occSet x) (· < n)]
  simp

theorem card_occSet_split (x n : ℕ) : (occSet x).card = (alphaSet x n).card + (betaSet x n).card := by
  have hBc : (betaSet x n).card = ((occSet x).filter (n ≤ ·)).card := by
    rw [betaSet, Finset.card_image_of_injOn]
    intro i hi j hj hij
    simp only [Finset.coe_filter, Set.mem_ofPred_eq] at hi hj
    simp only at hij; omega
  rw [hBc, alphaSet, ← Finset.card_filter_add_card_filter_not (s := occSet x) (· < n)]
  simp

theorem card_symmDiff_eq (A B : Finset ℕ) : (symmDiff A B).card = (A \ B).card + (B \ A).card := by
  rw [symmDiff_def, Finset.sup_eq_union, Finset.card_union_of_disjoint]
  rw [Finset.disjoint_left]; intro x; simp; tauto

theorem card_symmDiff_le (A B C : Finset ℕ) : (symmDiff A C).card ≤ (symmDiff A B).card + (symmDiff B C).card := by
  refine le_trans (Finset.card_le_card ?_) (Finset.card_union_le _ _)
  exact symmDiff_triangle A B C

theorem senOf_parity (x n : ℕ) : senOf x n % 2 = (occSet x).card % 2 := by
  have h1 := card_occSet_split x n
  have h2 := card_symmDiff_eq (alphaSet x n) (betaSet x n)
  have h3 := Finset.card_sdiff_add_card_inter (alphaSet x n) (betaSet x n)
  have h4 := Finset.card_sdiff_add_card_inter (betaSet x n) (alphaSet x n)
  rw [Finset.inter_comm] at h4
  unfold senOf
  omega

theorem senOf_le (x n : ℕ) : senOf x n ≤ (occSet x).card := by
  have h1 := card_occSet_split x n
  have h2 := card_symmDiff_eq (alphaSet x n) (betaSet x n)
  have h3 := Finset.card_le_card (Finset.sdiff_subset (s := alphaSet x n) (t := betaSet x n))
  have h4 := Finset.card_le_card (Finset.sdiff_subset (s := betaSet x n) (t := alphaSet x n))
  unfold senOf
  omega

theorem excLevel_comm {g x : ℕ} (h : (occSet x).card = (occSet g).card) : excLevel x g = excLevel g x := by
  have h1 := Finset.card_sdiff_add_card_inter (occSet x) (occSet g)
  have h2 := Finset.card_sdiff_add_card_inter (occSet g) (occSet x)
  rw [Finset.inter_comm] at h2
  unfold excLevel
  omega

/-- the seniority changes by at most twice the excitation level -/
theorem senOf_le_level {g x : ℕ} (n : ℕ) (h : (occSet x).card = (occSet g).card) :
    senOf x n ≤ senOf g n + 2 * excLevel g x := by
  have h1 := card_symmDiff_le (alphaSet x n) (alphaSet g n) (betaSet x n)
  have h2 := card_symmDiff_le (alphaSet g n) (betaSet g n) (betaSet x n)
  have h3 := card_symmDiff_eq (alphaSet x n) (alphaSet g n)
  have h4 := card_symmDiff_eq (betaSet g n) (betaSet x n)
  have h5 := excLevel_split g x n
  have h6 := excLevel_split x g n
  have h7 := excLevel_comm h
  unfold senOf
  omega

theorem senOf_zero_iff {x n : ℕ} : senOf x n = 0 ↔ alphaSet x n = betaSet x n := by
  rw [senOf, Finset.card_eq_zero, ← Finset.bot_eq_empty, symmDiff_eq_bot]

/-- between determinants of seniority zero the excitation level is even -/
theorem excLevel_of_senOf_zero {g x n : ℕ} (hg : senOf g n = 0) (hx : senOf x n = 0) :
    excLevel g x = 2 * (alphaSet g n \ alphaSet x n).card := by
  rw [excLevel_split g x n, ← senOf_zero_iff.1 hg, ← senOf_zero_iff.1 hx]
  ring

theorem senOf_ground {nelec nspin g : ℕ} (hg : ground nelec nspin = .ok g) : senOf g (nspin / 2) = nelec % 2 := by
  have hne : ¬ ∃ e, ground nelec nspin = .error e := by rw [hg]; simp
  rw [C03_ground_error] at hne
  obtain ⟨h, -, -⟩ := C03_ground nelec nspin g hg
  have ha : alphaSet g (nspin / 2) = Finset.range ((nelec + 1) / 2) := by
    ext i
    rw [mem_alphaSet, h, Finset.mem_range]
    omega
  have hb : betaSet g (nspin / 2) = Finset.range (nelec / 2) := by
    ext i
    rw [mem_betaSet, h, Finset.mem_range]
    omega
  have hs : Finset.range (nelec / 2) ⊆ Finset.range ((nelec + 1) / 2) := Finset.range_subset_range.2 (by omega)
  rw [senOf, ha, hb, card_symmDiff_eq, Finset.card_sdiff_of_subset hs, Finset.sdiff_eq_empty_iff_subset.2 hs]
  simp
  omega

end Fanpy.Lemmas
