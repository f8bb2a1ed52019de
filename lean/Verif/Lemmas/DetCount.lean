import Verif.Props.SlaterBits
import Mathlib.Data.Finset.Powerset
import Mathlib.Data.Finset.Prod

/-! Numbers of determinants with given numbers of alpha and beta electrons -/

namespace Fanpy.DetCount
open Fanpy.Spec Fanpy.Props Fanpy.Slater

/-- the determinants of `n` spatial orbitals with `a` alpha and `b` beta electrons -/
def dets (n a b : ℕ) : Finset ℕ :=
  (Finset.range (2 ^ (2 * n))).filter fun sd => (alphaSet sd n).card = a ∧ (betaSet sd n).card = b

/-- the determinants of `n` spatial orbitals of which `k` are doubly occupied and the others empty -/
def pairDets (n k : ℕ) : Finset ℕ :=
  (Finset.range (2 ^ (2 * n))).filter fun sd => alphaSet sd n = betaSet sd n ∧ (alphaSet sd n).card = k

/-- the determinant with given alpha and beta orbitals -/
def join (n : ℕ) (p : Finset ℕ × Finset ℕ) : ℕ := sdOf (p.1 ∪ p.2.image (· + n))

theorem testBit_join (n : ℕ) (p : Finset ℕ × Finset ℕ) (i : ℕ) :
    (join n p).testBit i = true ↔ i ∈ p.1 ∨ ∃ j ∈ p.2, j + n = i := by
  rw [← mem_occSet, join, occSet_sdOf]
  simp

theorem alphaSet_join {n : ℕ} {p : Finset ℕ × Finset ℕ} (h : p.1 ⊆ Finset.range n) : alphaSet (join n p) n = p.1 := by
  ext i
  rw [mem_alphaSet, testBit_join]
  constructor
  · rintro ⟨hi, h1 | ⟨j, _, hj⟩⟩
    · exact h1
    · omega
  · intro hi
    exact ⟨Finset.mem_range.1 (h hi), .inl hi⟩

theorem betaSet_join {n : ℕ} {p : Finset ℕ × Finset ℕ} (h : p.1 ⊆ Finset.range n) : betaSet (join n p) n = p.2 := by
  ext i
  rw [mem_betaSet, testBit_join]
  constructor
  · rintro (h1 | ⟨j, hj, e⟩)
    · have := Finset.mem_range.1 (h h1); omega
    · have : j = i := by omega
      exact this ▸ hj
  · intro hi
    exact .inr ⟨i, hi, rfl⟩

theorem join_lt {n : ℕ} {p : Finset ℕ × Finset ℕ} (h1 : p.1 ⊆ Finset.range n) (h2 : p.2 ⊆ Finset.range n) :
    join n p < 2 ^ (2 * n) := by
  apply Nat.lt_pow_two_of_testBit
  intro i hi
  by_contra hc
  have := (testBit_join n p i).1 (by simpa using hc)
  rcases this with h | ⟨j, hj, e⟩
  · have := Finset.mem_range.1 (h1 h); omega
  · have := Finset.mem_range.1 (h2 hj); omega

theorem join_sets {n sd : ℕ} : join n (alphaSet sd n, betaSet sd n) = sd := by
  apply Nat.eq_of_testBit_eq
  intro i
  rw [Bool.eq_iff_iff, testBit_join]
  simp only [mem_alphaSet, mem_betaSet]
  constructor
  · rintro (⟨_, h⟩ | ⟨j, h, rfl⟩) <;> exact h
  · intro h
    by_cases hi : i < n
    · exact .inl ⟨hi, h⟩
    · exact .inr ⟨i - n, by rwa [Nat.sub_add_cancel (by omega)], by omega⟩

theorem alphaSet_sub (sd n : ℕ) : alphaSet sd n ⊆ Finset.range n := by
  intro i hi
  exact Finset.mem_range.2 (mem_alphaSet.1 hi).1

theorem betaSet_sub {sd n : ℕ} (h : sd < 2 ^ (2 * n)) : betaSet sd n ⊆ Finset.range n := by
  intro i hi
  rw [mem_betaSet] at hi
  rw [Finset.mem_range]
  by_contra hc
  have := Nat.testBit_lt_two_pow (lt_of_lt_of_le h (Nat.pow_le_pow_right (by norm_num) (show 2 * n ≤ i + n by omega)))
  rw [hi] at this
  cases this

theorem card_dets (n a b : ℕ) : (dets n a b).card = n.choose a * n.choose b := by
  have : (dets n a b).card = (((Finset.range n).powersetCard a) ×ˢ ((Finset.range n).powersetCard b)).card := by
    refine Finset.card_nbij' (fun sd => (alphaSet sd n, betaSet sd n)) (join n) ?_ ?_ ?_ ?_
    · intro sd h
      simp only [dets, Finset.coe_filter, Finset.mem_range, Set.mem_ofPred_eq] at h
      simp only [Finset.coe_product, Set.mem_prod, Finset.mem_coe, Finset.mem_powersetCard]
      exact ⟨⟨alphaSet_sub sd n, h.2.1⟩, betaSet_sub h.1, h.2.2⟩
    · intro p h
      simp only [Finset.coe_product, Set.mem_prod, Finset.mem_coe, Finset.mem_powersetCard] at h
      simp only [dets, Finset.coe_filter, Finset.mem_range, Set.mem_ofPred_eq]
      rw [alphaSet_join h.1.1, betaSet_join h.1.1]
      exact ⟨join_lt h.1.1 h.2.1, h.1.2, h.2.2⟩
    · intro sd _
      exact join_sets
    · intro p h
      simp only [Finset.coe_product, Set.mem_prod, Finset.mem_coe, Finset.mem_powersetCard] at h
      exact Prod.ext (alphaSet_join h.1.1) (betaSet_join h.1.1)
  rw [this, Finset.card_product, Finset.card_powersetCard, Finset.card_powersetCard, Finset.card_range]

theorem card_pairDets (n k : ℕ) : (pairDets n k).card = n.choose k := by
  have : (pairDets n k).card = ((Finset.range n).powersetCard k).card := by
    refine Finset.card_nbij' (fun sd => alphaSet sd n) (fun A => join n (A, A)) ?_ ?_ ?_ ?_
    · intro sd h
      simp only [pairDets, Finset.coe_filter, Finset.mem_range, Set.mem_ofPred_eq] at h
      simp only [Finset.mem_coe, Finset.mem_powersetCard]
      exact ⟨alphaSet_sub sd n, h.2.2⟩
    · intro A h
      simp only [Finset.mem_coe, Finset.mem_powersetCard] at h
      simp only [pairDets, Finset.coe_filter, Finset.mem_range, Set.mem_ofPred_eq]
      rw [alphaSet_join h.1, betaSet_join h.1]
      exact ⟨join_lt h.1 h.1, rfl, h.2⟩
    · intro sd h
      simp only [pairDets, Finset.coe_filter, Finset.mem_range, Set.mem_ofPred_eq] at h
      have : join n (alphaSet sd n, alphaSet sd n) = join n (alphaSet sd n, betaSet sd n) := by
        conv_lhs => rw [h.2.1]
        rw [h.2.1]
      exact this.trans join_sets
    · intro A h
      simp only [Finset.mem_coe, Finset.mem_powersetCard] at h
      exact alphaSet_join (p := (A, A)) h.1
  rw [this, Finset.card_powersetCard, Finset.card_range]

end Fanpy.DetCount
