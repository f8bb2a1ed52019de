import Verif.Lemmas.GenHam
import Verif.Lemmas.Bits2

/-!
# Spin blocks of determinants and of integrals
-/

namespace Fanpy.Lemmas
open Finset Fanpy.Spec Fanpy.Slater Fanpy.Props Fanpy.Ham

theorem occIndices_split (x n : ℕ) :
    occIndices (some x) = occIndices (some (x % 2 ^ n)) ++ (occIndices (some (x / 2 ^ n))).map (· + n) := by
  apply sorted_lt_ext (sorted_occIndices x)
  · rw [List.pairwise_append]
    refine ⟨sorted_occIndices _, ?_, ?_⟩
    · rw [List.pairwise_map]
      exact (sorted_occIndices _).imp fun h => by omega
    · intro i hi j hj
      rw [mem_occIndices, Nat.testBit_mod_two_pow] at hi
      rw [List.mem_map] at hj
      obtain ⟨k, -, rfl⟩ := hj
      simp only [Bool.and_eq_true, decide_eq_true_eq] at hi
      omega
  · intro i
    rw [List.mem_append, List.mem_map]
    simp only [mem_occIndices, Nat.testBit_mod_two_pow, Nat.testBit_div_two_pow]
    constructor
    · intro h
      by_cases hin : i < n
      · left; simp [hin, h]
      · right; exact ⟨i - n, by rw [show i - n + n = i by omega]; exact h, by omega⟩
    · rintro (h | ⟨k, h, rfl⟩)
      · simp at h; exact h.2
      · exact h

theorem isAlpha_ok {i n : ℕ} (h : i < 2 * n) : isAlpha i n = .ok (decide (i < n)) := by
  rw [isAlpha, if_neg (by omega)]
  congr 1
  rw [decide_eq_decide]; omega

theorem spatialIndex_ok {i n : ℕ} (h : i < 2 * n) :
    spatialIndex i n = .ok ((if i < n then i else i - n : ℕ) : ℤ) := by
  rw [spatialIndex, if_neg (by omega), isAlpha_ok h]
  simp only [bind, Except.bind, pure, Except.pure, decide_eq_true_eq]
  congr 1
  split_ifs <;> omega

end Fanpy.Lemmas
