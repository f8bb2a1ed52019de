import Verif.Lemmas.Transform
import Mathlib.Data.Real.Basic
import Mathlib.Algebra.BigOperators.Group.Finset.Basic
import Mathlib.Tactic.LinearCombination

/-! # Rotations of two orbitals: products and sums of squares -/

namespace Fanpy.Spec
open Finset

section
variable {R : Type} [CommRing R]

theorem moveSign_back {S : Finset ℕ} {p q : ℕ} (hq : q ∉ S) :
    moveSign (insert q (S.erase p)) q p = moveSign S p q := by
  rw [moveSign, moveSign]
  congr 2
  ext k
  simp only [mem_filter, mem_insert, mem_erase]
  constructor
  · rintro ⟨rfl | ⟨h1, h2⟩, h⟩
    · omega
    · exact ⟨h2, by omega⟩
  · rintro ⟨h1, h⟩
    have h2 : k ≠ q := fun e => hq (e ▸ h1)
    exact ⟨Or.inr ⟨by omega, h1⟩, by omega⟩

theorem moveSign_sq (S : Finset ℕ) (p q : ℕ) : (moveSign S p q : R) * (moveSign S p q : R) = 1 := by
  rw [← Int.cast_mul, moveSign, ← pow_add, ← two_mul, pow_mul]
  simp

theorem move_back {S : Finset ℕ} {p q : ℕ} (hp : p ∈ S) (hq : q ∉ S) : insert p ((insert q (S.erase p)).erase q) = S := by
  rw [erase_insert (by simp [hq]), insert_erase hp]

theorem rotTwo_one_zero (p q : ℕ) (f : Finset ℕ → R) (S : Finset ℕ) : rotTwo 1 0 p q f S = f S := by
  simp [rotTwo]

theorem rotTwo_comp (c s c' s' : R) {p q : ℕ} (hpq : p ≠ q) (f : Finset ℕ → R) (S : Finset ℕ) :
    rotTwo c' s' p q (rotTwo c s p q f) S = rotTwo (c * c' - s * s') (s * c' + c * s') p q f S := by
  by_cases hp : p ∈ S <;> by_cases hq : q ∈ S
  · simp [rotTwo, hp, hq]
  · have e := moveSign_back (p := p) hq
    have e2 := moveSign_sq (R := R) S p q
    have h1 : p ∉ insert q (S.erase p) := by simp [hpq]
    have h2 : q ∈ insert q (S.erase p) := mem_insert_self _ _
    simp only [rotTwo, hp, hq, h1, h2, if_true, if_false, e, move_back hp hq]
    linear_combination (-s * s' * f S) * e2
  · have e := moveSign_back (p := q) hp
    have e2 := moveSign_sq (R := R) S q p
    have h1 : q ∉ insert p (S.erase q) := by simp [hpq.symm]
    have h2 : p ∈ insert p (S.erase q) := mem_insert_self _ _
    simp only [rotTwo, hp, hq, h1, h2, if_true, if_false, e, move_back hq hp]
    linear_combination (-s * s' * f S) * e2
  · simp [rotTwo, hp, hq]

/-- Rotations of two different arguments of a function commute. -/
theorem rotTwo_comm (c s c' s' : R) (p q : ℕ) (G : Finset ℕ → Finset ℕ → R) (S T : Finset ℕ) :
    rotTwo c s p q (fun U => rotTwo c' s' p q (fun V => G V U) T) S =
      rotTwo c' s' p q (fun V => rotTwo c s p q (fun U => G V U) S) T := by
  simp only [rotTwo]
  split_ifs <;> ring

theorem rotTwo_congr {c s : R} {p q n : ℕ} (hp : p < n) (hq : q < n) {f g : Finset ℕ → R} (h : ∀ T ⊆ range n, f T = g T)
    {S : Finset ℕ} (hS : S ⊆ range n) : rotTwo c s p q f S = rotTwo c s p q g S := by
  have hm : ∀ a b, b < n → insert b (S.erase a) ⊆ range n := by
    intro a b hb k hk
    rcases mem_insert.1 hk with rfl | hk
    · exact mem_range.2 hb
    · exact hS (mem_of_mem_erase hk)
  simp only [rotTwo, h S hS, h _ (hm p q hq), h _ (hm q p hp)]

/-- A function that vanishes on the sets of a size keeps doing so. -/
theorem rotTwo_card {c s : R} {p q n : ℕ} (hp : p < n) (hq : q < n) {f : Finset ℕ → R} {S : Finset ℕ} (hS : S ⊆ range n)
    (h : ∀ T ⊆ range n, #T = #S → f T = 0) : rotTwo c s p q f S = 0 := by
  have hm : ∀ a b, a ∈ S → b ∉ S → b < n → f (insert b (S.erase a)) = 0 := by
    intro a b ha hb hbn
    refine h _ ?_ ?_
    · intro k hk
      rcases mem_insert.1 hk with rfl | hk
      · exact mem_range.2 hbn
      · exact hS (mem_of_mem_erase hk)
    · rw [card_insert_of_notMem (by simp [hb]), card_erase_of_mem ha]
      have := card_pos.2 ⟨a, ha⟩
      omega
  rw [rotTwo]
  split_ifs with h1 h2 h2
  · exact h S hS rfl
  · rw [h S hS rfl, hm p q h1 h2 hq]; ring
  · rw [h S hS rfl, hm q p h2 h1 hp]; ring
  · exact h S hS rfl

end

/-- the set with the particle of the two orbitals in the other one -/
def swapTwo (p q : ℕ) (S : Finset ℕ) : Finset ℕ :=
  if p ∈ S then if q ∈ S then S else insert q (S.erase p) else if q ∈ S then insert p (S.erase q) else S

theorem swapTwo_swapTwo {p q : ℕ} (hpq : p ≠ q) (S : Finset ℕ) : swapTwo p q (swapTwo p q S) = S := by
  by_cases hp : p ∈ S <;> by_cases hq : q ∈ S
  · simp [swapTwo, hp, hq]
  · have h1 : p ∉ insert q (S.erase p) := by simp [hpq]
    have h2 : q ∈ insert q (S.erase p) := mem_insert_self _ _
    have e : swapTwo p q S = insert q (S.erase p) := by simp only [swapTwo, hp, hq, if_true, if_false]
    rw [e, swapTwo, if_neg h1, if_pos h2, move_back hp hq]
  · have h1 : q ∉ insert p (S.erase q) := by simp [hpq.symm]
    have h2 : p ∈ insert p (S.erase q) := mem_insert_self _ _
    have e : swapTwo p q S = insert p (S.erase q) := by simp only [swapTwo, hp, hq, if_true, if_false]
    rw [e, swapTwo, if_pos h2, if_neg h1, move_back hq hp]
  · simp [swapTwo, hp, hq]

theorem swapTwo_subset {p q n : ℕ} (hp : p < n) (hq : q < n) {S : Finset ℕ} (hS : S ⊆ range n) : swapTwo p q S ⊆ range n := by
  have hm : ∀ a b, b < n → insert b (S.erase a) ⊆ range n := by
    intro a b hb k hk
    rcases mem_insert.1 hk with rfl | hk
    · exact mem_range.2 hb
    · exact hS (mem_of_mem_erase hk)
  rw [swapTwo]
  split_ifs
  · exact hS
  · exact hm _ _ hq
  · exact hm _ _ hp
  · exact hS

theorem rotTwo_pair {c s : ℝ} (hcs : c ^ 2 + s ^ 2 = 1) {p q : ℕ} (hpq : p ≠ q) (f : Finset ℕ → ℝ) (S : Finset ℕ) :
    rotTwo c s p q f S ^ 2 + rotTwo c s p q f (swapTwo p q S) ^ 2 = f S ^ 2 + f (swapTwo p q S) ^ 2 := by
  by_cases hp : p ∈ S <;> by_cases hq : q ∈ S
  · simp [swapTwo, rotTwo, hp, hq]
  · have e := moveSign_back (p := p) hq
    have e2 := moveSign_sq (R := ℝ) S p q
    have h1 : p ∉ insert q (S.erase p) := by simp [hpq]
    have h2 : q ∈ insert q (S.erase p) := mem_insert_self _ _
    have es : swapTwo p q S = insert q (S.erase p) := by simp only [swapTwo, hp, hq, if_true, if_false]
    simp only [es, rotTwo, hp, hq, h1, h2, if_true, if_false, e, move_back hp hq]
    linear_combination (s ^ 2 * (f S ^ 2 + f (insert q (S.erase p)) ^ 2)) * e2 + (f S ^ 2 + f (insert q (S.erase p)) ^ 2) * hcs
  · have e := moveSign_back (p := q) hp
    have e2 := moveSign_sq (R := ℝ) S q p
    have h1 : q ∉ insert p (S.erase q) := by simp [hpq.symm]
    have h2 : p ∈ insert p (S.erase q) := mem_insert_self _ _
    have es : swapTwo p q S = insert p (S.erase q) := by simp only [swapTwo, hp, hq, if_true, if_false]
    simp only [es, rotTwo, hp, hq, h1, h2, if_true, if_false, e, move_back hq hp]
    linear_combination (s ^ 2 * (f S ^ 2 + f (insert p (S.erase q)) ^ 2)) * e2 + (f S ^ 2 + f (insert p (S.erase q)) ^ 2) * hcs
  · simp [swapTwo, rotTwo, hp, hq]

theorem rotTwo_norm {c s : ℝ} (hcs : c ^ 2 + s ^ 2 = 1) {p q n : ℕ} (hpq : p ≠ q) (hp : p < n) (hq : q < n) (f : Finset ℕ → ℝ) :
    ∑ S ∈ (range n).powerset, rotTwo c s p q f S ^ 2 = ∑ S ∈ (range n).powerset, f S ^ 2 := by
  have key : ∀ g : Finset ℕ → ℝ, ∑ S ∈ (range n).powerset, g (swapTwo p q S) = ∑ S ∈ (range n).powerset, g S := by
    intro g
    refine sum_nbij' (swapTwo p q) (swapTwo p q) ?_ ?_ ?_ ?_ ?_
    · intro S hS; exact mem_powerset.2 (swapTwo_subset hp hq (mem_powerset.1 hS))
    · intro S hS; exact mem_powerset.2 (swapTwo_subset hp hq (mem_powerset.1 hS))
    · intro S _; exact swapTwo_swapTwo hpq S
    · intro S _; exact swapTwo_swapTwo hpq S
    · intro S _; rfl
  have h1 := key (fun S => rotTwo c s p q f S ^ 2)
  have h2 := key (fun S => f S ^ 2)
  have h3 : ∑ S ∈ (range n).powerset, (rotTwo c s p q f S ^ 2 + rotTwo c s p q f (swapTwo p q S) ^ 2) =
      ∑ S ∈ (range n).powerset, (f S ^ 2 + f (swapTwo p q S) ^ 2) := sum_congr rfl fun S _ => rotTwo_pair hcs hpq f S
  rw [sum_add_distrib, sum_add_distrib, h1, h2] at h3
  linarith

end Fanpy.Spec
