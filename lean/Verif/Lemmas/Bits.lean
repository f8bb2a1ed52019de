import Verif.Model.Slater
import Verif.Spec.Occ
import Mathlib.Data.Nat.Digits.Lemmas
import Mathlib.Data.Nat.BitIndices
import Mathlib.Tactic.Ring
import Mathlib.Algebra.Order.Ring.GeomSum
import Mathlib.Algebra.Order.BigOperators.Group.Finset

/-! Helper lemmas on bit strings. -/

namespace Fanpy.Slater
open Fanpy.Spec

theorem binRev_getD (sd i : ℕ) : (binRev sd).getD i 0 = (sd >>> i) % 2 := by
  unfold binRev
  split_ifs with h
  · subst h
    cases i <;> simp
  · rw [Nat.getD_digits _ _ (by norm_num), Nat.shiftRight_eq_div_pow]

theorem testBit_eq (sd i : ℕ) : sd.testBit i = ((sd >>> i) % 2 == 1) := by
  rw [Nat.testBit_eq_decide_div_mod_eq, Nat.shiftRight_eq_div_pow]
  rfl

@[simp] theorem occ_some (sd i : ℕ) : occ (some sd) i = sd.testBit i := by
  rw [testBit_eq]; rfl

@[simp] theorem occ_none (i : ℕ) : occ none i = false := rfl

theorem binRev_mem_lt {sd d : ℕ} (h : d ∈ binRev sd) : d < 2 := by
  unfold binRev at h
  split_ifs at h with h0
  · simp at h; omega
  · exact Nat.digits_lt_base (by norm_num) h

theorem binRev_getElem (sd i : ℕ) (h : i < (binRev sd).length) :
    (binRev sd)[i] = if sd.testBit i then 1 else 0 := by
  have h1 := binRev_getD sd i
  rw [List.getD_eq_getElem _ _ h] at h1
  rw [h1, testBit_eq]
  rcases Nat.mod_two_eq_zero_or_one (sd >>> i) with h2 | h2 <;> simp [h2]

theorem testBit_of_ge_length {sd i : ℕ} (h : (binRev sd).length ≤ i) : sd.testBit i = false := by
  have h1 := binRev_getD sd i
  rw [List.getD_eq_default _ _ h] at h1
  rw [testBit_eq, ← h1]; rfl

theorem binRev_eq_map (sd : ℕ) :
    binRev sd = (List.range (binRev sd).length).map (fun i => if sd.testBit i then 1 else 0) := by
  apply List.ext_getElem
  · simp
  · intro i h1 h2
    rw [binRev_getElem _ _ h1]; simp

theorem occIndices_eq_filter (sd : ℕ) :
    occIndices (some sd) = (List.range (binRev sd).length).filter (fun i => sd.testBit i) := by
  have key : ∀ (n : ℕ) (f : ℕ → ℕ),
      ((((List.range n).map f).zipIdx).filter (fun p => p.1 ≠ 0)).map (fun p => p.2)
        = (List.range n).filter (fun i => f i ≠ 0) := by
    intro n f
    have hz : ((List.range n).map f).zipIdx = (List.range n).map (fun i => (f i, i)) := by
      apply List.ext_getElem
      · simp
      · intro i h1 h2; simp
    rw [hz, List.filter_map, List.map_map]
    have : ((fun p : ℕ × ℕ => p.2) ∘ fun i => (f i, i)) = id := by funext i; rfl
    rw [this, List.map_id]; rfl
  show ((binRev sd).zipIdx.filter (fun p => p.1 ≠ 0)).map (fun p => p.2) = _
  conv_lhs => rw [binRev_eq_map sd]
  rw [key]
  apply List.filter_congr
  intro i _
  cases sd.testBit i <;> simp

theorem mem_occIndices {sd i : ℕ} : i ∈ occIndices (some sd) ↔ sd.testBit i = true := by
  rw [occIndices_eq_filter, List.mem_filter, List.mem_range]
  constructor
  · exact fun h => h.2
  · intro h
    refine ⟨?_, h⟩
    by_contra hc
    rw [testBit_of_ge_length (by omega)] at h
    exact absurd h (by simp)

theorem sorted_occIndices (sd : ℕ) : (occIndices (some sd)).Pairwise (· < ·) := by
  rw [occIndices_eq_filter]
  exact List.Pairwise.filter _ List.pairwise_lt_range

theorem nodup_occIndices (sd : ℕ) : (occIndices (some sd)).Nodup :=
  (sorted_occIndices sd).imp (fun h => ne_of_lt h)

theorem toFinset_occIndices (sd : ℕ) : (occIndices (some sd)).toFinset = occSet sd := by
  ext i; simp [mem_occIndices, mem_occSet]

theorem length_occIndices (sd : ℕ) : (occIndices (some sd)).length = (occSet sd).card := by
  rw [← toFinset_occIndices, List.toFinset_card_of_nodup (nodup_occIndices sd)]

/-- A strictly increasing list is determined by its elements. -/
theorem sorted_lt_ext {l₁ l₂ : List ℕ} (h₁ : l₁.Pairwise (· < ·)) (h₂ : l₂.Pairwise (· < ·))
    (h : ∀ i, i ∈ l₁ ↔ i ∈ l₂) : l₁ = l₂ := by
  have n₁ : l₁.Nodup := h₁.imp (fun h => ne_of_lt h)
  have n₂ : l₂.Nodup := h₂.imp (fun h => ne_of_lt h)
  exact List.Perm.eq_of_pairwise (le := (· < ·)) (fun a b _ _ h1 h2 => absurd h1 (lt_asymm h2)) h₁ h₂
    ((List.perm_ext_iff_of_nodup n₁ n₂).2 h)

theorem occIndices_eq_sort (sd : ℕ) : occIndices (some sd) = (occSet sd).sort (· ≤ ·) := by
  apply sorted_lt_ext (sorted_occIndices sd)
  · exact Finset.sortedLT_sort _ |>.pairwise
  · intro i; rw [mem_occIndices, Finset.mem_sort, mem_occSet]

theorem totalOcc_eq (sd : ℕ) : totalOcc (some sd) = (occSet sd).card := by
  rw [← length_occIndices, occIndices_eq_filter]
  show (binRev sd).count 1 = _
  conv_lhs => rw [binRev_eq_map sd]
  rw [List.count, List.countP_map, ← List.countP_eq_length_filter]
  apply List.countP_congr
  intro i _
  cases h : sd.testBit i <;> simp [h]

theorem and_one_shiftLeft_eq_zero (s i : ℕ) : (s &&& (1 <<< i) == 0) = !s.testBit i := by
  rw [Nat.shiftLeft_eq, one_mul]
  cases h : s.testBit i
  · have : s &&& 2 ^ i = 0 := by
      apply Nat.eq_of_testBit_eq; intro j
      rw [Nat.testBit_and, Nat.testBit_two_pow, Nat.zero_testBit]
      by_cases hj : i = j
      · subst hj; simp [h]
      · simp [hj]
    simp [this]
  · have : s &&& 2 ^ i ≠ 0 := by
      intro h0
      have := congrArg (fun t => t.testBit i) h0
      simp [h] at this
    simp [this]

theorem mem_virIndices {sd i : ℕ} {n : ℤ} : i ∈ virIndices (some sd) n ↔ (i : ℤ) < n ∧ sd.testBit i = false := by
  simp only [virIndices]
  split_ifs with h
  · simp; intro h1; omega
  · rw [List.mem_filter, List.mem_range, and_one_shiftLeft_eq_zero]
    simp

theorem sorted_virIndices (sd : ℕ) (n : ℤ) : (virIndices (some sd) n).Pairwise (· < ·) := by
  simp only [virIndices]
  split_ifs
  · simp
  · exact List.Pairwise.filter _ List.pairwise_lt_range

theorem testBit_xor_shift (s i j : ℕ) : (s ^^^ (1 <<< i)).testBit j = (s.testBit j ^^ decide (i = j)) := by
  rw [Nat.shiftLeft_eq, one_mul, Nat.testBit_xor, Nat.testBit_two_pow]

theorem testBit_or_shift (s i j : ℕ) : (s ||| (1 <<< i)).testBit j = (s.testBit j || decide (i = j)) := by
  rw [Nat.shiftLeft_eq, one_mul, Nat.testBit_or, Nat.testBit_two_pow]

theorem occSet_xor_of_mem {s i : ℕ} (h : s.testBit i = true) :
    occSet (s ^^^ (1 <<< i)) = (occSet s).erase i := by
  ext j
  rw [Finset.mem_erase, mem_occSet, mem_occSet, testBit_xor_shift]
  by_cases hj : i = j
  · subst hj; simp [h]
  · simp [hj, Ne.symm hj]

theorem occSet_or {s i : ℕ} : occSet (s ||| (1 <<< i)) = insert i (occSet s) := by
  ext j
  rw [Finset.mem_insert, mem_occSet, mem_occSet, testBit_or_shift]
  by_cases hj : i = j
  · subst hj; simp
  · simp [hj, Ne.symm hj]

theorem occSet_and (a b : ℕ) : occSet (a &&& b) = occSet a ∩ occSet b := by
  ext j; rw [Finset.mem_inter]; simp only [mem_occSet, Nat.testBit_and, Bool.and_eq_true]

theorem occSet_or' (a b : ℕ) : occSet (a ||| b) = occSet a ∪ occSet b := by
  ext j; rw [Finset.mem_union]; simp only [mem_occSet, Nat.testBit_or, Bool.or_eq_true]

theorem occSet_xor (a b : ℕ) : occSet (a ^^^ b) = symmDiff (occSet a) (occSet b) := by
  ext j; rw [Finset.mem_symmDiff]; simp only [mem_occSet, Nat.testBit_xor]
  cases a.testBit j <;> cases b.testBit j <;> simp

@[simp] theorem occSet_zero : occSet 0 = ∅ := by ext; simp [mem_occSet]

theorem occSet_sdOf (s : Finset ℕ) : occSet (sdOf s) = s := by
  induction s using Finset.induction_on_max with
  | empty => simp [sdOf]
  | insert a s h ih =>
    have hlt : sdOf s < 2 ^ a := by
      have : sdOf s ≤ sdOf (Finset.range a) := by
        unfold sdOf
        exact Finset.sum_le_sum_of_subset (fun x hx => Finset.mem_range.2 (h x hx))
      refine lt_of_le_of_lt this ?_
      unfold sdOf
      exact Nat.geomSum_lt (le_refl 2) (fun k hk => Finset.mem_range.1 hk)
    have hna : a ∉ s := fun hh => lt_irrefl _ (h a hh)
    have : sdOf (insert a s) = sdOf s ||| (1 <<< a) := by
      rw [sdOf, Finset.sum_insert hna, Nat.shiftLeft_eq, one_mul, Nat.or_comm]
      have := Nat.two_pow_add_eq_or_of_lt hlt 1
      simpa [sdOf] using this
    rw [this, occSet_or, ih]

theorem sdOf_occSet (sd : ℕ) : sdOf (occSet sd) = sd := occSet_injective (occSet_sdOf _)

end Fanpy.Slater
