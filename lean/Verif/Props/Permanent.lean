import Verif.Lemmas.Permanent
import Mathlib.LinearAlgebra.Matrix.Permanent

/-!
# C20 — permanents

`permanent_combinatoric` and `permanent_ryser` compute the permanent of every matrix, square or rectangular: the sum over
the injections of the smaller index set into the larger one of the products of the entries.  The Ryser loop (a binary
counter converted on the fly to a Gray code) terminates after at most `2 ^ ncol` iterations.
-/

namespace Fanpy.Props
open Fanpy.MathTools

/-- The permanent of an `m × n` array: the sum over all ways to choose different columns for the rows (`m ≤ n`), or
different rows for the columns (`n ≤ m`). -/
noncomputable def perSpec {R : Type*} [CommSemiring R] (m n : ℕ) (f : ℕ → ℕ → R) : R :=
  if m ≤ n then ∑ e : Fin m ↪ Fin n, ∏ i : Fin m, f i (e i) else ∑ e : Fin n ↪ Fin m, ∏ j : Fin n, f (e j) j

theorem perSpec_square {R : Type*} [CommSemiring R] (n : ℕ) (f : ℕ → ℕ → R) :
    perSpec n n f = (Matrix.of fun i j : Fin n => f i j).permanent := by
  rw [perSpec, if_pos le_rfl, Matrix.permanent, ← Fintype.sum_equiv (Equiv.embeddingEquivOfFinite (Fin n)).symm
    (fun σ : Equiv.Perm (Fin n) => ∏ i : Fin n, f i (σ i)) _ (fun _ => rfl)]
  rw [← Fintype.sum_equiv (Equiv.inv (Equiv.Perm (Fin n))) (fun σ : Equiv.Perm (Fin n) => ∏ i : Fin n, f i (σ i))
    (fun σ => ∏ i, (Matrix.of fun i j : Fin n => f i j) (σ i) i)]
  intro σ
  rw [← Equiv.prod_comp σ (fun i => (Matrix.of fun i j : Fin n => f i j) ((Equiv.inv _ σ) i) i)]
  apply Finset.prod_congr rfl
  intro i _
  simp

theorem perSpec_congr {R : Type*} [CommSemiring R] {m n : ℕ} {f g : ℕ → ℕ → R}
    (h : ∀ i j, i < m → j < n → f i j = g i j) : perSpec m n f = perSpec m n g := by
  rw [perSpec, perSpec]
  split_ifs
  · exact Finset.sum_congr rfl fun e _ => Finset.prod_congr rfl fun i _ => h _ _ i.2 (e i).2
  · exact Finset.sum_congr rfl fun e _ => Finset.prod_congr rfl fun j _ => h _ _ (e j).2 j.2

theorem perSpec_transpose {R : Type*} [CommSemiring R] (m n : ℕ) (f : ℕ → ℕ → R) :
    perSpec n m (fun i j => f j i) = perSpec m n f := by
  rcases lt_trichotomy m n with h | h | h
  · rw [perSpec, perSpec, if_neg (by omega), if_pos h.le]
  · subst h
    rw [perSpec_square, perSpec_square, ← Matrix.permanent_transpose]; rfl
  · rw [perSpec, perSpec, if_pos h.le, if_neg (by omega)]

/-- `permanent_combinatoric` returns the permanent of every non-empty matrix. -/
theorem C20_combinatoric {R : Type*} [CommSemiring R] (A : Arr2 R) (hr : A.nrow ≠ 0) (hc : A.ncol ≠ 0) :
    permanentCombinatoric A = .ok (perSpec A.nrow A.ncol A.entry) := by
  rw [permanentCombinatoric, if_neg (by tauto)]
  by_cases h : A.nrow > A.ncol
  · simp only [h, if_true]
    rw [foldl_add, zero_add, kperms_sum, perSpec, if_neg (by omega)]; rfl
  · simp only [h, if_false]
    rw [foldl_add, zero_add, kperms_sum, perSpec, if_pos (by omega)]

/-- `permanent_ryser` terminates within `2 ^ ncol` iterations and returns the permanent of every non-empty matrix. -/
theorem C20_ryser {R : Type*} [Field R] [CharZero R] (A : Arr2 R) (hr : A.nrow ≠ 0) (hc : A.ncol ≠ 0) :
    permanentRyser A = .ok (some (perSpec A.nrow A.ncol A.entry)) := by
  have main : ∀ B : Arr2 R, B.nrow ≠ 0 → B.nrow < B.ncol → ∀ st', ryserLoop (padOnes B) (2 ^ (padOnes B).ncol)
        { graycode := List.replicate (padOnes B).ncol false, pos := 0, val := false
          rowsums := List.replicate (padOnes B).ncol 0
          sign := (padOnes B).ncol % 2 == 1, permanent := 0 } = some st' →
      st'.permanent = (∑ e : Fin (padOnes B).ncol ↪ Fin (padOnes B).ncol,
        ∏ i : Fin (padOnes B).ncol, (padOnes B).entry i (e i)) →
      st'.permanent * (1 / ((B.ncol - B.nrow).factorial : R)) = ∑ e : Fin B.nrow ↪ Fin B.ncol,
        ∏ i : Fin B.nrow, B.entry i (e i) := by
    intro B h0 hlt st' _ h2
    obtain ⟨m, n, f⟩ := B
    simp only at h0 hlt ⊢
    obtain ⟨k, rfl⟩ : ∃ k, n = m + k := ⟨n - m, by omega⟩
    have h3 := embedding_pad (R := R) m k (fun i j => if i < m then f i j else 1)
      (fun i j hi => if_neg (by omega))
    have h2' : st'.permanent = _ := h2.trans h3
    rw [h2', Nat.add_sub_cancel_left]
    have hk : ((k.factorial : ℕ) : R) ≠ 0 := by exact_mod_cast k.factorial_ne_zero
    field_simp
    apply Finset.sum_congr rfl
    intro e _
    apply Finset.prod_congr rfl
    intro i _
    rw [if_pos i.2]
  rw [permanentRyser, if_neg (by tauto)]
  rcases lt_trichotomy A.nrow A.ncol with h | h | h
  · simp only [show ¬ A.nrow > A.ncol by omega, if_false, show A.nrow ≠ A.ncol by omega, if_true, ne_eq,
      not_false_eq_true]
    obtain ⟨st', h1, h2⟩ := ryserLoop_perm (padOnes A) hc
    rw [h1, Option.map_some, main A hr h st' h1 h2, perSpec, if_pos h.le]
  · simp only [h, gt_iff_lt, lt_irrefl, if_false, ne_eq, not_true_eq_false]
    obtain ⟨st', h1, h2⟩ := ryserLoop_perm A hc
    rw [h1, Option.map_some, h2, mul_one, perSpec, if_pos le_rfl]
  · simp only [show A.nrow > A.ncol by omega, if_true, show A.nrow ≠ A.ncol by omega, ne_eq, not_false_eq_true]
    obtain ⟨st', h1, h2⟩ := ryserLoop_perm (padOnes A.transpose) hr
    rw [h1, Option.map_some, main A.transpose hc h st' h1 h2, perSpec, if_neg (by omega)]
    rfl

/-- Both raise `ValueError` for a matrix without rows or without columns. -/
theorem C20_empty {R : Type*} [Field R] (A : Arr2 R) (h : A.nrow = 0 ∨ A.ncol = 0) :
    permanentCombinatoric A = .error .valueError ∧ permanentRyser A = .error .valueError := by
  rw [permanentCombinatoric, permanentRyser, if_pos h, if_pos h]
  exact ⟨rfl, rfl⟩

/-- For a square matrix the result is the usual permanent `∑_σ ∏_i A_{σ i, i}`. -/
theorem C20_square {R : Type*} [Field R] [CharZero R] (n : ℕ) (hn : n ≠ 0) (f : ℕ → ℕ → R) :
    permanentCombinatoric ⟨n, n, f⟩ = .ok (Matrix.of fun i j : Fin n => f i j).permanent ∧
      permanentRyser ⟨n, n, f⟩ = .ok (some (Matrix.of fun i j : Fin n => f i j).permanent) := by
  rw [C20_combinatoric _ hn hn, C20_ryser _ hn hn, perSpec_square]
  exact ⟨rfl, rfl⟩

/-- Both are invariant under transposition. -/
theorem C20_transpose {R : Type*} [Field R] [CharZero R] (A : Arr2 R) :
    permanentCombinatoric A.transpose = permanentCombinatoric A ∧ permanentRyser A.transpose = permanentRyser A := by
  by_cases h : A.nrow = 0 ∨ A.ncol = 0
  · obtain ⟨h1, h2⟩ := C20_empty A h
    obtain ⟨h3, h4⟩ := C20_empty A.transpose h.symm
    rw [h1, h2, h3, h4]; exact ⟨rfl, rfl⟩
  · rw [not_or] at h
    rw [C20_combinatoric _ h.1 h.2, C20_ryser _ h.1 h.2, C20_combinatoric A.transpose h.2 h.1,
      C20_ryser A.transpose h.2 h.1]
    have : perSpec A.transpose.nrow A.transpose.ncol A.transpose.entry = perSpec A.nrow A.ncol A.entry :=
      perSpec_transpose A.nrow A.ncol A.entry
    rw [this]; exact ⟨rfl, rfl⟩

/-- Both are invariant under permutations of the rows and of the columns. -/
theorem C20_permute {R : Type*} [Field R] [CharZero R] (A B : Arr2 R) (hr : A.nrow = B.nrow) (hc : A.ncol = B.ncol)
    (σ : Equiv.Perm (Fin A.nrow)) (τ : Equiv.Perm (Fin A.ncol))
    (h : ∀ (i : Fin A.nrow) (j : Fin A.ncol), B.entry i j = A.entry (σ i) (τ j)) :
    permanentCombinatoric A = permanentCombinatoric B ∧ permanentRyser A = permanentRyser B := by
  obtain ⟨m, n, f⟩ := A
  obtain ⟨m', n', g⟩ := B
  obtain rfl : m = m' := hr
  obtain rfl : n = n' := hc
  simp only at h σ τ
  by_cases h0 : m = 0 ∨ n = 0
  · obtain ⟨h1, h2⟩ := C20_empty (⟨m, n, f⟩ : Arr2 R) h0
    obtain ⟨h3, h4⟩ := C20_empty (⟨m, n, g⟩ : Arr2 R) h0
    rw [h1, h2, h3, h4]; exact ⟨rfl, rfl⟩
  · rw [not_or] at h0
    have key : perSpec m n f = perSpec m n g := by
      rw [perSpec, perSpec]
      split_ifs with hmn
      · refine Fintype.sum_equiv (Equiv.embeddingCongr σ.symm τ.symm) _ _ ?_
        intro e
        rw [← Equiv.prod_comp σ]
        apply Finset.prod_congr rfl
        intro i _
        rw [h]; simp
      · refine Fintype.sum_equiv (Equiv.embeddingCongr τ.symm σ.symm) _ _ ?_
        intro e
        rw [← Equiv.prod_comp τ]
        apply Finset.prod_congr rfl
        intro i _
        rw [h]; simp
    rw [C20_combinatoric _ h0.1 h0.2, C20_ryser _ h0.1 h0.2, C20_combinatoric _ h0.1 h0.2, C20_ryser _ h0.1 h0.2]
    simp only [key, and_self]

/-- the permanent of `[[1,2],[3,4]]` is `10`; of `[[1,2,3],[4,5,6]]` it is `58` -/
example : permanentCombinatoric (⟨2, 2, fun i j => 2 * i + j + 1⟩ : Arr2 ℕ) = .ok 10 := by decide
example : permanentCombinatoric (⟨2, 3, fun i j => 3 * i + j + 1⟩ : Arr2 ℕ) = .ok 58 := by decide
example : permanentCombinatoric (⟨3, 2, fun i j => 3 * j + i + 1⟩ : Arr2 ℕ) = .ok 58 := by decide
/-- the hypotheses are met by a `2 × 3` rational matrix, and the Ryser loop gives `58` -/
example : permanentRyser (⟨2, 3, fun i j => 3 * i + j + 1⟩ : Arr2 ℚ) = .ok (some 58) := by
  norm_num [permanentRyser, ryserLoop, ryserStep, grayFor, padOnes, Nat.factorial, List.replicate, List.zipIdx]

end Fanpy.Props
