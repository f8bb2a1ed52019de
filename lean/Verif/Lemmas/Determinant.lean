import Verif.Model.Linalg
import Verif.Lemmas.PermanentLists
import Mathlib.LinearAlgebra.Matrix.Determinant.Basic

/-! # Determinants of lists of rows and columns -/

namespace Fanpy.Props
open Fanpy.MathTools Fanpy.Linalg

variable {R : Type} [CommRing R]

theorem detL_congr {P Q : ℕ → ℕ → R} {rows cols : List ℕ} (hl : rows.length = cols.length)
    (h : ∀ a ∈ rows, ∀ b ∈ cols, P a b = Q a b) : detL P rows cols = detL Q rows cols := by
  rw [detL, detL]
  congr 1
  ext i j
  simp only [Matrix.of_apply]
  apply h
  · rw [List.getD_eq_getElem _ _ i.2]; exact List.getElem_mem _
  · rw [List.getD_eq_getElem _ _ (hl ▸ j.2)]; exact List.getElem_mem _

theorem detL_eq {P : ℕ → ℕ → R} {rows cols : List ℕ} {n : ℕ} (hl : rows.length = n) :
    detL P rows cols = Matrix.det (Matrix.of fun i j : Fin n => P (rows.getD i 0) (cols.getD j 0)) := by
  subst hl; rfl

theorem succAbove_val {n : ℕ} (p : Fin (n + 1)) (i : Fin n) : (p.succAbove i : ℕ) = skip p i := by
  rw [Fin.succAbove, skip]
  split_ifs with h1 h2 h2
  · rfl
  · exact absurd h1 (by simpa [Fin.lt_def] using h2)
  · exact absurd h2 (by simpa [Fin.lt_def] using h1)
  · rfl

/-- Changing one entry changes the determinant by the change times the cofactor. -/
theorem detL_shift (P : ℕ → ℕ → R) {rows cols : List ℕ} (hl : rows.length = cols.length) (hr : rows.Nodup)
    (hc : cols.Nodup) {r c : ℕ} (h1 : r ∈ rows) (h2 : c ∈ cols) (h : R) :
    detL (fun a b => if a = r ∧ b = c then P a b + h else P a b) rows cols = detL P rows cols +
      h * ((-1) ^ rows.idxOf r * (-1) ^ cols.idxOf c * detL P (rows.filter (· ≠ r)) (cols.filter (· ≠ c))) := by
  have hi := List.idxOf_lt_length_of_mem h1
  have hj := List.idxOf_lt_length_of_mem h2
  obtain ⟨n, hn⟩ : ∃ n, rows.length = n + 1 := ⟨rows.length - 1, by omega⟩
  have hn' : cols.length = n + 1 := by omega
  have gr : rows.getD (rows.idxOf r) 0 = r := by rw [List.getD_eq_getElem _ _ hi]; exact List.getElem_idxOf hi
  have gc : cols.getD (cols.idxOf c) 0 = c := by rw [List.getD_eq_getElem _ _ hj]; exact List.getElem_idxOf hj
  obtain ⟨a1, a2⟩ := filter_ne_getD hr hi
  obtain ⟨b1, b2⟩ := filter_ne_getD hc hj
  rw [gr] at a1 a2
  rw [gc] at b1 b2
  have er : ∀ k < n + 1, rows.getD k 0 = r ↔ k = rows.idxOf r := by
    intro k hk
    rw [List.getD_eq_getElem _ _ (by omega)]
    constructor
    · intro e; rw [← e, hr.idxOf_getElem]
    · rintro rfl; exact List.getElem_idxOf hi
  have ec : ∀ k < n + 1, cols.getD k 0 = c ↔ k = cols.idxOf c := by
    intro k hk
    rw [List.getD_eq_getElem _ _ (by omega)]
    constructor
    · intro e; rw [← e, hc.idxOf_getElem]
    · rintro rfl; exact List.getElem_idxOf hj
  let i0 : Fin (n + 1) := ⟨rows.idxOf r, by omega⟩
  let j0 : Fin (n + 1) := ⟨cols.idxOf c, by omega⟩
  have hm : detL P (rows.filter (· ≠ r)) (cols.filter (· ≠ c)) =
      ((Matrix.of fun i j : Fin (n + 1) => P (rows.getD i 0) (cols.getD j 0)).submatrix i0.succAbove j0.succAbove).det := by
    rw [detL_eq (n := n) (by omega)]
    congr 1
    ext i j
    simp only [Matrix.of_apply, Matrix.submatrix_apply, succAbove_val]
    rw [a2 i (by omega), b2 j (by omega)]
  rw [hm, detL_eq hn, detL_eq hn, Matrix.det_succ_row _ i0, Matrix.det_succ_row _ i0]
  have hsub : ∀ j : Fin (n + 1), (Matrix.of fun i j : Fin (n + 1) =>
        if rows.getD i 0 = r ∧ cols.getD j 0 = c then P (rows.getD i 0) (cols.getD j 0) + h
        else P (rows.getD i 0) (cols.getD j 0)).submatrix i0.succAbove j.succAbove =
      (Matrix.of fun i j : Fin (n + 1) => P (rows.getD i 0) (cols.getD j 0)).submatrix i0.succAbove j.succAbove := by
    intro j
    ext a b
    simp only [Matrix.submatrix_apply, Matrix.of_apply]
    rw [if_neg]
    rintro ⟨e, -⟩
    rw [er _ (Fin.is_lt _)] at e
    exact Fin.succAbove_ne i0 a (Fin.ext e)
  simp only [hsub, Matrix.of_apply]
  rw [← Finset.add_sum_erase _ _ (Finset.mem_univ j0), ← Finset.add_sum_erase _ _ (Finset.mem_univ j0)]
  have hrest : ∀ j ∈ Finset.univ.erase j0, ¬ cols.getD (j : ℕ) 0 = c := by
    intro j hj' e
    rw [ec _ j.2] at e
    exact (Finset.mem_erase.1 hj').1 (Fin.ext e)
  rw [Finset.sum_congr rfl fun j hj' => by
    rw [if_neg fun e => hrest j hj' e.2]]
  rw [if_pos ⟨gr, gc⟩]
  simp only [i0, j0, pow_add]
  ring

end Fanpy.Props
