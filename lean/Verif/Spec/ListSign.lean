import Mathlib.GroupTheory.Perm.Fin
import Mathlib.Data.List.NodupEquivFin

/-!
# Specification: the parity of a sequence of orbital indices

`listSign l` is `(-1)` to the number of inversions of `l`.  `listSign_ofFn` shows that it is the sign (in the sense
of `Equiv.Perm.sign`) of the permutation that sorts the list.
-/

namespace Fanpy.Spec

/-- `(-1)^(number of inversions)`. -/
def listSign : List ℕ → ℤ
  | [] => 1
  | a :: l => (l.map (fun b => if b < a then (-1 : ℤ) else 1)).prod * listSign l

theorem listSign_append_singleton (l : List ℕ) (a : ℕ) :
    listSign (l ++ [a]) = listSign l * (l.map (fun b => if a < b then (-1 : ℤ) else 1)).prod := by
  induction l with
  | nil => simp [listSign]
  | cons x l ih =>
    simp only [List.cons_append, listSign, ih, List.map_append, List.prod_append, List.map_cons, List.map_nil,
      List.prod_cons, List.prod_nil]
    ring

theorem listSign_ofFn_prod {n : ℕ} (g : Fin n → ℕ) :
    listSign (List.ofFn g) = ∏ j, ∏ i ∈ Finset.Iio j, if g j < g i then (-1 : ℤ) else 1 := by
  induction n with
  | zero => simp [listSign]
  | succ n ih =>
    rw [List.ofFn_succ', List.concat_eq_append, listSign_append_singleton, Fin.prod_univ_castSucc, ih]
    congr 1
    · apply Finset.prod_congr rfl
      intro j _
      rw [← Fin.map_castSuccEmb_Iio, Finset.prod_map]
      rfl
    · rw [List.map_ofFn, List.prod_ofFn]
      have : Finset.Iio (Fin.last n) = Finset.univ.map Fin.castSuccEmb := by
        ext i; simp [Fin.exists_castSucc_eq]
      rw [this, Finset.prod_map]
      rfl

/-- The parity of a sequence is the sign of the permutation that sorts it. -/
theorem listSign_ofFn {n : ℕ} (f : Fin n → ℕ) (hf : StrictMono f) (σ : Equiv.Perm (Fin n)) :
    listSign (List.ofFn (fun k => f (σ k))) = (Equiv.Perm.sign σ : ℤ) := by
  rw [listSign_ofFn_prod, Equiv.Perm.sign_eq_prod_prod_Iio]
  push_cast
  apply Finset.prod_congr rfl
  intro j _
  apply Finset.prod_congr rfl
  intro i hi
  have hne : σ i ≠ σ j := fun h => by
    have := σ.injective h; subst this; simp at hi
  simp only [hf.lt_iff_lt]
  rcases lt_trichotomy (σ i) (σ j) with h | h | h
  · simp [h, h.not_gt]
  · exact absurd h hne
  · simp [h, h.not_gt]

end Fanpy.Spec
