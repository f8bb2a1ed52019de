import Verif.Spec.Fock
import Mathlib.Data.Finset.Powerset

/-!
# Specification: products of geminals

A geminal is the operator `∑_c w_c a†_{i_c} a†_{j_c}`, the pairs `(i_c, j_c)` being listed in the order of the columns
of the coefficient matrix.
-/

namespace Fanpy.Spec

variable {R : Type*} [CommRing R]

/-- the geminal creation operator `∑_c w_c a†_{i_c} a†_{j_c}` -/
noncomputable def gemOp (pairs : List (ℕ × ℕ)) (w : ℕ → R) : Fock R →ₗ[R] Fock R :=
  ∑ c ∈ Finset.range pairs.length, w c • (creOp (pairs.getD c (0, 0)).1 ∘ₗ creOp (pairs.getD c (0, 0)).2)

/-- the product `G†_{r_1} G†_{r_2} ⋯ |vac⟩` of the geminals in the given rows of the coefficient matrix -/
noncomputable def gemProd (pairs : List (ℕ × ℕ)) (C : ℕ → ℕ → R) (rows : List ℕ) : Fock R :=
  rows.foldr (fun r v => gemOp pairs (C r) v) (ket ∅)

/-- the sum of the products of `k` of the `n` geminals; for `k = n` the product of all of them
(`gemState_full`) -/
noncomputable def gemState (pairs : List (ℕ × ℕ)) (C : ℕ → ℕ → R) (n k : ℕ) : Fock R :=
  ∑ S ∈ (Finset.range n).powersetCard k, gemProd pairs C (S.sort (· ≤ ·))

theorem gemState_full (pairs : List (ℕ × ℕ)) (C : ℕ → ℕ → R) (n : ℕ) :
    gemState pairs C n n = gemProd pairs C (List.range n) := by
  rw [gemState]
  conv_lhs => rw [← Finset.card_range n, Finset.card_range n]
  have : (Finset.range n).powersetCard n = {Finset.range n} := by
    conv_lhs => rw [show n = (Finset.range n).card from (Finset.card_range n).symm]
    rw [Finset.card_range]
    exact by simpa using Finset.powersetCard_self (Finset.range n)
  rw [this, Finset.sum_singleton, Finset.sort_range]

/-- the pairs of different orbitals, in lexicographic order -/
def pairsAll (nspin : ℕ) : List (ℕ × ℕ) :=
  (List.range nspin).flatMap fun i => (List.range' (i + 1) (nspin - (i + 1))).map fun j => (i, j)

/-- the pairs of an orbital of the first half and an orbital of the second half, in lexicographic order -/
def pairsSets (nspin : ℕ) : List (ℕ × ℕ) :=
  (List.range (nspin / 2)).flatMap fun i => (List.range' (nspin / 2) (nspin - nspin / 2)).map fun j => (i, j)

end Fanpy.Spec
