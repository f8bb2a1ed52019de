import Verif.Spec.Fock

/-!
# Specification: products of operators that create several electrons

A quasiparticle is the operator `∑_c w_c a†_{i_1} a†_{i_2} ⋯`, the orbitals `i_1, i_2, …` being those of the `c`-th subset.
-/

namespace Fanpy.Spec

variable {R : Type*} [CommRing R]

/-- `a†_{i_1} a†_{i_2} ⋯` -/
noncomputable def creProd (l : List ℕ) : Fock R →ₗ[R] Fock R := l.foldr (fun i f => creOp i ∘ₗ f) LinearMap.id

/-- the quasiparticle creation operator `∑_c w_c a†_{i_1} a†_{i_2} ⋯` -/
noncomputable def blockOp (subsets : List (List ℕ)) (w : ℕ → R) : Fock R →ₗ[R] Fock R :=
  ∑ c ∈ Finset.range subsets.length, w c • creProd (subsets.getD c [])

/-- the product `Q†_{r_1} Q†_{r_2} ⋯ |vac⟩` of the quasiparticles in the given rows of the coefficient matrix -/
noncomputable def blockProd (subsets : List (List ℕ)) (C : ℕ → ℕ → R) (rows : List ℕ) : Fock R :=
  rows.foldr (fun r v => blockOp subsets (C r) v) (ket ∅)

end Fanpy.Spec
