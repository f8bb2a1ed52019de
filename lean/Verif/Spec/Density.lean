import Verif.Spec.Hamiltonian
import Verif.Spec.Occ

/-! # Reduced density matrices of a vector of Fock space -/

namespace Fanpy.Spec

variable {R : Type} [CommRing R]

/-- the vector `∑ x |s⟩` of a list of coefficients and determinants -/
noncomputable def ciVec (coeffs : List R) (sds : List ℕ) : Fock R :=
  ((coeffs.zip sds).map fun p => p.1 • ket (occSet p.2)).sum

/-- `⟨ψ| a†_i a_j |ψ⟩` -/
noncomputable def rdm1 (v : Fock R) (i j : ℕ) : R := inner v (creOp i (annOp j v))

/-- `⟨ψ| a†_i a†_j a_l a_k |ψ⟩` -/
noncomputable def rdm2 (v : Fock R) (i j k l : ℕ) : R := inner v (creOp i (creOp j (annOp l (annOp k v))))

end Fanpy.Spec
