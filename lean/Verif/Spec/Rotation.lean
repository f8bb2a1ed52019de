import Verif.Spec.Fock
import Mathlib.Algebra.BigOperators.Group.Finset.Basic

/-!
# Specification: orbital transformations

Matrices are functions of two natural numbers.  The columns of `u` are the new orbitals: the creation operator of the new
orbital `a` is `∑_i u_ia a†_i` (real coefficients).
-/

namespace Fanpy.Spec
open Finset

variable {R : Type} [CommRing R]

/-- The Givens (Jacobi) matrix: in the plane of `p` and `q` it is `[[c, s], [-s, c]]`, elsewhere the identity.  The new
orbital `p` is `c p - s q`, the new orbital `q` is `s p + c q`. -/
def givens (c s : R) (p q k i : ℕ) : R :=
  if i = p then (if k = p then c else if k = q then -s else 0)
  else if i = q then (if k = p then s else if k = q then c else 0)
  else if k = i then 1 else 0

/-- identity matrix -/
def idMat (i j : ℕ) : R := if i = j then 1 else 0

/-- matrix product with inner dimension `m` -/
def matMul (m : ℕ) (u v : ℕ → ℕ → R) (i j : ℕ) : R := ∑ k ∈ range m, u i k * v k j

/-- creation operator of the new orbital `a` -/
noncomputable def creRot (n : ℕ) (u : ℕ → ℕ → R) (a : ℕ) : Fock R →ₗ[R] Fock R := ∑ i ∈ range n, u i a • creOp i

/-- annihilation operator of the new orbital `a` -/
noncomputable def annRot (n : ℕ) (u : ℕ → ℕ → R) (a : ℕ) : Fock R →ₗ[R] Fock R := ∑ i ∈ range n, u i a • annOp i

end Fanpy.Spec
