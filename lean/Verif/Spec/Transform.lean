import Verif.Spec.Rotation
import Mathlib.LinearAlgebra.Matrix.Determinant.Basic
import Mathlib.Data.Finset.Sort
import Mathlib.Data.Finset.Powerset

/-!
# Specification: wavefunctions in transformed orbitals

The rows of `A` are the new orbitals in terms of the `n` old ones.  `transform A n f` gives the coefficients in the determinants
of the new orbitals of the wavefunction with the coefficients `f` in the old ones: a sum over minors.  `Lemmas/Transform.lean`
shows that this is what the second-quantized definition (`rotState`) gives.
-/

namespace Fanpy.Spec
open Finset

variable {R : Type} [CommRing R]

/-- the minor of the rows `S` and columns `T`, in increasing order -/
def minor (A : ℕ → ℕ → R) (S T : Finset ℕ) : R :=
  if h : #T = #S then Matrix.det (Matrix.of fun i j : Fin #S => A (S.orderEmbOfFin rfl i) (T.orderEmbOfFin h j)) else 0

/-- `∑_T det(A[S, T]) f(T)`, where `T` are the sets of as many of the old orbitals as `S` -/
def transform (A : ℕ → ℕ → R) (n : ℕ) (f : Finset ℕ → R) (S : Finset ℕ) : R :=
  ∑ T ∈ powersetCard #S (range n), minor A S T * f T

/-- the determinant of the new orbitals `S` in terms of the old orbitals: the product of the new creation operators, in
increasing order, acting on the vacuum -/
noncomputable def rotState (A : ℕ → ℕ → R) (n : ℕ) (S : Finset ℕ) : Fock R :=
  (S.sort (· ≤ ·)).foldr (fun a v => creRot n (fun j i => A i j) a v) (ket ∅)

/-- the transformation of spin orbitals by separate transformations of the `r` alpha and the beta orbitals into which `m` alpha
orbitals and the beta orbitals are transformed -/
def blockDiag (r m : ℕ) (A B : ℕ → ℕ → R) (i j : ℕ) : R :=
  if i < r then (if j < m then A i j else 0) else (if j < m then 0 else B (i - r) (j - m))

end Fanpy.Spec
