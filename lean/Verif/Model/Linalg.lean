import Verif.Model.MathTools
import Mathlib.LinearAlgebra.Matrix.Determinant.Basic

/-! # Model of `numpy.linalg.det` -/

namespace Fanpy.Linalg
open Fanpy.Slater Fanpy.MathTools

variable {R : Type} [CommRing R]

/-- the determinant of the entries `P r c` for the rows and columns of two lists of the same length -/
def detL (P : ℕ → ℕ → R) (rows cols : List ℕ) : R :=
  Matrix.det (Matrix.of fun i j : Fin rows.length => P (rows.getD i 0) (cols.getD j 0))

/-- `np.linalg.det(P[rows[:, None], cols[None, :]])`, in exact arithmetic.  Matrices that are not square give
`numpy.linalg.LinAlgError`, which is a `ValueError`; the determinant of an empty matrix is one. -/
def npDet (P : ℕ → ℕ → R) (rows cols : List ℕ) : Except PyErr R :=
  if rows.length = cols.length then .ok (detL P rows cols) else .error .valueError

end Fanpy.Linalg
