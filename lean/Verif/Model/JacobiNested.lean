import Verif.Model.Jacobi

/-!
# Model of the angle of a rotated wavefunction, and of rotated wavefunctions inside each other

`fanpy/wfn/composite/jacobi.py`.  Left out: noise and the cache.
-/

namespace Fanpy.Jacobi
open Fanpy.Slater

variable {R : Type}

/-- The angle stored by `assign_params(params)` for `None`, a number, or an array of one number — jacobi.py:224-229. -/
def angle [Zero R] : Option R → R
  | none => 0
  | some x => x

/-- `get_overlap(sd)` of the wavefunction as a component of another one — jacobi.py:627-628.  No determinant at all, which no
excitation from an occupied to an empty orbital gives, is handed on. -/
def Wfn.asComponent [CommRing R] (w : Wfn R) (c s : R) : Option ℕ → Except PyErr R
  | none => w.comp none
  | some sd => w.overlap c s sd

end Fanpy.Jacobi
