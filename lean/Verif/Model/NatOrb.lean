import Verif.Model.CI

/-!
# Model of `fanpy/analysis/orbitals/natural_orbitals/ci.py`

`scipy.linalg.eigh` and `np.argsort` are arguments.  A matrix is a function of the row and the column.  The Molden file of
`save_natural_orbitals` is not modelled.
-/

namespace Fanpy.NatOrb
open Fanpy.CI

variable {R : Type}

/-- an array `mo_coeff` -/
structure Arr (R : Type) where
  rows : ℕ
  cols : ℕ
  get : ℕ → ℕ → R

/-- "Perform eigendecomposition" and "Sort natural orbitals" for one spin — natural_orbitals/ci.py:68-81.  `eigh n m` are the eigenvalues and
the matrix whose columns are the eigenvectors. -/
def sortedEig [Zero R] (eigh : ℕ → (ℕ → ℕ → R) → List R × (ℕ → ℕ → R)) (argsort : List R → List ℕ) (n : ℕ) (m : ℕ → ℕ → R) :
    List R × (ℕ → ℕ → R) :=
  let ev := eigh n m
  let idx := (argsort ev.1).reverse
  (idx.map fun i => ev.1.getD i 0, fun r k => ev.2 r (idx.getD k 0))

/-- `natural_orbitals[:, …] = np.dot(mo_coeff, vec)`: the array has `nspatial` rows, and a single row is repeated — natural_orbitals/ci.py:84-93 -/
def toAO [Semiring R] (n : ℕ) (mo : Option (Arr R)) (vec : ℕ → ℕ → R) : Except PyErr (ℕ → ℕ → R) :=
  match mo with
  | none => .ok vec
  | some c =>
    let prod := fun r k => ((List.range n).map fun i => c.get r i * vec i k).sum
    if c.cols ≠ n then .error .valueError
    else if c.rows = n then .ok prod
    else if c.rows = 1 then .ok fun _ k => prod 0 k
    else .error .valueError

/-- `compute_natural_orbitals(wfn, mo_coeff)` — natural_orbitals/ci.py:58-94 -/
def naturalOrbitals [CommRing R] (eigh : ℕ → (ℕ → ℕ → R) → List R × (ℕ → ℕ → R)) (argsort : List R → List ℕ) (w : Wfn R)
    (mo : Option (Arr R)) : Except PyErr (List R × (ℕ → ℕ → R)) := do
  let rdm ← w.computeRdm
  let n := w.nspin / 2
  let a := sortedEig eigh argsort n rdm
  let b := sortedEig eigh argsort n fun i j => rdm (n + i) (n + j)
  let va ← toAO n mo a.2
  let vb ← toAO n mo b.2
  return (a.1 ++ b.1, fun r k => if k < n then va r k else vb r (k - n))

end Fanpy.NatOrb
