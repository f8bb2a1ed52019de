import Verif.Model.CI
import Verif.Model.Eqn

/-!
# Model of the solvers

`fanpy/solver/ci.py` and the truncation of the equations in `fanpy/solver/system.py`.  The eigenvalue solver of scipy is a parameter: it gets the
number of rows and the matrix, and gives the eigenvalues and the matrix of the eigenvectors (columns).  Left out: checks of Python types and the
version of scipy; the optimizers of scipy and cma.
-/

namespace Fanpy.Solver
open Fanpy.CI

variable {R : Type}

/-- the rows `[ham.integrate_sd_sd(sd1, sd2) for sd2 in wfn.sds[i:]]` of the matrix — ci.py:64-67 -/
def upperRows (elem : ℕ → ℕ → Except PyErr R) : List ℕ → Except PyErr (List (List R))
  | [] => .ok []
  | sd :: r => do
    let row ← (sd :: r).mapM (elem sd)
    let rows ← upperRows elem r
    return row :: rows

/-- `ci_matrix`: zero below the diagonal — ci.py:64-67 -/
def ciMatrix [Zero R] (rows : List (List R)) (i j : ℕ) : R := if i ≤ j then (rows.getD i []).getD (j - i) 0 else 0

/-- the output of `brute`, and the parameters written to the file of the wavefunction -/
structure Output (R : Type) where
  energy : R
  params : List R
  saved : Option (List R)

/-- `brute(wfn, ham, save_file)` — ci.py:59-94: the parameters that are saved are those of the wavefunction, which are not changed.  No determinants is
an IndexError of `eigvec[:, 0]`. -/
def brute [Zero R] (eigh : ℕ → (ℕ → ℕ → R) → (ℕ → R) × (ℕ → ℕ → R)) (w : Wfn R) (hamNspin : ℕ) (elem : ℕ → ℕ → Except PyErr R) (save : Bool) :
    Except PyErr (Output R) :=
  if w.nspin ≠ hamNspin then .error .valueError
  else do
    let rows ← upperRows elem w.sds
    let out := eigh w.sds.length (ciMatrix rows)
    if w.sds.length = 0 then .error .indexError
    else return ⟨out.1 0, (List.range w.sds.length).map fun i => out.2 i 0, if save then some w.params else none⟩

/-- `l[:k]` for an integer: a negative number leaves that many out at the end -/
def sliceTo {α : Type} (l : List α) (k : ℤ) : List α := if 0 ≤ k then l.take k.toNat else l.take (l.length - (-k).toNat)

/-- `l[-k:]`, all of `l` for zero -/
def sliceFrom {α : Type} (l : List α) (k : ℕ) : List α := if k = 0 then l else l.drop (l.length - k)

/-- what `root` does to the equations — system.py:130-146; the arguments are the number of active parameters, the numbers of equations of the
constraints, `pspace` and `eqn_weights`; `num_eqns` is projected.py:280 -/
def rootEqns (nactive : ℕ) (consEqns : List ℕ) (pspace : List ℕ) (weights : List R) : Except PyErr (List ℕ × List R) :=
  let numEqns := pspace.length + consEqns.sum
  if numEqns < nactive then .error .valueError
  else if numEqns > nactive then
    let numConstraints := consEqns.length
    let keep : ℤ := (nactive : ℤ) - numConstraints
    .ok (sliceTo pspace keep,
      if numConstraints = 0 then weights.take nactive else sliceTo weights keep ++ sliceFrom weights numConstraints)
  else .ok (pspace, weights)

end Fanpy.Solver
