import Verif.Model.Slater
import Verif.Model.Itertools
import Mathlib.Data.Nat.Factorial.Basic
import Mathlib.LinearAlgebra.Matrix.Determinant.Basic
import Mathlib.LinearAlgebra.Matrix.NonsingularInverse
import Mathlib.Algebra.Field.Defs

/-!
# Model of `fanpy/tools/math_tools.py`

Floating point numbers are replaced by the elements of a field (exact arithmetic); `np.linalg.det` is the determinant,
`np.linalg.inv` the inverse.  A two-dimensional array is its shape and its entries (entries outside the shape are never
read).
-/

namespace Fanpy.MathTools
open Fanpy.It

/-- a two-dimensional numpy array -/
structure Arr2 (R : Type*) where
  nrow : ℕ
  ncol : ℕ
  entry : ℕ → ℕ → R

/-- `matrix.transpose()` -/
def Arr2.transpose {R : Type*} (A : Arr2 R) : Arr2 R := ⟨A.ncol, A.nrow, fun i j => A.entry j i⟩

/-- `permanent_combinatoric(matrix)` — math_tools.py:99-145 -/
def permanentCombinatoric {R : Type*} [Semiring R] (A : Arr2 R) : Except PyErr R :=
  if A.nrow = 0 ∨ A.ncol = 0 then .error .valueError
  else
    let A := if A.nrow > A.ncol then A.transpose else A
    .ok ((permsAux A.nrow (List.range A.ncol)).foldl
      (fun permanent perm => permanent + (List.zipWith A.entry (List.range A.nrow) perm).prod) 0)

/-- `np.pad(matrix, ((0, ncol - nrow), (0, 0)), constant_values=((0, 1.0), (0, 0)))`: rows of ones are added at the
bottom — math_tools.py:200 -/
def padOnes {R : Type*} [One R] (A : Arr2 R) : Arr2 R :=
  ⟨A.ncol, A.ncol, fun i j => if i < A.nrow then A.entry i j else 1⟩

/-- the loop over the bits of the counter — math_tools.py:216-230.  Arguments: remaining iterations, `i`, the array
`graycode`, and the variables `cur_position`, `cur_value` (which keep their value from earlier iterations). -/
def grayFor (ncol : ℕ) : ℕ → ℕ → List Bool → ℕ → Bool → List Bool × ℕ × Bool
  | 0, _, g, pos, val => (g, pos, val)
  | k + 1, i, g, pos, _ =>
    let flag := !(g.getD i false)
    let g := g.set i flag
    let pos := if flag then i else pos
    let val := if pos = ncol - 1 then g.getD (ncol - 1) false else !(g.getD pos false && g.getD (pos + 1) false)
    if flag then (g, pos, val) else grayFor ncol k (i + 1) g pos val

/-- local variables of `permanent_ryser` -/
structure RyserState (R : Type*) where
  graycode : List Bool
  pos : ℕ
  val : Bool
  rowsums : List R
  sign : Bool
  permanent : R

/-- one iteration of `while not all(graycode)` — math_tools.py:212-244 -/
def ryserStep {R : Type*} [CommRing R] (A : Arr2 R) (st : RyserState R) : RyserState R :=
  let (g, pos, val) := grayFor A.ncol A.ncol 0 st.graycode st.pos st.val
  let rowsums := st.rowsums.zipIdx.map fun p => if val then p.1 + A.entry p.2 pos else p.1 - A.entry p.2 pos
  { graycode := g, pos := pos, val := val, rowsums := rowsums, sign := !st.sign
    permanent := if st.sign then st.permanent + rowsums.prod else st.permanent - rowsums.prod }

/-- `while not all(graycode)`; the first argument bounds the number of iterations (`none`: bound reached) -/
def ryserLoop {R : Type*} [CommRing R] (A : Arr2 R) : ℕ → RyserState R → Option (RyserState R)
  | 0, st => if st.graycode.all id then some st else none
  | fuel + 1, st => if st.graycode.all id then some st else ryserLoop A fuel (ryserStep A st)

/-- `permanent_ryser(matrix)` — math_tools.py:149-246.  The `Option` is `none` if the bound `2 ** ncol` on the number of
iterations were reached.  `cur_position` and `cur_value` are unbound before the first iteration, which assigns them
(initial values here are irrelevant). -/
def permanentRyser {R : Type*} [Field R] (A : Arr2 R) : Except PyErr (Option R) :=
  if A.nrow = 0 ∨ A.ncol = 0 then .error .valueError
  else
    let B := if A.nrow > A.ncol then A.transpose else A
    let factor : R := if A.nrow ≠ A.ncol then 1 / ((B.ncol - B.nrow).factorial : R) else 1
    let B := if A.nrow ≠ A.ncol then padOnes B else B
    let st : RyserState R :=
      { graycode := List.replicate B.ncol false, pos := 0, val := false, rowsums := List.replicate B.ncol 0
        sign := B.ncol % 2 == 1, permanent := 0 }
    .ok ((ryserLoop B (2 ^ B.ncol) st).map fun st => st.permanent * factor)

/-- the loop over `combinations(range(num_col), num_row)` — math_tools.py:302-312 -/
def cauchySum {R : Type*} [Field R] (m n : ℕ) (entry : ℕ → ℕ → R) (zetas : ℕ → R) : R :=
  (comb (List.range n) m).foldl
    (fun acc indices =>
      acc + (Matrix.of fun i j : Fin m => entry i (indices.getD j 0) ^ 2).det /
        (Matrix.of fun i j : Fin m => entry i (indices.getD j 0)).det * (indices.map zetas).prod) 0

/-- `permanent_borchardt(lambdas, epsilons, zetas, etas)` — math_tools.py:249-314.  With an empty `lambdas` or
`epsilons` the index array has dtype float and numpy raises `IndexError`.  Division by zero (`nan` or `inf` in numpy)
gives `0` here; the theorems exclude it. -/
def permanentBorchardt {R : Type*} [Field R] (lambdas epsilons zetas : List R) (etas : Option (List R)) :
    Except PyErr R :=
  if zetas.length ≠ epsilons.length then .error .valueError
  else if (etas.map List.length).getD lambdas.length ≠ lambdas.length then .error .valueError
  else
    let etas := etas.getD (List.replicate lambdas.length 1)
    let cauchy : Arr2 R :=
      ⟨lambdas.length, epsilons.length, fun i j => 1 / (lambdas.getD i 0 - epsilons.getD j 0)⟩
    let swap : Bool := decide (lambdas.length > epsilons.length)
    let zetas' := if swap then etas else zetas
    let etas' := if swap then zetas else etas
    let cauchy := if swap then cauchy.transpose else cauchy
    if cauchy.nrow = 0 then .error .indexError
    else
      .ok (cauchySum cauchy.nrow cauchy.ncol cauchy.entry (fun j => zetas'.getD j 0) * etas'.prod)

/-- `adjugate(matrix)` — math_tools.py:67-96: `det * inv`, a `LinAlgError` (here `none`) for a singular matrix.  The
threshold `1e-12` on the determinant is replaced by `det = 0`. -/
noncomputable def adjugate {R : Type*} [Field R] [DecidableEq R] {n : ℕ} (M : Matrix (Fin n) (Fin n) R) :
    Except PyErr (Option (Matrix (Fin n) (Fin n) R)) :=
  if n = 0 then .error .valueError
  else if M.det = 0 then .ok none
  else .ok (some (M.det • M⁻¹))

end Fanpy.MathTools
