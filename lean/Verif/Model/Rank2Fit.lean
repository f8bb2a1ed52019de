import Verif.Model.Slater
import Mathlib.Analysis.Real.Sqrt
import Mathlib.Algebra.BigOperators.Group.Finset.Basic
import Mathlib.Algebra.BigOperators.Intervals

/-!
# Fit of geminal coefficients by a rank-two matrix

`full_to_rank2` and `RankTwoApprox.assign_params` (fanpy/wfn/geminal/rank2_approx.py).  A matrix is a function of two
indices together with its numbers of rows and columns.  Simplifications: real numbers instead of floats, so that a division
by zero (infinity or not-a-number in numpy, which makes the deviation infinite or not-a-number) is the branch that raises;
`np.linalg.lstsq` and the null vectors of `np.linalg.svd` are arguments.
-/

namespace Fanpy.Rank2Fit
open Finset

/-- One pass of the loop that fills the matrix — rank2_approx.py:386-389.  `g` geminals, `n` pairs, coefficients `p`. -/
def fillRows (g n : ℕ) (p : ℕ → ℕ → ℝ) (M : ℕ → ℕ → ℝ) (i : ℕ) : ℕ → ℕ → ℝ := fun r c =>
  if i * n ≤ r ∧ r < (i + 1) * n then
    if c < g then (if c = i then -p i (r - i * n) else M r c)
    else if c < g + n then (if c - g = r - i * n then p i (r - i * n) else 0)
    else if c < g + 2 * n then (if c - (g + n) = r - i * n then 1 else 0)
    else M r c
  else M r c

/-- `matrix` — rank2_approx.py:378-389 -/
def fitMatrix (g n : ℕ) (p : ℕ → ℕ → ℝ) : ℕ → ℕ → ℝ := (List.range g).foldl (fillRows g n p) (fun _ _ => 0)

/-- `matrix[:, not_indices]`: the column of the first zeta is left out — rank2_approx.py:407, 417-418 -/
def dropColumn (k : ℕ) (M : ℕ → ℕ → ℝ) : ℕ → ℕ → ℝ := fun r c => M r (if c < k then c else c + 1)

/-- `rank2_params[indices] = vals; rank2_params[not_indices] = y` — rank2_approx.py:415-418 -/
def putBack (k : ℕ) (y : ℕ → ℝ) : ℕ → ℝ := fun c => if c < k then y c else if c = k then 1 else y (c - 1)

/-- The check at the end — rank2_approx.py:437-447.  The deviation of a matrix without entries is not a number. -/
noncomputable def checkFit (g n : ℕ) (p : ℕ → ℕ → ℝ) (rmsd : ℝ) (x : ℕ → ℝ) : Except PyErr (ℕ → ℝ) :=
  open Classical in
  if g * n = 0 ∨ ∃ i < g, ∃ j < n, x i - x (g + j) = 0 then .error .valueError
  else if rmsd < Real.sqrt ((∑ i ∈ range g, ∑ j ∈ range n, (p i j - x (g + n + j) / (x i - x (g + j))) ^ 2) / (g * n : ℕ))
  then .error .valueError
  else .ok x

/-- `method`: least squares, or anything else (which is "svd" and gives the vector here) — rank2_approx.py:392, 420-434 -/
inductive Method
  | leastSquares
  | svd (x : ℕ → ℝ)

/-- `full_to_rank2(params, rmsd, method)` — rank2_approx.py:378-447.  `lstsq m k A b` is `np.linalg.lstsq` for `m` rows
and `k` columns. -/
noncomputable def fullToRank2 (lstsq : ℕ → ℕ → (ℕ → ℕ → ℝ) → (ℕ → ℝ) → ℕ → ℝ) (g n : ℕ) (p : ℕ → ℕ → ℝ) (rmsd : ℝ) :
    Method → Except PyErr (ℕ → ℝ)
  | .leastSquares =>
    if n = 0 then .error .indexError
    else
      let M := fitMatrix g n p
      let y := lstsq (g * n) (g + 2 * n - 1) (dropColumn (g + n) M) (fun r => -(M r (g + n) * 1))
      checkFit g n p rmsd (putBack (g + n) y)
  | .svd x => checkFit g n p rmsd x

/-- A wavefunction of rank two: sizes, parameters and the values that are cached. -/
structure Rank2 (V : Type) where
  ngem : ℕ
  norbpair : ℕ
  params : List ℝ
  cache : List (ℕ × V)

/-- `lambdas` — rank2_approx.py:62 -/
def Rank2.lambdas {V : Type} (w : Rank2 V) : List ℝ := w.params.take w.ngem

/-- `epsilons` — rank2_approx.py:74 -/
def Rank2.epsilons {V : Type} (w : Rank2 V) : List ℝ := (w.params.drop w.ngem).take w.norbpair

/-- the argument of `assign_params` -/
inductive Arg
  | none
  | geminal
  | array (l : List ℝ)

/-- `self.params = params`, the check of the denominators, `clear_cache` — rank2_approx.py:137-143.  The state stays when an
error is raised. -/
noncomputable def Rank2.put {V : Type} (w : Rank2 V) (l : List ℝ) : Rank2 V × Option PyErr :=
  open Classical in
  let w' := { w with params := l }
  if ∃ a ∈ w'.lambdas, ∃ b ∈ w'.epsilons, |a - b| < 1 / 10 ^ 9 then (w', some .valueError)
  else ({ w' with cache := [] }, none)

/-- `get_col_ind` for all the pairs of the reference — rank2_approx.py:127-128: the first missing one is a `ValueError` -/
def templateCols (colInd : ℕ → Option ℕ) (g : ℕ) : Except PyErr (List ℕ) :=
  (List.range g).mapM (fun i => match colInd i with
    | some c => .ok c
    | none => .error .valueError)

/-- `template` — rank2_approx.py:126-130: ones and noise -/
noncomputable def template (cols : List ℕ) (noise : ℕ → ℕ → ℝ) : ℕ → ℕ → ℝ := fun i j =>
  (if cols[i]? = some j then 1 else 0) + 1 / 10 ^ 4 * noise i j

/-- `assign_params(params)` — rank2_approx.py:120-143, without further noise.  `colInd i` is the column of the pair
`(i, i + nspatial)`, `noise` what `np.random.rand` gives. -/
noncomputable def Rank2.assignParams {V : Type} (lstsq : ℕ → ℕ → (ℕ → ℕ → ℝ) → (ℕ → ℝ) → ℕ → ℝ) (colInd : ℕ → Option ℕ)
    (noise : ℕ → ℕ → ℝ) (w : Rank2 V) : Arg → Rank2 V × Option PyErr
  | .none =>
    match templateCols colInd w.ngem with
    | .error e => (w, some e)
    | .ok cols =>
      match fullToRank2 lstsq w.ngem w.norbpair (template cols noise) (1 / 100) .leastSquares with
      | .error e => (w, some e)
      | .ok x => w.put ((List.range (w.ngem + 2 * w.norbpair)).map x)
  | .geminal => (w, some .notImplemented)
  | .array l => w.put l

end Fanpy.Rank2Fit
