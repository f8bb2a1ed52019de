import Verif.Model.Geminal

/-!
# Model of the rank-2 geminals

`fanpy/wfn/geminal/rank2_approx.py` (without `full_to_rank2`) and `fanpy/wfn/geminal/apr2g.py`: `APr2G` is derived from
`RankTwoApprox` and from `APIG`, whose methods are in `Verif.Model.Geminal`.  Numbers are real; a quotient by zero (`nan`
in the code) is zero here, which the theorems exclude.
-/

namespace Fanpy.Geminal
open Fanpy.Slater Fanpy.MathTools

/-- The attributes of an `APr2G` wavefunction; `params` is the one-dimensional array of lambdas, epsilons and zetas. -/
structure APr2G where
  nelec : ℕ
  nspin : ℕ
  ngem : ℕ
  pairs : List (ℕ × ℕ)
  params : ℕ → ℝ

/-- `norbpair` — base.py:174 -/
def APr2G.norbpair (w : APr2G) : ℕ := w.pairs.length

/-- `lambdas[i]` — rank2_approx.py:62 -/
def APr2G.lambda (w : APr2G) (i : ℕ) : ℝ := w.params i

/-- `epsilons[j]` — rank2_approx.py:74 -/
def APr2G.epsilon (w : APr2G) (j : ℕ) : ℝ := w.params (w.ngem + j)

/-- `zetas[j]` — rank2_approx.py:86 -/
def APr2G.zeta (w : APr2G) (j : ℕ) : ℝ := w.params (w.ngem + w.norbpair + j)

/-- `fullrank_params` — rank2_approx.py:98 -/
noncomputable def APr2G.fullrank (w : APr2G) (i j : ℕ) : ℝ := w.zeta j / (w.lambda i - w.epsilon j)

open Classical in
/-- `assign_params(params)` — rank2_approx.py:137-142, the check of the denominators. -/
noncomputable def APr2G.checkParams (w : APr2G) : Except PyErr APr2G :=
  if ∃ i < w.ngem, ∃ j < w.norbpair, |w.lambda i - w.epsilon j| < 1e-9 then .error .valueError else .ok w

/-- `__init__(nelec, nspin, ngem=ngem, orbpairs=orbpairs, params=params)` with given parameters — base.py:143-150. -/
noncomputable def APr2G.init (nelec nspin : ℕ) (ngem : Option ℕ) (orbpairs : Option (List (ℕ × ℕ))) (params : ℕ → ℝ) :
    Except PyErr APr2G := do
  checkNelec nelec
  CI.checkNspin nspin
  let ngem ← assignNgem nelec ngem
  let pairs ← apigOrbpairs nspin orbpairs
  (⟨nelec, nspin, ngem, pairs, params⟩ : APr2G).checkParams

/-- `permanent_borchardt(lambdas[rows], epsilons[cols], zetas[cols])` — rank2_approx.py:176, 202-206, 231-235 -/
noncomputable def APr2G.borchardt (w : APr2G) (rows cols : List ℕ) : Except PyErr ℝ :=
  permanentBorchardt (rows.map w.lambda) (cols.map w.epsilon) (cols.map w.zeta) none

/-- `compute_permanent(col_inds)` — rank2_approx.py:172-176. -/
noncomputable def APr2G.permanent (w : APr2G) (cols : List ℕ) : Except PyErr ℝ := w.borchardt (List.range w.ngem) cols

/-- the truncated permanent, one for a matrix without rows and columns — rank2_approx.py:199-206, 228-235 -/
noncomputable def APr2G.truncated (w : APr2G) (rows cols : List ℕ) : Except PyErr ℝ :=
  if rows.length = cols.length ∧ cols.length = 0 then .ok 1 else w.borchardt rows cols

/-- one iteration of the loop over the columns — rank2_approx.py:190-206 -/
noncomputable def APr2G.lambdaStep (w : APr2G) (cols : List ℕ) (row : ℕ) (val : ℝ) (col : ℕ) : Except PyErr ℝ :=
  let rowsTrunc := (List.range w.ngem).filter (· ≠ row)
  let colsTrunc := cols.filter (· ≠ col)
  if rowsTrunc.length = w.ngem ∨ colsTrunc.length = cols.length then .ok val
  else do
    let der := -w.zeta col / (w.lambda row - w.epsilon col) ^ 2
    return val + der * (← w.truncated rowsTrunc colsTrunc)

/-- one iteration of the loop over the rows — rank2_approx.py:216-235 -/
noncomputable def APr2G.columnStep (w : APr2G) (cols : List ℕ) (col deriv : ℕ) (val : ℝ) (row : ℕ) : Except PyErr ℝ := do
  let rowsTrunc := (List.range w.ngem).filter (· ≠ row)
  let colsTrunc := cols.filter (· ≠ col)
  let der := if w.ngem ≤ deriv ∧ deriv < w.ngem + w.norbpair then
      w.zeta col / (w.lambda row - w.epsilon col) ^ 2
    else 1 / (w.lambda row - w.epsilon col)
  return val + der * (← w.truncated rowsTrunc colsTrunc)

/-- `compute_permanent(col_inds, deriv)` — rank2_approx.py:172-236.  The remainder is Python's (not negative). -/
noncomputable def APr2G.permanentDeriv (w : APr2G) (cols : List ℕ) (deriv : ℕ) : Except PyErr ℝ :=
  if ¬ deriv < w.ngem + 2 * w.norbpair then .error .valueError
  else if deriv < w.nelec / 2 then cols.foldlM (w.lambdaStep cols deriv) 0
  else
    let col := (((deriv : ℤ) - w.ngem) % w.norbpair).toNat
    let colsTrunc := cols.filter (· ≠ col)
    if colsTrunc.length = cols.length then .ok 0
    else (List.range w.ngem).foldlM (w.columnStep cols col deriv) 0

/-- `generate_possible_orbpairs(occ_indices)` of `APIG` -/
noncomputable def APr2G.orbpairs (w : APr2G) (occ : List ℕ) : Except PyErr (List (Graphs.Scheme × ℤ)) :=
  (⟨.apig w.pairs, w.nelec, w.nspin, w.ngem, w.fullrank⟩ : Wfn ℝ).orbpairs occ

/-- One iteration of the loop of `_olp` — base.py:454-460. -/
noncomputable def APr2G.olpStep (w : APr2G) (acc : ℝ × ℕ) (o : Graphs.Scheme × ℤ) : Except PyErr (ℝ × ℕ) :=
  if o.1.length = 0 then .ok acc
  else do
    let cols ← o.1.mapM (dictColInd w.pairs)
    let p ← w.permanent cols
    return (acc.1 + o.2 * p, acc.2 + 1)

/-- `get_overlap(sd)` — base.py:447-464. -/
noncomputable def APr2G.overlap (w : APr2G) (sd : ℕ) : Except PyErr ℝ := do
  let gen ← w.orbpairs (occIndices (some sd))
  let (val, counter) ← gen.foldlM w.olpStep (0, 0)
  return if counter = 0 then 0 else val

/-- `output[i] += sign * compute_permanent(col_inds, deriv=i)` — rank2_approx.py:266-271. -/
noncomputable def APr2G.derivStep (w : APr2G) (cols : List ℕ) (sign : ℤ) (out : ℕ → ℝ) (i : ℕ) : Except PyErr (ℕ → ℝ) := do
  let p ← w.permanentDeriv cols i
  return bump out i (sign * p)

/-- One iteration of the outer loop of `_olp_deriv` — rank2_approx.py:258-271. -/
noncomputable def APr2G.olpDerivStep (w : APr2G) (out : ℕ → ℝ) (o : Graphs.Scheme × ℤ) : Except PyErr (ℕ → ℝ) :=
  if o.1.length = 0 then .ok out
  else do
    let cols ← o.1.mapM (dictColInd w.pairs)
    (List.range w.ngem ++ cols.flatMap fun c => [c + w.ngem, c + w.ngem + w.norbpair]).foldlM (w.derivStep cols o.2) out

/-- `_olp_deriv(sd)` — rank2_approx.py:252-272. -/
noncomputable def APr2G.olpDeriv (w : APr2G) (sd : ℕ) : Except PyErr (ℕ → ℝ) := do
  let gen ← w.orbpairs (occIndices (some sd))
  gen.foldlM w.olpDerivStep fun _ => 0

/-- `get_overlap(sd, deriv)` — base.py:540. -/
noncomputable def APr2G.overlapDeriv (w : APr2G) (sd : ℕ) (deriv : List ℕ) : Except PyErr (List ℝ) := do
  let d ← w.olpDeriv sd
  deriv.mapM fun i => if i < w.ngem + 2 * w.norbpair then .ok (d i) else .error .indexError

end Fanpy.Geminal
