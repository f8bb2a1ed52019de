import Mathlib.Analysis.SpecialFunctions.Pow.Real
import Verif.Model.Slater

/-!
# Model of the powers of symmetric matrices

`eigh` and `power_symmetric` of `fanpy/tools/math_tools.py:392-480`, which `localize` of
`fanpy/interface/pyscf_tools.py` uses to orthogonalize orbitals.

* The numbers are the reals; powers are those of the reals.
* `np.linalg.eigh` and `np.argsort` are arguments (`Numpy`); what is assumed of them is a hypothesis of the theorems
  (`Numpy.Sound` in `Verif.Props.EigPower`).
* The operator `-` on an array of booleans was the logical negation before numpy 1.13 and raises `TypeError` since then;
  the flag `minus` of `Numpy` tells which.  Fanpy requires numpy 1.25 or later (setup.py:62).
* Messages that are printed are left out.
-/

namespace Fanpy.EigPower

/-- The exceptions: those of Python and `OrthogonalizationError` — math_tools.py:386-389. -/
inductive Err where
  | py (e : PyErr)
  | orthogonalization
  deriving DecidableEq, Repr

/-- What can be given as a matrix: an array with its shape (and its entries if it is two-dimensional), or something else. -/
inductive Obj where
  | other
  | array (shape : List ℕ) (entry : ℕ → ℕ → ℝ)

/-- The functions of numpy that are used. -/
structure Numpy where
  /-- is `-` defined for arrays of booleans? -/
  minus : Bool
  /-- `np.linalg.eigh(matrix)`: the eigenvalues, and the matrix with the eigenvectors in its columns -/
  eigh : ℕ → (ℕ → ℕ → ℝ) → (ℕ → ℝ) × (ℕ → ℕ → ℝ)
  /-- `np.argsort(l, kind="quicksort")` -/
  argsort : List ℝ → List ℕ

/-- the checks of the type and the shape — math_tools.py:420-423, 471-474; the result is the dimension and the entries -/
def checkSquare : Obj → Except Err (ℕ × (ℕ → ℕ → ℝ))
  | .other => .error .orthogonalization
  | .array [m, n] a => if m ≠ n then .error .orthogonalization else .ok (m, a)
  | .array _ _ => .error .orthogonalization

/-- `np.sum(-kept_indices)` — math_tools.py:427 -/
def countDiscarded (np : Numpy) (kept : List Bool) : Except Err ℕ :=
  if np.minus then .ok (kept.count false) else .error (.py .typeError)

/-- `eigval[kept_indices]`, `eigvec[:, kept_indices]` — math_tools.py:437: the indices that are kept -/
noncomputable def keptIndices (n : ℕ) (eigval : ℕ → ℝ) (threshold : ℝ) : List ℕ :=
  (List.range n).filter fun i => decide (threshold < |eigval i|)

/-- `eigh(matrix, threshold)` — math_tools.py:420-440: the list of the eigenvalues with their eigenvectors. -/
noncomputable def eigh (np : Numpy) (matrix : Obj) (threshold : ℝ) : Except Err (List (ℝ × (ℕ → ℝ))) := do
  let (n, a) ← checkSquare matrix
  let e := np.eigh n a
  let _ ← countDiscarded np ((List.range n).map fun i => decide (threshold < |e.1 i|))
  let kept := keptIndices n e.1 threshold
  let sorted := (np.argsort (kept.map e.1)).reverse
  return sorted.map fun s => (e.1 (kept.getD s 0), fun r => e.2 r (kept.getD s 0))

/-- the check of the symmetry — math_tools.py:475-476; `np.max` of an empty array raises `ValueError` -/
def checkSymm (n : ℕ) (a : ℕ → ℕ → ℝ) (threshold : ℝ) [Decidable (∃ r < n, ∃ c < n, threshold < |a c r - a r c|)] :
    Except Err Unit :=
  if n = 0 then .error (.py .valueError)
  else if ∃ r < n, ∃ c < n, threshold < |a c r - a r c| then .error .orthogonalization
  else .ok ()

open Classical in
/-- `power_symmetric(matrix, k, threshold_eig, threshold_symm)` — math_tools.py:471-480: the entries of the power. -/
noncomputable def powerSymmetric (np : Numpy) (matrix : Obj) (k : ℝ) (thresholdEig thresholdSymm : ℝ) :
    Except Err (ℕ → ℕ → ℝ) := do
  let (n, a) ← checkSquare matrix
  checkSymm n a thresholdSymm
  let e ← eigh np matrix thresholdEig
  if (¬ ∃ z : ℤ, k = z) ∧ ∃ p ∈ e, p.1 < 0 then .error .orthogonalization
  else return fun r c => (e.map fun p => p.2 r * p.1 ^ k * p.2 c).sum

end Fanpy.EigPower
