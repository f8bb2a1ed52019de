import Verif.Model.Linalg
import Verif.Model.CI

/-!
# Model of the determinant-ratio wavefunction

`fanpy/wfn/quasiparticle/det_ratio.py`.  Left out: checks of Python types, the memory, `add_noise` and the cache (`assign_params` clears it).  The parameters are a list, the mask of the numerator is a
one-dimensional list of booleans.  A division by zero is a value of the field here; it is `inf` or `nan` with a warning in
the code.
-/

namespace Fanpy.DetRatio
open Fanpy.Slater Fanpy.MathTools Fanpy.Linalg

/-- The attributes of the wavefunction — det_ratio.py:92-96. -/
structure Wfn (R : Type) where
  nelec : ℕ
  nspin : ℕ
  mask : List Bool
  params : List R

variable {R : Type} [Field R]

/-- `assign_numerator_mask(numerator_mask)` — det_ratio.py:114-124: an empty mask is a `TypeError`. -/
def assignMask (mask : Option (List Bool)) : Except PyErr (List Bool) :=
  let mask := mask.getD [true, false]
  if mask.length = 0 then .error .typeError else .ok mask

/-- `DeterminantRatio(nelec, nspin, numerator_mask=mask, params=params)` — det_ratio.py:92-96. -/
def init (nelec nspin : ℕ) (mask : Option (List Bool)) (params : List R) : Except PyErr (Wfn R) := do
  CI.checkNelec nelec
  CI.checkNspin nspin
  let mask ← assignMask mask
  return ⟨nelec, nspin, mask, params⟩

/-- the matrix of the numerators of the default parameters: one in row `i` and the `i`-th occupied column of the ground state —
det_ratio.py:264-269 -/
def defaultMatrix (columns : List ℕ) (r c : ℕ) : R := if columns.getD r 0 = c then 1 else 0

/-- the matrix of the denominators: random numbers in the virtual columns, and all columns divided by their norms — det_ratio.py:271-275.
The random numbers and the norm are arguments. -/
def defaultDenominator (norm : List R → R) (rnd : ℕ → ℕ → R) (nelec : ℕ) (columns : List ℕ) (r c : ℕ) : R :=
  let column := (List.range nelec).map fun a => if c ∈ columns then defaultMatrix columns a c else rnd a c
  column.getD r 0 / norm column

/-- the default parameters — det_ratio.py:259-280 -/
def defaultParams (norm : List R → R) (rnd : ℕ → ℕ → R) (nelec nspin : ℕ) (mask : List Bool) : Except PyErr (List R) := do
  let columns := occIndices (some (← ground nelec nspin))
  return mask.flatMap fun m => (List.range nelec).flatMap fun r => (List.range nspin).map fun c =>
    if m then defaultMatrix columns r c else defaultDenominator norm rnd nelec columns r c

/-- `decompose_index(param_index)` — det_ratio.py:234-239 -/
def decomposeIndex (nelec nspin k : ℕ) : ℕ × ℕ × ℕ :=
  (k / (nelec * nspin), k % (nelec * nspin) / nspin, k % (nelec * nspin) % nspin)

/-- `matrix_size` — det_ratio.py:137-151 -/
def Wfn.size (w : Wfn R) : ℕ := w.nelec * w.nspin

/-- `get_matrix(index)` — det_ratio.py:207-214. -/
def Wfn.matrix (w : Wfn R) (index : ℕ) : Except PyErr (ℕ → ℕ → R) :=
  if ¬ index < w.mask.length then .error .valueError
  else
    let flat := (w.params.drop (index * w.size)).take w.size
    if flat.length ≠ w.size then .error .valueError
    else .ok fun r c => flat.getD (r * w.nspin + c) 0

/-- `get_columns(sd, index)` — det_ratio.py:184 -/
def getColumns (sd : ℕ) : List ℕ := occIndices (some sd)

/-- `np.linalg.det(matrix[rows][:, cols])` for a matrix of shape `(nelec, nspin)`. -/
def Wfn.det (w : Wfn R) (matrix : ℕ → ℕ → R) (rows cols : List ℕ) : Except PyErr R :=
  if cols.all (· < w.nspin) then npDet matrix rows cols else .error .indexError

/-- `np.linalg.det(self.get_matrix(i)[:, self.get_columns(sd, i)])` — det_ratio.py:303, 331 -/
def Wfn.determinant (w : Wfn R) (sd i : ℕ) : Except PyErr R := do
  w.det (← w.matrix i) (List.range w.nelec) (getColumns sd)

/-- `np.prod(determinants[mask])` — det_ratio.py:305-306, 337-338 -/
def prodMask (dets : List R) (mask : List Bool) : R := (((dets.zip mask).filter fun p => p.2).map Prod.fst).prod

/-- `_olp(sd)` — det_ratio.py:302-307 -/
def Wfn.olp (w : Wfn R) (sd : ℕ) : Except PyErr R := do
  let determinants ← (List.range w.mask.length).mapM (w.determinant sd)
  let numerator := prodMask determinants w.mask
  let denominator := prodMask determinants (w.mask.map not)
  return numerator / denominator

/-- `output[index] = value` -/
def setAt (output : List R) (index : ℕ) (value : R) : Except PyErr (List R) :=
  if index < output.length then .ok (output.set index value) else .error .indexError

/-- The value written by the inner loops — det_ratio.py:349-370. -/
def Wfn.entry (w : Wfn R) (sd m : ℕ) (matrix : ℕ → ℕ → R) (numerator denominator old : R) (row col : ℕ) :
    Except PyErr R := do
  let rows := List.range w.nelec
  let cols := getColumns sd
  let signRow : R := (-1) ^ rows.idxOf row
  let signCol : R := (-1) ^ cols.idxOf col
  let minor ← w.det matrix (rows.filter (· ≠ row)) (cols.filter (· ≠ col))
  let deriv := signRow * signCol * minor
  return if w.mask.getD m false then deriv * numerator / denominator
    else numerator / denominator * (-1) * (old ^ 2)⁻¹ * deriv

/-- One iteration of the outer loop of `_olp_deriv` — det_ratio.py:326-370. -/
def Wfn.olpDerivStep (w : Wfn R) (sd : ℕ) (output : List R) (m : ℕ) : Except PyErr (List R) := do
  let determinants ← ((List.range w.mask.length).filter (· ≠ m)).mapM (w.determinant sd)
  let newMask := w.mask.eraseIdx m
  let numerator := prodMask determinants newMask
  let denominator := prodMask determinants (newMask.map not)
  let matrix ← w.matrix m
  let old ← w.det matrix (List.range w.nelec) (getColumns sd)
  ((List.range w.nelec).flatMap fun r => (getColumns sd).map fun c => (r, c)).foldlM (fun out rc => do
    let v ← w.entry sd m matrix numerator denominator old rc.1 rc.2
    setAt out (m * w.size + rc.1 * w.nspin + rc.2) v) output

/-- `_olp_deriv(sd)` — det_ratio.py:324-371 -/
def Wfn.olpDeriv (w : Wfn R) (sd : ℕ) : Except PyErr (List R) :=
  (List.range w.mask.length).foldlM (w.olpDerivStep sd) (List.replicate w.params.length 0)

/-- `get_overlap(sd)` — det_ratio.py:401-412 -/
def Wfn.overlap (w : Wfn R) (sd : ℕ) : Except PyErr R :=
  if totalOcc (some sd) ≠ w.nelec then .ok 0 else w.olp sd

/-- `get_overlap(sd, deriv)` — det_ratio.py:401-414: the result is a number (`inl`) or an array (`inr`). -/
def Wfn.overlapDeriv (w : Wfn R) (sd : ℕ) (deriv : List ℕ) : Except PyErr (R ⊕ List R) :=
  if totalOcc (some sd) ≠ w.nelec then .ok (.inl 0)
  else do
    let d ← w.olpDeriv sd
    return .inr (← deriv.mapM (CI.pick d))

end Fanpy.DetRatio
