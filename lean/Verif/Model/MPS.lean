import Verif.Model.CI

/-!
# Model of the matrix product state

`fanpy/wfn/network/mps.py`.  Left out: checks of Python types, the memory, `add_noise` and the cache (`assign_params` clears
it).  The one-dimensional array of parameters is a function of the index, with its size in `nparams` (`assign_params` of
the base class does not check the size).
-/

namespace Fanpy.MPS
open Fanpy.Slater

variable {R : Type} [Field R]

structure Wfn (R : Type) where
  nelec : ℕ
  nspin : ℕ
  dimension : ℕ
  nparams : ℕ
  params : ℕ → R

/-- `nspatial` — wfn/base.py:99 -/
def Wfn.nspatial (w : Wfn R) : ℕ := w.nspin / 2

/-- A two-dimensional array. -/
structure Mat (R : Type) where
  nrow : ℕ
  ncol : ℕ
  entry : ℕ → ℕ → R

/-- `assign_dimension(dimension)` — mps.py:127-136 -/
def assignDimension (nspin : ℕ) (dimension : Option ℕ) : Except PyErr ℕ :=
  let d := dimension.getD nspin
  if d = 0 then .error .valueError else .ok d

/-- `get_occupation_indices(sd)` — mps.py:169-175: the entries of the array, which has size `nspatial`. -/
def Wfn.occupation (w : Wfn R) (sd : ℕ) : Except PyErr (ℕ → ℕ) := do
  let (a, b) ← splitSpin sd w.nspatial
  let alpha := occIndices (some a)
  let beta := occIndices (some b)
  if alpha.any (fun i => w.nspatial ≤ i) then .error .indexError
  else if beta.any (fun i => w.nspatial ≤ i) then .error .indexError
  else .ok fun k => (if k ∈ alpha then 1 else 0) + (if k ∈ beta then 2 else 0)

/-- `get_matrix_shape(index)` — mps.py:205-215: the second and third entry of the shape, the first one is 4. -/
def Wfn.matrixShape (w : Wfn R) (index : ℕ) : Except PyErr (ℕ × ℕ) :=
  if ¬ index < w.nspatial then .error .valueError
  else if index = 0 then .ok (1, w.dimension)
  else if index < w.nspatial - 1 then .ok (w.dimension, w.dimension)
  else .ok (w.dimension, 1)

/-- `np.prod(shape)` -/
def shapeSize (s : ℕ × ℕ) : ℕ := 4 * s.1 * s.2

/-- `get_matrix_indices(index)` — mps.py:233-239 -/
def Wfn.matrixIndices (w : Wfn R) (index : ℕ) : Except PyErr (ℕ × ℕ) := do
  let s ← w.matrixShape index
  if index = 0 then return (0, shapeSize s)
  else
    let s0 ← w.matrixShape 0
    let s1 ← w.matrixShape 1
    let start := shapeSize s0 + shapeSize s1 * (index - 1)
    return (start, start + shapeSize s)

/-- `get_matrix(index)[occ, :, :]` — mps.py:255-257 for `occ < 4`.  The slice is too short for the shape if there are not
enough parameters. -/
def Wfn.matrix (w : Wfn R) (index occ : ℕ) : Except PyErr (Mat R) := do
  let (start, stop) ← w.matrixIndices index
  let s ← w.matrixShape index
  if w.nparams < stop then .error .valueError
  else return ⟨s.1, s.2, fun i j => w.params (start + (occ * (s.1 * s.2) + (i * s.2 + j)))⟩

/-- `decompose_index(param_index)` — mps.py:279-291 -/
def Wfn.decompose (w : Wfn R) (paramIndex : ℕ) : Except PyErr (ℕ × ℕ × ℕ × ℕ) := do
  let (start, stop) ← w.matrixIndices 0
  let (ind, p) ←
    if start ≤ paramIndex ∧ paramIndex < stop then Except.ok (0, paramIndex)
    else do
      let s1 ← w.matrixShape 1
      let ind := (paramIndex - stop) / shapeSize s1 + 1
      let m ← w.matrixIndices ind
      Except.ok (ind, paramIndex - m.1)
  let s ← w.matrixShape ind
  if shapeSize s ≤ p then .error .valueError
  else return (ind, p / (s.1 * s.2), p % (s.1 * s.2) / s.2, p % (s.1 * s.2) % s.2)

/-- `a.dot(b)` -/
def Mat.dot (a b : Mat R) : Except PyErr (Mat R) :=
  if a.ncol ≠ b.nrow then .error .valueError
  else .ok ⟨a.nrow, b.ncol, fun i j => ((List.range a.ncol).map fun k => a.entry i k * b.entry k j).sum⟩

/-- `a.item()` -/
def Mat.item (a : Mat R) : Except PyErr R := if a.nrow * a.ncol ≠ 1 then .error .valueError else .ok (a.entry 0 0)

/-- One iteration of the loop in `_olp` — mps.py:361. -/
def Wfn.olpStep (w : Wfn R) (occ : ℕ → ℕ) (temp : Mat R) (i : ℕ) : Except PyErr (Mat R) := do
  temp.dot (← w.matrix i (occ i))

/-- `_olp(sd)`, i.e. `get_overlap(sd)` — mps.py:357-362, 495-496 -/
def Wfn.overlap (w : Wfn R) (sd : ℕ) : Except PyErr R := do
  let occ ← w.occupation sd
  let temp ← w.matrix 0 (occ 0)
  let temp ← (List.range' 1 (w.nspatial - 1)).foldlM (w.olpStep occ) temp
  temp.item

/-- `right_temp` in `_olp_deriv_block` — mps.py:435-442 -/
def Wfn.rightTemp (w : Wfn R) (occ : ℕ → ℕ) (k : ℕ) : Except PyErr (Option (Mat R)) := do
  if k < w.nspatial - 1 then
    let r ← w.matrix (k + 1) (occ (k + 1))
    return some (← (List.range' (k + 2) (w.nspatial - (k + 2))).foldlM (w.olpStep occ) r)
  else return none

/-- One iteration of the second loop in `_olp_deriv_block` — mps.py:454. -/
def Wfn.leftStep (w : Wfn R) (occ : ℕ → ℕ) (temp : Mat R) (i : ℕ) : Except PyErr (Mat R) := do
  (← w.matrix i (occ i)).dot temp

/-- `left_temp` in `_olp_deriv_block` — mps.py:447-454 -/
def Wfn.leftTemp (w : Wfn R) (occ : ℕ → ℕ) (k : ℕ) : Except PyErr (Option (Mat R)) := do
  if 0 < k then
    let l ← w.matrix (k - 1) (occ (k - 1))
    return some (← (List.range (k - 1)).reverse.foldlM (w.leftStep occ) l)
  else return none

/-- one dimension of a broadcast -/
def castDim (a b : ℕ) : Except PyErr ℕ :=
  if a = b then .ok a else if a = 1 then .ok b else if b = 1 then .ok a else .error .valueError

/-- `left * right` of two-dimensional arrays, with broadcasting -/
def Mat.times (l r : Mat R) : Except PyErr (Mat R) := do
  let m ← castDim l.nrow r.nrow
  let n ← castDim l.ncol r.ncol
  return ⟨m, n, fun i j => l.entry (if l.nrow = 1 then 0 else i) (if l.ncol = 1 then 0 else j) *
    r.entry (if r.nrow = 1 then 0 else i) (if r.ncol = 1 then 0 else j)⟩

/-- `a.T` -/
def Mat.tr (a : Mat R) : Mat R := ⟨a.ncol, a.nrow, fun i j => a.entry j i⟩

/-- `(left_temp * right_temp).T` — mps.py:458; a Python float has no attribute `T`. -/
def blockOf : Option (Mat R) → Option (Mat R) → Except PyErr (Mat R)
  | none, none => .error .attributeError
  | some l, none => .ok l.tr
  | none, some r => .ok r.tr
  | some l, some r => do return (← l.times r).tr

/-- `_olp_deriv_block(sd, ind_spatial)` — mps.py:430-458 -/
def Wfn.derivBlock (w : Wfn R) (sd k : ℕ) : Except PyErr (Mat R) := do
  let occ ← w.occupation sd
  let r ← w.rightTemp occ k
  let l ← w.leftTemp occ k
  blockOf l r

/-- the start and the length of the slice of the derivatives — mps.py:507-515 -/
def Wfn.blockSlice (w : Wfn R) (k n : ℕ) : ℕ × ℕ :=
  let D := w.dimension
  if k = 0 then (D * n, D)
  else if k < w.nspatial - 1 then (4 * D + 4 * D ^ 2 * (k - 1) + D ^ 2 * n, D ^ 2)
  else (4 * D + 4 * D ^ 2 * (k - 1) + D * n, D)

/-- `output[start:end] = np.ravel(block)` — mps.py:516; the sizes must agree or the block have one element. -/
def assignSlice (nparams : ℕ) (output : ℕ → R) (slice : ℕ × ℕ) (b : Mat R) : Except PyErr (ℕ → R) :=
  let size := min nparams (slice.1 + slice.2) - min nparams slice.1
  let val := fun i => b.entry (i / b.ncol) (i % b.ncol)
  if size = b.nrow * b.ncol then
    .ok fun i => if slice.1 ≤ i ∧ i < slice.1 + slice.2 then val (i - slice.1) else output i
  else if b.nrow * b.ncol = 1 then
    .ok fun i => if slice.1 ≤ i ∧ i < slice.1 + slice.2 then val 0 else output i
  else .error .valueError

/-- One iteration of the loop in `get_overlap` — mps.py:505-516. -/
def Wfn.derivStep (w : Wfn R) (sd : ℕ) (occ : ℕ → ℕ) (output : ℕ → R) (k : ℕ) : Except PyErr (ℕ → R) := do
  let b ← w.derivBlock sd k
  assignSlice w.nparams output (w.blockSlice k (occ k)) b

/-- the array `output` in `get_overlap(sd, deriv)` — mps.py:499-516 -/
def Wfn.derivArray (w : Wfn R) (sd : ℕ) : Except PyErr (ℕ → R) := do
  let occ ← w.occupation sd
  (List.range w.nspatial).foldlM (w.derivStep sd occ) fun _ => 0

/-- `get_overlap(sd, deriv)` — mps.py:499-517 for natural numbers in `deriv` -/
def Wfn.overlapDeriv (w : Wfn R) (sd : ℕ) (deriv : List ℕ) : Except PyErr (List R) := do
  let d ← w.derivArray sd
  deriv.mapM fun i => if i < w.nparams then .ok (d i) else .error .indexError

/-- `__init__` with given parameters — mps.py:98-100 -/
def init (nelec nspin : ℕ) (dimension : Option ℕ) (nparams : ℕ) (params : ℕ → R) : Except PyErr (Wfn R) := do
  CI.checkNelec nelec
  CI.checkNspin nspin
  let d ← assignDimension nspin dimension
  return ⟨nelec, nspin, d, nparams, params⟩

/-- The default parameters — mps.py:316-335 for a given value of `scale` (the code takes `dimension ** (-1 / nspatial)`), as
the list of the flattened matrices: the number of elements of the matrix and its entries.  `i` is the position in the
flattened `(4, rows, columns)` array. -/
def Wfn.defaultMatrix (w : Wfn R) (scale : R) (occ : ℕ → ℕ) (k : ℕ) : Except PyErr (ℕ × (ℕ → R)) := do
  let s ← w.matrixShape k
  if k = 0 then
    return (shapeSize s, fun i => if i / (s.1 * s.2) = occ 0 ∧ i % (s.1 * s.2) / s.2 = 0 then scale else 0)
  else if k < w.nspatial - 1 then
    return (shapeSize s, fun i =>
      if i / (s.1 * s.2) = occ k ∧ i % (s.1 * s.2) / s.2 = i % (s.1 * s.2) % s.2 then scale else 0)
  else return (shapeSize s, fun i => if i / (s.1 * s.2) = occ k ∧ i % (s.1 * s.2) % s.2 = 0 then scale else 0)

/-- `np.hstack` of the flattened matrices -/
def hstack (a b : ℕ × (ℕ → R)) : ℕ × (ℕ → R) := (a.1 + b.1, fun i => if i < a.1 then a.2 i else b.2 (i - a.1))

/-- `assign_params(None)` — mps.py:312-339 for at least two spatial orbitals -/
def Wfn.defaultParams (w : Wfn R) (scale : R) : Except PyErr (ℕ × (ℕ → R)) := do
  let sd ← ground w.nelec w.nspin
  let occ ← w.occupation sd
  let ms ← (List.range w.nspatial).mapM (w.defaultMatrix scale occ)
  return ms.foldl hstack (0, fun _ => 0)

end Fanpy.MPS
