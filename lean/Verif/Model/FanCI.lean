import Mathlib.Algebra.BigOperators.Group.List.Basic
import Mathlib.Algebra.Field.Rat
import Mathlib.Algebra.Order.Field.Basic
import Mathlib.Data.Rat.Floor
import Verif.Model.Eqn
import Verif.Model.Slater

/-!
# Model of the FanCI interface

`fanpy/interface/fanci/utils.py`, the objective `ProjectedSchrodingerFanCI` of
`fanpy/interface/fanci/legacy.py` and the mask that `fanpy/interface/pyci.py` builds.  Citations of
`pyci.py` without a directory are of `fanpy/interface/fanci/pyci.py`, which repeats these functions
on top of the class `FanCI` of PyCI (not part of the repository).

PyCI is not part of the repository: the sparse operator `ci_op` is an arbitrary matrix and the
determinants of the `S` space are an arbitrary list whose first `nproj` entries are the `P` space.
What the Fanpy wavefunction computes is an arbitrary function of the parameters.  An assignment of
parameters that the component refuses is not modelled, nor is printing and saving.
-/

namespace Fanpy.FanCI

open Fanpy.Eqn

/-! ## Determinants -/

/-- the array of occupied orbitals that PyCI gives: rows of alpha and beta orbitals, or rows of
doubly occupied spatial orbitals.  Arrays of booleans are not modelled. -/
inductive Occs
  | fci (rows : List (List ℕ × List ℕ))
  | doci (rows : List (List ℕ))

/-- the determinant of one row of a full CI array — utils.py:33-34 -/
def fciSd (nspatial : ℕ) (row : List ℕ × List ℕ) : Option ℕ :=
  Slater.create (Slater.create (some 0) row.1) (row.2.map (· + nspatial))

/-- the determinant of one row of a DOCI array — utils.py:40-41 -/
def dociSd (nspatial : ℕ) (row : List ℕ) : Option ℕ :=
  Slater.create (Slater.create (some 0) row) (row.map (· + nspatial))

/-- `convert_pyci_occs_to_fanpy_sds(occs_array, nspatial)` — utils.py:26-43.  The test of line 27
reads the entry `[0, 0]`, which fails for an array without rows, and for a two-dimensional array
without columns. -/
def convert (nspatial : ℕ) : Occs → Except PyErr (List (Option ℕ))
  | .fci [] => .error .indexError
  | .fci rows => .ok (rows.map (fciSd nspatial))
  | .doci [] => .error .indexError
  | .doci ([] :: _) => .error .indexError
  | .doci rows => .ok (rows.map (dociSd nspatial))

/-! ## Chunks of the S space -/

/-- the loop `for s_chunk in range(0, size, chunk)` — legacy.py:1596-1599, pyci.py:924-927 -/
def chunkLoop (size chunk : ℕ) : ℕ → ℕ → List (ℕ × ℕ)
  | 0, _ => []
  | fuel + 1, s => if s < size then (s, min size (s + chunk)) :: chunkLoop size chunk fuel (s + chunk) else []

/-- `calculate_overlap_deriv_chunks()` — legacy.py:1588-1601, pyci.py:916-929.  `avail` is
`(max_memory - current_memory()) * 0.9`. -/
def chunks (size : ℕ) (avail : ℚ) : Except PyErr (List (ℕ × ℕ)) :=
  let tensorMem : ℚ := size * 8 / 1000000
  if tensorMem = 0 then .error .zeroDivision
  else
    let chunk := min (max 1 ⌊avail / tensorMem⌋) size
    .ok (chunkLoop size chunk.toNat size 0)

/-! ## The objective -/

variable {R : Type}

/-- the constraints: `make_param_constraint`, `make_det_constraint`, `make_norm_constraint` and
functions of the user -/
inductive Constraint (R : Type)
  | param (i : ℕ) (val : R)
  | det (i : ℕ) (val : R)
  | norm
  | custom (f : List R → R) (df : List R → List R)

/-- The attributes of the objective that the equations depend on.  `product` has the components if
the wavefunction is a `ProductWavefunction`.  `overlap st sd` and `dOverlap st sd c k` are the
overlap and its derivative with respect to the parameter `k` of the component `c` when the
components have the parameters `st`.  `avail` is the memory of line 1591. -/
structure Obj (R : Type) where
  sel : Selection
  wfn : ℕ
  product : Option (List ℕ)
  mask : List Bool
  nproj : ℕ
  sds : List ℕ
  ciOp : ℕ → ℕ → R
  constraints : List (Constraint R)
  avail : ℚ
  overlap : Store R → ℕ → R
  dOverlap : Store R → ℕ → ℕ → ℕ → R

/-- the default mask of the interface — interface/pyci.py:111-119 -/
def defaultMask (nparams : ℕ → ℕ) (sel : Selection) : List Bool :=
  sel.flatMap (fun p => (List.range (nparams p.1)).map (fun i => decide (i ∈ p.2))) ++ [true]

/-- `nparam` — legacy.py:1057 -/
def nparam (o : Obj R) : ℕ := o.mask.length

/-- `nactive` — legacy.py:239, 513, 529 -/
def nactive (o : Obj R) : ℕ := o.mask.count true

/-- `nequation` — legacy.py:238 -/
def nequation (o : Obj R) : ℕ := o.nproj + o.constraints.length

/-- `mask[-1]` -/
def energyActive (o : Obj R) : Bool := o.mask.getLastD false

/-- the number of columns of the overlap derivatives, `nactive - mask[-1]` -/
def nwfn (o : Obj R) : ℕ := nactive o - (if energyActive o then 1 else 0)

section
variable [Zero R]

/-- "feed in parameters into fanpy wavefunction": `src c` are the positions of `x` that are written
to the component `c` — legacy.py:1108-1111, 1166-1169 -/
def feed (src : ℕ → List ℕ) (x : List R) : Selection → Store R → Store R
  | [], st => st
  | (c, inds) :: r, st =>
    feed src x r (Function.update st c (setMany (st c) inds ((src c).map fun i => x.getD i 0)))

/-- the parameters of the components in `compute_overlap(x, …)`: component `c` gets
`x[param_selection[c]]` — legacy.py:1108-1111, pyci.py:296-300 -/
def feedOverlap (o : Obj R) (st : Store R) (x : List R) : Store R :=
  feed (getItem o.sel) x o.sel st

/-- the parameters of the components in `compute_overlap_deriv(x, …)`: component `c` gets
`x[indices_objective_params[c]]` — legacy.py:1166-1169, pyci.py:354-358, 607-622 -/
def feedDeriv (o : Obj R) (st : Store R) (x : List R) : Store R :=
  feed (getItem (indicesObjective o.sel 0)) x o.sel st

/-- `compute_overlap(x, occs_array)` for the determinants `sds` — legacy.py:1076-1122, pyci.py:263-311 -/
def computeOverlap (o : Obj R) (st : Store R) (x : List R) (sds : List ℕ) : List R :=
  sds.map (o.overlap (feedOverlap o st x))

end

section
variable [Field R]

/-- `deriv_indices`: `np.arange(nparam - 1)[mask[:-1]]` — legacy.py:1187, pyci.py:376 -/
def derivIndices (o : Obj R) : List ℕ :=
  (List.range (nparam o - 1)).filter fun i => o.mask.getD i false

/-- one row of `compute_overlap_deriv(x, occs_array)` — legacy.py:1185-1204, pyci.py:374-393 -/
def derivRow (o : Obj R) (st : Store R) (x : List R) (sd : ℕ) : List R :=
  match o.product with
  | none => (derivIndices o).map (o.dOverlap (feedDeriv o st x) sd o.wfn)
  | some wfns =>
    (List.range (nwfn o)).map
      ((wfns.filter fun w => (o.sel.map Prod.fst).contains w).foldl
        (writeComp o.sel (o.dOverlap (feedDeriv o st x) sd)) fun _ => 0)

/-- `compute_overlap_deriv(x, occs_array)` for the determinants `sds` — legacy.py:1124-1204, pyci.py:313-393 -/
def computeOverlapDeriv (o : Obj R) (st : Store R) (x : List R) (sds : List ℕ) : List (List R) :=
  sds.map (derivRow o st x)

/-- `ci_op(vec)`, entry `m` -/
def applyOp (o : Obj R) (v : List R) (m : ℕ) : R :=
  ((List.range o.sds.length).map fun n => o.ciOp m n * v.getD n 0).sum

/-- the function of a constraint — legacy.py:277-285, 675-680, 715-720 -/
def constraintFun (o : Obj R) (st : Store R) (x : List R) : Constraint R → R
  | .param i val => if o.mask.getD i false then x.getD i 0 - val else 0
  | .det i val => (computeOverlap o st x.dropLast [o.sds.getD i 0]).getD 0 0 - val
  | .norm => ((computeOverlap o st x.dropLast o.sds).map fun c => c * c).sum - 1
  | .custom f _ => f x

/-- `compute_objective(x)` — legacy.py:531-579 -/
def computeObjective (o : Obj R) (st : Store R) (x : List R) : List R :=
  let energy := x.getLastD 0
  let ovlp := computeOverlap o st x.dropLast o.sds
  ((List.range o.nproj).map fun m => applyOp o ovlp m - ovlp.getD m 0 * energy)
    ++ o.constraints.map (constraintFun o st x)

/-- `y[: len(row)] = row` for `y = np.zeros(nactive)` -/
def padTo (n : ℕ) (row : List R) : List R := row ++ List.replicate (n - row.length) 0

/-- the loop over the chunks in the derivative of the norm — legacy.py:295-304, pyci.py:658-677 -/
def normGrad (o : Obj R) (st : Store R) (x : List R) (cs : List (ℕ × ℕ)) : List R :=
  let ovlp := computeOverlap o st x o.sds
  (List.range (nwfn o)).map fun a =>
    (cs.map fun c =>
      (((ovlp.take c.2).drop c.1).zip (computeOverlapDeriv o st x ((o.sds.take c.2).drop c.1))).map
        (fun p => 2 * p.1 * p.2.getD a 0) |>.sum).sum

/-- the derivative of a constraint — legacy.py:287-306, 682-690, 722-730 -/
def constraintGrad (o : Obj R) (st : Store R) (x : List R) : Constraint R → Except PyErr (List R)
  | .param i _ =>
    .ok (if o.mask.getD i false then (List.replicate (nactive o) 0).set ((o.mask.take i).count true) 1
      else List.replicate (nactive o) 0)
  | .det i _ => .ok (padTo (nactive o) ((computeOverlapDeriv o st x.dropLast [o.sds.getD i 0]).getD 0 []))
  | .norm => do
    let cs ← chunks o.sds.length o.avail
    .ok (padTo (nactive o) (normGrad o st x.dropLast cs))
  | .custom _ df => .ok (df x)

/-- `compute_jacobian(x)` — legacy.py:582-652; `masked_compute_jacobian` — pyci.py:510-580 -/
def computeJacobian (o : Obj R) (st : Store R) (x : List R) : Except PyErr (List (List R)) := do
  let energy := x.getLastD 0
  let dOvlp := computeOverlapDeriv o st x.dropLast o.sds
  let col (a : ℕ) : List R := dOvlp.map fun r => r.getD a 0
  let ovlp := computeOverlap o st x.dropLast (o.sds.take o.nproj)
  let proj := (List.range o.nproj).map fun m =>
    ((List.range (nwfn o)).map fun a => applyOp o (col a) m - (col a).getD m 0 * energy)
      ++ (if energyActive o then [ovlp.getD m 0 * -1] else [])
  let cons ← o.constraints.mapM (constraintGrad o st x)
  return proj ++ cons

/-! ## Frozen parameters and the optimizer -/

/-- `y = np.copy(x_ref); y[mask] = x` — legacy.py:759-760, pyci.py:681-710 -/
def scatter : List Bool → List R → List R → List R
  | true :: m, _ :: r, a :: z => a :: scatter m r z
  | false :: m, b :: r, z => b :: scatter m r z
  | _, r, _ => r

/-- `x0[mask]` — legacy.py:1431 -/
def gather : List Bool → List R → List R
  | true :: m, a :: r => a :: gather m r
  | false :: m, _ :: r => gather m r
  | _, _ => []

/-- the modes of `optimize` -/
inductive Mode
  | lstsq
  | root
  | other
  deriving DecidableEq

/-- The functions and the guess that `optimize(x0, mode)` gives to the optimizer of scipy —
legacy.py:1411-1464, pyci.py:712-797. -/
def optimizeArgs (o : Obj R) (st : Store R) (x0 : List R) (mode : Mode) :
    Except PyErr ((List R → List R) × (List R → Except PyErr (List (List R))) × List R) :=
  if x0.length ≠ nparam o then .error .valueError
  else
    let args : (List R → List R) × (List R → Except PyErr (List (List R))) × List R :=
      if nactive o < nparam o then
        (fun z => computeObjective o st (scatter o.mask x0 z),
          fun z => computeJacobian o st (scatter o.mask x0 z), gather o.mask x0)
      else (computeObjective o st, computeJacobian o st, x0)
    match mode with
    | .lstsq => .ok args
    | .root => if nequation o ≠ nactive o then .error .valueError else .ok args
    | .other => .error .valueError

/-- `results["energy"]` from the solution `results.x` of the optimizer — legacy.py:1467 -/
def resultEnergy (z : List R) : R := z.getLastD 0

end

end Fanpy.FanCI
