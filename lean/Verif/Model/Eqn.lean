import Mathlib.Data.List.Sort
import Mathlib.Algebra.Field.Basic
import Mathlib.Algebra.BigOperators.Group.List.Basic
import Verif.Model.Slater

/-!
# Model of the equations

`fanpy/eqn/utils.py`, `base.py`, `energy_oneside.py`, `energy_twoside.py`, `energy_variational.py`, `local_energy.py`,
`constraints/norm.py`, `projected.py` and `least_squares.py`.

Objects with parameters (wavefunctions, Hamiltonians, `ParamContainer`s) are numbers; the store gives the flat parameters of
each of them.  What the wavefunction and the Hamiltonian compute (overlaps, integrals and their derivatives) are arbitrary
functions of the store.  An array over the active parameters is a function of the position.  Left out: checks of Python
types, printing, saving to files; exceptions raised by the wavefunction and the Hamiltonian while they compute.  Numbers are
elements of a field: a division by zero is not an `inf` or a `nan`.
-/

namespace Fanpy.Eqn

variable {R : Type}

/-- the flat parameters of every object -/
abbrev Store (R : Type) := ℕ → List R

/-- the items of a `ComponentParameterIndices`, in order -/
abbrev Selection := List (ℕ × List ℕ)

/-- `ComponentParameterIndices.__getitem__` — utils.py:110-115 -/
def getItem (sel : Selection) (c : ℕ) : List ℕ :=
  match sel.lookup c with
  | some l => l
  | none => []

/-- the two kinds of indices -/
inductive Indices
  | bools (l : List Bool)
  | ints (l : List ℤ)

/-- `OrderedDict.__setitem__`: a key that is present keeps its place -/
def odSet (sel : Selection) (c : ℕ) (v : List ℕ) : Selection :=
  match sel with
  | [] => [(c, v)]
  | (c', v') :: r => if c' = c then (c, v) :: r else (c', v') :: odSet r c v

/-- `ComponentParameterIndices.__setitem__` of an object with `nparams` parameters — utils.py:144-183.  `ints []` is also
the empty array of any type but bool. -/
def setItem (sel : Selection) (c nparams : ℕ) : Indices → Except PyErr Selection
  | .bools l =>
    if l.length ≠ nparams then .error .valueError
    else .ok (odSet sel c ((List.range l.length).filter fun i => l.getD i false))
  | .ints l =>
    if l.dedup.length ≠ l.length then .error .valueError
    else if l.any (fun i => decide (i < 0)) || l.any (fun i => decide (i ≥ nparams)) then .error .valueError
    else .ok (odSet sel c ((l.map Int.toNat).insertionSort (· ≤ ·)))

/-- the default of `param_selection` — base.py:161-162 -/
def chosen (nparams : ℕ → ℕ) (wfn : ℕ) : Option (List (ℕ × Indices)) → List (ℕ × Indices)
  | none => [(wfn, .ints ((List.range (nparams wfn)).map fun i => Int.ofNat i))]
  | some s => s

/-- the selection of `BaseSchrodinger(wfn, ham, param_selection, optimize_orbitals)` — base.py:153-176; `nparams` gives the
numbers of parameters -/
def initSelection (nparams : ℕ → ℕ) (wfn ham wfnSpin hamSpin : ℕ) (selection : Option (List (ℕ × Indices))) (optOrbs : Bool) :
    Except PyErr Selection :=
  if wfnSpin ≠ hamSpin then .error .valueError
  else do
    let sel ← (chosen nparams wfn selection).foldlM (fun acc p => setItem acc p.1 (nparams p.1) p.2) []
    if optOrbs && decide ((getItem sel ham).length = 0) then
      setItem sel ham (nparams ham) (.ints ((List.range (nparams ham)).map fun i => Int.ofNat i))
    else return sel

/-- `indices_objective_params` — base.py:210-215 -/
def indicesObjective : Selection → ℕ → List (ℕ × List ℕ)
  | [], _ => []
  | (c, inds) :: r, count => (c, List.range' count inds.length) :: indicesObjective r (count + inds.length)

/-- `active_nparams` — base.py:274 -/
def activeNparams (sel : Selection) : ℕ := (sel.map fun p => p.2.length).sum

/-- `all_params` — base.py:239 -/
def allParams (sel : Selection) (st : Store R) : List R := sel.flatMap fun p => st p.1

/-- `active_params` — base.py:262 -/
def activeParams [Zero R] (sel : Selection) (st : Store R) : List R :=
  sel.flatMap fun p => p.2.map fun i => (st p.1).getD i 0

/-- `new_params[indices] = values` -/
def setMany (v : List R) (inds : List ℕ) (vals : List R) : List R :=
  (inds.zip vals).foldl (fun v p => v.set p.1 p.2) v

/-- the loop of `assign_params` — base.py:328-331.  `new_params` is a view of the parameters of the component: they change
even if the component refuses the new parameters (`accept`).  The result is the store afterwards and the exception, if any. -/
def assignLoop [Zero R] (accept : ℕ → List R → Option PyErr) (params : List R) (objInds : List (ℕ × List ℕ)) :
    Selection → Store R → Store R × Option PyErr
  | [], st => (st, none)
  | (c, inds) :: r, st =>
    if inds.any (fun i => decide ((st c).length ≤ i)) then (st, some .indexError)
    else
      let vals := (getItem objInds c).map fun i => params.getD i 0
      let v := setMany (st c) inds vals
      let st' := Function.update st c v
      match accept c v with
      | some e => (st', some e)
      | none => assignLoop accept params objInds r st'

/-- `assign_params(params)` — base.py:318-331 -/
def assignParams [Zero R] (accept : ℕ → List R → Option PyErr) (sel : Selection) (st : Store R) (params : List R) :
    Store R × Option PyErr :=
  let objInds := indicesObjective sel 0
  if (objInds.map fun p => p.2.length).sum ≠ params.length then (st, some .valueError)
  else assignLoop accept params objInds sel st

/-! ## What the wavefunction and the Hamiltonian compute -/

/-- a reference: determinants or a CI wavefunction -/
inductive Ref
  | sds (l : List ℕ)
  | ci (wfn : ℕ) (l : List ℕ)

/-- The wavefunction and the Hamiltonian.  `comps` are the wavefunctions of lines 373-378 and 432-437: the wavefunction itself,
and the components if it is a composite one.  `dOverlap st sd c k` is the derivative with respect to the parameter `k` of the
object `c`. -/
structure Sys (R : Type) where
  comps : List ℕ
  ham : ℕ
  accept : ℕ → List R → Option PyErr
  overlap : Store R → ℕ → R
  dOverlap : Store R → ℕ → ℕ → ℕ → R
  integral : Store R → ℕ → R
  dIntegral : Store R → ℕ → ℕ → ℕ → R
  element : Store R → ℕ → ℕ → R
  dElement : Store R → ℕ → ℕ → ℕ → R
  normalize : Store R → Ref → Store R

section
variable [Field R]

/-- `output[inds_objective] = [d(k) for k in inds_component]` -/
def writeSlice (out : ℕ → R) (objInds inds : List ℕ) (d : ℕ → R) : ℕ → R :=
  fun j => if j ∈ objInds then d (inds.getD (objInds.idxOf j) 0) else out j

/-- writing the derivatives with respect to the parameters of one object — base.py:380-385, 441-446, 448-451, 491-494 -/
def writeComp (sel : Selection) (d : ℕ → ℕ → R) (out : ℕ → R) (c : ℕ) : ℕ → R :=
  if (getItem sel c).length > 0 then writeSlice out (getItem (indicesObjective sel 0) c) (getItem sel c) (d c) else out

/-- `wrapped_get_overlap(sd, True)` — base.py:363-387 -/
def dOlp (s : Sys R) (sel : Selection) (st : Store R) (sd : ℕ) : ℕ → R :=
  s.comps.foldl (writeComp sel (s.dOverlap st sd)) fun _ => 0

/-- `wrapped_integrate_sd_wfn(sd, True)` — base.py:421-453 -/
def dInt (s : Sys R) (sel : Selection) (st : Store R) (sd : ℕ) : ℕ → R :=
  writeComp sel (s.dIntegral st sd) (s.comps.foldl (writeComp sel (s.dIntegral st sd)) fun _ => 0) s.ham

/-- `wrapped_integrate_sd_sd(sd1, sd2, True)` — base.py:489-496 -/
def dElem (s : Sys R) (sel : Selection) (st : Store R) (sd1 sd2 : ℕ) : ℕ → R :=
  writeComp sel (fun _ => s.dElement st sd1 sd2) (fun _ => 0) s.ham

/-- `np.sum(a * b)` of arrays of the same length -/
def dot (a b : List R) : R := (List.zipWith (· * ·) a b).sum

/-- `ref_sds` — base.py:576, 587-589 -/
def Ref.dets : Ref → List ℕ
  | .sds l => l
  | .ci _ l => l

/-- `ref_coeffs` — base.py:577, 590 -/
def Ref.coeffs (s : Sys R) (st : Store R) : Ref → List R
  | .sds l => l.map (s.overlap st)
  | .ci w _ => st w

/-- column `j` of `d_ref_coeffs` — base.py:579-583, 592 -/
def Ref.dCoeffs (s : Sys R) (sel : Selection) (st : Store R) (j : ℕ) : Ref → List R
  | .sds l => l.map fun i => dOlp s sel st i j
  | .ci w _ => (List.range (st w).length).map fun i =>
      if ((getItem sel w).zip (getItem (indicesObjective sel 0) w)).contains (i, j) then 1 else 0

/-- the norm of `get_energy_one_proj` — base.py:602-606 -/
def normOne (s : Sys R) (st : Store R) (ref : Ref) : R := dot (ref.coeffs s st) (ref.dets.map (s.overlap st))

/-- its derivative — base.py:614-615 -/
def dNormOne (s : Sys R) (sel : Selection) (st : Store R) (ref : Ref) (j : ℕ) : R :=
  dot (ref.dCoeffs s sel st j) (ref.dets.map (s.overlap st)) +
    dot (ref.coeffs s st) (ref.dets.map fun i => dOlp s sel st i j)

/-- `get_energy_one_proj(refwfn)` — base.py:602-612 -/
def energyOne (s : Sys R) (st : Store R) (ref : Ref) : R :=
  dot (ref.coeffs s st) (ref.dets.map (s.integral st)) / normOne s st ref

/-- `get_energy_one_proj(refwfn, True)` — base.py:614-625 -/
def dEnergyOne (s : Sys R) (sel : Selection) (st : Store R) (ref : Ref) (j : ℕ) : R :=
  dot (ref.dCoeffs s sel st j) (ref.dets.map (s.integral st)) / normOne s st ref +
    dot (ref.coeffs s st) (ref.dets.map fun i => dInt s sel st i j) / normOne s st ref -
    dNormOne s sel st ref j * energyOne s st ref / normOne s st ref

/-- `np.sum(overlaps_l * ci_matrix * overlaps_r)` — base.py:734 -/
def sumTwo (l r : List ℕ) (f : ℕ → ℕ → R) : R := (l.map fun i => (r.map fun j => f i j).sum).sum

/-- the norm of `get_energy_two_proj` — base.py:727-730 -/
def normTwo (s : Sys R) (st : Store R) (pn : List ℕ) : R := (pn.map fun i => s.overlap st i ^ 2).sum

/-- `get_energy_two_proj(pspace_l, pspace_r, pspace_norm)` — base.py:691-734 -/
def energyTwo (s : Sys R) (st : Store R) (l : List ℕ) (r n : Option (List ℕ)) : R :=
  sumTwo l (r.getD l) (fun i j => s.overlap st i * s.element st i j * s.overlap st j) / normTwo s st (n.getD l)

/-- `get_energy_two_proj(pspace_l, pspace_r, pspace_norm, True)` — base.py:736-761 -/
def dEnergyTwo (s : Sys R) (sel : Selection) (st : Store R) (l : List ℕ) (r n : Option (List ℕ)) (k : ℕ) : R :=
  let pr := r.getD l
  let norm := normTwo s st (n.getD l)
  let dNorm := 2 * ((n.getD l).map fun i => s.overlap st i * dOlp s sel st i k).sum
  sumTwo l pr (fun i j => dOlp s sel st i k * s.element st i j * s.overlap st j) / norm +
    sumTwo l pr (fun i j => s.overlap st i * dElem s sel st i j k * s.overlap st j) / norm +
    sumTwo l pr (fun i j => s.overlap st i * s.element st i j * dOlp s sel st j k) / norm -
    dNorm * sumTwo l pr (fun i j => s.overlap st i * s.element st i j * s.overlap st j) / norm ^ 2

/-! ## Objectives -/

/-- `if assign: self.assign_params(params)` -/
def assignIf (s : Sys R) (sel : Selection) (assign : Bool) (st : Store R) (params : List R) : Except PyErr (Store R) :=
  if assign then
    match assignParams s.accept sel st params with
    | (st', none) => .ok st'
    | (_, some e) => .error e
  else .ok st

/-- `if normalize and hasattr(self.wfn, "normalize"): self.wfn.normalize(self.refwfn)` -/
def normalizeIf (s : Sys R) (normalize : Bool) (st : Store R) (ref : Ref) : Store R :=
  if normalize then s.normalize st ref else st

/-- `EnergyOneSideProjection.objective(params, assign, normalize)` — energy_oneside.py:258-292; the flags are `True` and
`False` by default -/
def oneObjective (s : Sys R) (sel : Selection) (ref : Ref) (st : Store R) (params : List R) (assign : Bool := true)
    (normalize : Bool := false) : Except PyErr (Store R × R) := do
  let st ← assignIf s sel assign st params
  let st := normalizeIf s normalize st ref
  return (st, energyOne s st ref)

/-- `EnergyOneSideProjection.gradient(params, assign, normalize)` — energy_oneside.py:294-329; both flags are `True` by
default -/
def oneGradient (s : Sys R) (sel : Selection) (ref : Ref) (st : Store R) (params : List R) (assign : Bool := true)
    (normalize : Bool := true) : Except PyErr (Store R × (ℕ → R)) := do
  let st ← assignIf s sel assign st params
  let st := normalizeIf s normalize st ref
  return (st, dEnergyOne s sel st ref)

/-- `EnergyTwoSideProjection.objective(params)` — energy_twoside.py:274-288 -/
def twoObjective (s : Sys R) (sel : Selection) (l : List ℕ) (r n : Option (List ℕ)) (st : Store R) (params : List R) :
    Except PyErr (Store R × R) := do
  let st ← assignIf s sel true st params
  return (st, energyTwo s st l r n)

/-- `EnergyTwoSideProjection.gradient(params)` — energy_twoside.py:304-316 -/
def twoGradient (s : Sys R) (sel : Selection) (l : List ℕ) (r n : Option (List ℕ)) (st : Store R) (params : List R) :
    Except PyErr (Store R × (ℕ → R)) := do
  let st ← assignIf s sel true st params
  return (st, dEnergyTwo s sel st l r n)

/-- `EnergyVariational`: the same space three times — energy_variational.py:188 -/
def varObjective (s : Sys R) (sel : Selection) (p : List ℕ) (st : Store R) (params : List R) : Except PyErr (Store R × R) :=
  twoObjective s sel p (some p) (some p) st params

/-- `LocalEnergy.objective(params)` — local_energy.py:193-209 -/
def localObjective (s : Sys R) (sel : Selection) (p : List ℕ) (st : Store R) (params : List R) : Except PyErr (Store R × R) := do
  let st ← assignIf s sel true st params
  return (st, (p.map fun i => s.integral st i / s.overlap st i).sum)

/-- `LocalEnergy.gradient(params)` — local_energy.py:227-246 -/
def localGradient (s : Sys R) (sel : Selection) (p : List ℕ) (st : Store R) (params : List R) :
    Except PyErr (Store R × (ℕ → R)) := do
  let st ← assignIf s sel true st params
  return (st, fun j => (p.map fun i =>
    dInt s sel st i j / s.overlap st i - s.integral st i / s.overlap st i ^ 2 * dOlp s sel st i j).sum)

/-- `NormConstraint.objective(params)` — norm.py:135-150 -/
def normObjective (s : Sys R) (sel : Selection) (ref : Ref) (st : Store R) (params : List R) : Except PyErr (Store R × R) := do
  let st ← assignIf s sel true st params
  return (st, normOne s st ref - 1)

/-- `NormConstraint.gradient(params)` — norm.py:179-208 -/
def normGradient (s : Sys R) (sel : Selection) (ref : Ref) (st : Store R) (params : List R) :
    Except PyErr (Store R × (ℕ → R)) := do
  let st ← assignIf s sel true st params
  return (st, dNormOne s sel st ref)

/-! ## The projected Schrödinger equation -/

/-- a constraint: `objective` and `gradient` of another equation -/
structure Cons (R : Type) where
  objective : Store R → List R → Except PyErr (Store R × R)
  gradient : Store R → List R → Except PyErr (Store R × (ℕ → R))

/-- `NormConstraint` as a constraint -/
def normCons (s : Sys R) (sel : Selection) (ref : Ref) : Cons R := ⟨normObjective s sel ref, normGradient s sel ref⟩

/-- `energy_type` -/
inductive EnergyType
  | fixed | variable | compute
deriving DecidableEq

/-- `ProjectedSchrodinger`; `energy` is the number of the `ParamContainer` -/
structure Proj (R : Type) where
  sys : Sys R
  sel : Selection
  pspace : List ℕ
  ref : Ref
  energyType : EnergyType
  energy : ℕ
  cons : List (Cons R)
  weights : List R

/-- `num_eqns` of `ProjectedSchrodinger` (every constraint is one equation) — projected.py:280 -/
def Proj.numEqns (p : Proj R) : ℕ := p.pspace.length + p.cons.length

/-- the default weights — projected.py:427-430 -/
def defaultWeights (nproj ncons : ℕ) : List R := List.replicate nproj 1 ++ List.replicate ncons (nproj : R)

/-- `assign_eqn_weights(eqn_weights)` — projected.py:427-439 -/
def assignWeights (nproj ncons : ℕ) : Option (List R) → Except PyErr (List R)
  | none => .ok (defaultWeights nproj ncons)
  | some w => if w.length ≠ nproj + ncons then .error .valueError else .ok w

/-- the energy and the store after it is kept — projected.py:470-486 and 591-611 -/
def Proj.energyOf (p : Proj R) (st : Store R) : R × Store R :=
  match p.energyType with
  | .compute => let e := energyOne p.sys st p.ref; (e, Function.update st p.energy [e])
  | _ => ((st p.energy).getD 0 0, st)

/-- `np.hstack([cons.objective(params) for cons in self.constraints])`; `f` is the objective or the gradient -/
def runCons {α : Type} (f : Cons R → Store R → List R → Except PyErr (Store R × α)) (params : List R) :
    List (Cons R) → Store R → Except PyErr (Store R × List α)
  | [], st => .ok (st, [])
  | c :: cs, st => do
    let (st, v) ← f c st params
    let (st, vs) ← runCons f params cs st
    return (st, v :: vs)

/-- `ProjectedSchrodinger.objective(params, assign, normalize)` — projected.py:455-516; both flags are `True` by default -/
def Proj.objective (p : Proj R) (st : Store R) (params : List R) (assign : Bool := true) (normalize : Bool := true) :
    Except PyErr (Store R × List R) := do
  let st ← assignIf p.sys p.sel assign st params
  let st := normalizeIf p.sys normalize st p.ref
  let (e, st) := p.energyOf st
  let obj := p.pspace.map fun i => p.sys.integral st i - e * p.sys.overlap st i
  let (st, cons) ← runCons Cons.objective params p.cons st
  return (st, List.zipWith (· * ·) (obj ++ cons) p.weights)

/-- the derivative of the energy — projected.py:587-610 -/
def Proj.dEnergy (p : Proj R) (st : Store R) (j : ℕ) : R :=
  match p.energyType with
  | .compute => (dot (p.ref.dCoeffs p.sys p.sel st j) (p.ref.dets.map (p.sys.integral st)) +
      dot (p.ref.coeffs p.sys st) (p.ref.dets.map fun i => dInt p.sys p.sel st i j) -
      dNormOne p.sys p.sel st p.ref j * energyOne p.sys st p.ref) / normOne p.sys st p.ref
  | _ => if (getItem p.sel p.energy).length > 0 ∧ j ∈ getItem (indicesObjective p.sel 0) p.energy then 1 else 0

/-- `ProjectedSchrodinger.jacobian(params, assign, normalize)` — projected.py:549-633; both flags are `False` by default.  A row
is a function of the position of the active parameter. -/
def Proj.jacobian (p : Proj R) (st : Store R) (params : List R) (assign : Bool := false) (normalize : Bool := false) :
    Except PyErr (Store R × List (ℕ → R)) := do
  let st ← assignIf p.sys p.sel assign st params
  let st := normalizeIf p.sys normalize st p.ref
  let dE := p.dEnergy st
  let (e, st) := p.energyOf st
  let jac := p.pspace.map fun i j =>
    dInt p.sys p.sel st i j - e * dOlp p.sys p.sel st i j - dE j * p.sys.overlap st i
  let (st, cons) ← runCons Cons.gradient params p.cons st
  return (st, List.zipWith (fun f w => fun j => f j * w) (jac ++ cons) p.weights)

/-! ## Least squares -/

/-- What `LeastSquaresEquations` changes outside of the store: whether the class has the property of `ProjectedSchrodinger` in
place of its own `num_eqns`, and `step_print`. -/
structure Ls (R : Type) where
  patched : Bool
  stepPrint : Bool
  store : Store R

/-- `LeastSquaresEquations.num_eqns` -/
def Ls.numEqns (p : Proj R) (s : Ls R) : ℕ := if s.patched then p.numEqns else 1

/-- `LeastSquaresEquations.objective(params)` — least_squares.py:175-183.  The state afterwards and the result.  Simplified: after a
failure the parameters are those before the call (`assignParams` says what is left of an assignment that fails). -/
def Ls.objective (p : Proj R) (s : Ls R) (params : List R) : Ls R × Except PyErr R :=
  match p.objective s.store params with
  | .error e => ({ s with patched := true, store := s.store }, .error e)
  | .ok (st, v) => ({ s with store := st }, .ok (v.map fun x => x ^ 2).sum)

/-- `LeastSquaresEquations.gradient(params)` — least_squares.py:227-252 -/
def Ls.gradient (p : Proj R) (s : Ls R) (params : List R) : Ls R × Except PyErr (ℕ → R) :=
  let bad : Ls R := { s with patched := true, stepPrint := false }
  match p.objective s.store params with
  | .error e => (bad, .error e)
  | .ok (st, _) =>
    match p.objective st params with
    | .error e => ({ bad with store := st }, .error e)
    | .ok (st, v) =>
      match p.jacobian st params with
      | .error e => ({ bad with store := st }, .error e)
      | .ok (st, jac) => ({ s with store := st }, .ok fun j => 2 * (List.zipWith (fun x f => x * f j) v jac).sum)

end

end Fanpy.Eqn
