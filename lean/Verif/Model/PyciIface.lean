import Mathlib.Data.Nat.Choose.Basic
import Verif.Model.FanBase
import Verif.Model.SdList

/-! Model of the class `PYCI` of fanpy/interface/pyci.py:20-351 (its constructor, the setters of the Hamiltonians and
`update_objective`), of the constructors of the two FanCI objectives as far as the interface uses them
(fanpy/interface/fanci/legacy.py:979-1074, fanpy/interface/fanci/pyci.py:156-260), of the constructor of
`ProjectedSchrodinger` as far as `update_objective` uses it (fanpy/eqn/projected.py:148-268, 370-439) and of the constructor of
`FANPT` (fanpy/fanpt/fanpt.py:86-223).

Integrals are elements of an arbitrary type `I`.  The classes of PyCI are external: a `pyci.hamiltonian` keeps the three numbers
or arrays it is given, and `pyci.sparse_op` is represented by the Hamiltonian it was built from.  The base class `FanCI` of PyCI
(of which legacy.py has a copy) is assumed to collect its constraints as the copy does.  Binomial coefficients are exact numbers
instead of floats.  Printed messages are left out. -/

namespace Fanpy.PyciIface
open Fanpy.FanCI Fanpy.FanBase Fanpy.Eqn

variable {R I : Type}

/-- `RestrictedMolecularHamiltonian(one_int, two_int)` -/
structure FHam (I : Type) where
  one : I
  two : I
  deriving DecidableEq

/-- `pyci.hamiltonian(ecore, one_mo, two_mo)` -/
structure PHam (R I : Type) where
  ecore : R
  one : I
  two : I
  deriving DecidableEq

/-- the attributes of `ProjectedSchrodinger` and of its wavefunction that are used.  `sel` is `indices_component_params`,
`consEqns` has the number of equations of every constraint, `weights` is the number of weights of equations. -/
structure Proj (I : Type) where
  nelec : ℕ
  nspin : ℕ
  seniority : Option ℤ
  ham : FHam I
  nparams : ℕ → ℕ
  sel : Selection
  pspace : List ℕ
  excOrders : Option (List ℕ)
  consEqns : List ℕ
  weights : ℕ

/-- the argument `constraints` of `ProjectedSchrodinger`: nothing, constraints of Fanpy (with their numbers of equations), or
something else, such as the dictionary of constraints of FanCI — projected.py:388-401 -/
inductive ConsArg
  | none
  | eqns (l : List ℕ)
  | other

/-- `assign_constraints(constraints)` — projected.py:388-407: the numbers of equations.  By default there is one
`NormConstraint`, of one equation (constraints/norm.py:100-109).  The test that the active parameters are the same is left out. -/
def assignConstraints : ConsArg → Except PyErr (List ℕ)
  | .none => .ok [1]
  | .eqns l => .ok l
  | .other => .error .typeError

/-- `assign_eqn_weights(weights)` — projected.py:427-439: the number of weights -/
def assignWeights (nproj : ℕ) (consEqns : List ℕ) : Option ℕ → Except PyErr ℕ
  | none => .ok (nproj + consEqns.sum)
  | some k => if k ≠ nproj + consEqns.sum then .error .valueError else .ok k

/-- the constructor of `ProjectedSchrodinger` with a given projection space — projected.py:240-268.  `e` is where the wavefunction
and the selection of parameters come from; the excitation orders of the projection space are `None` (line 249). -/
def mkEqn (e : Proj I) (ham : FHam I) (pspace : List ℕ) (weights : Option ℕ) (cons : ConsArg) : Except PyErr (Proj I) := do
  let c ← assignConstraints cons
  let w ← assignWeights pspace.length c weights
  return { e with ham := ham, pspace := pspace, excOrders := none, consEqns := c, weights := w }

/-- the argument `mask` of `PYCI`: nothing, an array of booleans, or a list (of booleans or of integers) -/
inductive MaskIn
  | none
  | array (l : List Bool)
  | bools (l : List Bool)
  | ints (l : List ℤ)

/-- how the projection space is filled, and the class of the wavefunction of PyCI — interface/pyci.py:126-131 -/
inductive Fill
  | seniority
  | excitation
  deriving DecidableEq

/-- options of the interface.  A constraint of the user is known by its name. -/
structure Opts (R : Type) where
  normDet : Option (List (ℕ × R))
  normParam : Option (List (ℕ × R))
  constraints : Option (List Name)
  maxMemory : ℚ
  legacy : Bool
  verbose : ℤ
  kwargs : List String

/-- the FanCI objective: `ham` and the Hamiltonian of its CI operator, the sizes, the mask and the names of the constraints -/
structure FanObj (R I : Type) where
  ham : PHam R I
  opHam : PHam R I
  nUp : ℕ
  nDown : ℕ
  fill : Fill
  nproj : ℕ
  nparam : ℕ
  mask : List Bool
  constraints : List Name
  kwargs : List String

/-- the interface -/
structure Iface (R I : Type) where
  eqn : Proj I
  fanpyHam : FHam I
  energyNuc : R
  pyciHam : PHam R I
  opts : Opts R
  nproj : ℕ
  nparam : ℕ
  fill : Fill
  obj : FanObj R I

/-- the name of the norm constraint — legacy.py:1060, fanci/pyci.py:246 -/
def normName : Name := .user "<\\Phi|\\Psi> - 1>"

/-- `mask` as an argument of the interface: by default from the selection of parameters, with the energy active —
interface/pyci.py:110-120 -/
def maskOf (e : Proj I) : MaskIn → MaskIn
  | .none => .array (defaultMask e.nparams e.sel)
  | m => m

/-- `len(mask)` — interface/pyci.py:123 (after `maskOf` the mask is never `None`) -/
def maskLen : MaskIn → ℕ
  | .none => 0
  | .array l => l.length
  | .bools l => l.length
  | .ints l => l.length

/-- the constraints of the objective — legacy.py:1059-1060 with 205-220, fanci/pyci.py:245-246.  The legacy class has no argument
`norm_param`, and the interface does not give it one (interface/pyci.py:262-279). -/
def objConstraints (o : Opts R) : List Name :=
  let given := match o.constraints, o.normDet with
    | none, none => [normName]
    | none, some _ => []
    | some d, _ => d
  let np := if o.legacy then [] else o.normParam.getD []
  (makeConstraints (fun _ _ => ()) (fun _ _ => ()) (given.map fun n => (n, ())) np (o.normDet.getD [])).map Prod.fst

/-- the mask of the objective: the legacy class makes it with `nparam = len(mask)` (legacy.py:1057, 223-236); the other class
takes a view `mask[...]`, which a list does not have (`TypeError`, fanci/pyci.py:229-231) -/
def objMask (legacy : Bool) (m : MaskIn) : Except PyErr (List Bool) :=
  match legacy, m with
  | true, .none => .error .typeError
  | true, .array l => makeMask l.length (.bools l)
  | true, .bools l => makeMask l.length (.bools l)
  | true, .ints l => makeMask l.length (.ints l)
  | false, .array l => .ok l
  | false, _ => .error .typeError

/-- `build_pyci_objective()` — interface/pyci.py:252-302.  The base class of the legacy objective takes no keyword beside those
that the interface gives it (legacy.py:164-175), so others are a `TypeError`. -/
def build (e : Proj I) (h : PHam R I) (o : Opts R) (fill : Fill) (nproj : ℕ) (m : MaskIn) : Except PyErr (FanObj R I) :=
  if o.legacy && !o.kwargs.isEmpty then .error .typeError
  else match objMask o.legacy m with
    | .error x => .error x
    | .ok mask => .ok
      { ham := h, opHam := h,
        nUp := match fill with | .seniority => e.nelec / 2 | .excitation => e.nelec - e.nelec / 2,
        nDown := e.nelec / 2, fill := fill, nproj := nproj, nparam := maskLen m, mask := mask,
        constraints := objConstraints o, kwargs := o.kwargs }

/-- the largest number of projections — interface/pyci.py:134-153 -/
def maxNproj (e : Proj I) (fill : Fill) : Except PyErr ℕ :=
  match e.excOrders with
  | none => .ok (match fill with
    | .seniority => (e.nspin / 2).choose (e.nelec / 2)
    | .excitation => (e.nspin / 2).choose (e.nelec - e.nelec / 2) * (e.nspin / 2).choose (e.nelec / 2))
  | some orders => (SdList.sdList e.nelec e.nspin none (some orders) (some 0) e.seniority false).map List.length

/-- `PYCI(fanpy_objective, energy_nuc, …)` — interface/pyci.py:63-163 (for an objective that is a `ProjectedSchrodinger`) -/
def construct (e : Proj I) (energyNuc : R) (o : Opts R) (mask : MaskIn) : Except PyErr (Iface R I) := do
  let h : PHam R I := ⟨energyNuc, e.ham.one, e.ham.two⟩
  let m := maskOf e mask
  let fill := if e.seniority = some 0 then Fill.seniority else .excitation
  let mx ← maxNproj e fill
  let nproj := if e.pspace.length > mx then mx else e.pspace.length
  let obj ← build e h o fill nproj m
  return ⟨e, e.ham, energyNuc, h, o, nproj, maskLen m, fill, obj⟩

/-- what is assigned to the Hamiltonians of the interface -/
inductive NewHam (R I : Type)
  | pyci (h : PHam R I)
  | fanpy (h : FHam I)
  | other

/-- `interface.pyci_ham = new_ham` — interface/pyci.py:203-226.  A Hamiltonian of Fanpy is given to the attribute `fanpy_ham` as if
it were a function (`TypeError`); anything else is ignored. -/
def setPyciHam (s : Iface R I) : NewHam R I → Except PyErr (Iface R I)
  | .pyci h => .ok { s with
      pyciHam := h, obj := { s.obj with ham := h }, energyNuc := h.ecore, fanpyHam := ⟨h.one, h.two⟩,
      eqn := { s.eqn with ham := ⟨h.one, h.two⟩ } }
  | .fanpy _ => .error .typeError
  | .other => .ok s

/-- `interface.fanpy_ham = new_ham` — interface/pyci.py:228-250 -/
def setFanpyHam (s : Iface R I) : NewHam R I → Except PyErr (Iface R I)
  | .fanpy h => .ok { s with
      fanpyHam := h, eqn := { s.eqn with ham := h }, pyciHam := ⟨s.energyNuc, h.one, h.two⟩,
      obj := { s.obj with ham := ⟨s.energyNuc, h.one, h.two⟩ } }
  | .pyci _ => .error .typeError
  | .other => .ok s

/-- `update_objective(new_ham)` — interface/pyci.py:304-351, for a Hamiltonian of PyCI or of Fanpy.  The constraints of the
interface (a dictionary, or nothing) are given to the constructor of the objective of Fanpy; `verbose` and the other keywords
are not handed on, so they get their defaults. -/
def updateObjective (s : Iface R I) (new : PHam R I ⊕ FHam I) : Except PyErr (Iface R I) := do
  let (energyNuc, ham) := match new with
    | .inl h => (h.ecore, (⟨h.one, h.two⟩ : FHam I))
    | .inr h => (s.energyNuc, h)
  let cons := match s.opts.constraints with
    | none => ConsArg.none
    | some _ => .other
  let e ← mkEqn s.eqn ham s.eqn.pspace (some s.eqn.weights) cons
  construct e energyNuc { s.opts with verbose := 4, kwargs := [] } (.array s.obj.mask)

/-- `nequation` and `nactive` of the objective — legacy.py:238-239 -/
def FanObj.nequation (o : FanObj R I) : ℕ := o.nproj + o.constraints.length
def FanObj.nactive (o : FanObj R I) : ℕ := o.mask.count true

/-- the options with which `FANPT` makes its interface — fanpt.py:145 -/
def fanptOpts (legacy : Bool) : Opts R := ⟨none, none, none, 8192, legacy, 4, []⟩

/-- the settings of a `FANPT` object that the constructor decides — fanpt.py:190-210 -/
structure Fanpt (R I : Type) where
  iface : Iface R I
  inorm : Bool
  normDet : Option (List (ℕ × R))
  steps : ℕ

/-- the constructor of `FANPT` — fanpt.py:139-223, for an index `refSd` of a determinant.  With a norm constraint on the
determinant, `remove_constraint` is called, which raises a `TypeError` (`FanBase.removeConstraint`). -/
def fanptInit [One R] (e : Proj I) (energyNuc : R) (legacy energyActive resum : Bool) (refSd steps : ℕ) (quasi : ℤ) :
    Except PyErr (Fanpt R I) := do
  let s ← construct e energyNuc (fanptOpts legacy) .none
  let inorm := decide (Name.det refSd ∈ s.obj.constraints)
  let normDet : Option (List (ℕ × R)) := if inorm then some [(refSd, 1)] else none
  let obj := { s.obj with mask := s.obj.mask.set (s.obj.mask.length - 1) energyActive }
  let s := { s with obj := obj }
  let r : Except PyErr (Bool × Option (List (ℕ × R)) × ℕ) :=
    if resum then
      if energyActive then .error .valueError
      else if !inorm && decide (obj.nequation = obj.nactive) then .ok (inorm, some [(refSd, 1)], 1)
      else if inorm && decide (obj.nequation - 1 = obj.nactive) then .error .typeError
      else .error .valueError
    else .ok (inorm, normDet, steps)
  let (inorm, normDet, steps) ← r
  if quasi ≠ 2 ∧ quasi ≠ 3 then .error .valueError
  else if quasi = 3 ∧ energyActive = false then .error .valueError
  else .ok ⟨s, inorm, normDet, steps⟩

end Fanpy.PyciIface
