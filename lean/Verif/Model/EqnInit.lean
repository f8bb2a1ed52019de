import Verif.Model.Eqn
import Verif.Model.SdList

/-!
# Model of the constructors of the equations

`EnergyOneSideProjection.assign_refwfn`, `EnergyTwoSideProjection.assign_pspaces`, `EnergyVariational.assign_pspace`,
`LocalEnergy.assign_pspace`, `BaseSchrodinger.__init__`, `NormConstraint.__init__` and `ProjectedSchrodinger.__init__` with the methods it
calls.

A `ComponentParameterIndices` is an object that equations can share: the heap has all of them, and an equation has the number of one.
Wavefunctions, Hamiltonians and `ParamContainer`s are numbers, as in `Verif.Model.Eqn`.  Determinants are natural numbers.  Left out: types
of the wavefunction, Hamiltonian, file name and weights; the value of the energy.
-/

namespace Fanpy.Eqn
open Fanpy.Slater

/-- an entry of a list: a determinant, a `CIWavefunction`, something else -/
inductive Item
  | sd (m : ℕ)
  | ci (wfn : ℕ)
  | other
  deriving DecidableEq

/-- a projection space or reference that is given: `None`, a determinant, a list or tuple, a `CIWavefunction` with its `nelec` and `nspin`,
something else -/
inductive SpaceArg
  | none
  | sd (m : ℕ)
  | list (l : List Item)
  | ci (wfn nelec nspin : ℕ)
  | other

/-- a reference that is stored -/
inductive RefVal
  | sds (l : List ℕ)
  | ci (wfn nelec nspin : ℕ)
  deriving DecidableEq

/-- the attributes `nelec`, `nspin`, `spin` (twice) and `seniority` of the wavefunction -/
structure Space where
  nelec : ℕ
  nspin : ℕ
  twoSpin : Option ℤ
  seniority : Option ℤ

/-- the test of one entry — energy_oneside.py:224-240, energy_twoside.py:229-240 -/
def checkItem (s : Space) : Item → Except PyErr ℕ
  | .sd m =>
    if (occIndices (some m)).length ≠ s.nelec then .error .valueError
    else if (occIndices (some m)).any fun i => decide (i ≥ s.nspin) then .error .valueError
    else .ok m
  | _ => .error .typeError

/-- `EnergyOneSideProjection.assign_refwfn(refwfn)` — energy_oneside.py:211-256 -/
def oneRefwfn (s : Space) : SpaceArg → Except PyErr RefVal
  | .none => do
    let l ← SdList.sdList s.nelec s.nspin none none s.twoSpin s.seniority false
    return .sds l
  | .sd m => do
    let l ← [Item.sd m].mapM (checkItem s)
    return .sds l
  | .list l => do
    let l ← l.mapM (checkItem s)
    return .sds l
  | .ci wfn nelec nspin =>
    if nelec ≠ s.nelec then .error .valueError
    else if nspin ≠ s.nspin then .error .valueError
    else .ok (.ci wfn nelec nspin)
  | .other => .error .typeError

/-- the loop over the spaces — energy_twoside.py:223-244 -/
def twoSpace (s : Space) : SpaceArg → Except PyErr (Option (List ℕ))
  | .none => .ok none
  | .list l => do
    let l ← l.mapM (checkItem s)
    return some l
  | _ => .error .typeError

/-- the default of a space: all determinants — energy_twoside.py:220-221, energy_variational.py:186-187 -/
def defaultSpace (s : Space) : SpaceArg → Except PyErr SpaceArg
  | .none => do
    let d ← SdList.sdList s.nelec s.nspin none none s.twoSpin s.seniority false
    return .list (d.map Item.sd)
  | p => .ok p

/-- `EnergyTwoSideProjection.assign_pspaces(pspace_l, pspace_r, pspace_n)` — energy_twoside.py:220-244 -/
def twoPspaces (s : Space) (l r n : SpaceArg) : Except PyErr (List ℕ × Option (List ℕ) × Option (List ℕ)) := do
  let l ← defaultSpace s l
  let l ← twoSpace s l
  let r ← twoSpace s r
  let n ← twoSpace s n
  return (l.getD [], r, n)

/-- `EnergyVariational.assign_pspace(pspace)` — energy_variational.py:186-188 -/
def varPspace (s : Space) (p : SpaceArg) : Except PyErr (List ℕ × Option (List ℕ) × Option (List ℕ)) := do
  let p ← defaultSpace s p
  twoPspaces s p p p

/-- whether an entry is a determinant — slater.py:99 -/
def isSd : Item → Bool
  | .sd _ => true
  | _ => false

/-- `LocalEnergy.assign_pspace(pspace)` — local_energy.py:170-175 -/
def localPspace (s : Space) (p : SpaceArg) : Except PyErr RefVal :=
  match p with
  | .none => oneRefwfn s .none
  | .list l => if l.all isSd then oneRefwfn s (.list l) else .error .typeError
  | _ => .error .typeError

/-! ## `ProjectedSchrodinger` -/

/-- whether an entry is a determinant or a `CIWavefunction` -/
def isState : Item → Bool
  | .sd _ => true
  | .ci _ => true
  | .other => false

/-- `assign_pspace(pspace)` — projected.py:310-332 -/
def projPspace (s : Space) (excOrders : Option (List ℕ)) : SpaceArg → Except PyErr (List Item)
  | .none => do
    let l ← SdList.sdList s.nelec s.nspin none (some (excOrders.getD [1, 2])) s.twoSpin s.seniority false
    return l.map Item.sd
  | .list l => if l.all isState then .ok l else .error .typeError
  | _ => .error .typeError

/-- the determinant of an entry -/
def Item.det : Item → ℕ
  | .sd m => m
  | _ => 0

/-- `assign_refwfn(refwfn)` — projected.py:351-368 -/
def projRefwfn (s : Space) : SpaceArg → Except PyErr RefVal
  | .none => do
    let g ← ground s.nelec s.nspin
    return .sds [g]
  | .sd m => .ok (.sds [m])
  | .list l => if l.all isSd then .ok (.sds (l.map Item.det)) else .error .typeError
  | .ci wfn nelec nspin => .ok (.ci wfn nelec nspin)
  | .other => .error .typeError

/-- all `ComponentParameterIndices`, and the number of the next new object -/
structure Heap where
  dicts : List Selection
  nextComp : ℕ

/-- the argument `param_selection`: `None`, a list of items, or a `ComponentParameterIndices` -/
inductive SelArg
  | none
  | items (l : List (ℕ × Indices))
  | dict (d : ℕ)

/-- what does not change: numbers of parameters, the wavefunction, the Hamiltonian and their numbers of spin orbitals -/
structure Env where
  nparams : ℕ → ℕ
  wfn : ℕ
  ham : ℕ
  hamSpin : ℕ
  space : Space

/-- `BaseSchrodinger.__init__(wfn, ham, param_selection, optimize_orbitals)` — base.py:153-176: the heap afterwards, and the number of the
selection or the exception -/
def baseInit (E : Env) (arg : SelArg) (optOrbs : Bool) (h : Heap) : Heap × Except PyErr ℕ :=
  match arg with
  | .dict d =>
    if E.space.nspin ≠ E.hamSpin then (h, .error .valueError)
    else
      let sel := h.dicts.getD d []
      if optOrbs && decide ((getItem sel E.ham).length = 0) then
        match setItem sel E.ham (E.nparams E.ham) (.ints ((List.range (E.nparams E.ham)).map fun i => Int.ofNat i)) with
        | .error e => (h, .error e)
        | .ok sel => ({ h with dicts := h.dicts.set d sel }, .ok d)
      else (h, .ok d)
  | arg =>
    let s := match arg with
      | .items l => some l
      | _ => none
    match initSelection E.nparams E.wfn E.ham E.space.nspin E.hamSpin s optOrbs with
    | .error e => (h, .error e)
    | .ok sel => ({ h with dicts := h.dicts ++ [sel] }, .ok h.dicts.length)

/-- a constraint: the number of its selection and its number of equations -/
structure Con where
  dict : ℕ
  numEqns : ℕ
  deriving DecidableEq

/-- the argument `constraints`: `None`, one constraint, a list or tuple (an entry that is not an equation is `none`), something else -/
inductive ConsArg
  | none
  | one (c : Con)
  | list (l : List (Option Con))
  | other

/-- `ComponentParameterIndices.__eq__` — utils.py:187-192: the keys are compared as sets -/
def eqSel (a b : Selection) : Bool :=
  (a.all fun p => (b.map Prod.fst).contains p.1) && (b.all fun p => (a.map Prod.fst).contains p.1) &&
    a.all fun p => getItem a p.1 == getItem b p.1

/-- `assign_refwfn` of `NormConstraint` for the reference of the equations — norm.py:84, 97 -/
def normRefwfn (s : Space) : RefVal → Except PyErr RefVal
  | .sds l => oneRefwfn s (.list (l.map Item.sd))
  | .ci wfn nelec nspin => oneRefwfn s (.ci wfn nelec nspin)

/-- the list of constraints before the tests — projected.py:388-391 -/
def consList (s : Space) (d : ℕ) (ref : RefVal) : ConsArg → Except PyErr (List (Option Con))
  | .none => do
    let _ ← normRefwfn s ref
    return [some ⟨d, 1⟩]
  | .one c => .ok [some c]
  | .list l => .ok l
  | .other => .error .typeError

/-- `assign_constraints(constraints)` — projected.py:388-407 -/
def assignConstraints (s : Space) (h : Heap) (d : ℕ) (ref : RefVal) (arg : ConsArg) : Except PyErr (List Con) := do
  let l ← consList s d ref arg
  if l.any Option.isNone then .error .typeError
  else if !((l.filterMap id).all fun c => eqSel (h.dicts.getD c.dict []) (h.dicts.getD d [])) then .error .valueError
  else return l.filterMap id

/-- `energy_type`: `none` is another string -/
inductive EnergyKind
  | fixed
  | variable
  | compute
  | other
  deriving DecidableEq

/-- the attributes of the equations -/
structure ProjObj where
  dict : ℕ
  pspace : List Item
  ref : RefVal
  energy : ℕ
  cons : List Con
  deriving DecidableEq

/-- `self.indices_component_params[self.energy] = [energy_type == "variable"]` — projected.py:264-265 -/
def energyItem (kind : EnergyKind) (d e : ℕ) (h : Heap) : Heap :=
  if kind = .fixed ∨ kind = .variable then
    { h with dicts := h.dicts.set d (odSet (h.dicts.getD d []) e ((List.range 1).filter fun _ => decide (kind = .variable))) }
  else h

/-- `ProjectedSchrodinger(wfn, ham, param_selection, optimize_orbitals, pspace, pspace_exc_orders, refwfn, energy_type, energy, constraints)` —
projected.py:240-267; `energyNumber` is whether the given energy is a number (or `None`) -/
def projInit (E : Env) (sel : SelArg) (optOrbs : Bool) (pspace : SpaceArg) (excOrders : Option (List ℕ)) (refwfn : SpaceArg)
    (kind : EnergyKind) (energyNumber : Bool) (cons : ConsArg) (h : Heap) : Heap × Except PyErr ProjObj :=
  match baseInit E sel optOrbs h with
  | (h, .error e) => (h, .error e)
  | (h, .ok d) =>
    match projPspace E.space excOrders pspace with
    | .error e => (h, .error e)
    | .ok ps =>
      match projRefwfn E.space refwfn with
      | .error e => (h, .error e)
      | .ok ref =>
        if !energyNumber then (h, .error .typeError)
        else if kind = .other then (h, .error .valueError)
        else
          let energy := h.nextComp
          let h := energyItem kind d energy { h with nextComp := h.nextComp + 1 }
          match assignConstraints E.space h d ref cons with
          | .error e => (h, .error e)
          | .ok cs => (h, .ok ⟨d, ps, ref, energy, cs⟩)

end Fanpy.Eqn
