import Verif.Model.EqnInit

/-!
# Model of the end of the constructor of `ProjectedSchrodinger`, and of that of `EnergyConstraint`

`LeastSquaresEquations` (eqn/least_squares.py) has no constructor of its own: it is that of `ProjectedSchrodinger`.
-/

namespace Fanpy.Eqn

variable {R : Type}

/-- the argument `eqn_weights`: `None`, an array with its shape and entries, something else -/
inductive WeightArg (R : Type)
  | none
  | array (shape : List ℕ) (data : List R)
  | other

/-- `assign_eqn_weights(eqn_weights)` with constraints of any number of equations — projected.py:427-439 -/
def weightsOf [NatCast R] [One R] [Mul R] (nproj : ℕ) (cons : List Con) : WeightArg R → Except PyErr (List R)
  | .none =>
    let ones : List R := List.replicate (nproj + (cons.map Con.numEqns).sum) 1
    .ok (ones.take nproj ++ (ones.drop nproj).map fun x => x * (nproj : R))
  | .other => .error .typeError
  | .array shape data => if shape ≠ [nproj + (cons.map Con.numEqns).sum] then .error .valueError else .ok data

/-- the constructor with its last line — projected.py:240-268 -/
def projFull [NatCast R] [One R] [Mul R] (E : Env) (sel : SelArg) (optOrbs : Bool) (pspace : SpaceArg) (excOrders : Option (List ℕ))
    (refwfn : SpaceArg) (kind : EnergyKind) (energyNumber : Bool) (cons : ConsArg) (weights : WeightArg R) (h : Heap) :
    Heap × Except PyErr (ProjObj × List R) :=
  match projInit E sel optOrbs pspace excOrders refwfn kind energyNumber cons h with
  | (h, .error e) => (h, .error e)
  | (h, .ok o) =>
    match weightsOf o.pspace.length o.cons weights with
    | .error e => (h, .error e)
    | .ok w => (h, .ok (o, w))

/-- `EnergyOneSideProjection(wfn, ham, param_selection, optimize_orbitals, refwfn=refwfn)` — energy_oneside.py:158-167 -/
def oneInit (E : Env) (sel : SelArg) (optOrbs : Bool) (refwfn : SpaceArg) (h : Heap) : Heap × Except PyErr (ℕ × RefVal) :=
  match baseInit E sel optOrbs h with
  | (h, .error e) => (h, .error e)
  | (h, .ok d) =>
    match oneRefwfn E.space refwfn with
    | .error e => (h, .error e)
    | .ok r => (h, .ok (d, r))

/-- the attributes of an `EnergyConstraint` that its constructor sets: selection, reference, reference energy, history of differences -/
structure EnergyCon (R : Type) where
  dict : ℕ
  ref : RefVal
  refEnergy : R
  history : List R

/-- `EnergyConstraint(wfn, ham, param_selection=..., refwfn=..., ref_energy=...)` — constraints/energy.py:76-83: the reference is assigned twice -/
def energyConInit (E : Env) (sel : SelArg) (refwfn : SpaceArg) (refEnergy : R) (h : Heap) : Heap × Except PyErr (EnergyCon R) :=
  match oneInit E sel false refwfn h with
  | (h, .error e) => (h, .error e)
  | (h, .ok (d, _)) =>
    match oneRefwfn E.space refwfn with
    | .error e => (h, .error e)
    | .ok r => (h, .ok ⟨d, r, refEnergy, []⟩)

end Fanpy.Eqn
