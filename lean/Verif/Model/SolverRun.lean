import Verif.Model.Params

/-!
# Model of `fanpy/solver/equation.py`, `system.py`, `wrappers.py` and of `save_params` of the chemical Hamiltonians

The optimizer (of scipy or cma) is any program that asks for values of the objective, for derivatives and for the callback, and then returns a
solution (`Strat`).  What is tracked of the objective: the active parameters, the Hamiltonian, the energy of a projected equation and what was
saved by the solver.  Simplifications: the parameters of the wavefunction are the assigned ones (`normalize` is not modelled), a Hamiltonian
without active parameters is not assigned, printing, the keyword arguments of the optimizers and the saves inside of the objectives are left out.
-/

namespace Fanpy.Solver
open Fanpy.Ham

/-- what the solvers use of the objective `eqn` and its Hamiltonian -/
structure Prob (H R V J : Type) where
  /-- `objective.indices_component_params[ham].size > 0` -/
  hamActive : Bool
  /-- the parameters of the Hamiltonian for given active parameters -/
  hamParams : List R → List R
  /-- `ham.assign_params(params)`, the first argument is `update_prev_params` -/
  assign : Bool → H → List R → H
  /-- `ham.params` -/
  paramsOf : H → List R
  /-- the objective, its derivative and the energy for active parameters and Hamiltonian -/
  value : List R → H → V
  deriv : List R → H → J
  energyOf : List R → H → R

/-- the state of the objective -/
structure World (H R : Type) where
  ham : H
  /-- `ham.update_prev_params` -/
  update : Bool
  /-- the active parameters -/
  active : List R
  /-- `objective.energy.params` -/
  energy : R
  /-- the parameters that the solver saved -/
  saved : List (List R)

variable {H R V J : Type}

/-- `objective.assign_params(x)` — eqn/base.py:321-334 -/
def World.assign (P : Prob H R V J) (w : World H R) (x : List R) : World H R :=
  { w with ham := if P.hamActive then P.assign w.update w.ham (P.hamParams x) else w.ham, active := x }

/-- `objective.objective(x)` — projected.py:455-512, energy_oneside.py:258-292 and so on: the parameters are assigned -/
def World.evalObjective (P : Prob H R V J) (w : World H R) (x : List R) : World H R × V :=
  let w' := w.assign P x
  ({ w' with energy := P.energyOf x w'.ham }, P.value x w'.ham)

/-- `objective.gradient(x)` — energy_oneside.py:294-, energy_twoside.py:290-, least_squares.py:220-252: the parameters are assigned -/
def World.evalGradient (P : Prob H R V J) (w : World H R) (x : List R) : World H R × J :=
  let w' := w.assign P x
  ({ w' with energy := P.energyOf x w'.ham }, P.deriv x w'.ham)

/-- `objective.jacobian(x)`: with the default `assign=False` the parameters are not assigned — projected.py:518-559 -/
def World.evalJacobian (P : Prob H R V J) (w : World H R) (_ : List R) : World H R × J :=
  (w, P.deriv w.active w.ham)

/-- `objective.save_params()` in the solver — equation.py:105, 182, system.py:74, 169 -/
def World.save (w : World H R) : World H R := { w with saved := w.saved ++ [w.active] }

/-- `update_iteration` — equation.py:177-182: the attribute that is set is `update_prev_prams` -/
def World.updateIteration (P : Prob H R V J) (w : World H R) : World H R :=
  (if P.hamActive then { w with ham := P.assign w.update w.ham (P.paramsOf w.ham) } else w).save

/-- the first part of `hacked_jacobian` — system.py:69-74, 164-169 -/
def World.hackedUpdate (P : Prob H R V J) (w : World H R) : World H R :=
  (if P.hamActive then { w with ham := P.assign true w.ham (P.paramsOf w.ham), update := false } else w).save

/-- the result of an optimizer: `success`, `x` and `fun` -/
structure Result (R V : Type) where
  success : Bool
  x : List R
  value : V

/-- an optimizer that was started: what it asks for next, depending on the answers so far -/
inductive Strat (R V J : Type)
  | done (r : Result R V)
  | objective (x : List R) (k : V → Strat R V J)
  | deriv (x : List R) (k : J → Strat R V J)
  | callback (k : Strat R V J)

/-- the run of the optimizer in `minimize` — equation.py:171-189 -/
def runMinimize (P : Prob H R V J) : Strat R V J → World H R → World H R × Result R V
  | .done r, w => (w, r)
  | .objective x k, w => runMinimize P (k (w.evalObjective P x).2) (w.evalObjective P x).1
  | .deriv x k, w => runMinimize P (k (w.evalGradient P x).2) (w.evalGradient P x).1
  | .callback k, w => runMinimize P k (w.updateIteration P)

/-- the run of the optimizer in `least_squares` and `root` — system.py:57-83, 152-178; no callback is given -/
def runSystem (P : Prob H R V J) : Strat R V J → World H R → World H R × Result R V
  | .done r, w => (w, r)
  | .objective x k, w => runSystem P (k (w.evalObjective P x).2) (w.evalObjective P x).1
  | .deriv x k, w => runSystem P (k ((w.hackedUpdate P).evalJacobian P x).2) ((w.hackedUpdate P).evalJacobian P x).1
  | .callback k, w => runSystem P k w

/-- the run of `cma.fmin` — equation.py:82; only values are asked for -/
def runCma (P : Prob H R V J) [Inhabited J] : Strat R V J → World H R → World H R × Result R V
  | .done r, w => (w, r)
  | .objective x k, w => runCma P (k (w.evalObjective P x).2) (w.evalObjective P x).1
  | .deriv _ k, w => runCma P (k default) w
  | .callback k, w => runCma P k w

/-- the class of the objective: not a `BaseSchrodinger`; `LeastSquaresEquations` (which is a `ProjectedSchrodinger`); another
`ProjectedSchrodinger`; `EnergyOneSideProjection`, `EnergyTwoSideProjection` or a subclass; another `BaseSchrodinger` -/
inductive Kind
  | notEqn
  | leastSquares
  | projected
  | energy
  | otherEqn
  deriving DecidableEq

/-- the output dictionary; `energy` is `none` if the key is missing -/
structure Output' (R V : Type) where
  success : Bool
  params : List R
  value : V
  energy : Option R

/-- the key `"energy"` of `minimize` and `cma` — equation.py:89-92, 191-194 -/
def energyKey (kind : Kind) (w : World H R) (value : R) : Option R :=
  match kind with
  | .leastSquares => some w.energy
  | .energy => some value
  | _ => none

/-- `minimize(objective)` — equation.py:153-196; `opt x0` is the optimizer started at `x0` -/
def minimize (P : Prob H R R J) (kind : Kind) (numEqns : ℕ) (opt : List R → Strat R R J) (w : World H R) :
    World H R × Except PyErr (Output' R R) :=
  if kind = .notEqn then (w, .error .typeError)
  else if numEqns ≠ 1 then (w, .error .valueError)
  else
    let w := { w with update := false }
    let out := runMinimize P (opt w.active) w
    (out.1, .ok ⟨out.2.success, out.2.x, out.2.value, energyKey kind out.1 out.2.value⟩)

/-- `cma(objective)` — equation.py:60-107 -/
def cma (P : Prob H R R J) [Inhabited J] (kind : Kind) (numEqns : ℕ) (opt : List R → Strat R R J) (w : World H R) :
    World H R × Except PyErr (Output' R R) :=
  if kind = .notEqn then (w, .error .typeError)
  else if numEqns ≠ 1 then (w, .error .valueError)
  else
    let w := { w with update := false }
    if w.active.length = 1 then (w, .error .valueError)
    else
      let out := runCma P (opt w.active) w
      ((out.1.assign P out.2.x).save, .ok ⟨out.2.success, out.2.x, out.2.value, energyKey kind out.1 out.2.value⟩)

/-- is the class a subclass of `ProjectedSchrodinger`? -/
def isProjected (kind : Kind) : Bool := kind = .projected ∨ kind = .leastSquares

/-- `least_squares(objective)` — system.py:47-86 -/
def leastSquares (P : Prob H R V J) (kind : Kind) (opt : List R → Strat R V J) (w : World H R) : World H R × Except PyErr (Output' R V) :=
  if ¬ isProjected kind then (w, .error .typeError)
  else
    let w := { w with update := false }
    let out := runSystem P (opt w.active) w
    (out.1, .ok ⟨out.2.success, out.2.x, out.2.value, some out.1.energy⟩)

/-- `root(objective)` for as many equations as parameters, or fewer — system.py:126-180 (`rootEqns` has what is done to more equations) -/
def root (P : Prob H R V J) (kind : Kind) (numEqns : ℕ) (opt : List R → Strat R V J) (w : World H R) :
    World H R × Except PyErr (Output' R V) :=
  if ¬ isProjected kind then (w, .error .typeError)
  else if numEqns < w.active.length then (w, .error .valueError)
  else
    let w := { w with update := false }
    let out := runSystem P (opt w.active) w
    (out.1, .ok ⟨out.2.success, out.2.x, out.2.value, some out.1.energy⟩)

/-! ## The Hamiltonian -/

variable [CommRing R]

/-- `ham.assign_params(params)` with `update_prev_params` set; parameters that are rejected change nothing -/
def genAssign (um : List R → Except PyErr (ℕ × (ℕ → ℕ → R))) (b : Bool) (S : GenState R) (p : List R) : GenState R :=
  match { S with update := b }.assignParams um (some p) with
  | .ok T => T
  | .error _ => S

/-- the same for unrestricted orbitals -- unrestricted_chemical.py:115-182 -/
def unrAssign (um : List R → Except PyErr (ℕ × (ℕ → ℕ → R))) (b : Bool) (S : UnrState R) (p : List R) : UnrState R :=
  match { S with update := b }.assignParams um (some p) with
  | .ok T => T
  | .error _ => S

/-- what `save_params(filename)` writes: the parameters and the unitary matrix — generalized_chemical.py:180-185 (inherited by
restricted_chemical.py).  `none - ...` of a Hamiltonian without previous parameters is a `TypeError`. -/
def saveParams (um : List R → Except PyErr (ℕ × (ℕ → ℕ → R))) (S : GenState R) : Except PyErr (List R × ℕ × (ℕ → ℕ → R)) :=
  match S.prev with
  | none => .error .typeError
  | some prev => do
    let diff ← um (subParams S.params prev.1)
    let unitary ← dotSquare prev.2 diff
    return (S.params, unitary)

/-- `save_params(filename)` — unrestricted_chemical.py:197-209 -/
def saveParamsU (um : List R → Except PyErr (ℕ × (ℕ → ℕ → R))) (S : UnrState R) :
    Except PyErr (List R × (ℕ × (ℕ → ℕ → R)) × ℕ × (ℕ → ℕ → R)) :=
  match S.prev with
  | none => .error .typeError
  | some prev => do
    let half := S.ham.norb * (S.ham.norb - 1) / 2
    let diff := subParams S.params prev.1
    let da ← um (diff.take half)
    let db ← um (diff.drop half)
    let ua ← dotSquare prev.2.1 da
    let ub ← dotSquare prev.2.2 db
    return (S.params, ua, ub)

end Fanpy.Solver
