import Verif.Model.FanCI

/-!
# Model of the second derivatives, the reports and the checkpoints of the FanCI interface

`compute_overlap_double_deriv`, `compute_objective` and `compute_jacobian` of `ProjectedSchrodingerFanCI` (fanci/legacy.py:1206-1317) and
of `ProjectedSchrodingerPyCI` (fanci/pyci.py:395-506).  The equations are those of `Verif.Model.FanCI`; here are the things that the
methods do besides: what they print, what they write to files and the parameters that they leave in the wavefunctions.
-/

namespace Fanpy.FanCI

open Fanpy.Eqn

variable {R : Type}

/-! ### Second derivatives -/

/-- the argument `occs_array`: the letter of a space, an array (its determinants), or anything else -/
inductive Space
  | p
  | s
  | rows (sds : List ℕ)
  | other

/-- the determinants of `occs_array` — legacy.py:1223-1230, 1240; pyci.py:412-419, 428.  The conversion of an array without rows raises
`IndexError` (`convert`). -/
def spaceSds (o : Obj R) : Space → Except PyErr (List ℕ)
  | .p => .ok (o.sds.take o.nproj)
  | .s => .ok o.sds
  | .rows l => .ok l
  | .other => .error .valueError

/-- `compute_overlap_double_deriv(x, occs_array)` — legacy.py:1206-1255, pyci.py:395-442.  `cc` says whether the wavefunction is a `BaseCC`,
and `hess st sd a b` is an entry of `get_overlap_double_derivative(sd)` at the parameters `st`, a matrix over all parameters. -/
def computeHessians [Zero R] (o : Obj R) (cc : Bool) (hess : Store R → ℕ → ℕ → ℕ → R) (st : Store R) (x : List R) (space : Space) :
    Except PyErr (List (List (List R))) := do
  let sds ← spaceSds o space
  if !cc then .error .notImplemented
  else if sds = [] then .error .indexError
  else
    let st' := feedOverlap o st x
    let n := (st' o.wfn).length
    .ok (sds.map fun sd => (List.range n).map fun a => (List.range n).map fun b => hess st' sd a b)

/-! ### Reports -/

/-- `print_queue`: a dictionary in the order of insertion -/
abbrev Queue (R : Type) := List (String × R)

/-- `queue[key] = value` -/
def setKey (q : Queue R) (key : String) (v : R) : Queue R :=
  if q.any (fun e => e.1 = key) then q.map (fun e => if e.1 = key then (key, v) else e) else q ++ [(key, v)]

/-- `queue[key]` -/
def getKey (q : Queue R) (key : String) : Option R := q.lookup key

/-- the object between calls: the parameters of the components, the queue, the lines printed and the parameters in the files, if any -/
structure Session (R : Type) where
  store : Store R
  queue : Queue R
  printed : List (String × R)
  file : Option (Store R)

/-- `step_print`, `step_save` and whether `tmpfile` is not empty -/
structure Options where
  stepPrint : Bool
  stepSave : Bool
  tmpfile : Bool

section
variable [Field R]

/-- `if self.step_save: self.save_params()` — legacy.py:1288-1289, 1329, pyci.py:474-475, 592 -/
def saved (opt : Options) (st : Store R) (old : Option (Store R)) : Option (Store R) :=
  if opt.stepSave && opt.tmpfile then some st else old

/-- the parameters after the function of a constraint — legacy.py:277-285, 675-680, 715-720, pyci.py:648-656 -/
def feedConstraint (o : Obj R) (x : List R) (st : Store R) : Constraint R → Store R
  | .param _ _ => st
  | .det _ _ => feedOverlap o st x.dropLast
  | .norm => feedOverlap o st x.dropLast
  | .custom _ _ => st

/-- the parameters after the derivative of a constraint — legacy.py:287-306, 682-690, 722-730, pyci.py:658-677: the derivative of the norm
computes the overlaps first -/
def feedConstraintGrad (o : Obj R) (x : List R) (st : Store R) : Constraint R → Store R
  | .param _ _ => st
  | .det _ _ => feedDeriv o st x.dropLast
  | .norm => feedDeriv o (feedOverlap o st x.dropLast) x.dropLast
  | .custom _ _ => st

/-- the line that the function of a constraint prints — legacy.py:282-284, pyci.py:653-655 -/
def constraintLines (o : Obj R) (st : Store R) (x : List R) : Constraint R → List (String × R)
  | .norm => [("Norm of wavefunction", ((computeOverlap o st x.dropLast o.sds).map fun c => c ^ 2).sum)]
  | _ => []

/-- `compute_objective(x)` — legacy.py:1259-1291, pyci.py:445-477 -/
def objectiveCall (o : Obj R) (opt : Options) (s : Session R) (x : List R) : Session R × List R :=
  let output := computeObjective o s.store x
  let st := o.constraints.foldl (feedConstraint o x) (feedOverlap o s.store x.dropLast)
  let energy := x.getLastD 0
  let cost := ((output.take o.nproj).map fun v => v ^ 2).sum
  let constr := ((output.drop o.nproj).map fun v => v ^ 2).sum
  let queue := setKey (setKey (setKey s.queue "Electronic Energy" energy) "Cost" cost) "Cost from constraints" constr
  let lines := o.constraints.flatMap (constraintLines o s.store x) ++ [("Electronic Energy", energy), ("Cost", cost)] ++
    (if o.constraints.isEmpty then [] else [("Cost from constraints", constr)])
  (⟨st, queue, if opt.stepPrint then s.printed ++ lines else s.printed, saved opt st s.file⟩, output)

/-- the parameters after `compute_jacobian(x)`: the derivatives of the overlaps, the overlaps of the `P` space if the energy is active,
the constraints — legacy.py:607-652, pyci.py:543-577 -/
def feedJacobian (o : Obj R) (st : Store R) (x : List R) : Store R :=
  o.constraints.foldl (feedConstraintGrad o x)
    (if energyActive o then feedOverlap o (feedDeriv o st x.dropLast) x.dropLast else feedDeriv o st x.dropLast)

/-- `compute_jacobian(x)` — legacy.py:1293-1317, pyci.py:479-506; `norm` is `np.linalg.norm` -/
def jacobianCall (o : Obj R) (norm : List (List R) → R) (opt : Options) (s : Session R) (x : List R) :
    Except PyErr (Session R × List (List R)) := do
  let output ← computeJacobian o s.store x
  let st := feedJacobian o s.store x
  let lines := [("Norm of the Jacobian", norm output)]
  return (⟨st, setKey s.queue "Norm of the Jacobian" (norm output), if opt.stepPrint then s.printed ++ lines else s.printed,
    saved opt st s.file⟩, output)

/-- what an optimizer calls -/
inductive Call (R : Type)
  | objective (x : List R)
  | jacobian (x : List R)

/-- a sequence of calls; an exception of the Jacobian ends it -/
def runCalls (o : Obj R) (norm : List (List R) → R) (opt : Options) : Session R → List (Call R) → Except PyErr (Session R)
  | s, [] => .ok s
  | s, .objective x :: rest => runCalls o norm opt (objectiveCall o opt s x).1 rest
  | s, .jacobian x :: rest => do runCalls o norm opt (← jacobianCall o norm opt s x).1 rest

end

end Fanpy.FanCI
