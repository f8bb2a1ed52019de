import Verif.Model.FanCI

/-! Model of the bookkeeping of the base class of the FanCI problem, `ProjectedSchrodingerLegacyFanCI` of
fanpy/interface/fanci/legacy.py:30-763: the mask of the parameters, the constraints, `freeze_parameter`,
`unfreeze_parameter`, `add_constraint`, `remove_constraint`, the objective from its parts, `optimize` and
`optimize_stochastic`.  The projection space is in `Verif.Model.FillWfn`; the objective and the Jacobian of the subclass in
`Verif.Model.FanCI`.  Messages that are printed are left out. -/

namespace Fanpy.FanBase
open Fanpy.FanCI

variable {R : Type}

/-- the argument `mask` — legacy.py:222-236: nothing, an array of booleans, or an array of integers; an empty list makes an
array of floats -/
inductive MaskArg
  | none
  | bools (l : List Bool)
  | ints (l : List ℤ)
  deriving DecidableEq, Repr

/-- `mask[i] = b` with an index of Python: from the end if it is negative — legacy.py:236, 507, 521 -/
def pySet (mask : List Bool) (i : ℤ) (b : Bool) : Except PyErr (List Bool) :=
  if 0 ≤ i ∧ i < mask.length then .ok (mask.set i.toNat b)
  else if i < 0 ∧ -(mask.length : ℤ) ≤ i then .ok (mask.set (mask.length + i).toNat b)
  else .error .indexError

/-- the mask of the constructor — legacy.py:222-236.  An array of floats cannot be an index (`IndexError`). -/
def makeMask (nparam : ℕ) : MaskArg → Except PyErr (List Bool)
  | .none => .ok (List.replicate nparam true)
  | .bools l => if l.length ≠ nparam then .error .valueError else .ok l
  | .ints l =>
    if l = [] then .error .indexError
    else l.foldlM (fun m i => pySet m i false) (List.replicate nparam true)

/-- the names of constraints: texts of the user, and the texts that the constructor makes of the index of a parameter or of
a determinant — legacy.py:216, 219.  Simplification: a text of the user is never one of the other two. -/
inductive Name
  | user (s : String)
  | param (i : ℕ)
  | det (i : ℕ)
  deriving DecidableEq, Repr

/-- `constraints[name] = value` in an ordered dictionary — legacy.py:217, 220 -/
def insert {C : Type} (d : List (Name × C)) (n : Name) (c : C) : List (Name × C) :=
  if n ∈ d.map Prod.fst then d.map (fun e => if e.1 = n then (n, c) else e) else d ++ [(n, c)]

/-- the dictionary of constraints — legacy.py:205-220; `param` and `det` stand for `make_param_constraint` and
`make_det_constraint`. -/
def makeConstraints {C : Type} (param det : ℕ → R → C) (constraints : List (Name × C)) (normParam normDet : List (ℕ × R)) :
    List (Name × C) :=
  normDet.foldl (fun d p => insert d (.det p.1) (det p.1 p.2))
    (normParam.foldl (fun d p => insert d (.param p.1) (param p.1 p.2)) constraints)

/-- the attributes of the object that are modelled — legacy.py:258-263 -/
structure Fan (C : Type) where
  nproj : ℕ
  nparam : ℕ
  nequation : ℕ
  nactive : ℕ
  constraints : List (Name × C)
  mask : List Bool

/-- the constructor — legacy.py:205-263 (the projection space is left out; an argument `constraints` that is not a
dictionary is a `TypeError`) -/
def init {C : Type} (param det : ℕ → R → C) (nproj nparam : ℕ) (normParam normDet : List (ℕ × R))
    (constraints : Option (List (Name × C))) (mask : MaskArg) : Except PyErr (Fan C) := do
  let cons ← match constraints with
    | none => .error .typeError
    | some d => .ok (makeConstraints param det d normParam normDet)
  let m ← makeMask nparam mask
  return ⟨nproj, nparam, nproj + cons.length, m.count true, cons, m⟩

/-- `freeze_parameter(*params)` and `unfreeze_parameter(*params)` — legacy.py:499-524, without what is left behind if an
index is out of range -/
def setParams {C : Type} (b : Bool) (o : Fan C) (params : List ℤ) : Except PyErr (Fan C) := do
  let m ← params.foldlM (fun m i => pySet m i b) o.mask
  return { o with mask := m, nactive := m.count true }

/-- a container of Python -/
inductive Container (C : Type)
  | dict (d : List (Name × C))
  | tuple (l : List Name)

/-- `container[name] = value` — legacy.py:479: a tuple does not support it (`TypeError`) -/
def Container.setItem {C : Type} : Container C → Name → C → Except PyErr (Container C)
  | .dict d, n, c => .ok (.dict (insert d n c))
  | .tuple _, _, _ => .error .typeError

/-- `del container[name]` — legacy.py:494 -/
def Container.delItem {C : Type} : Container C → Name → Except PyErr (Container C)
  | .dict d, n => if n ∈ d.map Prod.fst then .ok (.dict (d.filter (fun e => e.1 ≠ n))) else .error .keyError
  | .tuple _, _ => .error .typeError

/-- `self.constraints`: the property gives a tuple of the names — legacy.py:68-74 -/
def Fan.constraintsProp {C : Type} (o : Fan C) : Container C := .tuple (o.constraints.map Prod.fst)

/-- `self.nequation = n`: the property has no setter, an `AttributeError` — legacy.py:36-42, 482, 497 -/
def Fan.setNequation {C : Type} (_ : Fan C) (_ : ℕ) : Except PyErr (Fan C) := .error .attributeError

/-- `add_constraint(name, f, dfdx)` — legacy.py:479-482 -/
def addConstraint {C : Type} (o : Fan C) (n : Name) (c : C) : Except PyErr (Fan C) := do
  let _ ← o.constraintsProp.setItem n c
  o.setNequation (o.nproj + o.constraints.length)

/-- `remove_constraint(name)` — legacy.py:494-497 -/
def removeConstraint {C : Type} (o : Fan C) (n : Name) : Except PyErr (Fan C) := do
  let _ ← o.constraintsProp.delItem n
  o.setNequation (o.nproj + o.constraints.length)

/-- `make_param_constraint(i, val)`: the function — legacy.py:678-683; the mask is that of the moment of the call -/
def paramFun [Field R] {C : Type} (o : Fan C) (i : ℕ) (v : R) (x : List R) : R :=
  if o.mask.getD i false then x.getD i 0 - v else 0

/-- `make_param_constraint(i, val)`: the gradient — legacy.py:685-693 -/
def paramGrad [Field R] {C : Type} (o : Fan C) (i : ℕ) : List R :=
  if o.mask.getD i false then (List.replicate o.nactive 0).set ((o.mask.take i).count true) 1
  else List.replicate o.nactive 0

/-- what `optimize(x0, mode)` gives to the optimizer — legacy.py:336-378; `f` and `j` are `compute_objective` and
`compute_jacobian`. -/
inductive Mode
  | lstsq
  | root
  | cma
  | other
  deriving DecidableEq

/-- `optimize` — legacy.py:336-378 -/
def optimizeArgs {C V J : Type} (o : Fan C) (f : List R → V) (j : List R → J) (x0 : List R) (mode : Mode) :
    Except PyErr ((List R → V) × (List R → J) × List R) :=
  if o.nequation < o.nactive then .error .valueError
  else if x0.length ≠ o.nparam then .error .valueError
  else
    let args : (List R → V) × (List R → J) × List R :=
      if o.nactive < o.nparam then (fun z => f (scatter o.mask x0 z), fun z => j (scatter o.mask x0 z), gather o.mask x0)
      else (f, j, x0)
    match mode with
    | .lstsq => .ok args
    | .root => if o.nequation ≠ o.nactive then .error .valueError else .ok args
    | .cma => .error .notImplemented
    | .other => .error .valueError

/-- `optimize_stochastic(nsamp, x0)` — legacy.py:415-461.  `solve` is `optimize(x0).x` and `overlap` is
`compute_overlap(·, "S")`; `del self.ci_op` of a property without deleter is an `AttributeError`. -/
def optimizeStochastic {O : Type} (solve : List R → Except PyErr (List R)) (overlap : List R → O) (nsamp : ℤ) (x0 : List R) :
    Except PyErr (List (O × List R)) := do
  let x ← solve x0
  let coeffs := overlap x.dropLast
  if nsamp ≤ 1 then return [(coeffs, x)] else .error .attributeError

end Fanpy.FanBase
