import Verif.Model.FanCI

/-!
# Model of `convert_to_fanci`

The class `GeneratedFanCI` of `fanpy/wfn/utils.py`, on top of `Verif.Model.FanCI` (whose base class it has), and the format string of
`optimize_stochastic`.  The same things are left out; in particular `fill_wavefunction` and the matrix of the Hamiltonian are those of PyCI.
`freeze_parameter` after the construction is left out.
-/

namespace Fanpy.FanCI
open Fanpy.Eqn

/-- the determinant of one row of a DOCI array in `compute_overlap` and `compute_overlap_deriv` — wfn/utils.py:376-380, 445-449 -/
def genDociSd (row : List ℕ) : Option ℕ := Slater.create (some 0) row

/-- the determinants — wfn/utils.py:365-380, 434-449 -/
def genConvert (nspatial : ℕ) : Occs → Except PyErr (List (Option ℕ))
  | .fci [] => .error .indexError
  | .fci rows => .ok (rows.map (fciSd nspatial))
  | .doci [] => .error .indexError
  | .doci ([] :: _) => .error .indexError
  | .doci rows => .ok (rows.map genDociSd)

/-- the argument `objective_type`; another string (or `None`, the default of `convert_to_fanci`) is `other` -/
inductive ObjType
  | projected
  | energy
  | other
  deriving DecidableEq

variable {R : Type}

/-- the checks of the constructor, with the mask that it makes (the argument `mask` is not used): `nparam` is the number of active parameters,
and the base class wants the mask to be as long — wfn/utils.py:292-332, legacy.py:227-231.  `o` has the other attributes. -/
def genInit (nparams : ℕ → ℕ) (o : Obj R) : Except PyErr (Obj R) :=
  let mask := defaultMask nparams o.sel
  let nparam := mask.count true
  if mask.length ≠ nparam then .error .valueError else .ok { o with mask := mask }

/-- `nproj = nparam if nproj is None else nproj` — wfn/utils.py:303-306 -/
def genNproj (nparams : ℕ → ℕ) (sel : Selection) (nproj : Option ℕ) : ℕ := nproj.getD ((defaultMask nparams sel).count true)

section
variable [Field R]

/-- `compute_overlap(x, occs_array)` for the determinants `sds` — wfn/utils.py:382-397 -/
def genOverlap (o : Obj R) (st : Store R) (x : List R) (sds : List ℕ) : List R := sds.map (o.overlap (feedDeriv o st x))

/-- the function of a constraint — wfn/utils.py:700-708, legacy.py:675-680, 715-720 -/
def genConstraintFun (o : Obj R) (st : Store R) (x : List R) : Constraint R → R
  | .param i val => if o.mask.getD i false then x.getD i 0 - val else 0
  | .det i val => (genOverlap o st x.dropLast [o.sds.getD i 0]).getD 0 0 - val
  | .norm => ((genOverlap o st x.dropLast o.sds).map fun c => c * c).sum - 1
  | .custom f _ => f x

/-- `compute_objective(x)` for `"projected"` — wfn/utils.py:508-521, legacy.py:531-579 -/
def genProjected (o : Obj R) (st : Store R) (x : List R) : List R :=
  let energy := x.getLastD 0
  let ovlp := genOverlap o st x.dropLast o.sds
  ((List.range o.nproj).map fun m => applyOp o ovlp m - ovlp.getD m 0 * energy) ++ o.constraints.map (genConstraintFun o st x)

/-- `compute_objective(x)` for the other types — wfn/utils.py:522-548 -/
def genEnergy (o : Obj R) (st : Store R) (x : List R) : R :=
  let ovlp := genOverlap o st x.dropLast o.sds
  ((List.range o.nproj).map fun m => applyOp o ovlp m * ovlp.getD m 0).sum / ((List.range o.nproj).map fun m => ovlp.getD m 0 ^ 2).sum

/-- the loop over the chunks in the derivative of the norm — wfn/utils.py:715-729 -/
def genNormGrad (o : Obj R) (st : Store R) (x : List R) (cs : List (ℕ × ℕ)) : List R :=
  let ovlp := genOverlap o st x o.sds
  (List.range (nwfn o)).map fun a =>
    (cs.map fun c =>
      (((ovlp.take c.2).drop c.1).zip (computeOverlapDeriv o st x ((o.sds.take c.2).drop c.1))).map
        (fun p => 2 * p.1 * p.2.getD a 0) |>.sum).sum

/-- the derivative of a constraint — wfn/utils.py:710-729, 959-973, legacy.py:682-690, 722-730 -/
def genConstraintGrad (o : Obj R) (st : Store R) (x : List R) : Constraint R → Except PyErr (List R)
  | .param i _ =>
    .ok (if o.mask.getD i false then (List.replicate (nactive o) 0).set ((o.mask.take i).count true) 1
      else List.replicate (nactive o) 0)
  | .det i _ => .ok (padTo (nactive o) ((computeOverlapDeriv o st x.dropLast [o.sds.getD i 0]).getD 0 []))
  | .norm => do
    let cs ← chunks o.sds.length o.avail
    .ok (padTo (nactive o) (genNormGrad o st x.dropLast cs))
  | .custom _ df => .ok (df x)

/-- `compute_jacobian(x)` for `"projected"` — wfn/utils.py:567-573, legacy.py:582-652 -/
def genJacobian (o : Obj R) (st : Store R) (x : List R) : Except PyErr (List (List R)) := do
  let energy := x.getLastD 0
  let dOvlp := computeOverlapDeriv o st x.dropLast o.sds
  let col (a : ℕ) : List R := dOvlp.map fun r => r.getD a 0
  let ovlp := genOverlap o st x.dropLast (o.sds.take o.nproj)
  let proj := (List.range o.nproj).map fun m =>
    ((List.range (nwfn o)).map fun a => applyOp o (col a) m - (col a).getD m 0 * energy)
      ++ (if energyActive o then [ovlp.getD m 0 * -1] else [])
  let cons ← o.constraints.mapM (genConstraintGrad o st x)
  return proj ++ cons

/-- `compute_jacobian(x)` for the other types: the array has `nactive` columns, and those of the derivatives of the overlaps are filled —
wfn/utils.py:574-632 -/
def genEnergyGrad (o : Obj R) (st : Store R) (x : List R) : List R :=
  let ovlp := genOverlap o st x.dropLast o.sds
  let dOvlp := computeOverlapDeriv o st x.dropLast o.sds
  let col (a : ℕ) : List R := dOvlp.map fun r => r.getD a 0
  let norm := ((List.range o.nproj).map fun m => ovlp.getD m 0 ^ 2).sum
  let energyIntegral := ((List.range o.nproj).map fun m => ovlp.getD m 0 * applyOp o ovlp m).sum
  padTo (nactive o) ((List.range (nwfn o)).map fun a =>
    ((List.range o.nproj).map fun m =>
      ((applyOp o (col a) m * ovlp.getD m 0 + (col a).getD m 0 * applyOp o ovlp m) * norm
        - 2 * energyIntegral * ovlp.getD m 0 * (col a).getD m 0) / norm ^ 2).sum)

end

/-! ## `optimize` -/

/-- the modes -/
inductive GenMode
  | lstsq
  | root
  | cma
  | bfgs
  | trustregion
  | trf
  | other
  deriving DecidableEq

/-- The optimizer that is called, or the exception before it — wfn/utils.py:770-836; `x0` has the length `len`. -/
def genOptimize (o : Obj R) (type : ObjType) (len : ℕ) (mode : GenMode) : Except PyErr GenMode :=
  if len ≠ nparam o then .error .valueError
  else match mode with
    | .lstsq => if type ≠ .projected then .error .valueError else .ok .lstsq
    | .root => if nequation o ≠ nactive o then .error .valueError else .ok .root
    | .cma => if type ≠ .energy then .error .valueError else .ok .cma
    | .bfgs => if type ≠ .energy then .error .valueError else .ok .bfgs
    | .trustregion => .error .notImplemented
    | .trf => if type ≠ .projected then .error .valueError else .error .notImplemented
    | .other => .error .valueError

/-- a replacement field of a format string: `{}` or `{name}` -/
inductive Field
  | auto
  | named (s : String)

/-- `str.format(*args, **kwargs)`: the values of the replacement fields, in order -/
def formatFields {α : Type} : List Field → List α → List (String × α) → Except PyErr (List α)
  | [], _, _ => .ok []
  | .auto :: _, [], _ => .error .indexError
  | .auto :: r, a :: args, kw => do
    let l ← formatFields r args kw
    return a :: l
  | .named s :: r, args, kw =>
    match kw.lookup s with
    | none => .error .keyError
    | some a => do
      let l ← formatFields r args kw
      return a :: l

/-- `"Final Electronic Energy for sample {isamp}: {}".format(energy)` — legacy.py:1537, pyci.py:860, wfn/utils.py:905 -/
def finalMessage {α : Type} (energy : α) : Except PyErr (List α) := formatFields [.named "isamp", .auto] [energy] []

/-- `optimize_stochastic(nsamp, x0)` — legacy.py:1510-1586, pyci.py:837-914, wfn/utils.py:881-957.  `opt x0` is the solution of the optimizer;
`next x0` are the space of determinants and the coefficients at the solution, `reinit` what the constructor does.  The message is made
before the solution is stored. -/
def stochastic {R S : Type} [Zero R] (opt : List R → Except PyErr (List R)) (next : List R → S) (reinit : S → Except PyErr Unit) :
    ℕ → List R → Except PyErr (List (S × List R))
  | 0, _ => .ok []
  | nsamp + 1, x0 => do
    let x ← opt x0
    let _ ← finalMessage (x.getLastD 0)
    if nsamp = 0 then return [(next x, x)]
    else do
      reinit (next x)
      let l ← stochastic opt next reinit nsamp x
      return (next x, x) :: l

end Fanpy.FanCI
