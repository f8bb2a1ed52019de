import Verif.Model.FANPT
import Verif.Model.PyciIface

/-! Model of `FANPT.optimize` (fanpy/fanpt/fanpt.py:225-338) as a sequence of changes of the interface to PyCI: which problems are given to
the optimizer, with which Hamiltonian, which active parameters and which guess, and what is left behind.

The optimizer of scipy and the response equations are arbitrary functions (`Ext`); what they compute is in `Verif.Model.FanCI` and
`Verif.Model.FANPT`.  A container computes overlaps before it looks for the normalization constraint and before the updater looks at
`final_l`; here these come after, so that an error of the overlaps could be another one.  `update_objective` that raises is taken to
leave the interface as it was.  Integrals are elements of a vector space.  Printed messages are left out. -/

namespace Fanpy.FanptRun
open Fanpy.FanCI Fanpy.FanBase Fanpy.PyciIface Fanpy.FANPT

variable {R I : Type}

/-- what is not part of the model.  `solve objective x0` is `results.x` of `fanci_objective.optimize(x0, **solver_kwargs)` when the size
of `x0` is right, and `pt objective params l final_l` are the corrections of the active parameters of the wavefunction and the new energy
of the updater. -/
structure Ext (R I : Type) where
  solve : FanObj R I → List R → Except PyErr (List R)
  pt : FanObj R I → List R → R → R → Except PyErr (List R × R)

/-- the attributes of a `FANPT` object that `optimize` reads — fanpt.py:173-206 -/
structure Cfg (R I : Type) where
  ham0 : PHam R I
  ham1 : PHam R I
  energyActive : Bool
  inorm : Bool
  resum : Bool
  refSd : ℕ
  finalOrder : ℤ
  lambdaI : R
  lambdaF : R
  steps : ℕ

/-- what a call of `optimize` does: the interface at the end, the objectives and guesses that were given to the optimizer, in this order,
and `results.x` with `results["energy"]`, or the exception -/
structure Out (R I : Type) where
  state : Iface R I
  solves : List (FanObj R I × List R)
  result : Except PyErr (List R × R)

/-- `freeze_parameter(-1)` and `unfreeze_parameter(-1)` of the objective — legacy.py:499-529, fanci/pyci.py:124-154 -/
def setEnergy (b : Bool) (s : Iface R I) : Iface R I :=
  { s with obj := { s.obj with mask := s.obj.mask.set (s.obj.mask.length - 1) b } }

/-- the objective that is solved — fanpt.py:273-275, 322-324 -/
def forSolve (active : Bool) (s : Iface R I) : Iface R I := if active then s else setEnergy true s

/-- "Rebuild active parameters mask according to energy_active" — fanpt.py:282-283, 333-334 -/
def afterSolve (active : Bool) (s : Iface R I) : Iface R I := if active then s else setEnergy false s

section
variable [Field R]

/-- `unfreeze_parameter(-1)`, `results = fanci_objective.optimize(g)`, `g[fanci_objective.mask] = results.x`, `freeze_parameter(-1)` —
fanpt.py:272-283, 321-334.  A guess of another size is a `ValueError` (legacy.py:1421-1422, fanci/pyci.py:749-750). -/
def solveStep (X : Ext R I) (active : Bool) (s : Iface R I) (g : List R) :
    Iface R I × List (FanObj R I × List R) × Except PyErr (List R × List R) :=
  if g.length ≠ (forSolve active s).obj.nparam then (forSolve active s, [], .error .valueError)
  else match X.solve (forSolve active s).obj g with
    | .error e => (forSolve active s, [((forSolve active s).obj, g)], .error e)
    | .ok x => (afterSolve active (forSolve active s), [((forSolve active s).obj, g)],
        .ok (x, scatter (forSolve active s).obj.mask g x))

end

section
variable [Field R] [LinearOrder R] [AddCommGroup I] [Module R I]

/-- `linear_comb_ham(ham1, ham0, a1, a0)` — fanpt/utils.py:7-29 -/
def linearComb (h1 h0 : PHam R I) (a1 a0 : R) : PHam R I :=
  ⟨a1 * h1.ecore + a0 * h0.ecore, a1 • h1.one + a0 • h0.one, a1 • h1.two + a0 • h0.two⟩

/-- the order that the updater checks: none (here zero) if the responses are summed — containers/updater.py:107-117 -/
def usedOrder (c : Cfg R I) (o : FanObj R I) : ℤ :=
  if assignResum (o.mask.getLastD false) c.resum o.nequation o.nactive then 0 else c.finalOrder

/-- the container and the updater of one step — fanpt.py:287-316; containers/energy_free.py:149-151; containers/base.py:157-221;
containers/updater.py:100-122.  The constructor of the container assigns its Hamiltonian to the interface. -/
def ptStep (X : Ext R I) (c : Cfg R I) (s : Iface R I) (p : List R) (l finalL : R) : Iface R I × Except PyErr (List R) :=
  if !c.energyActive && s.obj.mask.getLastD false then (s, .error .typeError)
  else match setPyciHam s (.pyci (linearComb c.ham1 c.ham0 l (1 - l))) with
    | .error e => (s, .error e)
    | .ok s1 =>
      if c.inorm && !decide (Name.det c.refSd ∈ s1.obj.constraints) then (s1, .error .keyError)
      else match checkUpdater l finalL (usedOrder c s1.obj) with
        | .error e => (s1, .error e)
        | .ok () => match X.pt s1.obj p l finalL with
          | .error e => (s1, .error e)
          | .ok (ds, e) => (s1, .ok (addCorrections s1.obj.mask.dropLast p.dropLast ds ++ [e]))

/-- the loop over the steps — fanpt.py:286-338.  `p` are the parameters with the energy and `x` is `results.x`. -/
def loop (X : Ext R I) (c : Cfg R I) : List (R × R) → Iface R I → List R → List R → Out R I
  | [], s, p, x => ⟨s, [], .ok (x, p.getLastD 0)⟩
  | (l, finalL) :: ls, s, p, _ =>
    match ptStep X c s p l finalL with
    | (s1, .error e) => ⟨s1, [], .error e⟩
    | (s1, .ok g) =>
      match updateObjective s1 (.inl (linearComb c.ham1 c.ham0 finalL (1 - finalL))) with
      | .error e => ⟨s1, [], .error e⟩
      | .ok s2 =>
        match solveStep X c.energyActive s2 g with
        | (s3, t, .error e) => ⟨s3, t, .error e⟩
        | (s3, t, .ok (x, p')) =>
          ⟨(loop X c ls s3 p' x).state, t ++ (loop X c ls s3 p' x).solves, (loop X c ls s3 p' x).result⟩

/-- `optimize` with given values of `lambda_i`, `lambda_f` and `steps` — fanpt.py:269-338.  Without a step the name `fanpt_params` of line
336 has no value (`UnboundLocalError`, here `runtimeError`). -/
def run (X : Ext R I) (c : Cfg R I) (s : Iface R I) (guess : List R) (energy : R) (li lf : R) (steps : ℕ) : Out R I :=
  match updateObjective s (.inl c.ham0) with
  | .error e => ⟨s, [], .error e⟩
  | .ok s1 =>
    match solveStep X c.energyActive s1 (guess ++ [energy]) with
    | (s2, t, .error e) => ⟨s2, t, .error e⟩
    | (s2, t, .ok (x, p)) =>
      if steps = 0 then ⟨s2, t, .error .runtimeError⟩
      else ⟨(loop X c (schedule li lf steps) s2 p x).state, t ++ (loop X c (schedule li lf steps) s2 p x).solves,
        (loop X c (schedule li lf steps) s2 p x).result⟩

/-- `optimize(guess_params, guess_energy, lambda_i=…, lambda_f=…, steps=…)` — fanpt.py:260-338.  An argument that is `None` or zero takes
the stored value. -/
def optimize (X : Ext R I) (c : Cfg R I) (s : Iface R I) (guess : List R) (energy : R) (li lf : Option R) (steps : Option ℕ) : Out R I :=
  run X c s guess energy (orElse li c.lambdaI) (orElse lf c.lambdaF) (if steps.getD 0 = 0 then c.steps else steps.getD 0)

end

end Fanpy.FanptRun
