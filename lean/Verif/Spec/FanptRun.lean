import Verif.Model.FanptRun

/-! What `FANPT.optimize` should do with the interface to PyCI. -/

namespace Fanpy.FanptRun
open Fanpy.PyciIface

variable {R I : Type}

/-- What is assumed of the optimizer and of the response equations: there are as many solutions as active parameters, and as many
corrections as active parameters of the wavefunction. -/
structure Sized (X : Ext R I) : Prop where
  solve : ∀ o g x, X.solve o g = .ok x → x.length = o.mask.count true
  pt : ∀ o p l l' ds e, X.pt o p l l' = .ok (ds, e) → ds.length = o.mask.dropLast.count true

/-- `y` has the solution `x` at the active parameters and the values of `g` elsewhere -/
def Fills (mask : List Bool) (g x y : List R) : Prop :=
  y.length = g.length ∧ (∀ i, mask.getD i false = false → y[i]? = g[i]?) ∧
    ∀ i, mask.getD i false = true → y[i]? = x[(mask.take i).count true]?

/-- Two problems that follow each other, from `l` to `l'`: the first has a solution, from which perturbation theory gives corrections and an
energy; the guess of the second is the solution with corrections, and this energy. -/
def Follows [Field R] (X : Ext R I) (active : Bool) (wmask : List Bool) (mix : R → PHam R I) (l l' : R) (t t' : FanObj R I × List R) : Prop :=
  ∃ (x y : List R) (o : FanObj R I) (ds : List R) (e : R),
    X.solve t.1 t.2 = .ok x ∧ Fills t.1.mask t.2 x y ∧
    o.ham = mix l ∧ o.opHam = t.1.opHam ∧ o.mask = wmask ++ [active] ∧ X.pt o y l l' = .ok (ds, e) ∧
    t'.2.length = y.length ∧ t'.2[wmask.length]? = some e ∧
    (∀ i < wmask.length, wmask.getD i false = false → t'.2[i]? = t.2[i]?) ∧
    ∀ i < wmask.length, wmask.getD i false = true → t'.2.getD i 0 = y.getD i 0 + ds.getD ((wmask.take i).count true) 0

/-- The interfaces that `optimize` treats alike: they differ in the Hamiltonian, in what depends on it, and, if the energy is not an
active parameter of perturbation theory, in whether it is active. -/
def Alike (active : Bool) (s s' : Iface R I) : Prop :=
  (s'.eqn.nelec = s.eqn.nelec ∧ s'.eqn.nspin = s.eqn.nspin ∧ s'.eqn.seniority = s.eqn.seniority ∧ s'.eqn.nparams = s.eqn.nparams ∧
    s'.eqn.sel = s.eqn.sel ∧ s'.eqn.pspace = s.eqn.pspace ∧ s'.eqn.weights = s.eqn.weights) ∧
  (s'.opts.normDet = s.opts.normDet ∧ s'.opts.normParam = s.opts.normParam ∧ s'.opts.constraints = s.opts.constraints ∧
    s'.opts.maxMemory = s.opts.maxMemory ∧ s'.opts.legacy = s.opts.legacy) ∧
  s'.obj.mask.dropLast = s.obj.mask.dropLast ∧ s'.obj.mask.length = s.obj.mask.length ∧ (active = true → s'.obj.mask = s.obj.mask)

end Fanpy.FanptRun
