import Verif.Model.EqnInit

/-!
# Model of the constructor of `NormConstraint` (eqn/constraints/norm.py)

It is not that of the base class: nothing is compared with a Hamiltonian, and a dictionary is kept as it is.  Left out: the type of the wavefunction,
and dictionaries that are not a `ComponentParameterIndices`.
-/

namespace Fanpy.Eqn

/-- the selection — norm.py:86-94: the heap afterwards, and the number of the selection or the exception -/
def normSelection (E : Env) (arg : SelArg) (h : Heap) : Heap × Except PyErr ℕ :=
  match arg with
  | .dict d => (h, .ok d)
  | arg =>
    let items := match arg with
      | .items l => l
      | _ => [(E.wfn, .ints ((List.range (E.nparams E.wfn)).map fun i => Int.ofNat i))]
    match items.foldlM (fun acc p => setItem acc p.1 (E.nparams p.1) p.2) [] with
    | .error e => (h, .error e)
    | .ok sel => ({ h with dicts := h.dicts ++ [sel] }, .ok h.dicts.length)

/-- `NormConstraint(wfn, refwfn, param_selection)` — norm.py:81-94: the constraint has one equation (norm.py:99-109) -/
def normInit (E : Env) (refwfn : SpaceArg) (arg : SelArg) (h : Heap) : Heap × Except PyErr (Con × RefVal) :=
  match oneRefwfn E.space refwfn with
  | .error e => (h, .error e)
  | .ok r =>
    match normSelection E arg h with
    | (h, .error e) => (h, .error e)
    | (h, .ok d) => (h, .ok (⟨d, 1⟩, r))

end Fanpy.Eqn
