import Verif.Model.Quasiparticle

/-!
# Model of `assign_params` of the quasiparticle wavefunctions

`fanpy/wfn/quasiparticle/base.py:231-288`.  Left out: checks of Python types and of the array by
`BaseWavefunction.assign_params`, `add_noise`, the cache, the printed messages.
-/

namespace Fanpy.Quasi
open Fanpy.Slater

variable {R : Type} [Field R]

/-- the argument `params` of `assign_params` — base.py:249, 262, 285: `None`, another wavefunction, or an array (the list
of its numbers in C order). -/
inductive ParamArg (R : Type)
  | default
  | wfn (other : Wfn R)
  | array (l : List R)

/-- one iteration of the loop over the first partition — base.py:259-261: `IndexError` if there are more subsets than
quasiparticles. -/
def Wfn.defaultStep (w : Wfn R) (P : ℕ → ℕ → R) (is : ℕ × List ℕ) : Except PyErr (ℕ → ℕ → R) := do
  let c ← w.colInd is.2
  if is.1 < w.nquasi then
    return fun a b => if a = is.1 ∧ b = c then P a b + 1 else P a b
  else .error .indexError

/-- the default parameters — base.py:249-261; `gen` is `generate_possible_orbsubsets`.  `next` of an empty generator raises
`StopIteration` (`runtimeError` here). -/
def Wfn.defaultParams (w : Wfn R) (gen : List ℕ → Except PyErr (List (List (List ℕ)))) : Except PyErr (ℕ → ℕ → R) := do
  let g ← ground w.nelec w.nspin
  let parts ← gen (occIndices (some g))
  match parts.head? with
  | none => .error .runtimeError
  | some o => (((List.range o.length).zip o)).foldlM w.defaultStep (fun _ _ => 0)

/-- one iteration of the loop over the subsets of the other wavefunction — base.py:275-283: a subset that this
wavefunction does not have is passed over. -/
def Wfn.copyStep (w other : Wfn R) (P : ℕ → ℕ → R) (is : ℕ × List ℕ) : ℕ → ℕ → R :=
  match w.colInd is.2 with
  | .error _ => P
  | .ok c => fun a b => if a < other.nquasi ∧ b = c then other.params a is.1 else P a b

/-- the parameters taken from another wavefunction — base.py:262-283. -/
def Wfn.copyParams (w other : Wfn R) : Except PyErr (ℕ → ℕ → R) :=
  if w.nelec ≠ other.nelec then .error .valueError
  else if w.nspin ≠ other.nspin then .error .valueError
  else if w.nquasi < other.nquasi then .error .valueError
  else .ok (((List.range other.subsets.length).zip other.subsets).foldl (w.copyStep other) (fun _ _ => 0))

/-- `assign_params(params)` — base.py:249-287; `reshape` raises `ValueError` for another number of elements. -/
def Wfn.assignParams (w : Wfn R) (gen : List ℕ → Except PyErr (List (List (List ℕ)))) (arg : ParamArg R) :
    Except PyErr (Wfn R) :=
  match arg with
  | .default => do
    let P ← w.defaultParams gen
    return { w with params := P }
  | .wfn other => do
    let P ← w.copyParams other
    return { w with params := P }
  | .array l =>
    if l.length ≠ w.nquasi * w.subsets.length then .error .valueError
    else .ok { w with params := fun i j => l.getD (i * w.subsets.length + j) 0 }

/-- `AntisymmeterizedProductTetrets(nelec, nspin, nquasiparticle=nq, orbsubsets=subs, params=arg)` — base.py:133-138. -/
def tetretNew (nelec nspin : ℕ) (nq : Option ℕ) (subs : Option (List (List ℕ))) (arg : ParamArg R) :
    Except PyErr (Wfn R) := do
  let w ← tetretInit nelec nspin nq subs (fun _ _ => 0)
  w.assignParams tetretGen arg

end Fanpy.Quasi
