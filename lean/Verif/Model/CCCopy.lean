import Verif.Model.Slater

/-!
# Model of parameters of one coupled cluster wavefunction that are given to another (wfn/cc/base.py)

The dictionary `exops` is the list of its items.  A message is modelled by the operator that it is about.  Left out: noise, the cache, and complex
parameters for an array of reals.
-/

namespace Fanpy.CCCopy

variable {R : Type}

/-- the attributes that are read: `nelec`, `nspin`, `exops`, `params` -/
structure Wfn (R : Type) where
  nelec : ℕ
  nspin : ℕ
  exops : List (List ℕ × ℕ)
  params : List R

/-- `get_ind(exop)` — cc/base.py:471-474 -/
def getInd (w : Wfn R) (exop : List ℕ) : Except PyErr ℕ :=
  match w.exops.find? fun p => p.1 = exop with
  | some p => .ok p.2
  | none => .error .valueError

/-- `get_exop(ind)` — cc/base.py:495-498 -/
def getExop (w : Wfn R) (ind : ℕ) : Except PyErr (List ℕ) :=
  match w.exops.find? fun p => p.2 = ind with
  | some p => .ok p.1
  | none => .error .valueError

/-- the loop over `other.exops.items()`: the array and the messages — cc/base.py:435-444; indices that are not in an array are an `IndexError` -/
def copyLoop (w : Wfn R) (other : List R) : List (List ℕ × ℕ) → List R → List (List ℕ) → Except PyErr (List R × List (List ℕ))
  | [], params, printed => .ok (params, printed)
  | (exop, ind) :: l, params, printed =>
    match other[ind]? with
    | none => .error .indexError
    | some x =>
      match getInd w exop with
      | .error _ => copyLoop w other l params (printed ++ [exop])
      | .ok i => if i < params.length then copyLoop w other l (params.set i x) printed else .error .indexError

/-- `w.assign_params(other)` for a wavefunction `other`: the wavefunction afterwards and the messages — cc/base.py:425-450 -/
def assignFrom [Zero R] (w other : Wfn R) : Except PyErr (Wfn R × List (List ℕ)) :=
  if w.nelec ≠ other.nelec then .error .valueError
  else if w.nspin ≠ other.nspin then .error .valueError
  else
    match copyLoop w other.params other.exops (List.replicate w.exops.length 0) [] with
    | .error e => .error e
    | .ok (params, printed) => .ok ({ w with params := params }, printed)

/-- `w.assign_params(params)` for an array with its shape, or `None` — cc/base.py:445-449 -/
def assignArray [Zero R] (w : Wfn R) : Option (List ℕ × List R) → Except PyErr (Wfn R)
  | none => .ok { w with params := List.replicate w.exops.length 0 }
  | some (shape, data) => if shape ≠ [w.exops.length] then .error .valueError else .ok { w with params := data }

end Fanpy.CCCopy
