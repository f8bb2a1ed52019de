import Verif.Model.MPS

/-!
# Model of the derivative of a matrix product state with respect to one parameter

`MatrixProductState._olp_deriv` of `fanpy/wfn/network/mps.py:383-409`; see `Verif.Model.MPS` for the rest of the class.
-/

namespace Fanpy.MPS
open Fanpy.Slater

variable {R : Type} [Field R]

/-- A one-dimensional array. -/
structure Vec (R : Type) where
  size : ℕ
  entry : ℕ → R

/-- `v.dot(a)` -/
def Vec.dot (v : Vec R) (a : Mat R) : Except PyErr (Vec R) :=
  if v.size ≠ a.nrow then .error .valueError
  else .ok ⟨a.ncol, fun j => ((List.range v.size).map fun k => v.entry k * a.entry k j).sum⟩

/-- `a.dot(v)` -/
def Mat.dotVec (a : Mat R) (v : Vec R) : Except PyErr (Vec R) :=
  if a.ncol ≠ v.size then .error .valueError
  else .ok ⟨a.nrow, fun i => ((List.range a.ncol).map fun k => a.entry i k * v.entry k).sum⟩

/-- `array[i]` for the row `i` of a matrix -/
def Mat.row (a : Mat R) (i : ℕ) : Except PyErr (Vec R) := if i < a.nrow then .ok ⟨a.ncol, a.entry i⟩ else .error .indexError

/-- `array[:, j]` for the column `j` of a matrix -/
def Mat.col (a : Mat R) (j : ℕ) : Except PyErr (Vec R) :=
  if j < a.ncol then .ok ⟨a.nrow, fun i => a.entry i j⟩ else .error .indexError

/-- One iteration of the first loop in `_olp_deriv` — mps.py:397. -/
def Wfn.rowStep (w : Wfn R) (occ : ℕ → ℕ) (temp : Vec R) (i : ℕ) : Except PyErr (Vec R) := do
  temp.dot (← w.matrix i (occ i))

/-- `right_temp` in `_olp_deriv` — mps.py:389-397 -/
def Wfn.rightRow (w : Wfn R) (occ : ℕ → ℕ) (k c : ℕ) : Except PyErr (Option (Vec R)) := do
  if k < w.nspatial - 1 then
    let m ← w.matrix (k + 1) (occ (k + 1))
    let r ← m.row c
    return some (← (List.range' (k + 2) (w.nspatial - (k + 2))).foldlM (w.rowStep occ) r)
  else return none

/-- One iteration of the second loop in `_olp_deriv` — mps.py:407. -/
def Wfn.colStep (w : Wfn R) (occ : ℕ → ℕ) (temp : Vec R) (i : ℕ) : Except PyErr (Vec R) := do
  (← w.matrix i (occ i)).dotVec temp

/-- `left_temp` in `_olp_deriv` — mps.py:399-407 -/
def Wfn.leftCol (w : Wfn R) (occ : ℕ → ℕ) (k r : ℕ) : Except PyErr (Option (Vec R)) := do
  if 0 < k then
    let m ← w.matrix (k - 1) (occ (k - 1))
    let l ← m.col r
    return some (← (List.range (k - 1)).reverse.foldlM (w.colStep occ) l)
  else return none

/-- `v.item()` -/
def Vec.item (v : Vec R) : Except PyErr R := if v.size ≠ 1 then .error .valueError else .ok (v.entry 0)

/-- `(left_temp * right_temp).item()` — mps.py:409; a Python float has no attribute `item`. -/
def itemOf : Option (Vec R) → Option (Vec R) → Except PyErr R
  | none, none => .error .attributeError
  | some l, none => l.item
  | none, some r => r.item
  | some l, some r => do
    let n ← castDim l.size r.size
    Vec.item ⟨n, fun i => l.entry (if l.size = 1 then 0 else i) * r.entry (if r.size = 1 then 0 else i)⟩

/-- `_olp_deriv(sd, deriv)` — mps.py:383-409 -/
def Wfn.olpDeriv (w : Wfn R) (sd deriv : ℕ) : Except PyErr R := do
  let (k, _, r, c) ← w.decompose deriv
  let occ ← w.occupation sd
  let right ← w.rightRow occ k c
  let left ← w.leftCol occ k r
  itemOf left right

end Fanpy.MPS
