import Verif.Model.Linalg
import Verif.Model.Geminal

/-!
# Model of the quasiparticle wavefunctions

`fanpy/wfn/quasiparticle/base.py` and `tetret.py`.  Left out: checks of Python types, the memory, `add_noise` and
the cache (`assign_params` clears it); for `assign_params` see `Model/QuasiParams.lean`.  The matrix of
parameters is a function of the row and the column.
-/

namespace Fanpy.Quasi
open Fanpy.Slater Fanpy.Graphs Fanpy.MathTools Fanpy.Linalg

variable {R : Type} [Field R]

/-- The body of the loop of `assign_orbsubsets` — base.py:210-222; `acc` lists the keys so far. -/
def addOrbsubset (acc : List (List ℕ)) (s : List ℕ) : Except PyErr (List (List ℕ)) :=
  if s.length ≠ s.dedup.length then .error .valueError
  else
    let s := s.mergeSort fun a b => decide (a ≤ b)
    if s ∈ acc then .error .valueError else .ok (acc ++ [s])

/-- `assign_orbsubsets(orbsubsets)` — base.py:202-229: the keys of `dict_orbsubset_ind` in the order of their values. -/
def baseOrbsubsets (l : List (List ℕ)) : Except PyErr (List (List ℕ)) := l.foldlM addOrbsubset []

/-- The attributes of a quasiparticle wavefunction. -/
structure Wfn (R : Type) where
  nelec : ℕ
  nspin : ℕ
  nquasi : ℕ
  subsets : List (List ℕ)
  params : ℕ → ℕ → R

/-- `get_col_ind(orbsubset)` — base.py:311-314 -/
def Wfn.colInd (w : Wfn R) (s : List ℕ) : Except PyErr ℕ :=
  if s ∈ w.subsets then .ok (w.subsets.idxOf s) else .error .valueError

/-- `matrix_bos` and its permanent — base.py:388-393. -/
def permBos (P : ℕ → ℕ → R) (nboson : ℕ) (rows cols : List ℕ) (bos : List ℕ) : Except PyErr R :=
  if nboson = 0 then Geminal.permanentOf true ⟨1, 1, fun _ _ => 1⟩
  else if ¬ nboson ≤ rows.length then .error .indexError
  else Geminal.permanentOf true (Geminal.subMatrix P (rows.take nboson) (bos.map fun j => cols.getD j 0))

/-- `matrix_ferm` and its determinant — base.py:395-400. -/
def detFerm (P : ℕ → ℕ → R) (nboson : ℕ) (rows cols : List ℕ) (bos : List ℕ) : Except PyErr R :=
  let rowsFerm := rows.drop nboson
  let colsFerm := ((List.range cols.length).filter fun i => i ∉ bos).map fun j => cols.getD j 0
  if rowsFerm.length = 0 ∨ colsFerm.length = 0 then .ok 1 else npDet P rowsFerm colsFerm

/-- One iteration of the loop of `compute_permsum` — base.py:387-402. -/
def permsumStep (P : ℕ → ℕ → R) (nboson : ℕ) (rows cols : List ℕ) (output : R) (bos : List ℕ) : Except PyErr R := do
  let permanent ← permBos P nboson rows cols bos
  let determinant ← detFerm P nboson rows cols bos
  return output + permanent * determinant

/-- `compute_permsum(nboson, col_inds, row_inds)` — base.py:370-403.  Empty lists make arrays of floats, which cannot be
used as indices. -/
def permsum (P : ℕ → ℕ → R) (nboson : ℕ) (cols rows : List ℕ) : Except PyErr R :=
  if cols = [] ∨ rows = [] then .error .indexError
  else (It.comb (List.range cols.length) nboson).foldlM (permsumStep P nboson rows cols) 0

/-- `compute_permsum(nboson, col_inds, row_inds, deriv)` — base.py:370-422. -/
def permsumDeriv (P : ℕ → ℕ → R) (ncol nboson : ℕ) (cols rows : List ℕ) (deriv : ℕ) : Except PyErr R :=
  if cols = [] ∨ rows = [] then .error .indexError
  else
    let rowRemoved := deriv / ncol
    let colRemoved := deriv % ncol
    let rowsTrunc := rows.filter (· ≠ rowRemoved)
    let colsTrunc := cols.filter (· ≠ colRemoved)
    let nboson' := if rowRemoved < nboson then nboson - 1 else nboson
    if rowsTrunc.length = rows.length ∨ colsTrunc.length = cols.length then .ok 0
    else if rowsTrunc.length = colsTrunc.length ∧ colsTrunc.length = 0 then .ok 1
    else permsum P nboson' colsTrunc rowsTrunc

/-- `_process_subsets(subsets)` — base.py:444-460: the column indices, the bosons and the fermions. -/
def Wfn.process (w : Wfn R) (subsets : List (List ℕ)) : Except PyErr (List ℕ × List (List ℕ) × List (List ℕ)) := do
  let _ ← subsets.mapM w.colInd
  let bosons := subsets.filter fun s => s.length % 2 = 0
  let fermions := subsets.filter fun s => ¬ s.length % 2 = 0
  let colsBos ← bosons.mapM w.colInd
  let colsFerm ← fermions.mapM w.colInd
  return (colsBos ++ colsFerm, bosons, fermions)

/-- One iteration of the loop of `_olp` — base.py:479-487. -/
def Wfn.olpStep (w : Wfn R) (occ : List ℕ) (val : R) (subsets : List (List ℕ)) : Except PyErr R := do
  let (cols, bosons, fermions) ← w.process subsets
  let sign ← signPerm (bosons ++ fermions).flatten (some occ)
  let p ← permsum w.params bosons.length cols (List.range w.nquasi)
  return val + sign * p

/-- `get_overlap(sd)` — base.py:476-488, 554-562; `gen` is `generate_possible_orbsubsets`. -/
def Wfn.overlap (w : Wfn R) (gen : List ℕ → Except PyErr (List (List (List ℕ)))) (sd : ℕ) : Except PyErr R := do
  (← gen (occIndices (some sd))).foldlM (w.olpStep (occIndices (some sd))) 0

/-- The inner loops of `_olp_deriv` — base.py:515-518. -/
def Wfn.derivStep (w : Wfn R) (nboson : ℕ) (cols : List ℕ) (sign : ℤ) (out : ℕ → R) (rc : ℕ × ℕ) :
    Except PyErr (ℕ → R) := do
  let i := rc.1 * w.subsets.length + rc.2
  let p ← permsumDeriv w.params w.subsets.length nboson cols (List.range w.nquasi) i
  return Geminal.bump out i (sign * p)

/-- One iteration of the outer loop of `_olp_deriv` — base.py:507-518. -/
def Wfn.olpDerivStep (w : Wfn R) (occ : List ℕ) (out : ℕ → R) (subsets : List (List ℕ)) : Except PyErr (ℕ → R) := do
  let (cols, bosons, fermions) ← w.process subsets
  let sign ← signPerm (bosons ++ fermions).flatten (some occ)
  ((List.range w.nquasi).flatMap fun r => cols.map fun c => (r, c)).foldlM (w.derivStep bosons.length cols sign) out

/-- `_olp_deriv(sd)` — base.py:504-519 -/
def Wfn.olpDeriv (w : Wfn R) (gen : List ℕ → Except PyErr (List (List (List ℕ)))) (sd : ℕ) : Except PyErr (ℕ → R) := do
  (← gen (occIndices (some sd))).foldlM (w.olpDerivStep (occIndices (some sd))) fun _ => 0

/-- `get_overlap(sd, deriv)` — base.py:563: `_olp_deriv(sd)[deriv]`. -/
def Wfn.overlapDeriv (w : Wfn R) (gen : List ℕ → Except PyErr (List (List (List ℕ)))) (sd : ℕ) (deriv : List ℕ) :
    Except PyErr (List R) := do
  let d ← w.olpDeriv gen sd
  deriv.mapM fun i => if i < w.nquasi * w.subsets.length then .ok (d i) else .error .indexError

/-! ## Tetrets -/

/-- the default `orbsubsets` of `AntisymmeterizedProductTetrets` — tetret.py:157-164 -/
def tetretSubsets (nspin : ℕ) : List (List ℕ) :=
  (List.range nspin).flatMap fun i => (List.range' (i + 1) (nspin - (i + 1))).flatMap fun j =>
    (List.range' (j + 1) (nspin - (j + 1))).flatMap fun k => (List.range' (k + 1) (nspin - (k + 1))).map fun l => [i, j, k, l]

/-- `AntisymmeterizedProductTetrets(nelec, nspin, nquasiparticle=n, orbsubsets=orbsubsets, params=params)` with given
parameters — base.py:133-138, tetret.py:106-168. -/
def tetretInit (nelec nspin : ℕ) (nquasi : Option ℕ) (orbsubsets : Option (List (List ℕ))) (params : ℕ → ℕ → R) :
    Except PyErr (Wfn R) := do
  CI.checkNelec nelec
  if nelec % 4 ≠ 0 then .error .valueError
  CI.checkNspin nspin
  let n := nquasi.getD (nelec / 4)
  if n = 0 then .error .valueError
  if n * 4 ≠ nelec then .error .valueError
  if orbsubsets.isSome then .error .notImplemented
  let subsets ← baseOrbsubsets (tetretSubsets nspin)
  return ⟨nelec, nspin, n, subsets, params⟩

/-- `generate_possible_orbsubsets(occ_indices)` — tetret.py:192-199 (`unorderedPartition` never gives `none`, C17). -/
def tetretGen (occ : List ℕ) : Except PyErr (List (List (List ℕ))) :=
  if occ.length % 4 ≠ 0 then .error .valueError
  else
    match unorderedPartition occ [(4, occ.length / 4)] with
    | some l => .ok l
    | none => .error .overflow

end Fanpy.Quasi
