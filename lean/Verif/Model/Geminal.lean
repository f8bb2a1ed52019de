import Verif.Model.Graphs
import Verif.Model.MathTools
import Verif.Model.CI
import Mathlib.Analysis.SpecialFunctions.Pow.Real

/-!
# Model of the geminal wavefunctions

`fanpy/wfn/geminal/base.py`, `apg.py`, `apsetg.py`, `apig.py`, `ap1rog.py`, with the attributes of `fanpy/wfn/base.py`
they use.  Left out: checks of Python types, the memory, `add_noise` and the cache (`assign_params` clears it).
Matrices of parameters are functions of the row and the column.  Determinants and indices are natural numbers.  Column
indices always come from `get_col_ind`, which returns indices below `norbpair` (C37), so that reading a parameter does
not fail.
-/

namespace Fanpy.Geminal
open Fanpy.Slater Fanpy.Graphs Fanpy.MathTools

variable {R : Type} [Field R]

/-! ## Pairs of orbitals and columns -/

/-- `APG.get_col_ind(orbpair)` — apg.py:144-150.  Orbitals are arbitrary integers. -/
def apgColInd (nspin : ℕ) (p : ℤ × ℤ) : Except PyErr ℤ :=
  let q := if p.1 > p.2 then (p.2, p.1) else p
  if 0 ≤ q.1 ∧ q.1 < q.2 ∧ q.2 < nspin then .ok (nspin * q.1 - q.1 * (q.1 + 1) / 2 + (q.2 - q.1 - 1))
  else .error .valueError

/-- `APG.get_orbpair(col_ind)` — apg.py:172-179, in exact arithmetic (the code computes the square root with floats,
and the entries of the result are floats with integer values). -/
noncomputable def apgOrbpair (nspin : ℕ) (col : ℤ) : Except PyErr (ℤ × ℤ) :=
  if 0 ≤ col ∧ (col : ℚ) < (nspin : ℚ) * (nspin - 1) / 2 then
    let i : ℤ := ⌊(2 * (nspin : ℝ) - 1 - Real.sqrt ((1 - 2 * (nspin : ℝ)) ^ 2 - 8 * col)) / 2⌋
    .ok (i, col - (i * nspin - i * (i + 1) / 2 - i - 1))
  else .error .valueError

/-- `BasicAPsetG.get_col_ind(orbpair)` — apsetg.py:135-139. -/
def apsetgColInd (nspin : ℕ) (p : ℤ × ℤ) : Except PyErr ℤ :=
  if 0 ≤ p.1 ∧ p.1 < (nspin / 2 : ℕ) ∧ ((nspin / 2 : ℕ) : ℤ) ≤ p.2 ∧ p.2 < nspin then
    .ok ((nspin / 2 : ℕ) * p.1 + p.2 - (nspin / 2 : ℕ))
  else .error .valueError

/-- `BasicAPsetG.get_orbpair(col_ind)` — apsetg.py:161-165. -/
def apsetgOrbpair (nspin : ℕ) (col : ℤ) : Except PyErr (ℤ × ℤ) :=
  if 0 ≤ col ∧ col < ((nspin / 2 : ℕ) : ℤ) ^ 2 then
    let i := col / (nspin / 2 : ℕ)
    .ok (i, col - i * (nspin / 2 : ℕ) + (nspin / 2 : ℕ))
  else .error .valueError

/-- `BaseGeminal.get_col_ind(orbpair)` — base.py:351-354: `pairs` lists the keys of `dict_orbpair_ind` in the order of
their values. -/
def dictColInd (pairs : List (ℕ × ℕ)) (p : ℕ × ℕ) : Except PyErr ℕ :=
  if p ∈ pairs then .ok (pairs.idxOf p) else .error .valueError

/-- `BaseGeminal.get_orbpair(col_ind)` — base.py:376-379. -/
def dictOrbpair (pairs : List (ℕ × ℕ)) (col : ℕ) : Except PyErr (ℕ × ℕ) :=
  match pairs[col]? with
  | some p => .ok p
  | none => .error .valueError

/-- The body of the loop of `BaseGeminal.assign_orbpairs` — base.py:260-277; `acc` lists the pairs so far. -/
def addOrbpair (acc : List (ℕ × ℕ)) (p : ℕ × ℕ) : Except PyErr (List (ℕ × ℕ)) :=
  if p.1 = p.2 then .error .valueError
  else
    let p := if p.1 > p.2 then (p.2, p.1) else p
    if p ∈ acc then .error .valueError else .ok (acc ++ [p])

/-- `BaseGeminal.assign_orbpairs(orbpairs)` — base.py:259-280. -/
def baseOrbpairs (l : List (ℕ × ℕ)) : Except PyErr (List (ℕ × ℕ)) := l.foldlM addOrbpair []

/-- `APIG.assign_orbpairs(orbpairs)` — apig.py:161-170. -/
def apigOrbpairs (nspin : ℕ) (l : Option (List (ℕ × ℕ))) : Except PyErr (List (ℕ × ℕ)) := do
  let pairs ← baseOrbpairs (l.getD ((List.range (nspin / 2)).map fun i => (i, i + nspin / 2)))
  let allOrbs := flatPairs pairs
  if allOrbs.length ≠ allOrbs.dedup.length then .error .valueError
  else if allOrbs.length ≠ nspin then .error .valueError
  else return pairs

/-! ## The classes -/

/-- The class of a wavefunction, with the pairs of orbitals of an `APIG`. -/
inductive Kind where
  | apg
  | apsetg
  | apig (pairs : List (ℕ × ℕ))

/-- The attributes of a geminal wavefunction. -/
structure Wfn (R : Type) where
  kind : Kind
  nelec : ℕ
  nspin : ℕ
  ngem : ℕ
  params : ℕ → ℕ → R

/-- `norbpair` — base.py:174: `len(dict_ind_orbpair)`; apg.py:110 and apsetg.py:110. -/
def Wfn.norbpair (w : Wfn R) : ℕ :=
  match w.kind with
  | .apg => w.nspin * (w.nspin - 1) / 2
  | .apsetg => (w.nspin / 2) * (w.nspin - w.nspin / 2)
  | .apig pairs => pairs.length

/-- `get_col_ind(orbpair)` for a pair of natural numbers. -/
def Wfn.colInd (w : Wfn R) (p : ℕ × ℕ) : Except PyErr ℕ :=
  match w.kind with
  | .apg => (apgColInd w.nspin (p.1, p.2)).map Int.toNat
  | .apsetg => (apsetgColInd w.nspin (p.1, p.2)).map Int.toNat
  | .apig pairs => dictColInd pairs p

/-- `assign_nelec` — base.py:194-196. -/
def checkNelec (nelec : ℕ) : Except PyErr Unit := do
  CI.checkNelec nelec
  if nelec % 2 ≠ 0 then .error .notImplemented else return

/-- `assign_ngem(ngem)` — base.py:219-228. -/
def assignNgem (nelec : ℕ) (ngem : Option ℕ) : Except PyErr ℕ :=
  if ngem.getD (nelec / 2) < nelec / 2 then .error .valueError else .ok (ngem.getD (nelec / 2))

/-- `assign_orbpairs(orbpairs)` of the three classes — apg.py:106-112, apsetg.py:105-113, apig.py:161-170. -/
def assignOrbpairs (kind : Kind) (nspin : ℕ) (orbpairs : Option (List (ℕ × ℕ))) : Except PyErr Kind :=
  match kind with
  | .apg => if orbpairs.isSome then .error .valueError else .ok .apg
  | .apsetg => if orbpairs.isSome then .error .valueError else .ok .apsetg
  | .apig _ => do return .apig (← apigOrbpairs nspin orbpairs)

/-- `__init__(nelec, nspin, ngem=ngem, orbpairs=orbpairs, params=params)` with given parameters — base.py:143-150. -/
def Wfn.init (kind : Kind) (nelec nspin : ℕ) (ngem : Option ℕ) (orbpairs : Option (List (ℕ × ℕ)))
    (params : ℕ → ℕ → R) : Except PyErr (Wfn R) := do
  checkNelec nelec
  CI.checkNspin nspin
  let ngem ← assignNgem nelec ngem
  let kind ← assignOrbpairs kind nspin orbpairs
  return ⟨kind, nelec, nspin, ngem, params⟩

/-! ## Permanents -/

/-- `permanent_ryser` or `permanent_combinatoric`, selected by the sizes of `col_inds` and `row_inds` —
base.py:411-414.  (`permanentRyser` never gives `none`, C20.) -/
def permanentOf (few : Bool) (A : Arr2 R) : Except PyErr R :=
  if few then
    match permanentRyser A with
    | .ok (some v) => .ok v
    | .ok none => .error .overflow
    | .error e => .error e
  else permanentCombinatoric A

/-- `self.params[row_inds[:, None], col_inds[None, :]]` — base.py:417, 431. -/
def subMatrix (params : ℕ → ℕ → R) (rows cols : List ℕ) : Arr2 R :=
  ⟨rows.length, cols.length, fun i j => params (rows.getD i 0) (cols.getD j 0)⟩

/-- `compute_permanent(col_inds, row_inds)` — base.py:402-417. -/
def permanent (params : ℕ → ℕ → R) (cols rows : List ℕ) : Except PyErr R :=
  permanentOf (decide (cols.length ≤ 3 ∧ 3 ≥ rows.length)) (subMatrix params rows cols)

/-- `compute_permanent(col_inds, row_inds, deriv)` — base.py:402-431. -/
def permanentDeriv (params : ℕ → ℕ → R) (norbpair : ℕ) (cols rows : List ℕ) (deriv : ℕ) : Except PyErr R :=
  let few := decide (cols.length ≤ 3 ∧ 3 ≥ rows.length)
  let rowRemoved := deriv / norbpair
  let colRemoved := deriv % norbpair
  let rowsTrunc := rows.filter (· ≠ rowRemoved)
  let colsTrunc := cols.filter (· ≠ colRemoved)
  if rowsTrunc.length = rows.length ∨ colsTrunc.length = cols.length then .ok 0
  else if rowsTrunc.length = colsTrunc.length ∧ colsTrunc.length = 0 then .ok 1
  else permanentOf few (subMatrix params rowsTrunc colsTrunc)

/-! ## Overlaps -/

/-- The pairs of an `APIG` whose first orbital is occupied, in the order of the occupied orbitals — apig.py:207-215. -/
def apigSelect (pairs : List (ℕ × ℕ)) (occ : List ℕ) : List (ℕ × ℕ) :=
  occ.filterMap fun i => pairs.find? fun p => p.1 = i

/-- `generate_possible_orbpairs(occ_indices)` — apg.py:204, apsetg.py:191-200, apig.py:201-225. -/
def Wfn.orbpairs (w : Wfn R) (occ : List ℕ) : Except PyErr (List (Scheme × ℤ)) :=
  match w.kind with
  | .apg => (completePmatch occ 1).mapM fun p =>
      match p.1 with
      | some s => .ok (s, p.2)
      | none => .error .indexError
  | .apsetg => do
      match ← bicliquePmatch (occ.filter (· < w.nspin / 2)) (occ.filter fun i => ¬ i < w.nspin / 2) (some occ) false with
      | some l => .ok l
      | none => .error .overflow
  | .apig pairs =>
      if occ.length ≠ w.nelec then .error .valueError
      else do
        let orbpairs := apigSelect pairs occ
        let sign ← signPerm (flatPairs orbpairs)
        if occ.toFinset ≠ (flatPairs orbpairs).toFinset then return [([], 1)] else return [(orbpairs, sign)]

/-- One iteration of the loop of `_olp` — base.py:454-460: the value and the counter. -/
def Wfn.olpStep (w : Wfn R) (acc : R × ℕ) (o : Scheme × ℤ) : Except PyErr (R × ℕ) :=
  if o.1.length = 0 then .ok acc
  else do
    let cols ← o.1.mapM w.colInd
    let p ← permanent w.params cols (List.range w.ngem)
    return (acc.1 + o.2 * p, acc.2 + 1)

/-- `get_overlap(sd)` — base.py:447-464 (`default_val` is zero). -/
def Wfn.overlap (w : Wfn R) (sd : ℕ) : Except PyErr R := do
  let gen ← w.orbpairs (occIndices (some sd))
  let (val, counter) ← gen.foldlM w.olpStep (0, 0)
  return if counter = 0 then 0 else val

/-- `output[i] += v` -/
def bump (out : ℕ → R) (i : ℕ) (v : R) : ℕ → R := fun k => if k = i then out k + v else out k

/-- The inner loops of `_olp_deriv` — base.py:491-494. -/
def Wfn.derivStep (w : Wfn R) (cols : List ℕ) (sign : ℤ) (out : ℕ → R) (rc : ℕ × ℕ) : Except PyErr (ℕ → R) := do
  let i := rc.1 * w.norbpair + rc.2
  let p ← permanentDeriv w.params w.norbpair cols (List.range w.ngem) i
  return bump out i (sign * p)

/-- One iteration of the outer loop of `_olp_deriv` — base.py:486-494. -/
def Wfn.olpDerivStep (w : Wfn R) (out : ℕ → R) (o : Scheme × ℤ) : Except PyErr (ℕ → R) :=
  if o.1.length = 0 then .ok out
  else do
    let cols ← o.1.mapM w.colInd
    ((List.range w.ngem).flatMap fun r => cols.map fun c => (r, c)).foldlM (w.derivStep cols o.2) out

/-- `_olp_deriv(sd)` — base.py:480-495. -/
def Wfn.olpDeriv (w : Wfn R) (sd : ℕ) : Except PyErr (ℕ → R) := do
  let gen ← w.orbpairs (occIndices (some sd))
  gen.foldlM w.olpDerivStep fun _ => 0

/-- `get_overlap(sd, deriv)` — base.py:540: `_olp_deriv(sd)[deriv]`. -/
def Wfn.overlapDeriv (w : Wfn R) (sd : ℕ) (deriv : List ℕ) : Except PyErr (List R) := do
  let d ← w.olpDeriv sd
  deriv.mapM fun i => if i < w.ngem * w.norbpair then .ok (d i) else .error .indexError

end Fanpy.Geminal
