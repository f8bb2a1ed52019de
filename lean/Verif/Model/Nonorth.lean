import Verif.Model.Itertools
import Verif.Model.Linalg
import Verif.Model.Jacobi

/-!
# Model of the wavefunction with transformed (nonorthonormal) orbitals

`fanpy/wfn/composite/nonorth.py`, and the parts of `base_one.py` it uses.

A matrix is its shape and a function of two indices.  The component wavefunction is its numbers of electrons and orbitals and
a function of a determinant (or `None`) that may raise.  Determinants of matrices are exact.  Left out: checks of Python
types, noise, the memory, saving of parameters and the cache.
-/

namespace Fanpy.Nonorth
open Fanpy.Slater Fanpy.Linalg Fanpy.Jacobi Fanpy.It

variable {R : Type} [CommRing R]

/-- a two-dimensional array -/
structure Mat (R : Type) where
  nrow : ℕ
  ncol : ℕ
  entry : ℕ → ℕ → R

/-- `np.linalg.det(m[rows, :][:, cols])`: an index outside of the array raises -/
def Mat.minor (m : Mat R) (rows cols : List ℕ) : Except PyErr R :=
  if rows.any (fun i => decide (m.nrow ≤ i)) then .error .indexError
  else if cols.any (fun j => decide (m.ncol ≤ j)) then .error .indexError
  else npDet m.entry rows cols

/-- What is used of the component. -/
structure Comp (R : Type) where
  nelec : ℕ
  nspin : ℕ
  overlap : Option ℕ → Except PyErr R

/-- `nspatial` of the component — wfn/base.py:103-112 -/
def Comp.nspatial (w : Comp R) : ℕ := w.nspin / 2

/-- `NonorthWavefunction` -/
structure Wfn (R : Type) where
  nelec : ℕ
  nspin : ℕ
  comp : Comp R
  params : List (Mat R)

/-- `nspatial` — wfn/base.py:103-112 -/
def Wfn.nspatial (w : Wfn R) : ℕ := w.nspin / 2

/-- `nparams` — nonorth.py:148 -/
def Wfn.nparams (w : Wfn R) : ℕ := (w.params.map fun m => m.nrow * m.ncol).sum

/-- `orbtype` — nonorth.py:179-188 -/
def Wfn.orbtype (w : Wfn R) : Option OrbType :=
  match w.params with
  | [a] => if a.nrow = w.nspatial then some .restricted else if a.nrow = w.nspin then some .generalized else none
  | [a, b] => if a.nrow = w.nspatial ∧ b.nrow = w.nspatial then some .unrestricted else none
  | _ => none

/-- `np.eye(n, m)` -/
def eye (n m : ℕ) : Mat R := ⟨n, m, fun i j => if i = j then 1 else 0⟩

/-- `assign_params(params)` — nonorth.py:217-267 -/
def assignParams (nspin : ℕ) (comp : Comp R) : Option (List (Mat R)) → Except PyErr (List (Mat R))
  | none => .ok [eye (nspin / 2) comp.nspatial]
  | some [a] =>
    if (a.nrow = nspin / 2 ∧ a.ncol = comp.nspatial) ∨ (a.nrow = nspin ∧ a.ncol = comp.nspin) then .ok [a] else .error .valueError
  | some [a, b] =>
    if ¬ (a.nrow = nspin / 2 ∧ a.ncol = comp.nspatial) then .error .valueError
    else if ¬ (b.nrow = nspin / 2 ∧ b.ncol = comp.nspatial) then .error .valueError
    else .ok [a, b]
  | some _ => .error .typeError

/-- `NonorthWavefunction(nelec, nspin, wfn, params=params)` — base_one.py:88-119 -/
def init (nelec nspin : ℕ) (comp : Comp R) (params : Option (List (Mat R))) : Except PyErr (Wfn R) := do
  CI.checkNelec nelec
  CI.checkNspin nspin
  if comp.nelec ≠ nelec then throw .valueError
  let p ← assignParams nspin comp params
  return ⟨nelec, nspin, comp, p⟩

/-- `self.params[i]` -/
def Wfn.param (w : Wfn R) (i : ℕ) : Except PyErr (Mat R) :=
  match w.params[i]? with
  | some m => .ok m
  | none => .error .indexError

/-- a determinant of a matrix, or one if there are no columns — nonorth.py:300-304, 314-318, 376-380, 399-403, 435-439, 465-468, 482-486 -/
def Wfn.minorOrOne (w : Wfn R) (i : ℕ) (rows cols : List ℕ) : Except PyErr R :=
  if cols.length = 0 then .ok 1 else do (← w.param i).minor rows cols

/-- body of the loop over the columns of generalized orbitals — nonorth.py:289-293 -/
def Wfn.olpGenStep (w : Wfn R) (rows : List ℕ) (output : R) (cols : List ℕ) : Except PyErr R := do
  let wfnCoeff ← w.comp.overlap (create (some 0) cols)
  let coeff ← (← w.param 0).minor rows cols
  return output + wfnCoeff * coeff

/-- body of the loop over the beta columns — nonorth.py:307-319; the matrix of the beta orbitals is `params[i]` -/
def Wfn.olpBetaStep (w : Wfn R) (i : ℕ) (betaRows alphaCols : List ℕ) (alphaCoeff output : R) (betaCols : List ℕ) : Except PyErr R := do
  let wfnCoeff ← w.comp.overlap (create (some 0) (alphaCols ++ betaCols.map (· + w.nspatial)))
  let betaCoeff ← w.minorOrOne i betaRows betaCols
  return output + wfnCoeff * alphaCoeff * betaCoeff

/-- body of the loop over the alpha columns — nonorth.py:300-319 -/
def Wfn.olpAlphaStep (w : Wfn R) (i : ℕ) (alphaRows betaRows : List ℕ) (output : R) (alphaCols : List ℕ) : Except PyErr R := do
  let alphaCoeff ← w.minorOrOne 0 alphaRows alphaCols
  (comb (List.range w.comp.nspatial) betaRows.length).foldlM (w.olpBetaStep i betaRows alphaCols alphaCoeff) output

/-- `_olp(sd)` and `get_overlap(sd)` — nonorth.py:284-320 and 550-551 -/
def Wfn.overlap (w : Wfn R) (sd : ℕ) : Except PyErr R :=
  if w.orbtype = some .generalized then
    (comb (List.range w.comp.nspin) w.nelec).foldlM (w.olpGenStep (occIndices (some sd))) 0
  else do
    let (a, b) ← splitSpin sd w.nspatial
    let alphaRows := occIndices (some a)
    let betaRows := occIndices (some b)
    (comb (List.range w.comp.nspatial) alphaRows.length).foldlM
      (w.olpAlphaStep (if w.orbtype = some .restricted then 0 else 1) alphaRows betaRows) 0

/-- `(-1) ** np.sum(np.array(inds) < k)` -/
def belowSign (inds : List ℕ) (k : ℕ) : R := (-1) ^ (inds.filter (· < k)).length

/-- body of the loop of the derivative of generalized orbitals — nonorth.py:354-359 -/
def Wfn.derivGenStep (w : Wfn R) (rows : List ℕ) (row col : ℕ) (output : R) (cols : List ℕ) : Except PyErr R := do
  let wfnCoeff ← w.comp.overlap (create (some 0) (col :: cols))
  let coeff ← (← w.param 0).minor rows cols
  return output + wfnCoeff * belowSign rows row * belowSign cols col * coeff

/-- `_olp_deriv(sd, deriv)` of generalized orbitals — nonorth.py:350-360 -/
def Wfn.derivGen (w : Wfn R) (sd row col : ℕ) : Except PyErr R :=
  let rows := occIndices (annihilate (some sd) [row])
  (comb ((List.range w.comp.nspin).filter (· ≠ col)) rows.length).foldlM (w.derivGenStep rows row col) 0

/-- loop over the beta columns with the derivatized column — nonorth.py:390-410 -/
def Wfn.bothStep (w : Wfn R) (row col : ℕ) (betaRows alphaCols : List ℕ) (derAlpha alpha output : R) (betaCols : List ℕ) :
    Except PyErr R := do
  let wfnCoeff ← w.comp.overlap
    (create (some 0) (col :: (col + w.nspatial) :: (alphaCols ++ betaCols.map (· + w.nspatial))))
  let derBeta ← w.minorOrOne 0 betaRows betaCols
  let beta ← (← w.param 0).minor (betaRows ++ [row]) (betaCols ++ [col])
  return output + wfnCoeff * (derAlpha * beta + alpha * derBeta)

/-- loop over the beta columns without the derivatized column — nonorth.py:414-422 -/
def Wfn.alphaOnlyStep (w : Wfn R) (row col : ℕ) (betaRows alphaCols : List ℕ) (derAlpha output : R) (betaCols : List ℕ) :
    Except PyErr R := do
  let wfnCoeff ← w.comp.overlap (create (some 0) (col :: (alphaCols ++ betaCols.map (· + w.nspatial))))
  let beta ← (← w.param 0).minor (betaRows ++ [row]) betaCols
  return output + wfnCoeff * derAlpha * beta

/-- loop over the beta columns with the derivatized column when the alpha columns are without — nonorth.py:431-440 -/
def Wfn.betaOnlyStep (w : Wfn R) (col : ℕ) (betaRows alphaCols : List ℕ) (alpha output : R) (betaCols : List ℕ) :
    Except PyErr R := do
  let wfnCoeff ← w.comp.overlap (create (some 0) ((col + w.nspatial) :: (alphaCols ++ betaCols.map (· + w.nspatial))))
  let derBeta ← w.minorOrOne 0 betaRows betaCols
  return output + wfnCoeff * alpha * derBeta

/-- loop over the alpha columns with the derivatized column — nonorth.py:375-422 -/
def Wfn.alphaWithStep (w : Wfn R) (row col : ℕ) (allCols alphaRows betaRows : List ℕ) (output : R) (alphaCols : List ℕ) :
    Except PyErr R := do
  let derAlpha ← w.minorOrOne 0 alphaRows alphaCols
  let alpha ← (← w.param 0).minor (alphaRows ++ [row]) (alphaCols ++ [col])
  let output ← (comb allCols betaRows.length).foldlM (w.bothStep row col betaRows alphaCols derAlpha alpha) output
  (comb allCols (betaRows.length + 1)).foldlM (w.alphaOnlyStep row col betaRows alphaCols derAlpha) output

/-- loop over the alpha columns without the derivatized column — nonorth.py:426-440 -/
def Wfn.alphaWithoutStep (w : Wfn R) (row col : ℕ) (allCols alphaRows betaRows : List ℕ) (output : R) (alphaCols : List ℕ) :
    Except PyErr R := do
  let alpha ← (← w.param 0).minor (alphaRows ++ [row]) alphaCols
  (comb allCols betaRows.length).foldlM (w.betaOnlyStep col betaRows alphaCols alpha) output

/-- `_olp_deriv(sd, deriv)` of restricted orbitals when the orbital is doubly occupied — nonorth.py:368-442 -/
def Wfn.derivDouble (w : Wfn R) (a b row col : ℕ) : Except PyErr R := do
  let alphaRows := occIndices (annihilate (some a) [row])
  let betaRows := occIndices (annihilate (some b) [row])
  let allCols := (List.range w.comp.nspatial).filter (· ≠ col)
  let output ← (comb allCols alphaRows.length).foldlM (w.alphaWithStep row col allCols alphaRows betaRows) 0
  (comb allCols (alphaRows.length + 1)).foldlM (w.alphaWithoutStep row col allCols alphaRows betaRows) output

/-- loop over the beta columns — nonorth.py:470-487.  The sign is kept from one iteration to the next, as in the code. -/
def Wfn.derivBetaStep (w : Wfn R) (tind col : ℕ) (inAlpha : Bool) (orbInd : ℕ) (betaRows alphaCols : List ℕ) (rowSign alphaCoeff : R)
    (st : R × R) (betaCols : List ℕ) : Except PyErr (R × R) := do
  let nonorthSd := create (some 0) (alphaCols ++ betaCols.map (· + w.nspatial))
  let nonorthSd := create nonorthSd [if inAlpha then col else col + w.nspatial]
  let wfnCoeff ← w.comp.overlap nonorthSd
  let colSign := if tind = 1 then st.2 * belowSign betaCols col else st.2
  let betaCoeff ← w.minorOrOne orbInd betaRows betaCols
  return (st.1 + wfnCoeff * rowSign * colSign * alphaCoeff * betaCoeff, colSign)

/-- loop over the alpha columns — nonorth.py:462-487.  The iterators over the columns without the derivatized one are
generators; `combinations` of the beta columns is taken in every iteration over the alpha columns, so that the beta generator
(`inAlpha = false`) is exhausted after the first one: only then `combinations` has anything but the empty combination. -/
def Wfn.derivAlphaStep (w : Wfn R) (tind col : ℕ) (inAlpha : Bool) (orbInd : ℕ) (alphaRows betaRows : List ℕ) (rowSign : R)
    (st : R × Bool) (alphaCols : List ℕ) : Except PyErr (R × Bool) := do
  let colSign : R := if tind = 0 then belowSign alphaCols col else 1
  let alphaCoeff ← w.minorOrOne 0 alphaRows alphaCols
  let allBeta := if inAlpha then List.range w.comp.nspatial
    else if st.2 then [] else (List.range w.comp.nspatial).filter (· ≠ col)
  let r ← (comb allBeta betaRows.length).foldlM
    (w.derivBetaStep tind col inAlpha orbInd betaRows alphaCols rowSign alphaCoeff) (st.1, colSign)
  return (r.1, true)

/-- `_olp_deriv(sd, deriv)` of restricted and unrestricted orbitals in the other cases — nonorth.py:452-488; `inAlpha` is the
condition of lines 446-450 -/
def Wfn.derivSpin (w : Wfn R) (inAlpha : Bool) (a b tind row col : ℕ) : Except PyErr R := do
  let alphaRows := if inAlpha then occIndices (annihilate (some a) [row]) else occIndices (some a)
  let betaRows := if inAlpha then occIndices (some b) else occIndices (annihilate (some b) [row])
  let rowSign : R := belowSign (if inAlpha then alphaRows else betaRows) row
  let allAlpha := if inAlpha then (List.range w.comp.nspatial).filter (· ≠ col) else List.range w.comp.nspatial
  let r ← (comb allAlpha alphaRows.length).foldlM
    (w.derivAlphaStep tind col inAlpha (if w.orbtype = some .restricted then 0 else 1) alphaRows betaRows rowSign) (0, false)
  return r.1

/-- which of the two spins is derivatized — nonorth.py:446-450 -/
def Wfn.inAlpha (w : Wfn R) (a tind row : ℕ) : Bool :=
  (w.orbtype = some .restricted ∧ occ (some a) row = true) ∨ (w.orbtype = some .unrestricted ∧ tind = 0)

/-- `_olp_deriv(sd, deriv)` — nonorth.py:342-488 -/
def Wfn.olpDeriv (w : Wfn R) (sd i : ℕ) : Except PyErr R := do
  let m0 ← w.param 0
  let n := m0.nrow * m0.ncol
  let m ← w.param (i / n)
  let row := i % n / m.ncol
  let col := i % n % m.ncol
  if w.orbtype = some .generalized then w.derivGen sd row col
  else
    let (a, b) ← splitSpin sd w.nspatial
    if !(occ (some a) row || occ (some b) row) then return 0
    else if w.orbtype = some .restricted ∧ (occ (some a) row && occ (some b) row) then w.derivDouble a b row col
    else w.derivSpin (w.inAlpha a (i / n) row) a b (i / n) row col

/-- body of the loop over the indices — nonorth.py:581-600; `output` is an array, and the assignment uses the index of the
parameter -/
def Wfn.derivStep (w : Wfn R) (sd : ℕ) (output : List R) (i : ℕ) : Except PyErr (List R) := do
  let m0 ← w.param 0
  let n := m0.nrow * m0.ncol
  let m ← w.param (i / n)
  let row := i % n / m.ncol
  if w.orbtype = some .restricted ∧ !(occ (some sd) row || occ (some sd) (row + w.nspatial)) then return output
  else if w.orbtype = some .unrestricted ∧ !occ (some sd) (row + i / n * w.nspatial) then return output
  else if w.orbtype = some .generalized ∧ !occ (some sd) row then return output
  else
    let d ← w.olpDeriv sd i
    if i < output.length then return output.set i d else throw .indexError

/-- `get_overlap(sd, (wfn, indices))` — nonorth.py:568-605 -/
def Wfn.overlapDeriv (w : Wfn R) (sd : ℕ) (target : Target) (indices : List ℤ) : Except PyErr (List R) :=
  match target with
  | .other => .error .valueError
  | .comp => .error .notImplemented
  | .self =>
    if indices.any (fun i => decide (i < 0)) || indices.any (fun i => decide (i ≥ w.nparams)) then .error .valueError
    else (indices.map Int.toNat).foldlM (w.derivStep sd) (List.replicate indices.length 0)

end Fanpy.Nonorth
