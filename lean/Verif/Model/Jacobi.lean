import Verif.Model.Slater
import Verif.Model.CI
import Mathlib.Algebra.Field.Basic

/-!
# Model of the wavefunction with two rotated orbitals

`fanpy/wfn/composite/jacobi.py`, and the parts of `base_one.py` it uses.

The component wavefunction is any function of a determinant that may raise.  The angle enters as its cosine and sine.  Left
out: checks of Python types, noise, the memory, saving of parameters and the cache.
-/

namespace Fanpy.Jacobi
open Fanpy.Slater

variable {R : Type} [CommRing R]

/-- `orbtype` — jacobi.py:242-247 -/
inductive OrbType
  | restricted
  | unrestricted
  | generalized
  deriving DecidableEq

/-- What the methods use of the object. -/
structure Wfn (R : Type) where
  nspin : ℕ
  orbtype : OrbType
  /-- `jacobi_indices` -/
  p : ℕ
  q : ℕ
  /-- `wfn.get_overlap` of the component -/
  comp : Option ℕ → Except PyErr R

/-- `nspatial` — wfn/base.py -/
def Wfn.nspatial (w : Wfn R) : ℕ := w.nspin / 2

/-- `assign_orbtype(orbtype)` — jacobi.py:242-247; every other string is `none` inside. -/
def assignOrbtype : Option (Option OrbType) → Except PyErr OrbType
  | none => .ok .restricted
  | some none => .error .valueError
  | some (some t) => .ok t

/-- `assign_jacobi_indices(jacobi_indices)` — jacobi.py:275-302 -/
def assignIndices (orbtype : OrbType) (nspin : ℕ) (inds : List ℤ) : Except PyErr (ℕ × ℕ) :=
  match inds with
  | [i, j] =>
    if i < 0 ∨ j < 0 then .error .valueError
    else if i = j then .error .valueError
    else if orbtype = .generalized ∧ ¬ (i < nspin ∧ j < nspin) then .error .valueError
    else if orbtype = .restricted ∧ ¬ (i < (nspin / 2 : ℕ) ∧ j < (nspin / 2 : ℕ)) then .error .valueError
    else if orbtype = .unrestricted ∧ (decide (i < (nspin / 2 : ℕ)) ≠ decide (j < (nspin / 2 : ℕ))) then .error .valueError
    else if i > j then .ok (j.toNat, i.toNat)
    else .ok (i.toNat, j.toNat)
  | _ => .error .typeError

/-- `JacobiWavefunction(nelec, nspin, wfn, orbtype=orbtype, jacobi_indices=inds)` — jacobi.py:129-131 and base_one.py:88-119 -/
def init (nelec nspin : ℕ) (comp : Option ℕ → Except PyErr R) (compNelec : ℕ) (orbtype : Option (Option OrbType))
    (inds : List ℤ) : Except PyErr (Wfn R) := do
  CI.checkNelec nelec
  CI.checkNspin nspin
  if compNelec ≠ nelec then throw .valueError
  let t ← assignOrbtype orbtype
  let pq ← assignIndices t nspin inds
  return ⟨nspin, t, pq.1, pq.2, comp⟩

/-- the identity matrix with the four entries of lines 198-201; an assignment outside of the matrix raises -/
def rotationMatrix (n : ℕ) (c s : R) (p q : ℕ) : Except PyErr (ℕ → ℕ → R) :=
  if p < n ∧ q < n then
    .ok fun i j =>
      if i = q ∧ j = q then c else if i = q ∧ j = p then -s else if i = p ∧ j = q then s
      else if i = p ∧ j = p then c else if i = j then 1 else 0
  else .error .indexError

/-- `jacobi_rotation` — jacobi.py:187-209 -/
def Wfn.rotation (w : Wfn R) (c s : R) : Except PyErr (List (ℕ → ℕ → R)) := do
  let n := if w.orbtype = .generalized then w.nspin else w.nspatial
  let shift := w.orbtype = .unrestricted ∧ w.p ≥ w.nspatial ∧ w.nspatial ≤ w.q
  let m ← rotationMatrix n c s (if shift then w.p - w.nspatial else w.p) (if shift then w.q - w.nspatial else w.q)
  if w.orbtype = .restricted ∨ w.orbtype = .generalized then return [m]
  else if w.p < w.nspatial ∧ w.q < w.nspatial then return [m, fun i j => if i = j then 1 else 0]
  else return [fun i j => if i = j then 1 else 0, m]

/-- `_olp(sd)`, generalized and unrestricted — jacobi.py:325-334 -/
def Wfn.olpSpin (w : Wfn R) (c s : R) (sd : ℕ) : Except PyErr R :=
  let d := some sd
  if occ d w.p == occ d w.q then w.comp d
  else if occ d w.p && !occ d w.q then do
    let sign ← signSwap d w.p w.q
    return c * (← w.comp d) + sign * s * (← w.comp (← excite d [w.p, w.q]))
  else do
    let sign ← signSwap d w.q w.p
    return c * (← w.comp d) - sign * s * (← w.comp (← excite d [w.q, w.p]))

/-- `_olp(sd)`, restricted — jacobi.py:336-439 -/
def Wfn.olpRestricted (w : Wfn R) (c s : R) (sd : ℕ) : Except PyErr R := do
  let p := w.p
  let q := w.q
  let ns := w.nspatial
  let d := some sd
  let (a, b) ← splitSpin sd ns
  let a := some a
  let b := some b
  if occ a p == occ a q && occ b p == occ b q then w.comp d
  else if occ a p == occ a q && occ b p && !occ b q then
    let sign ← signSwap b p q
    return c * (← w.comp d) + s * sign * (← w.comp (← excite d [p + ns, q + ns]))
  else if occ a p == occ a q && !occ b p && occ b q then
    let sign ← signSwap b q p
    return c * (← w.comp d) - sign * s * (← w.comp (← excite d [q + ns, p + ns]))
  else if occ a p && !occ a q && occ b p == occ b q then
    let sign ← signSwap a p q
    return c * (← w.comp d) + sign * s * (← w.comp (← excite d [p, q]))
  else if occ a p && !occ a q && occ b p && !occ b q then
    let sa ← signSwap a p q
    let sb ← signSwap b p q
    return c ^ 2 * (← w.comp d) +
      (sa * (← w.comp (← excite d [p, q])) + sb * (← w.comp (← excite d [p + ns, q + ns]))) * c * s +
      sa * sb * s ^ 2 * (← w.comp (← excite d [p, p + ns, q, q + ns]))
  else if occ a p && !occ a q && !occ b p && occ b q then
    let sa ← signSwap a p q
    let sb ← signSwap b q p
    return c ^ 2 * (← w.comp d) +
      (sa * (← w.comp (← excite d [p, q])) - sb * (← w.comp (← excite d [q + ns, p + ns]))) * c * s -
      sa * sb * s ^ 2 * (← w.comp (← excite d [p, q + ns, q, p + ns]))
  else if !occ a p && occ a q && occ b p == occ b q then
    let sign ← signSwap a q p
    return c * (← w.comp d) - sign * s * (← w.comp (← excite d [q, p]))
  else if !occ a p && occ a q && occ b p && !occ b q then
    let sa ← signSwap a q p
    let sb ← signSwap b p q
    return c ^ 2 * (← w.comp d) +
      (-sa * (← w.comp (← excite d [q, p])) + sb * (← w.comp (← excite d [p + ns, q + ns]))) * c * s -
      sa * sb * s ^ 2 * (← w.comp (← excite d [q, p + ns, p, q + ns]))
  else
    let sa ← signSwap a q p
    let sb ← signSwap b q p
    return c ^ 2 * (← w.comp d) +
      (-sa * (← w.comp (← excite d [q, p])) - sb * (← w.comp (← excite d [q + ns, p + ns]))) * c * s +
      sa * sb * s ^ 2 * (← w.comp (← excite d [q, q + ns, p, p + ns]))

/-- `_olp(sd)` and `get_overlap(sd)` — jacobi.py:320-439 and 627-628 -/
def Wfn.overlap (w : Wfn R) (c s : R) (sd : ℕ) : Except PyErr R :=
  if w.orbtype = .restricted then w.olpRestricted c s sd else w.olpSpin c s sd

/-- `_olp_deriv(sd)`, generalized and unrestricted — jacobi.py:465-474 -/
def Wfn.derivSpin (w : Wfn R) (c s : R) (sd : ℕ) : Except PyErr R :=
  let d := some sd
  if occ d w.p == occ d w.q then .ok 0
  else if occ d w.p && !occ d w.q then do
    let sign ← signSwap d w.p w.q
    return -s * (← w.comp d) + sign * c * (← w.comp (← excite d [w.p, w.q]))
  else do
    let sign ← signSwap d w.q w.p
    return -s * (← w.comp d) - sign * c * (← w.comp (← excite d [w.q, w.p]))

/-- `_olp_deriv(sd)`, restricted — jacobi.py:461-462 and 476-579 -/
def Wfn.derivRestricted (w : Wfn R) (c s : R) (sd : ℕ) : Except PyErr R := do
  let p := w.p
  let q := w.q
  let ns := w.nspatial
  let d := some sd
  let (a, b) ← splitSpin sd ns
  let a := some a
  let b := some b
  if occ a p == occ a q && occ b p == occ b q then return 0
  else if occ a p == occ a q && occ b p && !occ b q then
    let sign ← signSwap b p q
    return -s * (← w.comp d) + c * sign * (← w.comp (← excite d [p + ns, q + ns]))
  else if occ a p == occ a q && !occ b p && occ b q then
    let sign ← signSwap b q p
    return -s * (← w.comp d) - sign * c * (← w.comp (← excite d [q + ns, p + ns]))
  else if occ a p && !occ a q && occ b p == occ b q then
    let sign ← signSwap a p q
    return -s * (← w.comp d) + sign * c * (← w.comp (← excite d [p, q]))
  else if occ a p && !occ a q && occ b p && !occ b q then
    let sa ← signSwap a p q
    let sb ← signSwap b p q
    return -2 * c * s * (← w.comp d) +
      (sa * (← w.comp (← excite d [p, q])) + sb * (← w.comp (← excite d [p + ns, q + ns]))) * (c * c - s * s) +
      sa * sb * 2 * s * c * (← w.comp (← excite d [p, p + ns, q, q + ns]))
  else if occ a p && !occ a q && !occ b p && occ b q then
    let sa ← signSwap a p q
    let sb ← signSwap b q p
    return -2 * c * s * (← w.comp d) +
      (sa * (← w.comp (← excite d [p, q])) - sb * (← w.comp (← excite d [q + ns, p + ns]))) * (c * c - s * s) -
      sa * sb * 2 * s * c * (← w.comp (← excite d [p, q + ns, q, p + ns]))
  else if !occ a p && occ a q && occ b p == occ b q then
    let sign ← signSwap a q p
    return -s * (← w.comp d) - sign * c * (← w.comp (← excite d [q, p]))
  else if !occ a p && occ a q && occ b p && !occ b q then
    let sa ← signSwap a q p
    let sb ← signSwap b p q
    return -2 * c * s * (← w.comp d) +
      (-sa * (← w.comp (← excite d [q, p])) + sb * (← w.comp (← excite d [p + ns, q + ns]))) * (c * c - s * s) -
      sa * sb * 2 * s * c * (← w.comp (← excite d [q, p + ns, p, q + ns]))
  else
    let sa ← signSwap a q p
    let sb ← signSwap b q p
    return -2 * c * s * (← w.comp d) +
      (-sa * (← w.comp (← excite d [q, p])) - sb * (← w.comp (← excite d [q + ns, p + ns]))) * (c * c - s * s) +
      sa * sb * 2 * s * c * (← w.comp (← excite d [q, q + ns, p, p + ns]))

/-- `_olp_deriv(sd)` — jacobi.py:457-579 -/
def Wfn.olpDeriv (w : Wfn R) (c s : R) (sd : ℕ) : Except PyErr R :=
  if w.orbtype = .restricted then w.derivRestricted c s sd else w.derivSpin c s sd

/-- The wavefunction of `deriv`: the object itself, its component, or another one. -/
inductive Target
  | self
  | comp
  | other
  deriving DecidableEq

/-- `get_overlap(sd, (wfn, indices))` — jacobi.py:646-662; there is one parameter. -/
def Wfn.overlapDeriv (w : Wfn R) (c s : R) (sd : ℕ) (target : Target) (indices : List ℤ) : Except PyErr (List R) :=
  match target with
  | .other => .error .valueError
  | .comp => .error .notImplemented
  | .self =>
    if indices.any (fun i => decide (i < 0)) || indices.any (fun i => decide (i ≥ 1)) then .error .valueError
    else do
      let d ← w.olpDeriv c s sd
      return indices.map fun _ => d

end Fanpy.Jacobi
