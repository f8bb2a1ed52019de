import Verif.Model.Geminal

/-!
# Model of the AP1roG wavefunction

`fanpy/wfn/geminal/ap1rog.py`; see `Verif.Model.Geminal` for the classes it is derived from and for what is left out.
-/

namespace Fanpy.Geminal
open Fanpy.Slater Fanpy.MathTools

variable {R : Type} [Field R]

/-- The attributes of an `AP1roG` wavefunction: `refPairs` and `virPairs` list the keys of `dict_reforbpair_ind` and
`dict_orbpair_ind` in the order of their values. -/
structure AP1roG (R : Type) where
  nelec : ℕ
  nspin : ℕ
  ngem : ℕ
  ref : ℕ
  refPairs : List (ℕ × ℕ)
  virPairs : List (ℕ × ℕ)
  params : ℕ → ℕ → R

/-- `assign_ngem(ngem)` — ap1rog.py:232-237. -/
def ap1rogNgem (nelec : ℕ) (ngem : Option ℕ) : Except PyErr ℕ := do
  let ngem ← assignNgem nelec ngem
  if ngem ≠ nelec / 2 then .error .notImplemented else return ngem

/-- `assign_ref_sd(sd)`, the checks — ap1rog.py:202-210.  `spin` is 0.0 and `seniority` is 0 (apig.py:116, 132). -/
def ap1rogCheckRef (nelec nspin sd : ℕ) : Except PyErr ℕ := do
  if totalOcc (some sd) ≠ nelec then .error .valueError
  else
    let s ← getTwoSpin sd (nspin / 2 : ℕ)
    if s ≠ 0 then .error .valueError
    else
      let s ← getSeniority sd (nspin / 2 : ℕ)
      if s ≠ 0 then .error .valueError else return sd

/-- `assign_ref_sd(sd)` — ap1rog.py:199-211. -/
def ap1rogRef (nelec nspin : ℕ) (sd : Option ℕ) : Except PyErr ℕ :=
  match sd with
  | none => do ap1rogCheckRef nelec nspin (← ground nelec nspin)
  | some sd => ap1rogCheckRef nelec nspin sd

/-- is the pair occupied in the reference? — ap1rog.py:279 -/
def inRef (ref : ℕ) (p : ℕ × ℕ) : Bool := occ (some ref) p.1 && occ (some ref) p.2

/-- `assign_orbpairs(orbpairs)` — ap1rog.py:269-287: the pairs of the reference and the other pairs. -/
def ap1rogPairs (nspin ref : ℕ) (orbpairs : Option (List (ℕ × ℕ))) :
    Except PyErr (List (ℕ × ℕ) × List (ℕ × ℕ)) := do
  let pairs ← apigOrbpairs nspin orbpairs
  if ∃ p ∈ pairs, p ∉ (List.range (nspin / 2)).map fun i => (i, i + nspin / 2) then .error .valueError
  else return (pairs.filter (inRef ref), pairs.filter fun p => !inRef ref p)

/-- `__init__(nelec, nspin, ngem=ngem, orbpairs=orbpairs, ref_sd=ref, params=params)` with given parameters —
ap1rog.py:147-155. -/
def AP1roG.init (nelec nspin : ℕ) (ngem : Option ℕ) (orbpairs : Option (List (ℕ × ℕ))) (ref : Option ℕ)
    (params : ℕ → ℕ → R) : Except PyErr (AP1roG R) := do
  checkNelec nelec
  CI.checkNspin nspin
  let ngem ← ap1rogNgem nelec ngem
  let ref ← ap1rogRef nelec nspin ref
  let (rp, vp) ← ap1rogPairs nspin ref orbpairs
  return ⟨nelec, nspin, ngem, ref, rp, vp, params⟩

/-- `dict[(i, i + nspatial)]` — ap1rog.py:397-398. -/
def pairKey (nspin : ℕ) (pairs : List (ℕ × ℕ)) (i : ℕ) : Except PyErr ℕ :=
  if (i, i + nspin / 2) ∈ pairs then .ok (pairs.idxOf (i, i + nspin / 2)) else .error .keyError

/-- The result of the first part of `get_overlap(sd, deriv)` — ap1rog.py:377-398: `none` if the overlap is zero, the
rows and columns otherwise. -/
def AP1roG.inds (w : AP1roG R) (sd : ℕ) : Except PyErr (Option (List ℕ × List ℕ)) := do
  let (sref, _) ← splitSpin w.ref (w.nspin / 2 : ℕ)
  let (ssd, _) ← splitSpin sd (w.nspin / 2 : ℕ)
  let d := diffOrbs sref ssd
  if d.1.length ≠ d.2.length then return none
  else
    let s ← getSeniority sd (w.nspin / 2 : ℕ)
    if s ≠ 0 then return none
    else
      let rows ← d.1.mapM (pairKey w.nspin w.refPairs)
      let cols ← d.2.mapM (pairKey w.nspin w.virPairs)
      return some (rows, cols)

/-- the last part of `get_overlap(sd)` — ap1rog.py:401-404, 311 -/
def AP1roG.overlapOf (w : AP1roG R) : Option (List ℕ × List ℕ) → Except PyErr R
  | none => .ok 0
  | some (rows, cols) => if rows.length = cols.length ∧ cols.length = 0 then .ok 1 else permanent w.params cols rows

/-- `get_overlap(sd)` — ap1rog.py:377-404. -/
def AP1roG.overlap (w : AP1roG R) (sd : ℕ) : Except PyErr R := do
  w.overlapOf (← w.inds sd)

/-- the last part of `get_overlap(sd, deriv)` — ap1rog.py:406-409, 336 -/
def AP1roG.derivOf (w : AP1roG R) (deriv : List ℕ) : Option (List ℕ × List ℕ) → Except PyErr (List R)
  | none => .ok (deriv.map fun _ => 0)
  | some (rows, cols) =>
    if rows.length = cols.length ∧ cols.length = 0 then .ok (deriv.map fun _ => 0)
    else deriv.mapM fun i => permanentDeriv w.params w.virPairs.length cols rows i

/-- `get_overlap(sd, deriv)` — ap1rog.py:377-409. -/
def AP1roG.overlapDeriv (w : AP1roG R) (sd : ℕ) (deriv : List ℕ) : Except PyErr (List R) := do
  w.derivOf deriv (← w.inds sd)

end Fanpy.Geminal
