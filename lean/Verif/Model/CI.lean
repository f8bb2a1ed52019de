import Verif.Model.SdList
import Verif.Model.Density
import Mathlib.Data.Rat.Floor

/-!
# Model of the CI wavefunctions

`fanpy/wfn/ci/base.py`, `cisd.py`, `fci.py`, `doci.py`, `ci_pairs.py`, `hci.py`, with the attributes of
`fanpy/wfn/base.py` they use.  Spins are given as twice their value.  The checks of Python types, the memory and
`add_noise` are left out.  Arrays of parameters are lists; indices are natural numbers.
-/

namespace Fanpy.CI
open Fanpy.Slater Fanpy.SdList Fanpy.Ham

/-- `{sd: i for i, sd in enumerate(sds)}` — ci/base.py:126: a later entry replaces an earlier one. -/
def dictOf (sds : List ℕ) : ℕ → Option ℕ :=
  sds.zipIdx.foldl (fun d p => Function.update d p.1 (some p.2)) fun _ => none

/-- The attributes of a CI wavefunction — ci/base.py:92-129. -/
structure Wfn (R : Type) where
  nelec : ℕ
  nspin : ℕ
  twoSpin : Option ℤ
  seniority : Option ℤ
  sds : List ℕ
  dict : ℕ → Option ℕ
  params : List R

/-- `assign_nelec` — wfn/base.py:163-184. -/
def checkNelec (nelec : ℕ) : Except PyErr Unit := if nelec = 0 then .error .valueError else .ok ()

/-- `assign_nspin` — wfn/base.py:186-210. -/
def checkNspin (nspin : ℕ) : Except PyErr Unit := if nspin = 0 ∨ nspin % 2 = 1 then .error .valueError else .ok ()

/-- `assign_spin`, `assign_seniority` — ci/base.py:182-236: negative values are rejected. -/
def checkNonneg : Option ℤ → Except PyErr Unit
  | none => .ok ()
  | some k => if k < 0 then .error .valueError else .ok ()

/-- The checks of one determinant in `assign_sds` — ci/base.py:283-299. -/
def checkSd (nelec nspin : ℕ) (twoSpin seniority : Option ℤ) (sd : ℕ) : Except PyErr Unit :=
  if totalOcc (some sd) ≠ nelec then .error .valueError
  else do
    match twoSpin with
    | none => pure ()
    | some t => if (← getTwoSpin sd (nspin / 2 : ℕ)) ≠ t then .error .valueError
    match seniority with
    | none => pure ()
    | some k => if ((← getSeniority sd (nspin / 2 : ℕ)) : ℤ) ≠ k then .error .valueError

/-- `assign_sds(sds)` with a list of determinants — ci/base.py:275-303.  Returns the value of the attribute. -/
def assignSds (nelec nspin : ℕ) (twoSpin seniority : Option ℤ) (sds : List ℕ) : Except PyErr (List ℕ) := do
  sds.forM (checkSd nelec nspin twoSpin seniority)
  if sds = [] then .error .valueError else return sds

/-- `assign_sds(None)` — ci/base.py:265-303. -/
def defaultSds (nelec nspin : ℕ) (twoSpin seniority : Option ℤ) : Except PyErr (List ℕ) := do
  assignSds nelec nspin twoSpin seniority (← sdList nelec nspin none none twoSpin seniority false)

/-- `params[i]` of an array given as a list -/
def pick {R : Type} (l : List R) (i : ℕ) : Except PyErr R :=
  match l[i]? with
  | none => .error .indexError
  | some x => .ok x

section
variable {R : Type} [Zero R] [One R]

/-- The default parameters — ci/base.py:318-320. -/
def defaultParams (n : ℕ) : List R := (List.replicate n 0).set 0 1

/-- `CIWavefunction.__init__` — ci/base.py:92-129, with the class-specific `assign_sds` as an argument. -/
def init (nelec nspin : ℕ) (twoSpin seniority : Option ℤ) (sds : Except PyErr (List ℕ)) (params : Option (List R)) :
    Except PyErr (Wfn R) := do
  checkNelec nelec
  checkNspin nspin
  checkNonneg twoSpin
  checkNonneg seniority
  let sds ← sds
  return ⟨nelec, nspin, twoSpin, seniority, sds, dictOf sds, params.getD (defaultParams sds.length)⟩

/-- `CIWavefunction(nelec, nspin, params, sds, spin, seniority)`. -/
def ciInit (nelec nspin : ℕ) (params : Option (List R)) (sds : Option (List ℕ)) (twoSpin seniority : Option ℤ) :
    Except PyErr (Wfn R) :=
  init nelec nspin twoSpin seniority (match sds with
    | none => defaultSds nelec nspin twoSpin seniority
    | some l => assignSds nelec nspin twoSpin seniority l) params

/-- `CISD` — cisd.py:77-114, without `sds`. -/
def cisdInit (nelec nspin : ℕ) (params : Option (List R)) (twoSpin seniority : Option ℤ) : Except PyErr (Wfn R) :=
  init nelec nspin twoSpin seniority (do
    assignSds nelec nspin twoSpin seniority (← sdList nelec nspin none (some [1, 2]) twoSpin seniority false)) params

/-- `FCI` — fci.py:84-119, without `sds`: no seniority is accepted. -/
def fciInit (nelec nspin : ℕ) (params : Option (List R)) (twoSpin seniority : Option ℤ) : Except PyErr (Wfn R) := do
  checkNelec nelec
  checkNspin nspin
  checkNonneg twoSpin
  if seniority ≠ none then .error .valueError
  else init nelec nspin twoSpin none (defaultSds nelec nspin twoSpin none) params

/-- the checks of `DOCI` — doci.py:78-155: the number of electrons is even, spin and seniority are zero. -/
def dociChecks (nelec : ℕ) (twoSpin seniority : Option ℤ) : Bool :=
  nelec % 2 = 0 ∧ twoSpin.getD 0 = 0 ∧ seniority.getD 0 = 0

/-- `DOCI` — doci.py:78-155 (all errors are `ValueError`). -/
def dociInit (nelec nspin : ℕ) (params : Option (List R)) (sds : Option (List ℕ)) (twoSpin seniority : Option ℤ) :
    Except PyErr (Wfn R) :=
  if dociChecks nelec twoSpin seniority then
    init nelec nspin (some 0) (some 0) (match sds with
      | none => defaultSds nelec nspin (some 0) (some 0)
      | some l => assignSds nelec nspin (some 0) (some 0) l) params
  else .error .valueError

/-- `CIPairs` — ci_pairs.py:81-113, without `sds`. -/
def ciPairsInit (nelec nspin : ℕ) (params : Option (List R)) (twoSpin seniority : Option ℤ) : Except PyErr (Wfn R) :=
  if dociChecks nelec twoSpin seniority then
    init nelec nspin (some 0) (some 0) (do
      assignSds nelec nspin (some 0) (some 0) (← sdList nelec nspin none (some [2]) (some 0) (some 0) false)) params
  else .error .valueError

/-- `get_overlap(sd)` — ci/base.py:382-387. -/
def Wfn.overlap (w : Wfn R) (sd : ℕ) : Except PyErr R :=
  match w.dict sd with
  | none => .ok 0
  | some i => pick w.params i

/-- the array of derivatives with respect to all parameters — ci/base.py:389-393. -/
def Wfn.oneHot (w : Wfn R) (sd : ℕ) : Except PyErr (List R) :=
  match w.dict sd with
  | none => .ok (List.replicate w.params.length 0)
  | some i =>
    if i < w.params.length then .ok ((List.replicate w.params.length 0).set i 1) else .error .indexError

/-- `get_overlap(sd, deriv)` with a list of parameter indices — ci/base.py:389-394. -/
def Wfn.overlapDeriv (w : Wfn R) (sd : ℕ) (deriv : List ℕ) : Except PyErr (List R) := do
  let output ← w.oneHot sd
  deriv.mapM (pick output)

end

/-- The assignments a wavefunction can go through after it was made. -/
inductive Op (R : Type) where
  | sds (l : List ℕ)
  | params (p : List R)

/-- `assign_sds(l)` (ci/base.py:275-303; the dictionary is left as it is) or `assign_params(p)` (wfn/base.py:248-268: no
check of the number of parameters). -/
def Wfn.step {R : Type} (w : Wfn R) : Op R → Except PyErr (Wfn R)
  | .sds l => do
    let s ← assignSds w.nelec w.nspin w.twoSpin w.seniority l
    return { w with sds := s }
  | .params p => .ok { w with params := p }

/-- the loop body of `import_params` for the determinant `x.1` at position `x.2` — ci/base.py:336-338. -/
def Wfn.importStep {R : Type} (guess : Wfn R) (p : List R) (x : ℕ × ℕ) : Except PyErr (List R) :=
  if x.1 ∈ guess.sds then
    match pick guess.params (guess.sds.idxOf x.1) with
    | .error e => .error e
    | .ok v => if x.2 < p.length then .ok (p.set x.2 v) else .error .indexError
  else .ok p

/-- `import_params(guess)` — ci/base.py:324-340. -/
def Wfn.importParams {R : Type} (w guess : Wfn R) : Except PyErr (Wfn R) := do
  let p ← w.sds.zipIdx.foldlM guess.importStep w.params
  return { w with params := p }

/-- the excitation `p.1 → p.2` of the determinant `x.1` with the coefficient `x.2` — ci/base.py:421-432. -/
def Wfn.rdmExc {R : Type} [CommRing R] (w : Wfn R) (x : ℕ × R) (m : ℕ → ℕ → R) (p : ℕ × ℕ) : Except PyErr (ℕ → ℕ → R) := do
  match ← excite (some x.1) [p.1, p.2] with
  | none => return m
  | some e =>
    if e ∈ w.sds then
      match w.dict e with
      | none => .error .keyError
      | some i => do
        let y ← pick w.params i
        let s ← signExcite (some x.1) [p.1] [p.2]
        return bump2 m p.1 p.2 (x.2 * y * (s : R))
    else return m

/-- the contributions of one determinant to the density matrix — ci/base.py:411-432. -/
def Wfn.rdmStep {R : Type} [CommRing R] (w : Wfn R) (m : ℕ → ℕ → R) (x : ℕ × R) : Except PyErr (ℕ → ℕ → R) := do
  let occ := occIndices (some x.1)
  let vir := virIndices (some x.1) w.nspin
  guardIdx w.nspin occ
  let m := occ.foldl (fun m i => bump2 m i i (x.2 * x.2)) m
  (It.prod occ vir).foldlM (w.rdmExc x) m

/-- `compute_1rdm()` — ci/base.py:396-434. -/
def Wfn.computeRdm {R : Type} [CommRing R] (w : Wfn R) : Except PyErr (ℕ → ℕ → R) :=
  (w.sds.zip w.params).foldlM w.rdmStep fun _ _ => 0

/-! ## hCI -/

inductive Version where | old | new
deriving DecidableEq, Repr

inductive Pattern where | posDiag | negDiag | hch | vch
deriving DecidableEq, Repr

/-- `ALPHA_BY_PATTERN` — hci.py:9-14. -/
def Pattern.alphas : Pattern → ℚ × ℚ
  | .posDiag => (1 / 2, 1 / 4)
  | .negDiag => (1, -1 / 2)
  | .hch => (1, -1 / 4)
  | .vch => (1, -1)

/-- `np.arange(start, stop, step)`, exact arithmetic. -/
def arange (start stop step : ℚ) : List ℚ := (List.range ⌈(stop - start) / step⌉.toNat).map fun (i : ℕ) => start + (i : ℚ) * step

/-- `assign_pos_hierarchies` — hci.py:300-315. -/
def posHierarchies (v : Version) (p : Pattern) (h : ℚ) : List ℚ :=
  match v with
  | .new => match p with
    | .posDiag => arange 0 (h + 1 / 2) (1 / 2)
    | .negDiag => arange 0 (h + 1) 1
    | .hch => arange 0 (h + 1 / 2) (1 / 2)
    | .vch => arange (-h) (h + 1) 1
  | .old => [h]

/-- `range(start, stop, 2)` for the list of seniorities — hci.py:405-412. -/
def sList (nelec e : ℕ) : List ℕ :=
  if nelec % 2 = 0 then
    if e % 2 = 0 then (List.range (min (2 * e) nelec + 2)).filter fun s => s % 2 = 0
    else (List.range (min (2 * e) nelec + 2)).filter fun s => s % 2 = 0 ∧ 2 ≤ s
  else (List.range (min (2 * e + 1) nelec + 2)).filter fun s => s % 2 = 1

/-- `calculate_e_s_pairs` — hci.py:396-421. -/
def eSPairs (nelec : ℕ) (p : Pattern) (hs : List ℚ) : List (ℕ × ℕ) :=
  hs.flatMap fun h => (List.range (nelec + 1)).filterMap fun (e : ℕ) =>
    let s : ℚ := (h - p.alphas.1 * (e : ℚ)) / p.alphas.2
    if 0 ≤ s ∧ s.den = 1 ∧ s.num.toNat ∈ sList nelec e then some (e, s.num.toNat) else none

/-- `hCI.assign_sds(None)` — hci.py:447-478.  `list(set(l))` has the elements of `l` without repetition in an order that
is left to Python; here the order of the last occurrences. -/
def hciSds (nelec nspin : ℕ) (v : Version) (p : Pattern) (h : ℚ) : Except PyErr (List ℕ) := do
  let g ← ground nelec nspin
  let lists ← (eSPairs nelec p (posHierarchies v p h)).mapM fun x =>
    sdList nelec nspin none (some [x.1]) none (some (x.2 : ℤ)) true
  let allowed := g :: lists.flatten
  if allowed.length = 1 then .error .warning
  else assignSds nelec nspin none none allowed.dedup

/-- `hCI(nelec, nspin, hci_pattern, hierarchy, hci_version)` — hci.py:133-171. -/
def hciInit {R : Type} [Zero R] [One R] (nelec nspin : ℕ) (p : Pattern) (h : ℚ) (v : Version) : Except PyErr (Wfn R) :=
  init nelec nspin none none (hciSds nelec nspin v p h) none

end Fanpy.CI
