import Verif.Model.Rotation

/-!
# Model of the derivatives of the matrix elements with respect to orbital rotations

`integrate_sd_sd_decomposed(sd1, sd2, deriv)` and `integrate_sd_sd(sd1, sd2, deriv)` of `generalized_chemical.py`,
`restricted_chemical.py` and `unrestricted_chemical.py`.

The integrals are real numbers (an arbitrary commutative ring), so `np.real` changes nothing; the code stores the result in a
real array, so it is not usable with complex integrals.  The three numbers `one_electron`, `coulomb`, `exchange` that the code accumulates are
written as sums of triples, one for each statement of the accumulation.  Simplification: the check that orbital indices
are inside of the arrays is made once before the accumulation (the code raises `IndexError` in the branch that reads the
entry, so the model is stricter only for determinants that occupy orbitals that do not exist).
-/

namespace Fanpy.Ham
open Fanpy.Slater

variable {R : Type} [CommRing R]

/-! ### Generalized orbitals -/

/-- `_integrate_sd_sd_deriv_zero(x, y, shared_indices)` — generalized_chemical.py:542-582.  (The tests for empty arrays
change nothing.) -/
def genDerivZero (H : GenHam R) (x y : ℕ) (shared : List ℕ) : R × R × R :=
  let noX := shared.filter (· ≠ x)
  let noY := shared.filter (· ≠ y)
  (if x ∈ shared then
    (-(2 * H.one x y),
      -(2 * (noX.map fun s => H.two x s y s).sum),
      2 * (noX.map fun s => H.two x s s y).sum)
   else 0) +
  (if y ∈ shared then
    (2 * H.one x y,
      2 * (noY.map fun s => H.two x s y s).sum,
      -(2 * (noY.map fun s => H.two x s s y).sum))
   else 0)

/-- `_integrate_sd_sd_deriv_one(diff_sd1, diff_sd2, x, y, shared_indices)` — generalized_chemical.py:584-651. -/
def genDerivOne (H : GenHam R) (a b x y : ℕ) (shared : List ℕ) : R × R × R :=
  (if x = a then
    (-H.one y b, -(shared.map fun s => H.two y s b s).sum, (shared.map fun s => H.two y s s b).sum)
   else if x = b then
    (-H.one a y, -(shared.map fun s => H.two a s y s).sum, (shared.map fun s => H.two a s s y).sum)
   else if x ∈ shared then
    (0, -H.two y a x b - H.two x a y b, H.two y a b x + H.two x a b y)
   else 0) +
  (if y = a then
    (H.one x b, (shared.map fun s => H.two x s b s).sum, -(shared.map fun s => H.two x s s b).sum)
   else if y = b then
    (H.one a x, (shared.map fun s => H.two a s x s).sum, -(shared.map fun s => H.two a s s x).sum)
   else 0) +
  (if y ∈ shared then
    (0, H.two x a y b + H.two y a x b, -H.two x a b y - H.two y a b x)
   else 0)

/-- `_integrate_sd_sd_deriv_two(diff_sd1, diff_sd2, x, y)` — generalized_chemical.py:653-709. -/
def genDerivTwo (H : GenHam R) (a b c d x y : ℕ) : R × R × R :=
  (if x = a then (0, -H.two y b c d, H.two y b d c)
   else if x = b then (0, -H.two a y c d, H.two a y d c)
   else if x = c then (0, -H.two a b y d, H.two a b d y)
   else if x = d then (0, -H.two a b c y, H.two a b y c)
   else 0) +
  (if y = a then (0, H.two x b c d, -H.two x b d c)
   else if y = b then (0, H.two a x c d, -H.two a x d c)
   else if y = c then (0, H.two a b x d, -H.two a b d x)
   else if y = d then (0, H.two a b c x, -H.two a b x c)
   else 0)

/-- `_integrate_sd_sd_deriv_decomposed(sd1, sd2, deriv)`: one triple for each entry of `deriv` —
generalized_chemical.py:433-504.  `nparams` is `n (n-1) / 2` (the size checked in `assign_params`). -/
def genDeriv (H : GenHam R) (sd1 sd2 : ℕ) (deriv : List ℤ) : Except PyErr (List (R × R × R)) :=
  let shared := sharedOrbs sd1 sd2
  let diff1 := (diffOrbs sd1 sd2).1
  let diff2 := (diffOrbs sd1 sd2).2
  if diff1.length ≠ diff2.length then .ok (deriv.map fun _ => 0)
  else if diff1.length > 2 then .ok (deriv.map fun _ => 0)
  else do
    let sign ← signExcite (some sd1) diff1 diff2.reverse
    if ¬ (∀ i ∈ deriv, 0 ≤ i ∧ i < (H.norb * (H.norb - 1) / 2 : ℕ)) then .error .valueError
    else deriv.mapM fun i => do
      let (x, y) ← rowColInd H.norb i
      let x := x.toNat
      let y := y.toNat
      guardIdx H.norb (x :: y :: (diff1 ++ diff2 ++ shared))
      match diff1, diff2 with
      | [], _ => .ok (signTimes sign (genDerivZero H x y shared))
      | [a], [b] => .ok (signTimes sign (genDerivOne H a b x y shared))
      | [a, b], [c, d] => .ok (signTimes sign (genDerivTwo H a b c d x y))
      | _, _ => .error .valueError

/-- `integrate_sd_sd(sd1, sd2, deriv)` — generalized_chemical.py:254-295. -/
def genSdSdDeriv (H : GenHam R) (sd1 sd2 : ℕ) (deriv : List ℤ) : Except PyErr (List R) := do
  let l ← genDeriv H sd1 sd2 deriv
  return l.map sumComp

/-! ### Unrestricted orbitals -/

/-- `_integrate_sd_sd_deriv_zero(spin_ind, x, y, shared_alpha, shared_beta)` — unrestricted_chemical.py:656-725. -/
def unrDerivZero (H : UnrHam R) (spin x y : ℕ) (sa sb : List ℕ) : R × R × R :=
  (if spin = 0 ∧ x ∈ sa then
    (-(2 * H.oneA x y),
      -(2 * (sb.map fun s => H.twoAB x s y s).sum) -
        2 * ((sa.filter (· ≠ x)).map fun s => H.twoAA x s y s).sum,
      2 * ((sa.filter (· ≠ x)).map fun s => H.twoAA x s s y).sum)
   else if spin = 1 ∧ x ∈ sb then
    (-(2 * H.oneB x y),
      -(2 * (sa.map fun s => H.twoAB s x s y).sum) -
        2 * ((sb.filter (· ≠ x)).map fun s => H.twoBB x s y s).sum,
      2 * ((sb.filter (· ≠ x)).map fun s => H.twoBB x s s y).sum)
   else 0) +
  (if spin = 0 ∧ y ∈ sa then
    (2 * H.oneA x y,
      2 * (sb.map fun s => H.twoAB x s y s).sum +
        2 * ((sa.filter (· ≠ y)).map fun s => H.twoAA x s y s).sum,
      -(2 * ((sa.filter (· ≠ y)).map fun s => H.twoAA x s s y).sum))
   else if spin = 1 ∧ y ∈ sb then
    (2 * H.oneB x y,
      2 * (sa.map fun s => H.twoAB s x s y).sum +
        2 * ((sb.filter (· ≠ y)).map fun s => H.twoBB x s y s).sum,
      -(2 * ((sb.filter (· ≠ y)).map fun s => H.twoBB x s s y).sum))
   else 0)

/-- `_integrate_sd_sd_deriv_one(diff_sd1, diff_sd2, spin_ind, x, y, shared_alpha, shared_beta)` —
unrestricted_chemical.py:727-884.  `a`, `b` are the spatial orbitals and `spA`, `spB` the spins. -/
def unrDerivOne (H : UnrHam R) (a spA b spB spin x y : ℕ) (sa sb : List ℕ) : R × R × R :=
  (if x = a ∧ spin = spB ∧ spB = spA then
    if spin = 0 then
      (-H.oneA y b,
        -(sb.map fun s => H.twoAB y s b s).sum - (sa.map fun s => H.twoAA y s b s).sum,
        (sa.map fun s => H.twoAA y s s b).sum)
    else
      (-H.oneB y b,
        -(sa.map fun s => H.twoAB s y s b).sum - (sb.map fun s => H.twoBB y s b s).sum,
        (sb.map fun s => H.twoBB y s s b).sum)
   else if x = b ∧ spin = spA ∧ spA = spB then
    if spin = 0 then
      (-H.oneA a y,
        -(sb.map fun s => H.twoAB a s y s).sum - (sa.map fun s => H.twoAA a s y s).sum,
        (sa.map fun s => H.twoAA a s s y).sum)
    else
      (-H.oneB a y,
        -(sa.map fun s => H.twoAB s a s y).sum - (sb.map fun s => H.twoBB a s y s).sum,
        (sb.map fun s => H.twoBB a s s y).sum)
   else if spin = 0 ∧ spA = spB ∧ spB = 0 ∧ x ∈ sa ∧ ¬(x = a ∨ x = b) then
    (0, -H.twoAA x a y b - H.twoAA x b y a, H.twoAA x b a y + H.twoAA x a b y)
   else if spin = 0 ∧ spA = spB ∧ spB = 1 ∧ x ∈ sa then
    (0, -H.twoAB x a y b - H.twoAB x b y a, 0)
   else if spin = 1 ∧ spA = spB ∧ spB = 0 ∧ x ∈ sb then
    (0, -H.twoAB a x b y - H.twoAB b x a y, 0)
   else if spin = 1 ∧ spA = spB ∧ spB = 1 ∧ x ∈ sb ∧ ¬(x = a ∨ x = b) then
    (0, -H.twoBB x a y b - H.twoBB x b y a, H.twoBB x b a y + H.twoBB x a b y)
   else 0) +
  (if y = a ∧ spin = spB ∧ spB = spA then
    if spin = 0 then
      (H.oneA x b,
        (sb.map fun s => H.twoAB x s b s).sum + (sa.map fun s => H.twoAA x s b s).sum,
        -(sa.map fun s => H.twoAA x s s b).sum)
    else
      (H.oneB x b,
        (sa.map fun s => H.twoAB s x s b).sum + (sb.map fun s => H.twoBB x s b s).sum,
        -(sb.map fun s => H.twoBB x s s b).sum)
   else if y = b ∧ spin = spA ∧ spA = spB then
    if spin = 0 then
      (H.oneA a x,
        (sb.map fun s => H.twoAB a s x s).sum + (sa.map fun s => H.twoAA a s x s).sum,
        -(sa.map fun s => H.twoAA a s s x).sum)
    else
      (H.oneB a x,
        (sa.map fun s => H.twoAB s a s x).sum + (sb.map fun s => H.twoBB a s x s).sum,
        -(sb.map fun s => H.twoBB a s s x).sum)
   else if spin = 0 ∧ spA = spB ∧ spB = 0 ∧ y ∈ sa ∧ ¬(y = a ∨ y = b) then
    (0, H.twoAA x a y b + H.twoAA x b y a, -H.twoAA x a b y - H.twoAA x b a y)
   else if spin = 0 ∧ spA = spB ∧ spB = 1 ∧ y ∈ sa then
    (0, H.twoAB x a y b + H.twoAB x b y a, 0)
   else if spin = 1 ∧ spA = spB ∧ spB = 0 ∧ y ∈ sb then
    (0, H.twoAB a x b y + H.twoAB b x a y, 0)
   else if spin = 1 ∧ spA = spB ∧ spB = 1 ∧ y ∈ sb ∧ ¬(y = a ∨ y = b) then
    (0, H.twoBB x a y b + H.twoBB x b y a, -H.twoBB x a b y - H.twoBB x b a y)
   else 0)

/-- The spins of a double excitation that the code distinguishes: `0` all alpha, `1` alpha-beta to alpha-beta, `2` all
beta, `3` none of these. -/
def spinCase (spA spB spC spD : ℕ) : ℕ :=
  if spA = 0 ∧ spB = 0 ∧ spC = 0 ∧ spD = 0 then 0
  else if spA = 0 ∧ spC = 0 ∧ spB = 1 ∧ spD = 1 then 1
  else if spA = 1 ∧ spB = 1 ∧ spC = 1 ∧ spD = 1 then 2
  else 3

/-- `_integrate_sd_sd_deriv_two(diff_sd1, diff_sd2, spin_ind, x, y)` — unrestricted_chemical.py:886-1085.  The first
argument of each branch is the spin case; an orbital `a` or `c` cannot be beta, `b` or `d` not be alpha, in case 1, since
`spin_ind` is the spin of the selected orbital. -/
def unrDerivTwo (H : UnrHam R) (a spA b spB c spC d spD spin x y : ℕ) : R × R × R :=
  (if x = a ∧ spin = spA then
    match spinCase spA spB spC spD with
    | 0 => (0, -H.twoAA y b c d, H.twoAA y b d c)
    | 1 => (0, -H.twoAB y b c d, 0)
    | 2 => (0, -H.twoBB y b c d, H.twoBB y b d c)
    | _ => 0
   else if x = b ∧ spin = spB then
    match spinCase spA spB spC spD with
    | 0 => (0, -H.twoAA y a d c, H.twoAA y a c d)
    | 1 => (0, -H.twoAB a y c d, 0)
    | 2 => (0, -H.twoBB y a d c, H.twoBB y a c d)
    | _ => 0
   else if x = c ∧ spin = spC then
    match spinCase spA spB spC spD with
    | 0 => (0, -H.twoAA a b y d, H.twoAA b a y d)
    | 1 => (0, -H.twoAB a b y d, 0)
    | 2 => (0, -H.twoBB a b y d, H.twoBB b a y d)
    | _ => 0
   else if x = d ∧ spin = spD then
    match spinCase spA spB spC spD with
    | 0 => (0, -H.twoAA b a y c, H.twoAA a b y c)
    | 1 => (0, -H.twoAB a b c y, 0)
    | 2 => (0, -H.twoBB b a y c, H.twoBB a b y c)
    | _ => 0
   else 0) +
  (if y = a ∧ spin = spA then
    match spinCase spA spB spC spD with
    | 0 => (0, H.twoAA x b c d, -H.twoAA x b d c)
    | 1 => (0, H.twoAB x b c d, 0)
    | 2 => (0, H.twoBB x b c d, -H.twoBB x b d c)
    | _ => 0
   else if y = b ∧ spin = spB then
    match spinCase spA spB spC spD with
    | 0 => (0, H.twoAA x a d c, -H.twoAA x a c d)
    | 1 => (0, H.twoAB a x c d, 0)
    | 2 => (0, H.twoBB x a d c, -H.twoBB x a c d)
    | _ => 0
   else if y = c ∧ spin = spC then
    match spinCase spA spB spC spD with
    | 0 => (0, H.twoAA a b x d, -H.twoAA b a x d)
    | 1 => (0, H.twoAB a b x d, 0)
    | 2 => (0, H.twoBB a b x d, -H.twoBB b a x d)
    | _ => 0
   else if y = d ∧ spin = spD then
    match spinCase spA spB spC spD with
    | 0 => (0, H.twoAA b a x c, -H.twoAA a b x c)
    | 1 => (0, H.twoAB a b c x, 0)
    | 2 => (0, H.twoBB b a x c, -H.twoBB a b x c)
    | _ => 0
   else 0)

/-- spatial index and spin (`0` alpha, `1` beta) of a spin orbital — unrestricted_chemical.py:767-768. -/
def spatialSpin (n i : ℕ) : Except PyErr (ℕ × ℕ) := do
  let p ← spatialIndex i n
  let al ← isAlpha i n
  return (p.toNat, if al then 0 else 1)

/-- `_integrate_sd_sd_deriv_decomposed(sd1, sd2, deriv)` — unrestricted_chemical.py:539-619.  `nparams` is `n (n-1)`. -/
def unrDeriv (H : UnrHam R) (sd1 sd2 : ℕ) (deriv : List ℤ) : Except PyErr (List (R × R × R)) := do
  let (sharedA, sharedB) ← splitSpin (sharedSd sd1 sd2) H.norb
  let sa := occIndices (some sharedA)
  let sb := occIndices (some sharedB)
  let diff1 := (diffOrbs sd1 sd2).1
  let diff2 := (diffOrbs sd1 sd2).2
  if diff1.length ≠ diff2.length then .ok (deriv.map fun _ => 0)
  else if diff1.length > 2 then .ok (deriv.map fun _ => 0)
  else do
    let sign ← signExcite (some sd1) diff1 diff2.reverse
    if ¬ (∀ i ∈ deriv, 0 ≤ i ∧ i < (H.norb * (H.norb - 1) : ℕ)) then .error .valueError
    else deriv.mapM fun i => do
      let (spin, x, y) ← unrRowColInd H.norb i
      let spin := spin.toNat
      let x := x.toNat
      let y := y.toNat
      guardIdx H.norb (x :: y :: (sa ++ sb))
      guardIdx (2 * H.norb) (diff1 ++ diff2)
      match diff1, diff2 with
      | [], _ => .ok (signTimes sign (unrDerivZero H spin x y sa sb))
      | [a], [b] => do
        let (pa, spA) ← spatialSpin H.norb a
        let (pb, spB) ← spatialSpin H.norb b
        .ok (signTimes sign (unrDerivOne H pa spA pb spB spin x y sa sb))
      | [a, b], [c, d] => do
        let (pa, spA) ← spatialSpin H.norb a
        let (pb, spB) ← spatialSpin H.norb b
        let (pc, spC) ← spatialSpin H.norb c
        let (pd, spD) ← spatialSpin H.norb d
        .ok (signTimes sign (unrDerivTwo H pa spA pb spB pc spC pd spD spin x y))
      | _, _ => .error .valueError

/-- `integrate_sd_sd(sd1, sd2, deriv)` — unrestricted_chemical.py:290-331. -/
def unrSdSdDeriv (H : UnrHam R) (sd1 sd2 : ℕ) (deriv : List ℤ) : Except PyErr (List R) := do
  let l ← unrDeriv H sd1 sd2 deriv
  return l.map sumComp

/-! ### Restricted orbitals -/

/-- `_integrate_sd_sd_deriv_zero(x, y, shared_alpha, shared_beta)` — restricted_chemical.py:509-574. -/
def resDerivZero (H : GenHam R) (x y : ℕ) (sa sb : List ℕ) : R × R × R :=
  (if x ∈ sa then
    (-(2 * H.one x y),
      -(2 * (sb.map fun s => H.two x s y s).sum) -
        2 * ((sa.filter (· ≠ x)).map fun s => H.two x s y s).sum,
      2 * ((sa.filter (· ≠ x)).map fun s => H.two x s s y).sum)
   else 0) +
  (if x ∈ sb then
    (-(2 * H.one x y),
      -(2 * (sa.map fun s => H.two s x s y).sum) -
        2 * ((sb.filter (· ≠ x)).map fun s => H.two x s y s).sum,
      2 * ((sb.filter (· ≠ x)).map fun s => H.two x s s y).sum)
   else 0) +
  (if y ∈ sa then
    (2 * H.one x y,
      2 * (sb.map fun s => H.two x s y s).sum +
        2 * ((sa.filter (· ≠ y)).map fun s => H.two x s y s).sum,
      -(2 * ((sa.filter (· ≠ y)).map fun s => H.two x s s y).sum))
   else 0) +
  (if y ∈ sb then
    (2 * H.one x y,
      2 * (sa.map fun s => H.two s x s y).sum +
        2 * ((sb.filter (· ≠ y)).map fun s => H.two x s y s).sum,
      -(2 * ((sb.filter (· ≠ y)).map fun s => H.two x s s y).sum))
   else 0)

/-- `_integrate_sd_sd_deriv_one(diff_sd1, diff_sd2, x, y, shared_alpha, shared_beta)` — restricted_chemical.py:576-739.
`sa` and `sb` are `shared_alpha_no_ab` and `shared_beta_no_ab` in the first two statements, `sa0` and `sb0` the original
ones (616-627: the removal compares spatial with spin orbital indices). -/
def resDerivOne (H : GenHam R) (ia a spA ib b spB x y : ℕ) (sa0 sb0 : List ℕ) : R × R × R :=
  let sa := if spA = 0 ∧ spB = 0 then sa0.filter (fun i => ¬(i = ia ∨ i = ib))
    else if spA = 0 ∧ spB = 1 then sa0.filter (· ≠ ia)
    else if spA = 1 ∧ spB = 0 then sa0.filter (· ≠ ib)
    else sa0
  let sb := if spA = 0 ∧ spB = 0 then sb0
    else if spA = 0 ∧ spB = 1 then sb0.filter (· ≠ ib)
    else if spA = 1 ∧ spB = 0 then sb0.filter (· ≠ ia)
    else sb0.filter (fun i => ¬(i = ia ∨ i = ib))
  (if x = a ∧ spA = spB then
    if spB = 0 then
      (-H.one y b,
        -(sb.map fun s => H.two y s b s).sum - (sa.map fun s => H.two y s b s).sum,
        (sa.map fun s => H.two y s s b).sum)
    else
      (-H.one y b,
        -(sa.map fun s => H.two s y s b).sum - (sb.map fun s => H.two y s b s).sum,
        (sb.map fun s => H.two y s s b).sum)
   else if x = b ∧ spA = spB then
    if spA = 0 then
      (-H.one a y,
        -(sb.map fun s => H.two a s y s).sum - (sa.map fun s => H.two a s y s).sum,
        (sa.map fun s => H.two a s s y).sum)
    else
      (-H.one a y,
        -(sa.map fun s => H.two s a s y).sum - (sb.map fun s => H.two a s y s).sum,
        (sb.map fun s => H.two a s s y).sum)
   else 0) +
  (if spA = spB ∧ spB = 0 then
    (if x ∈ sa0 then (0, -H.two x a y b - H.two x b y a, H.two x b a y + H.two x a b y) else 0) +
    (if x ∈ sb0 then (0, -H.two a x b y - H.two b x a y, 0) else 0)
   else if spA = spB ∧ spB = 1 then
    (if x ∈ sb0 then (0, -H.two x a y b - H.two x b y a, H.two x b a y + H.two x a b y) else 0) +
    (if x ∈ sa0 then (0, -H.two x a y b - H.two x b y a, 0) else 0)
   else 0) +
  (if y = a ∧ spA = spB then
    if spB = 0 then
      (H.one x b,
        (sb.map fun s => H.two x s b s).sum + (sa.map fun s => H.two x s b s).sum,
        -(sa.map fun s => H.two x s s b).sum)
    else
      (H.one x b,
        (sa.map fun s => H.two s x s b).sum + (sb.map fun s => H.two x s b s).sum,
        -(sb.map fun s => H.two x s s b).sum)
   else if y = b ∧ spA = spB then
    if spA = 0 then
      (H.one a x,
        (sb.map fun s => H.two a s x s).sum + (sa.map fun s => H.two a s x s).sum,
        -(sa.map fun s => H.two a s s x).sum)
    else
      (H.one a x,
        (sa.map fun s => H.two s a s x).sum + (sb.map fun s => H.two a s x s).sum,
        -(sb.map fun s => H.two a s s x).sum)
   else 0) +
  (if spA = spB ∧ spB = 0 then
    (if y ∈ sa0 then (0, H.two x a y b + H.two x b y a, -H.two x a b y - H.two x b a y) else 0) +
    (if y ∈ sb0 then (0, H.two a x b y + H.two b x a y, 0) else 0)
   else if spA = spB ∧ spB = 1 then
    (if y ∈ sb0 then (0, H.two x a y b + H.two x b y a, -H.two x a b y - H.two x b a y) else 0) +
    (if y ∈ sa0 then (0, H.two x a y b + H.two x b y a, 0) else 0)
   else 0)

/-- `_integrate_sd_sd_deriv_two(diff_sd1, diff_sd2, x, y)` — restricted_chemical.py:741-939. -/
def resDerivTwo (H : GenHam R) (a spA b spB c spC d spD x y : ℕ) : R × R × R :=
  (if x = a then
    match spinCase spA spB spC spD with
    | 0 => (0, -H.two y b c d, H.two y b d c)
    | 1 => (0, -H.two y b c d, 0)
    | 2 => (0, -H.two y b c d, H.two y b d c)
    | _ => 0
   else 0) +
  (if x = b then
    match spinCase spA spB spC spD with
    | 0 => (0, -H.two y a d c, H.two y a c d)
    | 1 => (0, -H.two a y c d, 0)
    | 2 => (0, -H.two y a d c, H.two y a c d)
    | _ => 0
   else 0) +
  (if x = c then
    match spinCase spA spB spC spD with
    | 0 => (0, -H.two a b y d, H.two b a y d)
    | 1 => (0, -H.two a b y d, 0)
    | 2 => (0, -H.two a b y d, H.two b a y d)
    | _ => 0
   else 0) +
  (if x = d then
    match spinCase spA spB spC spD with
    | 0 => (0, -H.two b a y c, H.two a b y c)
    | 1 => (0, -H.two a b c y, 0)
    | 2 => (0, -H.two b a y c, H.two a b y c)
    | _ => 0
   else 0) +
  (if y = a then
    match spinCase spA spB spC spD with
    | 0 => (0, H.two x b c d, -H.two x b d c)
    | 1 => (0, H.two x b c d, 0)
    | 2 => (0, H.two x b c d, -H.two x b d c)
    | _ => 0
   else 0) +
  (if y = b then
    match spinCase spA spB spC spD with
    | 0 => (0, H.two x a d c, -H.two x a c d)
    | 1 => (0, H.two a x c d, 0)
    | 2 => (0, H.two x a d c, -H.two x a c d)
    | _ => 0
   else 0) +
  (if y = c then
    match spinCase spA spB spC spD with
    | 0 => (0, H.two a b x d, -H.two b a x d)
    | 1 => (0, H.two a b x d, 0)
    | 2 => (0, H.two a b x d, -H.two b a x d)
    | _ => 0
   else 0) +
  (if y = d then
    match spinCase spA spB spC spD with
    | 0 => (0, H.two b a x c, -H.two a b x c)
    | 1 => (0, H.two a b c x, 0)
    | 2 => (0, H.two b a x c, -H.two a b x c)
    | _ => 0
   else 0)

/-- `_integrate_sd_sd_deriv_decomposed(sd1, sd2, deriv)` — restricted_chemical.py:267-347. -/
def resDeriv (H : GenHam R) (sd1 sd2 : ℕ) (deriv : List ℤ) : Except PyErr (List (R × R × R)) := do
  let (sharedA, sharedB) ← splitSpin (sharedSd sd1 sd2) H.norb
  let sa := occIndices (some sharedA)
  let sb := occIndices (some sharedB)
  let diff1 := (diffOrbs sd1 sd2).1
  let diff2 := (diffOrbs sd1 sd2).2
  if diff1.length ≠ diff2.length then .ok (deriv.map fun _ => 0)
  else if diff1.length > 2 then .ok (deriv.map fun _ => 0)
  else do
    let sign ← signExcite (some sd1) diff1 diff2.reverse
    if ¬ (∀ i ∈ deriv, 0 ≤ i ∧ i < (H.norb * (H.norb - 1) / 2 : ℕ)) then .error .valueError
    else deriv.mapM fun i => do
      let (x, y) ← rowColInd H.norb i
      let x := x.toNat
      let y := y.toNat
      guardIdx H.norb (x :: y :: (sa ++ sb))
      guardIdx (2 * H.norb) (diff1 ++ diff2)
      match diff1, diff2 with
      | [], _ => .ok (signTimes sign (resDerivZero H x y sa sb))
      | [a], [b] => do
        let (pa, spA) ← spatialSpin H.norb a
        let (pb, spB) ← spatialSpin H.norb b
        .ok (signTimes sign (resDerivOne H a pa spA b pb spB x y sa sb))
      | [a, b], [c, d] => do
        let (pa, spA) ← spatialSpin H.norb a
        let (pb, spB) ← spatialSpin H.norb b
        let (pc, spC) ← spatialSpin H.norb c
        let (pd, spD) ← spatialSpin H.norb d
        .ok (signTimes sign (resDerivTwo H pa spA pb spB pc spC pd spD x y))
      | _, _ => .error .valueError

/-- `integrate_sd_sd(sd1, sd2, deriv)` — restricted_chemical.py:167-208. -/
def resSdSdDeriv (H : GenHam R) (sd1 sd2 : ℕ) (deriv : List ℤ) : Except PyErr (List R) := do
  let l ← resDeriv H sd1 sd2 deriv
  return l.map sumComp

end Fanpy.Ham
