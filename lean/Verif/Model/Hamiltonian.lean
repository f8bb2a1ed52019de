import Verif.Model.Slater
import Mathlib.Algebra.BigOperators.Group.List.Basic
import Mathlib.Algebra.Ring.Prod
import Mathlib.Algebra.Ring.Int.Defs

/-!
# Model of the Hamiltonian matrix elements

`fanpy/ham/generalized_chemical.py`, `restricted_chemical.py`, `unrestricted_chemical.py` and `senzero.py`:
`integrate_sd_sd_decomposed`, `integrate_sd_sd` and the helpers `_integrate_sd_sd_zero/_one/_two` without `deriv`.

Numbers are elements of a commutative ring `R` (exact arithmetic instead of floating point).  A numpy array is its
dimension together with a function of the indices; an access outside of the dimension raises `IndexError`
(indices are never negative here).  Determinants are natural numbers, so the `TypeError` branches of
`is_sd_compatible` are not representable.  The three returned values `(one_electron, coulomb, exchange)` are a triple.
-/

namespace Fanpy.Ham
open Fanpy.Slater

/-- State of a `GeneralizedMolecularHamiltonian` (or `RestrictedMolecularHamiltonian`) that the matrix elements read:
`one_int`, `two_int` and the two cached diagonals — generalized_chemical.py:16-106.  `norb` is `one_int.shape[0]`. -/
structure GenHam (R : Type) where
  norb : ℕ
  one : ℕ → ℕ → R
  two : ℕ → ℕ → ℕ → ℕ → R
  cIJIJ : ℕ → ℕ → R
  cIJJI : ℕ → ℕ → R

/-- `cache_two_ints()` — generalized_chemical.py:101-106. -/
def GenHam.cacheTwoInts {R : Type} (H : GenHam R) : GenHam R :=
  { H with cIJIJ := fun i j => H.two i j i j, cIJJI := fun i j => H.two i j j i }

/-- The constructor with `params=None` — generalized_chemical.py:66-82 and 108-165: the rotation by the zero parameters
is the identity and leaves the integrals unchanged (see `C29`), then the caches are filled. -/
def GenHam.ofInts {R : Type} (norb : ℕ) (one : ℕ → ℕ → R) (two : ℕ → ℕ → ℕ → ℕ → R) : GenHam R :=
  GenHam.cacheTwoInts { norb, one, two, cIJIJ := fun i j => two i j i j, cIJJI := fun i j => two i j j i }

/-- numpy indexing guard: every index has to be smaller than the dimension, otherwise `IndexError`. -/
def guardIdx (n : ℕ) (l : List ℕ) : Except PyErr Unit := if l.all (fun i => decide (i < n)) then .ok () else .error .indexError

variable {R : Type} [CommRing R]

/-- `np.sum(np.triu(M[idx[:, None], idx], k=1))`: the entries above the diagonal. -/
def triuSum (f : ℕ → ℕ → R) : List ℕ → R
  | [] => 0
  | i :: is => (is.map (f i)).sum + triuSum f is

/-- `np.sum(M[idx1[:, None], idx2])`: all entries. -/
def fullSum (f : ℕ → ℕ → R) (l1 l2 : List ℕ) : R := (l1.map (fun i => (l2.map (f i)).sum)).sum

/-- `sign * np.array([one_electron, coulomb, exchange])` -/
def signTimes (sign : ℤ) (t : R × R × R) : R × R × R := ((sign : R) * t.1, (sign : R) * t.2.1, (sign : R) * t.2.2)

/-- `np.sum(decomposed_integral, axis=0)` -/
def sumComp (t : R × R × R) : R := t.1 + (t.2.1 + t.2.2)

/-! ### Generalized orbitals -/

/-- `_integrate_sd_sd_zero(shared_indices)` — generalized_chemical.py:297-316. -/
def genZero (H : GenHam R) (shared : List ℕ) : Except PyErr (R × R × R) := do
  guardIdx H.norb shared
  return ((shared.map (fun i => H.one i i)).sum, triuSum H.cIJIJ shared, -triuSum H.cIJJI shared)

/-- `_integrate_sd_sd_one(diff_sd1, diff_sd2, shared_indices)` — generalized_chemical.py:318-348.
Unpacking `(a,) = diff_sd1` raises `ValueError` for another length. -/
def genOne (H : GenHam R) (diff1 diff2 shared : List ℕ) : Except PyErr (R × R × R) :=
  match diff1, diff2 with
  | [a], [b] => do
    guardIdx H.norb (a :: b :: shared)
    return (H.one a b, (shared.map (fun s => H.two s a s b)).sum, -(shared.map (fun s => H.two s a b s)).sum)
  | _, _ => .error .valueError

/-- `_integrate_sd_sd_two(diff_sd1, diff_sd2)` — generalized_chemical.py:350-374. -/
def genTwo (H : GenHam R) (diff1 diff2 : List ℕ) : Except PyErr (R × R × R) :=
  match diff1, diff2 with
  | [a, b], [c, d] => do
    guardIdx H.norb [a, b, c, d]
    return (0, H.two a b c d, -H.two a b d c)
  | _, _ => .error .valueError

/-- `integrate_sd_sd_decomposed(sd1, sd2)` — generalized_chemical.py:187-252. -/
def genDecomposed (H : GenHam R) (sd1 sd2 : ℕ) : Except PyErr (R × R × R) :=
  let shared := sharedOrbs sd1 sd2
  let diff1 := (diffOrbs sd1 sd2).1
  let diff2 := (diffOrbs sd1 sd2).2
  if diff1.length ≠ diff2.length then .ok (0, 0, 0)
  else if diff1.length > 2 then .ok (0, 0, 0)
  else do
    let sign ← signExcite (some sd1) diff1 diff2.reverse
    let t ←
      if diff1.length = 0 ∧ shared.length > 0 then genZero H shared
      else if diff1.length = 1 then genOne H diff1 diff2 shared
      else genTwo H diff1 diff2
    return signTimes sign t

/-- `integrate_sd_sd(sd1, sd2)` — generalized_chemical.py:254-295. -/
def genSdSd (H : GenHam R) (sd1 sd2 : ℕ) : Except PyErr R := do
  let t ← genDecomposed H sd1 sd2
  return sumComp t

/-! ### Restricted orbitals -/

/-- `_integrate_sd_sd_zero(shared_alpha, shared_beta)` — restricted_chemical.py:386-415.
(The tests for empty index arrays change nothing: the sums over no index are zero.) -/
def resZero (H : GenHam R) (sa sb : List ℕ) : Except PyErr (R × R × R) := do
  guardIdx H.norb sa
  guardIdx H.norb sb
  let one := (sa.map (fun i => H.one i i)).sum + (sb.map (fun i => H.one i i)).sum
  let coulomb := triuSum H.cIJIJ sa + triuSum H.cIJIJ sb + fullSum H.cIJIJ sa sb
  let exch := -triuSum H.cIJJI sa - triuSum H.cIJJI sb
  return (one, coulomb, exch)

/-- `_integrate_sd_sd_one(diff_sd1, diff_sd2, shared_alpha, shared_beta)` — restricted_chemical.py:417-465. -/
def resOne (H : GenHam R) (diff1 diff2 sa sb : List ℕ) : Except PyErr (R × R × R) :=
  match diff1, diff2 with
  | [a], [b] => do
    let p ← spatialIndex a H.norb
    let q ← spatialIndex b H.norb
    let p := p.toNat
    let q := q.toNat
    let aa ← isAlpha a H.norb
    let ab ← isAlpha b H.norb
    if aa ≠ ab then return (0, 0, 0)
    guardIdx H.norb (p :: q :: sa)
    guardIdx H.norb sb
    let coulomb := (sa.map (fun s => H.two s p s q)).sum + (sb.map (fun s => H.two s p s q)).sum
    let exch := if aa then -(sa.map (fun s => H.two s p q s)).sum else -(sb.map (fun s => H.two s p q s)).sum
    return (H.one p q, coulomb, exch)
  | _, _ => .error .valueError

/-- `_integrate_sd_sd_two(diff_sd1, diff_sd2)` — restricted_chemical.py:467-507. -/
def resTwo (H : GenHam R) (diff1 diff2 : List ℕ) : Except PyErr (R × R × R) :=
  match diff1, diff2 with
  | [a, b], [c, d] => do
    let p ← spatialIndex a H.norb
    let q ← spatialIndex b H.norb
    let r ← spatialIndex c H.norb
    let s ← spatialIndex d H.norb
    let p := p.toNat
    let q := q.toNat
    let r := r.toNat
    let s := s.toNat
    let aa ← isAlpha a H.norb
    let ab ← isAlpha b H.norb
    let ac ← isAlpha c H.norb
    let ad ← isAlpha d H.norb
    if ab = ad ∧ aa = ac then guardIdx H.norb [p, q, r, s]
    if ab = ac ∧ aa = ad then guardIdx H.norb [p, q, s, r]
    let coulomb := if ab = ad ∧ aa = ac then H.two p q r s else 0
    let exch := if ab = ac ∧ aa = ad then -H.two p q s r else 0
    return (0, coulomb, exch)
  | _, _ => .error .valueError

/-- `integrate_sd_sd_decomposed(sd1, sd2)` — restricted_chemical.py:91-165.  `nspatial` is `nspin // 2` with
`nspin = 2 * one_int.shape[0]` (77-87). -/
def resDecomposed (H : GenHam R) (sd1 sd2 : ℕ) : Except PyErr (R × R × R) := do
  let (sharedA, sharedB) ← splitSpin (sharedSd sd1 sd2) H.norb
  let sa := occIndices (some sharedA)
  let sb := occIndices (some sharedB)
  let diff1 := (diffOrbs sd1 sd2).1
  let diff2 := (diffOrbs sd1 sd2).2
  if diff1.length ≠ diff2.length then .ok (0, 0, 0)
  else if diff1.length > 2 then .ok (0, 0, 0)
  else do
    let sign ← signExcite (some sd1) diff1 diff2.reverse
    let t ←
      if diff1.length = 0 then resZero H sa sb
      else if diff1.length = 1 then resOne H diff1 diff2 sa sb
      else resTwo H diff1 diff2
    return signTimes sign t

/-- `integrate_sd_sd(sd1, sd2)` — restricted_chemical.py:167-208. -/
def resSdSd (H : GenHam R) (sd1 sd2 : ℕ) : Except PyErr R := do
  let t ← resDecomposed H sd1 sd2
  return sumComp t

/-! ### Unrestricted orbitals -/

/-- State of an `UnrestrictedMolecularHamiltonian` that the matrix elements read — unrestricted_chemical.py:16-113.
`one_int = [oneA, oneB]`, `two_int = [twoAA, twoAB, twoBB]`, and the cached diagonals.  `norb` is
`one_int[0].shape[0]`. -/
structure UnrHam (R : Type) where
  norb : ℕ
  oneA : ℕ → ℕ → R
  oneB : ℕ → ℕ → R
  twoAA : ℕ → ℕ → ℕ → ℕ → R
  twoAB : ℕ → ℕ → ℕ → ℕ → R
  twoBB : ℕ → ℕ → ℕ → ℕ → R
  c0IJIJ : ℕ → ℕ → R
  c1IJIJ : ℕ → ℕ → R
  c2IJIJ : ℕ → ℕ → R
  c0IJJI : ℕ → ℕ → R
  c2IJJI : ℕ → ℕ → R

/-- `cache_two_ints()` — unrestricted_chemical.py:105-113. -/
def UnrHam.cacheTwoInts (H : UnrHam R) : UnrHam R :=
  { H with
    c0IJIJ := fun i j => H.twoAA i j i j
    c1IJIJ := fun i j => H.twoAB i j i j
    c2IJIJ := fun i j => H.twoBB i j i j
    c0IJJI := fun i j => H.twoAA i j j i
    c2IJJI := fun i j => H.twoBB i j j i }

/-- The constructor with `params=None` — unrestricted_chemical.py:66-82 (the rotation by zero is the identity). -/
def UnrHam.ofInts (norb : ℕ) (oneA oneB : ℕ → ℕ → R) (twoAA twoAB twoBB : ℕ → ℕ → ℕ → ℕ → R) : UnrHam R :=
  UnrHam.cacheTwoInts
    { norb, oneA, oneB, twoAA, twoAB, twoBB, c0IJIJ := fun _ _ => 0, c1IJIJ := fun _ _ => 0, c2IJIJ := fun _ _ => 0,
      c0IJJI := fun _ _ => 0, c2IJJI := fun _ _ => 0 }

/-- `_integrate_sd_sd_zero(shared_alpha, shared_beta)` — unrestricted_chemical.py:333-361. -/
def unrZero (H : UnrHam R) (sa sb : List ℕ) : Except PyErr (R × R × R) := do
  guardIdx H.norb sa
  guardIdx H.norb sb
  let one := (sa.map (fun i => H.oneA i i)).sum + (sb.map (fun i => H.oneB i i)).sum
  let coulomb := triuSum H.c0IJIJ sa + triuSum H.c2IJIJ sb + fullSum H.c1IJIJ sa sb
  let exch := -triuSum H.c0IJJI sa - triuSum H.c2IJJI sb
  return (one, coulomb, exch)

/-- `_integrate_sd_sd_one(diff_sd1, diff_sd2, shared_alpha, shared_beta)` — unrestricted_chemical.py:363-415. -/
def unrOne (H : UnrHam R) (diff1 diff2 sa sb : List ℕ) : Except PyErr (R × R × R) :=
  match diff1, diff2 with
  | [a], [b] => do
    let p ← spatialIndex a H.norb
    let q ← spatialIndex b H.norb
    let p := p.toNat
    let q := q.toNat
    let aa ← isAlpha a H.norb
    let ab ← isAlpha b H.norb
    if aa ≠ ab then return (0, 0, 0)
    guardIdx H.norb (p :: q :: sa)
    guardIdx H.norb sb
    if aa then
      let coulomb := (sa.map (fun s => H.twoAA s p s q)).sum + (sb.map (fun s => H.twoAB p s q s)).sum
      return (H.oneA p q, coulomb, -(sa.map (fun s => H.twoAA s p q s)).sum)
    else
      let coulomb := (sa.map (fun s => H.twoAB s p s q)).sum + (sb.map (fun s => H.twoBB s p s q)).sum
      return (H.oneB p q, coulomb, -(sb.map (fun s => H.twoBB s p q s)).sum)
  | _, _ => .error .valueError

/-- `_integrate_sd_sd_two(diff_sd1, diff_sd2)` — unrestricted_chemical.py:417-474. -/
def unrTwo (H : UnrHam R) (diff1 diff2 : List ℕ) : Except PyErr (R × R × R) :=
  match diff1, diff2 with
  | [a, b], [c, d] => do
    let aa ← isAlpha a H.norb
    let ab ← isAlpha b H.norb
    -- the block and, for beta-alpha, the swapped indices (443-458)
    let sel : (ℕ → ℕ → ℕ → ℕ → R) × ℕ × ℕ × ℕ × ℕ :=
      if aa ∧ ab then (H.twoAA, a, b, c, d)
      else if aa ∧ ¬ab then (H.twoAB, a, b, c, d)
      else if ¬aa ∧ ab then (H.twoAB, b, a, d, c)
      else (H.twoBB, a, b, c, d)
    let g := sel.1
    let a := sel.2.1
    let b := sel.2.2.1
    let c := sel.2.2.2.1
    let d := sel.2.2.2.2
    let p ← spatialIndex a H.norb
    let q ← spatialIndex b H.norb
    let r ← spatialIndex c H.norb
    let s ← spatialIndex d H.norb
    let p := p.toNat
    let q := q.toNat
    let r := r.toNat
    let s := s.toNat
    let aa ← isAlpha a H.norb
    let ab ← isAlpha b H.norb
    let ac ← isAlpha c H.norb
    let ad ← isAlpha d H.norb
    if ab = ad ∧ aa = ac then guardIdx H.norb [p, q, r, s]
    if ab = ac ∧ aa = ad then guardIdx H.norb [p, q, s, r]
    let coulomb := if ab = ad ∧ aa = ac then g p q r s else 0
    let exch := if ab = ac ∧ aa = ad then -g p q s r else 0
    return (0, coulomb, exch)
  | _, _ => .error .valueError

/-- `integrate_sd_sd_decomposed(sd1, sd2)` — unrestricted_chemical.py:213-288. -/
def unrDecomposed (H : UnrHam R) (sd1 sd2 : ℕ) : Except PyErr (R × R × R) := do
  let (sharedA, sharedB) ← splitSpin (sharedSd sd1 sd2) H.norb
  let sa := occIndices (some sharedA)
  let sb := occIndices (some sharedB)
  let diff1 := (diffOrbs sd1 sd2).1
  let diff2 := (diffOrbs sd1 sd2).2
  if diff1.length ≠ diff2.length then .ok (0, 0, 0)
  else if diff1.length > 2 then .ok (0, 0, 0)
  else do
    let sign ← signExcite (some sd1) diff1 diff2.reverse
    let t ←
      if diff1.length = 0 then unrZero H sa sb
      else if diff1.length = 1 then unrOne H diff1 diff2 sa sb
      else unrTwo H diff1 diff2
    return signTimes sign t

/-- `integrate_sd_sd(sd1, sd2)` — unrestricted_chemical.py:290-331. -/
def unrSdSd (H : UnrHam R) (sd1 sd2 : ℕ) : Except PyErr R := do
  let t ← unrDecomposed H sd1 sd2
  return sumComp t

/-! ### Seniority zero -/

/-- `integrate_sd_sd_decomposed(sd1, sd2)` — senzero.py:158-243. -/
def szDecomposed (H : GenHam R) (sd1 sd2 : ℕ) : Except PyErr (R × R × R) := do
  let sen1 ← getSeniority sd1 H.norb
  let sen2 ← getSeniority sd2 H.norb
  if ¬ (sen1 = sen2 ∧ sen2 = 0) then .ok (0, 0, 0)
  else do
    let (a1, _) ← splitSpin sd1 H.norb
    let (a2, _) ← splitSpin sd2 H.norb
    let shared := sharedOrbs a1 a2
    let diff1 := (diffOrbs a1 a2).1
    let diff2 := (diffOrbs a1 a2).2
    if diff1.length ≠ diff2.length then .ok (0, 0, 0)
    else if diff1.length > 1 then .ok (0, 0, 0)
    else if diff1.length = 0 then do
      guardIdx H.norb shared
      let one := 2 * (shared.map (fun i => H.one i i)).sum
      let coulomb := 2 * triuSum H.cIJIJ shared + fullSum H.cIJIJ shared shared
      let exch := -2 * triuSum H.cIJJI shared
      return (one, coulomb, exch)
    else
      match diff1, diff2 with
      | [a], [b] => do
        let p ← spatialIndex a H.norb
        let q ← spatialIndex b H.norb
        guardIdx H.norb [p.toNat, q.toNat]
        return (0, H.two p.toNat p.toNat q.toNat q.toNat, 0)
      | _, _ => .error .valueError

/-- `integrate_sd_sd(sd1, sd2)` — senzero.py:245-283. -/
def szSdSd (H : GenHam R) (sd1 sd2 : ℕ) : Except PyErr R := do
  let t ← szDecomposed H sd1 sd2
  return sumComp t

end Fanpy.Ham
