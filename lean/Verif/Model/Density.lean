import Verif.Model.Hamiltonian
import Mathlib.Algebra.Order.Field.Basic

/-!
# Model of the density matrices

`fanpy/ham/density.py`.  An array is its dimension together with a function of the indices; the density matrices are a list
of arrays, as in the code.  The checks of the Python types are not representable.
-/

namespace Fanpy.Ham
open Fanpy.Slater

/-- the three values of `orbtype`; other strings raise `ValueError` in the code and are not representable -/
inductive OrbType where
  | restricted
  | unrestricted
  | generalized
deriving DecidableEq, Repr

section
variable {R : Type} [Add R]

/-- `matrix[a, b] += val` -/
def bump2 (f : ℕ → ℕ → R) (a b : ℕ) (val : R) : ℕ → ℕ → R := fun x y => if x = a ∧ y = b then f x y + val else f x y

/-- `matrix[a, b, c, d] += val` -/
def bump4 (f : ℕ → ℕ → ℕ → ℕ → R) (a b c d : ℕ) (val : R) : ℕ → ℕ → ℕ → ℕ → R :=
  fun x y z w => if x = a ∧ y = b ∧ z = c ∧ w = d then f x y z w + val else f x y z w

/-- `add_one_density(matrices, spin_i, spin_j, val, orbtype)` for arrays of dimension `dim` — density.py:21-94. -/
def addOneDensity (dim : ℕ) (ms : List (ℕ → ℕ → R)) (i j : ℕ) (val : R) (ob : OrbType) :
    Except PyErr (List (ℕ → ℕ → R)) :=
  if (ob = .restricted ∨ ob = .generalized) ∧ ms.length ≠ 1 then .error .valueError
  else if ob = .unrestricted ∧ ms.length ≠ 2 then .error .valueError
  else match ob with
  | .restricted => do
    let si ← spatialIndex i dim
    let sj ← spatialIndex j dim
    let ai ← isAlpha i dim
    let aj ← isAlpha j dim
    if ai = aj then
      guardIdx dim [si.toNat, sj.toNat]
      return ms.modify 0 fun f => bump2 f si.toNat sj.toNat val
    else return ms
  | .unrestricted => do
    let si ← spatialIndex i dim
    let sj ← spatialIndex j dim
    let ai ← isAlpha i dim
    let aj ← isAlpha j dim
    if ai ∧ aj then
      guardIdx dim [si.toNat, sj.toNat]
      return ms.modify 0 fun f => bump2 f si.toNat sj.toNat val
    else if ¬ai ∧ ¬aj then
      guardIdx dim [si.toNat, sj.toNat]
      return ms.modify 1 fun f => bump2 f si.toNat sj.toNat val
    else return ms
  | .generalized => do
    guardIdx dim [i, j]
    return ms.modify 0 fun f => bump2 f i j val

/-- `add_two_density(matrices, spin_i, spin_j, spin_k, spin_l, val, orbtype)` — density.py:98-205. -/
def addTwoDensity (dim : ℕ) (ms : List (ℕ → ℕ → ℕ → ℕ → R)) (i j k l : ℕ) (val : R) (ob : OrbType) :
    Except PyErr (List (ℕ → ℕ → ℕ → ℕ → R)) :=
  if (ob = .restricted ∨ ob = .generalized) ∧ ms.length ≠ 1 then .error .valueError
  else if ob = .unrestricted ∧ ms.length ≠ 3 then .error .valueError
  else match ob with
  | .restricted => do
    let si ← spatialIndex i dim
    let sj ← spatialIndex j dim
    let sk ← spatialIndex k dim
    let sl ← spatialIndex l dim
    let ai ← isAlpha i dim
    let ak ← isAlpha k dim
    let aj ← isAlpha j dim
    let al ← isAlpha l dim
    if ai = ak ∧ aj = al then
      guardIdx dim [si.toNat, sj.toNat, sk.toNat, sl.toNat]
      return ms.modify 0 fun f => bump4 f si.toNat sj.toNat sk.toNat sl.toNat val
    else return ms
  | .unrestricted => do
    let si ← spatialIndex i dim
    let sj ← spatialIndex j dim
    let sk ← spatialIndex k dim
    let sl ← spatialIndex l dim
    let ai ← isAlpha i dim
    let ak ← isAlpha k dim
    let aj ← isAlpha j dim
    let al ← isAlpha l dim
    if ai ∧ ak ∧ aj ∧ al then
      guardIdx dim [si.toNat, sj.toNat, sk.toNat, sl.toNat]
      return ms.modify 0 fun f => bump4 f si.toNat sj.toNat sk.toNat sl.toNat val
    else if ai ∧ ak ∧ ¬aj ∧ ¬al then
      guardIdx dim [si.toNat, sj.toNat, sk.toNat, sl.toNat]
      return ms.modify 1 fun f => bump4 f si.toNat sj.toNat sk.toNat sl.toNat val
    else if ¬ai ∧ ¬ak ∧ ¬aj ∧ ¬al then
      guardIdx dim [si.toNat, sj.toNat, sk.toNat, sl.toNat]
      return ms.modify 2 fun f => bump4 f si.toNat sj.toNat sk.toNat sl.toNat val
    else return ms
  | .generalized => do
    guardIdx dim [i, j, k, l]
    return ms.modify 0 fun f => bump4 f i j k l val

end

/-- `np.sum(shared_indices[:, np.newaxis] < np.array(diff))` — density.py:290-291. -/
def countLess (shared diff : List ℕ) : ℕ := (shared.map fun a => (diff.filter fun d => a < d).length).sum

section
variable {R : Type} [CommRing R]

/-- The calls of `add_one_density` for one pair of determinants — density.py:299-324: orbitals and value. -/
def oneAdds (shared left right : List ℕ) (val : R) : List (ℕ × ℕ × R) :=
  match left, right with
  | [], [] => shared.map fun i => (i, i, val)
  | [i], [k] => [(i, k, val), (k, i, val)]
  | _, _ => []

/-- The two-electron part for a pair of equal determinants — density.py:305-313. -/
def diagAdds (val : R) : List ℕ → List (ℕ × ℕ × ℕ × ℕ × R)
  | [] => []
  | i :: rest => (rest.flatMap fun j => [(i, j, i, j, val), (j, i, j, i, val), (i, j, j, i, -val), (j, i, i, j, -val)]) ++
      diagAdds val rest

/-- The calls of `add_two_density` for one pair of determinants — density.py:305-343. -/
def twoAdds (shared left right : List ℕ) (val : R) : List (ℕ × ℕ × ℕ × ℕ × R) :=
  match left, right with
  | [], [] => diagAdds val shared
  | [i], [k] => shared.flatMap fun j =>
      [(i, j, k, j, val), (j, i, j, k, val), (k, j, i, j, val), (j, k, j, i, val),
        (i, j, j, k, -val), (j, i, k, j, -val), (j, k, i, j, -val), (k, j, j, i, -val)]
  | [i, j], [k, l] =>
      [(i, j, k, l, val), (j, i, l, k, val), (k, l, i, j, val), (l, k, j, i, val),
        (i, j, l, k, -val), (j, i, k, l, -val), (l, k, i, j, -val), (k, l, j, i, -val)]
  | _, _ => []

/-- The body of the inner loop for the pair `(x, sd1)`, `(y, sd2)` — density.py:283-343.  Simplification: all additions to
the one-electron matrices are made before those to the two-electron matrices (for equal determinants and single excitations
the code alternates). -/
def pairStep (dim : ℕ) (ob : OrbType) (ms : List (ℕ → ℕ → R) × List (ℕ → ℕ → ℕ → ℕ → R)) (p : (R × ℕ) × R × ℕ) :
    Except PyErr (List (ℕ → ℕ → R) × List (ℕ → ℕ → ℕ → ℕ → R)) := do
  let d := diffOrbs p.1.2 p.2.2
  let shared := sharedOrbs p.1.2 p.2.2
  let val := p.1.1 * p.2.1 * (-1) ^ (countLess shared d.1 + countLess shared d.2)
  if d.2.length ≠ d.1.length then return ms
  else do
    let one ← (oneAdds shared d.1 d.2 val).foldlM (fun m a => addOneDensity dim m a.1 a.2.1 a.2.2 ob) ms.1
    let two ← (twoAdds shared d.1 d.2 val).foldlM
      (fun m a => addTwoDensity dim m a.1 a.2.1 a.2.2.1 a.2.2.2.1 a.2.2.2.2 ob) ms.2
    return (one, two)

end

section
variable {R : Type} [Field R] [LinearOrder R] [IsStrictOrderedRing R]

/-- The pairs of the inner loop — density.py:275-281: stop at the first pair below the threshold. -/
def rowPairs (thr : R) (num c1 : ℕ) (p : R × ℕ) : List (R × ℕ) → List ((R × ℕ) × R × ℕ)
  | [] => []
  | q :: rest =>
    if |p.1 * q.1| * ((num : R) - c1) ^ 2 < thr then [] else (p, q) :: rowPairs thr num c1 p rest

/-- The pairs of both loops — density.py:270-281. -/
def allPairs (thr : R) (num : ℕ) : ℕ → List (R × ℕ) → List ((R × ℕ) × R × ℕ)
  | _, [] => []
  | c1, p :: rest =>
    if (p.1 * ((num : R) - c1)) ^ 2 < thr then []
    else rowPairs thr num c1 p (p :: rest) ++ allPairs thr num (c1 + 1) rest

/-- The coefficients and determinants in the order of decreasing magnitude — density.py:249; Python's sort is stable, also
with `reverse=True`. -/
def sortedSds (coeffs : List R) (sds : List ℕ) : List (R × ℕ) :=
  (coeffs.zip sds).mergeSort fun p q => decide (|q.1| ≤ |p.1|)

/-- `np.einsum("ijkl->iklj", m)` — density.py:346: entry `[i, k, l, j]` of the result is `m[i, j, k, l]`. -/
def chemist {S : Type} (m : ℕ → ℕ → ℕ → ℕ → S) : ℕ → ℕ → ℕ → ℕ → S := fun a b c d => m a d b c

/-- The number of arrays and their dimension — density.py:256-268. -/
def OrbType.shape (nspatial : ℕ) : OrbType → ℕ × ℕ × ℕ
  | .restricted => (1, 1, nspatial)
  | .unrestricted => (2, 3, nspatial)
  | .generalized => (1, 1, 2 * nspatial)

/-- `density_matrix(sd_coeffs, civec, nspatial, is_chemist_notation, val_threshold, orbtype)` — density.py:211-347.
`zip(*[])` cannot be unpacked: `ValueError` without determinants. -/
def densityMatrix (coeffs : List R) (sds : List ℕ) (nspatial : ℕ) (chem : Bool) (thr : R) (ob : OrbType) :
    Except PyErr (List (ℕ → ℕ → R) × List (ℕ → ℕ → ℕ → ℕ → R)) := do
  let sorted := sortedSds coeffs sds
  if sorted = [] then .error .valueError
  else
    let (n1, n2, dim) := ob.shape nspatial
    let ms ← (allPairs thr sorted.length 0 sorted).foldlM (pairStep dim ob)
      (List.replicate n1 fun _ _ => 0, List.replicate n2 fun _ _ _ _ => 0)
    return (ms.1, if chem then ms.2.map chemist else ms.2)

end

end Fanpy.Ham
