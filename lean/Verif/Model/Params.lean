import Verif.Model.Rotation

/-!
# Model: orbital-rotation parameters of the chemical Hamiltonians

`unitary_matrix` (fanpy/tools/math_tools.py) and `assign_params` (fanpy/ham/generalized_chemical.py, inherited by
restricted_chemical.py, and fanpy/ham/unrestricted_chemical.py).
-/

namespace Fanpy.Ham
open Fanpy.Slater Finset

/-- The pairs of `np.triu_indices(dim, k=1)`, row by row. -/
def triuIndices (dim : ℕ) : List (ℕ × ℕ) :=
  (List.range dim).flatMap fun i => ((List.range dim).filter fun j => i < j).map fun j => (i, j)

/-- The antihermitian matrix: the elements are written to the upper triangle in the order of `triu_indices`, then the
transpose of the upper triangle is subtracted — math_tools.py:367-369. -/
def antiherm {R : Type} [CommRing R] (dim : ℕ) (elements : List R) : ℕ → ℕ → R :=
  let upper := fun i j =>
    if (i, j) ∈ triuIndices dim then elements.getD ((triuIndices dim).idxOf (i, j)) 0 else 0
  fun i j => upper i j - upper j i

section
variable {F : Type} [Field F]

/-- `cache.dot(antiherm)` -/
def dotMat (dim : ℕ) (u v : ℕ → ℕ → F) (i j : ℕ) : F := ∑ k ∈ range dim, u i k * v k j

/-- The `while` loop of `unitary_matrix` — math_tools.py:375-383.  `small m` stands for `norm(m) <= norm_threshold`,
`huge m` for `norm(m) > 1e10` (Frobenius norm), `expm` for `scipy.linalg.expm`; `fuel` is `num_threshold - n`. -/
def taylorLoop (dim : ℕ) (small huge : (ℕ → ℕ → F) → Bool) (expm : (ℕ → ℕ → F) → ℕ → ℕ → F) (a : ℕ → ℕ → F) :
    ℕ → ℕ → (ℕ → ℕ → F) → (ℕ → ℕ → F) → ℕ → ℕ → F
  | 0, _, unitary, _ => unitary
  | fuel + 1, n, unitary, cache =>
    if small cache then unitary
    else
      let unitary' := fun i j => unitary i j + cache i j
      let cache' := fun i j => dotMat dim cache a i j / (n + 1 : ℕ)
      if huge cache' then expm a
      else taylorLoop dim small huge expm a fuel (n + 1) unitary' cache'

/-- `unitary_matrix(antiherm_elements, norm_threshold, num_threshold)` — math_tools.py:317-383; the result is the dimension
and the matrix.  Simplifications: the check of the type of the array is left out, the square root is exact (the code tests
`(1 + sqrt(1 + 8 size)) / 2` in floating point numbers). -/
def unitaryMatrix (small huge : (ℕ → ℕ → F) → Bool) (expm : (ℕ → ℕ → F) → ℕ → ℕ → F) (numThreshold : ℕ)
    (elements : List F) : Except PyErr (ℕ × (ℕ → ℕ → F)) :=
  let d := 1 + 8 * elements.length
  if d.sqrt * d.sqrt ≠ d then .error .valueError
  else
    let dim := (1 + d.sqrt) / 2
    let a := antiherm dim elements
    .ok (dim, taylorLoop dim small huge expm a (numThreshold - 1) 1 (fun i j => if i = j then 1 else 0) a)

end

variable {R : Type} [CommRing R]

/-- The attributes of a generalized or restricted chemical Hamiltonian that `assign_params` uses: the Hamiltonian, the
reference integrals (with their number of orbitals), `params`, `(_prev_params, _prev_unitary)` (`None` before the first
call) and `update_prev_params`. -/
structure GenState (R : Type) where
  ham : GenHam R
  refNorb : ℕ
  refOne : ℕ → ℕ → R
  refTwo : ℕ → ℕ → ℕ → ℕ → R
  params : List R
  prev : Option (List R × ℕ × (ℕ → ℕ → R))
  update : Bool

/-- `params - params_prev` for two arrays of the same size. -/
def subParams (p q : List R) : List R := List.zipWith (· - ·) p q

/-- `unitary_prev.dot(unitary_diff)` — generalized_chemical.py:155; `ValueError` if the shapes do not match. -/
def dotSquare (u v : ℕ × (ℕ → ℕ → R)) : Except PyErr (ℕ × (ℕ → ℕ → R)) :=
  if u.1 ≠ v.1 then .error .valueError else .ok (u.1, fun i j => ∑ k ∈ range u.1, u.2 i k * v.2 k j)

/-- `assign_params(params)` — generalized_chemical.py:108-165, with `um` for `math_tools.unitary_matrix`. -/
def GenState.assignParams (um : List R → Except PyErr (ℕ × (ℕ → ℕ → R))) (S : GenState R) (params : Option (List R)) :
    Except PyErr (GenState R) := do
  let numParams := S.ham.norb * (S.ham.norb - 1) / 2
  let p := params.getD (List.replicate numParams 0)
  if p.length ≠ numParams then .error .valueError
  else do
    let prev ← match S.prev with
      | some v => pure v
      | none => do
        let u ← um (List.replicate p.length 0)
        pure (List.replicate p.length 0, u)
    let reverted : GenHam R := { S.ham with norb := S.refNorb, one := S.refOne, two := S.refTwo }
    let diff ← um (subParams p prev.1)
    let unitary ← dotSquare prev.2 diff
    let rotated ← reverted.rotateMatrix unitary.1 unitary.1 unitary.2
    return { S with
      ham := rotated.cacheTwoInts
      params := p
      prev := some (if S.update then (p, unitary) else prev) }

/-- `__init__(one_int, two_int, params, update_prev_params)` — generalized_chemical.py:66-82. -/
def GenState.init (um : List R → Except PyErr (ℕ × (ℕ → ℕ → R))) (norb : ℕ) (one : ℕ → ℕ → R)
    (two : ℕ → ℕ → ℕ → ℕ → R) (params : Option (List R)) (update : Bool) : Except PyErr (GenState R) :=
  GenState.assignParams um
    { ham := GenHam.ofInts norb one two, refNorb := norb, refOne := one, refTwo := two, params := [], prev := none, update }
    params

/-- The same attributes of an unrestricted chemical Hamiltonian; two unitary matrices. -/
structure UnrState (R : Type) where
  ham : UnrHam R
  ref : UnrHam R
  params : List R
  prev : Option (List R × (ℕ × (ℕ → ℕ → R)) × (ℕ × (ℕ → ℕ → R)))
  update : Bool

/-- `assign_params(params)` — unrestricted_chemical.py:115-182. -/
def UnrState.assignParams (um : List R → Except PyErr (ℕ × (ℕ → ℕ → R))) (S : UnrState R) (params : Option (List R)) :
    Except PyErr (UnrState R) := do
  let numParams := S.ham.norb * (S.ham.norb - 1)
  let p := params.getD (List.replicate numParams 0)
  if p.length ≠ numParams then .error .valueError
  else do
    let half := numParams / 2
    let prev ← match S.prev with
      | some v => pure v
      | none => do
        let ua ← um ((List.replicate p.length 0).take half)
        let ub ← um ((List.replicate p.length 0).drop half)
        pure (List.replicate p.length 0, ua, ub)
    let diff := subParams p prev.1
    let da ← um (diff.take half)
    let ua ← dotSquare prev.2.1 da
    let db ← um (diff.drop half)
    let ub ← dotSquare prev.2.2 db
    let rotated ← S.ref.rotateMatrix ua.1 ub.1 ua.1 ua.2 ub.2
    return { S with
      ham := rotated.cacheTwoInts
      params := p
      prev := some (if S.update then (p, ua, ub) else prev) }

/-- `__init__(one_int, two_int, params, update_prev_params)` — unrestricted_chemical.py:66-82. -/
def UnrState.init (um : List R → Except PyErr (ℕ × (ℕ → ℕ → R))) (H : UnrHam R) (params : Option (List R))
    (update : Bool) : Except PyErr (UnrState R) :=
  UnrState.assignParams um { ham := H.cacheTwoInts, ref := H, params := [], prev := none, update } params

end Fanpy.Ham
