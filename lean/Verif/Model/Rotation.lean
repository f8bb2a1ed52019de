import Verif.Model.Hamiltonian
import Mathlib.Algebra.BigOperators.Group.Finset.Basic

/-!
# Model of the orbital rotations

`fanpy/ham/generalized_base.py` and `fanpy/ham/unrestricted_base.py`: `orb_rotate_jacobi` and `orb_rotate_matrix`;
`fanpy/ham/generalized_chemical.py` and `restricted_chemical.py`: `assign_params`, `param_ind_to_rowcol_ind`.

The cosine and the sine of the angle are arguments (`c`, `s`): the model is exact arithmetic in a commutative ring.
An array is its dimension together with a function of the indices.  A matrix is `(rows, columns, entries)`.
`TypeError` branches that check Python types are not representable.
-/

namespace Fanpy.Ham
open Finset

variable {R : Type} [CommRing R]

/-- The simultaneous assignment of the two slices `p` and `q` of one axis:
`(A[p], A[q]) = (cos * A[p] - sin * A[q], sin * A[p] + cos * A[q])` — generalized_base.py:156-159.  The right hand side
is evaluated before the assignment. -/
def rotAxis (c s : R) (p q : ℕ) (f : ℕ → R) (i : ℕ) : R :=
  if i = p then c * f p - s * f q else if i = q then s * f p + c * f q else f i

/-- The rotation of the one-electron integrals: columns, then rows — generalized_base.py:153-166. -/
def jacobiOne (c s : R) (p q : ℕ) (h : ℕ → ℕ → R) : ℕ → ℕ → R :=
  let h1 := fun i j => rotAxis c s p q (fun j => h i j) j
  fun i j => rotAxis c s p q (fun i => h1 i j) i

/-- The rotation of the two-electron integrals: axes four, three, two, one — generalized_base.py:168-195. -/
def jacobiTwo (c s : R) (p q : ℕ) (g : ℕ → ℕ → ℕ → ℕ → R) : ℕ → ℕ → ℕ → ℕ → R :=
  let g1 := fun i j k l => rotAxis c s p q (fun l => g i j k l) l
  let g2 := fun i j k l => rotAxis c s p q (fun k => g1 i j k l) k
  let g3 := fun i j k l => rotAxis c s p q (fun j => g2 i j k l) j
  fun i j k l => rotAxis c s p q (fun i => g3 i j k l) i

/-- `orb_rotate_jacobi(jacobi_indices, theta)` with `c = cos(theta)`, `s = sin(theta)` — generalized_base.py:110-195.
The cached contractions are not refreshed. -/
def GenHam.rotateJacobi (H : GenHam R) (p0 q0 : ℤ) (c s : R) : Except PyErr (GenHam R) :=
  if p0 = q0 then .error .valueError
  else if ¬(0 ≤ p0 ∧ p0 < H.norb ∧ 0 ≤ q0 ∧ q0 < H.norb) then .error .valueError
  else
    let pq := if p0 > q0 then (q0.toNat, p0.toNat) else (p0.toNat, q0.toNat)
    .ok { H with one := jacobiOne c s pq.1 pq.2 H.one, two := jacobiTwo c s pq.1 pq.2 H.two }

/-- The two `einsum` contractions of the one-electron integrals (`ij,ia->aj`, `aj,jb->ab`) — generalized_base.py:226-227.
-/
def matrixOne (n : ℕ) (u : ℕ → ℕ → R) (h : ℕ → ℕ → R) : ℕ → ℕ → R :=
  let h1 := fun a j => ∑ i ∈ range n, h i j * u i a
  fun a b => ∑ j ∈ range n, h1 a j * u j b

/-- The four `einsum` contractions of the two-electron integrals; `u` acts on axes one and three, `v` on two and four —
generalized_base.py:229-232 (`v = u`) and unrestricted_base.py:325-328. -/
def matrixTwo (n : ℕ) (u v : ℕ → ℕ → R) (g : ℕ → ℕ → ℕ → ℕ → R) : ℕ → ℕ → ℕ → ℕ → R :=
  let g1 := fun a j k l => ∑ i ∈ range n, g i j k l * u i a
  let g2 := fun a b k l => ∑ j ∈ range n, g1 a j k l * v j b
  let g3 := fun a b c l => ∑ k ∈ range n, g2 a b k l * u k c
  fun a b c d => ∑ l ∈ range n, g3 a b c l * v l d

/-- `orb_rotate_matrix(matrix)` for a `rows × cols` matrix — generalized_base.py:197-232.  Afterwards there are `cols`
orbitals.  The cached contractions are not refreshed. -/
def GenHam.rotateMatrix (H : GenHam R) (rows cols : ℕ) (u : ℕ → ℕ → R) : Except PyErr (GenHam R) :=
  if rows ≠ H.norb then .error .valueError
  else .ok { H with norb := cols, one := matrixOne H.norb u H.one, two := matrixTwo H.norb u u H.two }

/-! ### Unrestricted orbitals -/

/-- Rotation of the first and third axis: third, then first — unrestricted_base.py:234-245. -/
def jacobiTwo13 (c s : R) (p q : ℕ) (g : ℕ → ℕ → ℕ → ℕ → R) : ℕ → ℕ → ℕ → ℕ → R :=
  let g1 := fun i j k l => rotAxis c s p q (fun k => g i j k l) k
  fun i j k l => rotAxis c s p q (fun i => g1 i j k l) i

/-- Rotation of the second and fourth axis: fourth, then second — unrestricted_base.py:248-259. -/
def jacobiTwo24 (c s : R) (p q : ℕ) (g : ℕ → ℕ → ℕ → ℕ → R) : ℕ → ℕ → ℕ → ℕ → R :=
  let g1 := fun i j k l => rotAxis c s p q (fun l => g i j k l) l
  fun i j k l => rotAxis c s p q (fun j => g1 i j k l) j

/-- `orb_rotate_jacobi(jacobi_indices, theta)` — unrestricted_base.py:137-259.  Orbital indices are spin orbitals; both
have to be of the same spin.  For zero orbitals the range check fails first, so `// num_orbs` never divides by zero. -/
def UnrHam.rotateJacobi (H : UnrHam R) (p0 q0 : ℤ) (c s : R) : Except PyErr (UnrHam R) :=
  if p0 = q0 then .error .valueError
  else if ¬(0 ≤ p0 ∧ p0 < 2 * H.norb ∧ 0 ≤ q0 ∧ q0 < 2 * H.norb) then .error .valueError
  else if p0.toNat / H.norb ≠ q0.toNat / H.norb then .error .valueError
  else
    let pq := if p0 > q0 then (q0.toNat, p0.toNat) else (p0.toNat, q0.toNat)
    let p := pq.1 % H.norb
    let q := pq.2 % H.norb
    if pq.1 / H.norb = 0 then
      .ok { H with
        oneA := jacobiOne c s p q H.oneA
        twoAA := jacobiTwo c s p q H.twoAA
        twoAB := jacobiTwo13 c s p q H.twoAB }
    else
      .ok { H with
        oneB := jacobiOne c s p q H.oneB
        twoBB := jacobiTwo c s p q H.twoBB
        twoAB := jacobiTwo24 c s p q H.twoAB }

/-- `orb_rotate_matrix((u, v))` for an alpha (`rowsA × cols`) and a beta (`rowsB × cols`) matrix —
unrestricted_base.py:261-337.  Simplification: both matrices have the same number of columns. -/
def UnrHam.rotateMatrix (H : UnrHam R) (rowsA rowsB cols : ℕ) (u v : ℕ → ℕ → R) : Except PyErr (UnrHam R) :=
  if ¬(rowsA = H.norb ∧ rowsB = H.norb) then .error .valueError
  else .ok { H with
    norb := cols
    oneA := matrixOne H.norb u H.oneA
    oneB := matrixOne H.norb v H.oneB
    twoAA := matrixTwo H.norb u u H.twoAA
    twoAB := matrixTwo H.norb u v H.twoAB
    twoBB := matrixTwo H.norb v v H.twoBB }

/-! ### Parameter indices -/

/-- `param_ind_to_rowcol_ind(param_ind)` with `n` orbitals — generalized_chemical.py:376-428, restricted_chemical.py:210-262.
`for k in range(n + 1): x = k; if param_ind - n (x+1) + (x+1)(x+2)/2 < 0: break`: the first such `x`, or the last value
`n` if the loop runs to its end.  `(x+1)(x+2)/2` is exact (a product of consecutive integers is even).  `ind_flat % n`
with `n = 0` is a float modulo by zero, `ZeroDivisionError`. -/
def rowColInd (n : ℕ) (ind : ℤ) : Except PyErr (ℤ × ℤ) :=
  let x : ℕ := ((List.range (n + 1)).find? fun (k : ℕ) =>
    decide (ind - n * ((k : ℤ) + 1) + ((k : ℤ) + 1) * ((k : ℤ) + 2) / 2 < 0)).getD n
  if n = 0 then .error .zeroDivision
  else .ok (x, (ind + ((x : ℤ) + 1) * ((x : ℤ) + 2) / 2) % n)

/-- `param_ind_to_rowcol_ind(param_ind)` of `UnrestrictedMolecularHamiltonian` — unrestricted_chemical.py:476-534: the
parameters of the alpha rotation, then those of the beta rotation. -/
def unrRowColInd (n : ℕ) (ind : ℤ) : Except PyErr (ℤ × ℤ × ℤ) :=
  let half : ℤ := (n : ℤ) * ((n : ℤ) - 1) / 2
  if ind < half then (rowColInd n ind).map fun xy => (0, xy.1, xy.2)
  else (rowColInd n (ind - half)).map fun xy => (1, xy.1, xy.2)

end Fanpy.Ham
