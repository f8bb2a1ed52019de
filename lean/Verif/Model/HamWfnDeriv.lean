import Verif.Model.HamWfn
import Verif.Model.HamDeriv
import Verif.Model.Params

/-!
# Model of `integrate_sd_wfn(sd, wfn, ham_deriv=ham_deriv)`: derivatives with respect to orbital rotations

`generalized_chemical.py`.  The methods fill arrays indexed by the orbital pair `(x, y)` of the parameter and by the
excitation, with statements of the form `array[index arrays] -= values`.  No tuple of indices occurs twice in one statement,
so each statement adds to the entry at `(x, y)` and `(a, b)` the value if the indices match; an entry is the sum of one term for
each statement.  Only the entries of `np.triu_indices(nspin, k=1)` are returned.

The integrals are elements of a commutative ring (`np.real` does nothing).  Indices outside of the arrays raise
`IndexError`; this is checked once, before the accumulation.
-/

namespace Fanpy.Ham
open Fanpy.Slater Fanpy.It

variable {R : Type} [CommRing R]

/-! ### Generalized orbitals -/

/-- entry `(x, y)` of the arrays of `_integrate_sd_sds_deriv_zero` — generalized_chemical.py:847-953. `shared no x` is the row
of `shared_indices_remove_one_index(occ_indices)` that belongs to `x`. -/
def genDerivEntryZero (H : GenHam R) (occIdx virIdx : List ℕ) (x y : ℕ) : R × R × R :=
  let noX := occIdx.filter (· ≠ x)
  let noY := occIdx.filter (· ≠ y)
  -- lines 852-857
  (if x ∈ occIdx ∧ y ∈ virIdx then (-(2 * H.one x y), 0, 0) else 0) +
  (if x ∈ virIdx ∧ y ∈ occIdx then (2 * H.one x y, 0, 0) else 0) +
  -- lines 859-905
  (if x ∈ occIdx ∧ y ∈ occIdx then (0, -(2 * (noX.map fun s => H.two x s y s).sum), 0) else 0) +
  (if x ∈ occIdx ∧ y ∈ occIdx then (0, 2 * (noY.map fun s => H.two x s y s).sum, 0) else 0) +
  (if x ∈ occIdx ∧ y ∈ virIdx then (0, -(2 * (noX.map fun s => H.two x s y s).sum), 0) else 0) +
  (if x ∈ virIdx ∧ y ∈ occIdx then (0, 2 * (noY.map fun s => H.two x s y s).sum, 0) else 0) +
  -- lines 907-953
  (if x ∈ occIdx ∧ y ∈ occIdx then (0, 0, 2 * (noX.map fun s => H.two x s s y).sum) else 0) +
  (if x ∈ occIdx ∧ y ∈ occIdx then (0, 0, -(2 * (noY.map fun s => H.two x s s y).sum)) else 0) +
  (if x ∈ occIdx ∧ y ∈ virIdx then (0, 0, 2 * (noX.map fun s => H.two x s s y).sum) else 0) +
  (if x ∈ virIdx ∧ y ∈ occIdx then (0, 0, -(2 * (noY.map fun s => H.two x s s y).sum)) else 0)

/-- `_integrate_sd_sds_deriv_zero(occ_indices, vir_indices)` — generalized_chemical.py:820-956: one triple for each
parameter. -/
def genSdsDerivZero (H : GenHam R) (occIdx virIdx : List ℕ) : Except PyErr (List (R × R × R)) := do
  guardIdx H.norb (occIdx ++ virIdx)
  return (triuIndices H.norb).map fun xy => genDerivEntryZero H occIdx virIdx xy.1 xy.2

/-- entry `(x, y)` of the arrays of `_integrate_sd_sds_deriv_one` for the excitation of `a` to `b`, where `shared` are the other
occupied orbitals — generalized_chemical.py:998-1245. -/
def genDerivEntryOne (H : GenHam R) (a b : ℕ) (shared : List ℕ) (x y : ℕ) : R × R × R :=
  -- x == a, lines 1007-1043
  (if x = a then
    (-H.one y b, -(shared.map fun s => H.two y s b s).sum, (shared.map fun s => H.two y s s b).sum) else 0) +
  -- x == b, lines 1044-1080
  (if x = b then
    (-H.one a y, -(shared.map fun s => H.two a s y s).sum, (shared.map fun s => H.two a s s y).sum) else 0) +
  -- x in shared, lines 1081-1125
  (if x ∈ shared then (0, -H.two y a x b, 0) else 0) +
  (if x ∈ shared then (0, -H.two x a y b, 0) else 0) +
  (if x ∈ shared then (0, 0, H.two y a b x) else 0) +
  (if x ∈ shared then (0, 0, H.two x a b y) else 0) +
  -- y == a, lines 1127-1163
  (if y = a then
    (H.one x b, (shared.map fun s => H.two x s b s).sum, -(shared.map fun s => H.two x s s b).sum) else 0) +
  -- y == b, lines 1164-1200
  (if y = b then
    (H.one a x, (shared.map fun s => H.two a s x s).sum, -(shared.map fun s => H.two a s s x).sum) else 0) +
  -- y in shared, lines 1201-1245
  (if y ∈ shared then (0, H.two x a y b, 0) else 0) +
  (if y ∈ shared then (0, H.two y a x b, 0) else 0) +
  (if y ∈ shared then (0, 0, -H.two x a b y) else 0) +
  (if y ∈ shared then (0, 0, -H.two y a b x) else 0)

/-- `sign[None, None, :] * np.array([...])` where the arrays were brought to the shape `(triu_rows.size, -1)`: for no pair of
orbitals the unknown length is not determined and `reshape` raises `ValueError` — generalized_chemical.py:1247-1254,
1496-1503. -/
def derivArray (n : ℕ) (signs : List ℤ) (entries : ℕ × ℕ → List (R × R × R)) : Except PyErr (List (List (R × R × R))) :=
  if triuIndices n = [] then .error .valueError
  else (triuIndices n).mapM fun xy => mulSigns signTimes signs (entries xy)

/-- `_integrate_sd_sds_deriv_one(occ_indices, vir_indices)` — generalized_chemical.py:958-1254: for each parameter the array over
the excitations. -/
def genSdsDerivOne (H : GenHam R) (occIdx virIdx : List ℕ) : Except PyErr (List (List (R × R × R))) := do
  let shared := sharedIndicesRemoveOne occIdx
  guardIdx H.norb (occIdx ++ virIdx)
  derivArray H.norb (signExciteOne occIdx virIdx) fun xy =>
    (occIdx.zip shared).flatMap fun p => virIdx.map fun b => genDerivEntryOne H p.1 b p.2 xy.1 xy.2

/-- entry `(x, y)` of the arrays of `_integrate_sd_sds_deriv_two` for the excitation of `a`, `b` to `c`, `d` —
generalized_chemical.py:1306-1494. -/
def genDerivEntryTwo (H : GenHam R) (a b c d x y : ℕ) : R × R × R :=
  (if x = a then (0, -H.two y b c d, H.two y b d c) else 0) +
  (if x = b then (0, -H.two a y c d, H.two a y d c) else 0) +
  (if x = c then (0, -H.two a b y d, H.two a b d y) else 0) +
  (if x = d then (0, -H.two a b c y, H.two a b y c) else 0) +
  (if y = a then (0, H.two x b c d, -H.two x b d c) else 0) +
  (if y = b then (0, H.two a x c d, -H.two a x d c) else 0) +
  (if y = c then (0, H.two a b x d, -H.two a b d x) else 0) +
  (if y = d then (0, H.two a b c x, -H.two a b x c) else 0)

/-- `_integrate_sd_sds_deriv_two(occ_indices, vir_indices)` — generalized_chemical.py:1256-1503. -/
def genSdsDerivTwo (H : GenHam R) (occIdx virIdx : List ℕ) : Except PyErr (List (List (R × R × R))) := do
  let anns ← pairColumns (comb occIdx 2)
  let cres ← pairColumns (comb virIdx 2)
  guardIdx H.norb (occIdx ++ virIdx)
  derivArray H.norb (signExciteTwo occIdx virIdx) fun xy =>
    anns.flatMap fun ab => cres.map fun cd => genDerivEntryTwo H ab.1 ab.2 cd.1 cd.2 xy.1 xy.2

/-- `array[:, ham_deriv]` for an array with one column for each parameter; the indices were checked to be nonnegative. -/
def takeCols {α : Type} (cols : List α) (deriv : List ℤ) : Except PyErr (List α) :=
  deriv.mapM fun i => match cols[i.toNat]? with
    | some v => .ok v
    | none => .error .indexError

/-- `integrate_sd_wfn(sd, wfn, ham_deriv=ham_deriv, components=True)`: one triple for each entry of `ham_deriv` —
generalized_chemical.py:1505-1639; `components=False` returns `sumComp` of each.  `nparams` is `n (n-1) / 2`, the size checked in
`assign_params`. `f` is `wfn.get_overlap`. -/
def genSdWfnDeriv (H : GenHam R) (f : ℤ → R) (sd : ℕ) (deriv : List ℤ) : Except PyErr (List (R × R × R)) :=
  if ¬ (∀ i ∈ deriv, 0 ≤ i ∧ i < (H.norb * (H.norb - 1) / 2 : ℕ)) then .error .valueError
  else do
    let occIdx := occIndices (some sd)
    let virIdx := virIndices (some sd) H.norb
    let zero ← genSdsDerivZero H occIdx virIdx
    let output ← takeCols (zero.map (scale (f sd))) deriv
    let exc1 ← exciteBulk sd occIdx virIdx 1
    let one ← genSdsDerivOne H occIdx virIdx
    let d1 ← one.mapM fun row => dotOverlaps scale row (exc1.map f)
    let t1 ← takeCols d1 deriv
    let output := List.zipWith (· + ·) output t1
    let exc2 ← exciteBulk sd occIdx virIdx 2
    if occIdx.length > 1 ∧ virIdx.length > 1 then do
      let two ← genSdsDerivTwo H occIdx virIdx
      let d2 ← two.mapM fun row => dotOverlaps scale row (exc2.map f)
      let t2 ← takeCols d2 deriv
      return List.zipWith (· + ·) output t2
    else return output

end Fanpy.Ham
