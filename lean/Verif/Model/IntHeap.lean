import Verif.Model.Params
import Mathlib.Logic.Function.Basic

/-!
# Model: the integral arrays as objects in memory

`assign_integrals` (fanpy/ham/generalized_base.py, fanpy/ham/unrestricted_base.py) stores the arrays it is given, and
`orb_rotate_jacobi` writes into the stored arrays, while `orb_rotate_matrix`, `set_ref_ints` and `assign_params` make new
arrays.  `Verif.Model.Rotation` and `Verif.Model.Params` treat the integrals as values; here an array is a place in a
memory and a Hamiltonian holds places.

Simplification: two arrays are either the same array or share no memory (no partially overlapping views); the dimensions of
an array are not stored in the memory but in the object.  The arrays of the caches are results of advanced indexing, which
copies, so they are values.  `params` and the unitary matrices are values.
-/

namespace Fanpy.IntHeap
open Fanpy.Ham Finset

/-! ### Checks of `assign_integrals` -/

/-- What the checks see of an argument: not an array, or an array with its number type (`true`: float or complex) and its
shape. -/
inductive Item
  | other
  | array (floating : Bool) (shape : List ℕ)

/-- The checks of `assign_integrals(one_int, two_int)` — generalized_base.py:95-105.  The number type is not checked. -/
def checkGen (one two : Item) : Except PyErr Unit :=
  match one, two with
  | .array _ s, .array _ t =>
    if ¬(s.length = 2 ∧ s.getD 0 0 = s.getD 1 0) then .error .valueError
    else if ¬(t.length = 4 ∧ t.getD 0 0 = t.getD 1 0 ∧ t.getD 1 0 = t.getD 2 0 ∧ t.getD 2 0 = t.getD 3 0) then
      .error .valueError
    else if s.getD 0 0 ≠ t.getD 0 0 then .error .valueError
    else .ok ()
  | _, _ => .error .typeError

/-- An argument of the unrestricted Hamiltonian: not a list or tuple, or the elements of one. -/
inductive Arg
  | other
  | seq (items : List Item)

/-- `isinstance(i, np.ndarray) and i.dtype in [float, complex]` -/
def Item.isFloat : Item → Bool
  | .other => false
  | .array b _ => b

/-- The shape of an array. -/
def Item.shape : Item → List ℕ
  | .other => []
  | .array _ s => s

/-- The checks of `assign_integrals(one_int, two_int)` — unrestricted_base.py:101-132. -/
def checkUnr (one two : Arg) : Except PyErr Unit :=
  match one with
  | .other => .error .typeError
  | .seq xs =>
    if ¬(xs.length = 2 ∧ xs.all Item.isFloat) then .error .typeError
    else match two with
    | .other => .error .typeError
    | .seq ys =>
      if ¬(ys.length = 3 ∧ ys.all Item.isFloat) then .error .typeError
      else
        let ss := xs.map Item.shape
        let ts := ys.map Item.shape
        if ¬(ss.all fun s => s.length = 2 ∧ s.getD 0 0 = s.getD 1 0) then .error .valueError
        else if ¬(ts.all fun t =>
            t.length = 4 ∧ t.getD 0 0 = t.getD 1 0 ∧ t.getD 1 0 = t.getD 2 0 ∧ t.getD 2 0 = t.getD 3 0) then
          .error .valueError
        else if ss.getD 0 [] ≠ ss.getD 1 [] then .error .valueError
        else if ¬(ts.getD 0 [] = ts.getD 1 [] ∧ ts.getD 1 [] = ts.getD 2 []) then .error .valueError
        else if (ss.getD 0 []).getD 0 0 ≠ (ts.getD 0 []).getD 0 0 then .error .valueError
        else .ok ()

/-! ### Memory -/

/-- The one- and two-electron arrays in memory, and the first places that are not in use. -/
structure Mem (R : Type) where
  one : ℕ → ℕ → ℕ → R
  two : ℕ → ℕ → ℕ → ℕ → ℕ → R
  nextOne : ℕ
  nextTwo : ℕ

section
variable {R : Type}

/-- A new matrix. -/
def Mem.allocOne (m : Mem R) (h : ℕ → ℕ → R) : ℕ × Mem R :=
  (m.nextOne, { m with one := Function.update m.one m.nextOne h, nextOne := m.nextOne + 1 })

/-- A new tensor. -/
def Mem.allocTwo (m : Mem R) (g : ℕ → ℕ → ℕ → ℕ → R) : ℕ × Mem R :=
  (m.nextTwo, { m with two := Function.update m.two m.nextTwo g, nextTwo := m.nextTwo + 1 })

/-- Writing into the matrix at a place. -/
def Mem.modifyOne (m : Mem R) (a : ℕ) (f : (ℕ → ℕ → R) → ℕ → ℕ → R) : Mem R :=
  { m with one := Function.update m.one a (f (m.one a)) }

/-- Writing into the tensor at a place. -/
def Mem.modifyTwo (m : Mem R) (a : ℕ) (f : (ℕ → ℕ → ℕ → ℕ → R) → ℕ → ℕ → ℕ → ℕ → R) : Mem R :=
  { m with two := Function.update m.two a (f (m.two a)) }

end

/-- The rotation of a matrix whose number type is that of the integrals that were given: what is written is converted to
this type (`cast`) — generalized_base.py:153-166; `cast` is the identity for real and complex arrays and drops the fractional
part for an array of integers, which `assign_integrals` accepts. -/
def jacobiOneCast {R : Type} [CommRing R] (cast : R → R) (c s : R) (p q : ℕ) (h : ℕ → ℕ → R) : ℕ → ℕ → R :=
  let write := fun (f : ℕ → R) (i : ℕ) => if i = p ∨ i = q then cast (rotAxis c s p q f i) else f i
  let h1 := fun i j => write (fun j => h i j) j
  fun i j => write (fun i => h1 i j) i

/-! ### Generalized and restricted orbitals -/

/-- A generalized or restricted chemical Hamiltonian: places of the integrals (`one_int`, `two_int`) and of the reference
integrals (`_ref_one_int`, `_ref_two_int`), with their dimensions; the caches; the attributes of `assign_params`. -/
structure GenObj (R : Type) where
  norb : ℕ
  one : ℕ
  two : ℕ
  refNorb : ℕ
  refOne : ℕ
  refTwo : ℕ
  cIJIJ : ℕ → ℕ → R
  cIJJI : ℕ → ℕ → R
  params : List R
  prev : Option (List R × ℕ × (ℕ → ℕ → R))
  update : Bool

section
variable {R : Type} [CommRing R]

/-- The last two lines of `assign_integrals`, `self.one_int = one_int; self.two_int = two_int`, for arrays that pass the
checks — generalized_base.py:107-108. -/
def GenObj.assignIntegrals (o : GenObj R) (norb one two : ℕ) : GenObj R := { o with norb, one, two }

/-- `set_ref_ints()` — generalized_chemical.py:96-99. -/
def GenObj.setRefInts (m : Mem R) (o : GenObj R) : Mem R × GenObj R :=
  let x := m.allocOne (m.one o.one)
  let y := x.2.allocTwo (x.2.two o.two)
  (y.2, { o with refNorb := o.norb, refOne := x.1, refTwo := y.1 })

/-- `cache_two_ints()` — generalized_chemical.py:101-106. -/
def GenObj.cacheTwoInts (m : Mem R) (o : GenObj R) : GenObj R :=
  { o with cIJIJ := fun i j => m.two o.two i j i j, cIJJI := fun i j => m.two o.two i j j i }

/-- `orb_rotate_jacobi(jacobi_indices, theta)` — generalized_base.py:110-195: `self.one_int[:, p] = …` writes into the
array that is stored. -/
def GenObj.rotateJacobi (m : Mem R) (o : GenObj R) (p0 q0 : ℤ) (c s : R) : Except PyErr (Mem R × GenObj R) :=
  if p0 = q0 then .error .valueError
  else if ¬(0 ≤ p0 ∧ p0 < o.norb ∧ 0 ≤ q0 ∧ q0 < o.norb) then .error .valueError
  else
    let pq := if p0 > q0 then (q0.toNat, p0.toNat) else (p0.toNat, q0.toNat)
    let m1 := m.modifyOne o.one (jacobiOne c s pq.1 pq.2)
    let m2 := m1.modifyTwo o.two (jacobiTwo c s pq.1 pq.2)
    .ok (m2, o)

/-- `orb_rotate_matrix(matrix)` — generalized_base.py:197-232: `np.einsum` makes new arrays. -/
def GenObj.rotateMatrix (m : Mem R) (o : GenObj R) (rows cols : ℕ) (u : ℕ → ℕ → R) : Except PyErr (Mem R × GenObj R) :=
  if rows ≠ o.norb then .error .valueError
  else
    let x := m.allocOne (matrixOne o.norb u (m.one o.one))
    let y := x.2.allocTwo (matrixTwo o.norb u u (x.2.two o.two))
    .ok (y.2, { o with norb := cols, one := x.1, two := y.1 })

/-- `assign_params(params)` — generalized_chemical.py:108-165. -/
def GenObj.assignParams (um : List R → Except PyErr (ℕ × (ℕ → ℕ → R))) (m : Mem R) (o : GenObj R)
    (params : Option (List R)) : Except PyErr (Mem R × GenObj R) := do
  let numParams := o.norb * (o.norb - 1) / 2
  let p := params.getD (List.replicate numParams 0)
  if p.length ≠ numParams then .error .valueError
  else do
    let prev ← match o.prev with
      | some v => pure v
      | none => do
        let u ← um (List.replicate p.length 0)
        pure (List.replicate p.length 0, u)
    let x := m.allocOne (m.one o.refOne)
    let y := x.2.allocTwo (x.2.two o.refTwo)
    let reverted := o.assignIntegrals o.refNorb x.1 y.1
    let diff ← um (subParams p prev.1)
    let unitary ← dotSquare prev.2 diff
    let rotated ← reverted.rotateMatrix y.2 unitary.1 unitary.1 unitary.2
    let o' := { rotated.2 with params := p, prev := some (if o.update then (p, unitary) else prev) }
    return (rotated.1, o'.cacheTwoInts rotated.1)

/-- `__init__(one_int, two_int, params, update_prev_params)` — generalized_chemical.py:66-82, for arrays that pass the
checks; before `assign_integrals`, `set_ref_ints` and `cache_two_ints` the attributes do not exist. -/
def GenObj.init (um : List R → Except PyErr (ℕ × (ℕ → ℕ → R))) (m : Mem R) (norb one two : ℕ)
    (params : Option (List R)) (update : Bool) : Except PyErr (Mem R × GenObj R) :=
  let o : GenObj R :=
    { norb, one, two, refNorb := norb, refOne := one, refTwo := two, cIJIJ := fun _ _ => 0, cIJJI := fun _ _ => 0,
      params := [], prev := none, update }
  let r := o.setRefInts m
  GenObj.assignParams um r.1 (r.2.cacheTwoInts r.1) params

/-- The state as values. -/
def GenObj.view (m : Mem R) (o : GenObj R) : GenState R where
  ham := { norb := o.norb, one := m.one o.one, two := m.two o.two, cIJIJ := o.cIJIJ, cIJJI := o.cIJJI }
  refNorb := o.refNorb
  refOne := m.one o.refOne
  refTwo := m.two o.refTwo
  params := o.params
  prev := o.prev
  update := o.update

end

/-! ### Unrestricted orbitals -/

/-- The places of the arrays of `one_int` (alpha, beta) and `two_int` (alpha-alpha, alpha-beta, beta-beta). -/
structure Cells where
  oneA : ℕ
  oneB : ℕ
  twoAA : ℕ
  twoAB : ℕ
  twoBB : ℕ

/-- An unrestricted chemical Hamiltonian. -/
structure UnrObj (R : Type) where
  norb : ℕ
  cur : Cells
  refNorb : ℕ
  ref : Cells
  c0IJIJ : ℕ → ℕ → R
  c1IJIJ : ℕ → ℕ → R
  c2IJIJ : ℕ → ℕ → R
  c0IJJI : ℕ → ℕ → R
  c2IJJI : ℕ → ℕ → R
  params : List R
  prev : Option (List R × (ℕ × (ℕ → ℕ → R)) × (ℕ × (ℕ → ℕ → R)))
  update : Bool

section
variable {R : Type} [CommRing R]

/-- Five new arrays. -/
def newCells (m : Mem R) (hA hB : ℕ → ℕ → R) (gAA gAB gBB : ℕ → ℕ → ℕ → ℕ → R) : Mem R × Cells :=
  let a := m.allocOne hA
  let b := a.2.allocOne hB
  let aa := b.2.allocTwo gAA
  let ab := aa.2.allocTwo gAB
  let bb := ab.2.allocTwo gBB
  (bb.2, ⟨a.1, b.1, aa.1, ab.1, bb.1⟩)

/-- `np.copy` of five arrays. -/
def copyCells (m : Mem R) (x : Cells) : Mem R × Cells :=
  newCells m (m.one x.oneA) (m.one x.oneB) (m.two x.twoAA) (m.two x.twoAB) (m.two x.twoBB)

/-- The last two lines of `assign_integrals`, for arrays that pass the checks — unrestricted_base.py:134-135: a new tuple
of the same arrays. -/
def UnrObj.assignIntegrals (o : UnrObj R) (norb : ℕ) (cur : Cells) : UnrObj R := { o with norb, cur }

/-- `set_ref_ints()` — unrestricted_chemical.py:96-103. -/
def UnrObj.setRefInts (m : Mem R) (o : UnrObj R) : Mem R × UnrObj R :=
  let r := copyCells m o.cur
  (r.1, { o with refNorb := o.norb, ref := r.2 })

/-- `cache_two_ints()` — unrestricted_chemical.py:105-113. -/
def UnrObj.cacheTwoInts (m : Mem R) (o : UnrObj R) : UnrObj R :=
  { o with
    c0IJIJ := fun i j => m.two o.cur.twoAA i j i j
    c1IJIJ := fun i j => m.two o.cur.twoAB i j i j
    c2IJIJ := fun i j => m.two o.cur.twoBB i j i j
    c0IJJI := fun i j => m.two o.cur.twoAA i j j i
    c2IJJI := fun i j => m.two o.cur.twoBB i j j i }

/-- `orb_rotate_jacobi(jacobi_indices, theta)` — unrestricted_base.py:137-259: the arrays of one spin are written, one after
the other. -/
def UnrObj.rotateJacobi (m : Mem R) (o : UnrObj R) (p0 q0 : ℤ) (c s : R) : Except PyErr (Mem R × UnrObj R) :=
  if p0 = q0 then .error .valueError
  else if ¬(0 ≤ p0 ∧ p0 < 2 * o.norb ∧ 0 ≤ q0 ∧ q0 < 2 * o.norb) then .error .valueError
  else if p0.toNat / o.norb ≠ q0.toNat / o.norb then .error .valueError
  else
    let pq := if p0 > q0 then (q0.toNat, p0.toNat) else (p0.toNat, q0.toNat)
    let p := pq.1 % o.norb
    let q := pq.2 % o.norb
    if pq.1 / o.norb = 0 then
      let m1 := m.modifyOne o.cur.oneA (jacobiOne c s p q)
      let m2 := m1.modifyTwo o.cur.twoAA (jacobiTwo c s p q)
      let m3 := m2.modifyTwo o.cur.twoAB (jacobiTwo13 c s p q)
      .ok (m3, o)
    else
      let m1 := m.modifyOne o.cur.oneB (jacobiOne c s p q)
      let m2 := m1.modifyTwo o.cur.twoBB (jacobiTwo c s p q)
      let m3 := m2.modifyTwo o.cur.twoAB (jacobiTwo24 c s p q)
      .ok (m3, o)

/-- `orb_rotate_matrix((u, v))` — unrestricted_base.py:261-337: new arrays.  Simplification as in `UnrHam.rotateMatrix`. -/
def UnrObj.rotateMatrix (m : Mem R) (o : UnrObj R) (rowsA rowsB cols : ℕ) (u v : ℕ → ℕ → R) :
    Except PyErr (Mem R × UnrObj R) :=
  if ¬(rowsA = o.norb ∧ rowsB = o.norb) then .error .valueError
  else
    let r := newCells m (matrixOne o.norb u (m.one o.cur.oneA)) (matrixOne o.norb v (m.one o.cur.oneB))
      (matrixTwo o.norb u u (m.two o.cur.twoAA)) (matrixTwo o.norb u v (m.two o.cur.twoAB))
      (matrixTwo o.norb v v (m.two o.cur.twoBB))
    .ok (r.1, { o with norb := cols, cur := r.2 })

/-- `assign_params(params)` — unrestricted_chemical.py:115-182. -/
def UnrObj.assignParams (um : List R → Except PyErr (ℕ × (ℕ → ℕ → R))) (m : Mem R) (o : UnrObj R)
    (params : Option (List R)) : Except PyErr (Mem R × UnrObj R) := do
  let numParams := o.norb * (o.norb - 1)
  let p := params.getD (List.replicate numParams 0)
  if p.length ≠ numParams then .error .valueError
  else do
    let half := numParams / 2
    let prev ← match o.prev with
      | some v => pure v
      | none => do
        let ua ← um ((List.replicate p.length 0).take half)
        let ub ← um ((List.replicate p.length 0).drop half)
        pure (List.replicate p.length 0, ua, ub)
    let diff := subParams p prev.1
    let r := copyCells m o.ref
    let reverted := o.assignIntegrals o.refNorb r.2
    let da ← um (diff.take half)
    let ua ← dotSquare prev.2.1 da
    let db ← um (diff.drop half)
    let ub ← dotSquare prev.2.2 db
    let rotated ← reverted.rotateMatrix r.1 ua.1 ub.1 ua.1 ua.2 ub.2
    let o' := { rotated.2 with params := p, prev := some (if o.update then (p, ua, ub) else prev) }
    return (rotated.1, o'.cacheTwoInts rotated.1)

/-- `__init__(one_int, two_int, params, update_prev_params)` — unrestricted_chemical.py:66-82. -/
def UnrObj.init (um : List R → Except PyErr (ℕ × (ℕ → ℕ → R))) (m : Mem R) (norb : ℕ) (cells : Cells)
    (params : Option (List R)) (update : Bool) : Except PyErr (Mem R × UnrObj R) :=
  let o : UnrObj R :=
    { norb, cur := cells, refNorb := norb, ref := cells, c0IJIJ := fun _ _ => 0, c1IJIJ := fun _ _ => 0,
      c2IJIJ := fun _ _ => 0, c0IJJI := fun _ _ => 0, c2IJJI := fun _ _ => 0, params := [], prev := none, update }
  let r := o.setRefInts m
  UnrObj.assignParams um r.1 (r.2.cacheTwoInts r.1) params

/-- The state as values. -/
def UnrObj.view (m : Mem R) (o : UnrObj R) : UnrState R where
  ham := { norb := o.norb, oneA := m.one o.cur.oneA, oneB := m.one o.cur.oneB, twoAA := m.two o.cur.twoAA,
           twoAB := m.two o.cur.twoAB, twoBB := m.two o.cur.twoBB, c0IJIJ := o.c0IJIJ, c1IJIJ := o.c1IJIJ,
           c2IJIJ := o.c2IJIJ, c0IJJI := o.c0IJJI, c2IJJI := o.c2IJJI }
  ref := UnrHam.ofInts o.refNorb (m.one o.ref.oneA) (m.one o.ref.oneB) (m.two o.ref.twoAA) (m.two o.ref.twoAB)
    (m.two o.ref.twoBB)
  params := o.params
  prev := o.prev
  update := o.update

end

/-! ### Programs -/

/-- What happens to a Hamiltonian: calls of its methods, and writes of the caller into arrays of its own. -/
inductive Event (R : Type)
  | jacobi (p q : ℤ) (c s : R)
  | matrix (rowsA rowsB cols : ℕ) (u v : ℕ → ℕ → R)
  | params (p : Option (List R))
  | setRef
  | cache
  | writeOne (a : ℕ) (h : ℕ → ℕ → R)
  | writeTwo (a : ℕ) (g : ℕ → ℕ → ℕ → ℕ → R)

section
variable {R : Type} [CommRing R]

/-- One event, for a generalized or restricted Hamiltonian (`matrix` uses its first matrix). -/
def GenObj.step (um : List R → Except PyErr (ℕ × (ℕ → ℕ → R))) (x : Mem R × GenObj R) :
    Event R → Except PyErr (Mem R × GenObj R)
  | .jacobi p q c s => x.2.rotateJacobi x.1 p q c s
  | .matrix rows _ cols u _ => x.2.rotateMatrix x.1 rows cols u
  | .params p => x.2.assignParams um x.1 p
  | .setRef => .ok (x.2.setRefInts x.1)
  | .cache => .ok (x.1, x.2.cacheTwoInts x.1)
  | .writeOne a h => .ok (x.1.modifyOne a fun _ => h, x.2)
  | .writeTwo a g => .ok (x.1.modifyTwo a fun _ => g, x.2)

/-- One event, for an unrestricted Hamiltonian. -/
def UnrObj.step (um : List R → Except PyErr (ℕ × (ℕ → ℕ → R))) (x : Mem R × UnrObj R) :
    Event R → Except PyErr (Mem R × UnrObj R)
  | .jacobi p q c s => x.2.rotateJacobi x.1 p q c s
  | .matrix rowsA rowsB cols u v => x.2.rotateMatrix x.1 rowsA rowsB cols u v
  | .params p => x.2.assignParams um x.1 p
  | .setRef => .ok (x.2.setRefInts x.1)
  | .cache => .ok (x.1, x.2.cacheTwoInts x.1)
  | .writeOne a h => .ok (x.1.modifyOne a fun _ => h, x.2)
  | .writeTwo a g => .ok (x.1.modifyTwo a fun _ => g, x.2)

end

end Fanpy.IntHeap
