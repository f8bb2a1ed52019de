import Mathlib.Data.Matrix.Block
import Mathlib.Data.Matrix.Mul
import Mathlib.Data.Real.Basic
import Verif.Model.Slater

/-! Model of `localize` of fanpy/interface/pyscf_tools.py:245-516.

Orbitals are numbered by `Fin o ⊕ Fin v`: the `o` occupied ones first, then the `v` virtual ones (this is what `block_diag` in lines
376 and 485 assumes).  Numbers are real.  What comes from PySCF (orbitals, overlaps, the localized orbitals of the other
methods) and `np.linalg.svd` are arguments.  An `AssertionError` is a `runtimeError`.  The assertions up to rounding, the printing, the
files and the labels `ao_inds` of the methods other than `svd` are left out. -/

namespace Fanpy.Localize
open Matrix

/-- `np.einsum("ijkl->ikjl", two_int)` — pyscf_tools.py:301 -/
def toChemist {ι : Type} (two : ι → ι → ι → ι → ℝ) : ι → ι → ι → ι → ℝ := fun i k j l => two i j k l

/-- the electronic energy that is printed, from the array in use at this point — pyscf_tools.py:326-333 -/
noncomputable def printedEnergy {o v : ℕ} (one : Matrix (Fin o ⊕ Fin v) (Fin o ⊕ Fin v) ℝ)
    (two : Fin o ⊕ Fin v → Fin o ⊕ Fin v → Fin o ⊕ Fin v → Fin o ⊕ Fin v → ℝ) : ℝ :=
  2 * ∑ i : Fin o, one (.inl i) (.inl i) +
    ∑ i : Fin o, ∑ j : Fin o, (2 * two (.inl i) (.inl j) (.inl i) (.inl j) - two (.inl i) (.inl j) (.inl j) (.inl i))

/-- the transformed one-electron integrals — pyscf_tools.py:507 -/
noncomputable def rotateOne {ι : Type} [Fintype ι] (t : Matrix ι ι ℝ) (one : Matrix ι ι ℝ) : Matrix ι ι ℝ := tᵀ * one * t

/-- the transformed two-electron integrals, one index after the other — pyscf_tools.py:508-511 -/
noncomputable def rotateTwo {ι : Type} [Fintype ι] (t : Matrix ι ι ℝ) (two : ι → ι → ι → ι → ℝ) : ι → ι → ι → ι → ℝ :=
  let t1 := fun a j k l => ∑ i, two i j k l * t i a
  let t2 := fun a b k l => ∑ j, t1 a j k l * t j b
  let t3 := fun a b c l => ∑ k, t2 a b k l * t k c
  fun a b c d => ∑ l, t3 a b c l * t l d

/-- the first element with the largest value: `np.argmax` -/
noncomputable def argmaxBy {α : Type} (f : α → ℝ) : List α → Option α
  | [] => none
  | a :: l => match argmaxBy f l with
    | none => some a
    | some b => if f a < f b then some b else some a

/-- `max(s)` of a list that is not empty -/
noncomputable def maxOf : List ℝ → ℝ
  | [] => 0
  | a :: l => l.foldl max a

/-- what `np.linalg.svd` gives of a matrix: the left factor, the right factor and the singular values -/
structure Svd where
  left : {k m : ℕ} → Matrix (Fin k) (Fin m) ℝ → Matrix (Fin k) (Fin k) ℝ
  right : {k m : ℕ} → Matrix (Fin k) (Fin m) ℝ → Matrix (Fin m) (Fin m) ℝ
  sigma : {k m : ℕ} → Matrix (Fin k) (Fin m) ℝ → List ℝ

/-- The loop of the method `svd` — pyscf_tools.py:415-447, from the moment when `k` orbitals are left.  `cum` is `cum_transform` and `s`
has the overlaps `system_s12` of the remaining orbitals with every system.  The result has the systems and the rows in the
order in which they are found. -/
noncomputable def loop (svd : Svd) {n ns : ℕ} {m : Fin ns → ℕ} : (k : ℕ) → Matrix (Fin k) (Fin n) ℝ →
    ((q : Fin ns) → Matrix (Fin k) (Fin (m q)) ℝ) → Except PyErr (List (Fin ns × (Fin n → ℝ)))
  | 0, _, _ => .ok []
  | k + 1, cum, s =>
    open Classical in
    if ∃ q, ∃ x ∈ svd.sigma (s q), x ≤ 0 then .error .runtimeError
    else if ∃ q, svd.sigma (s q) = [] then .error .valueError
    else match argmaxBy (fun q => maxOf (svd.sigma (s q))) (List.finRange ns) with
      | none => .error .valueError
      | some p =>
        match argmaxBy (fun i => (svd.sigma (s p)).getD i 0) (List.range (svd.sigma (s p)).length) with
        | none => .error .valueError
        | some j =>
          let u : Matrix (Fin (k + 1)) (Fin (k + 1)) ℝ := (svd.left (s p))ᵀ
          let row := u (Fin.ofNat (k + 1) j) ᵥ* cum
          let trunc : Matrix (Fin k) (Fin (k + 1)) ℝ := u.submatrix (Fin.ofNat (k + 1) j).succAbove id
          match loop svd k (trunc * cum) (fun q => trunc * s q) with
          | .error e => .error e
          | .ok rest => .ok ((p, row) :: rest)

/-- the whole loop for the `n` orbitals of one block, sorted by systems — pyscf_tools.py:419-421, 449-455: `np.vstack` of no arrays
raises -/
noncomputable def localizeBlock (svd : Svd) {n ns : ℕ} {m : Fin ns → ℕ} (s : (q : Fin ns) → Matrix (Fin n) (Fin (m q)) ℝ) :
    Except PyErr (List (Fin ns × (Fin n → ℝ))) :=
  match loop svd n (1 : Matrix (Fin n) (Fin n) ℝ) s with
  | .error e => .error e
  | .ok [] => .error .valueError
  | .ok r => .ok ((List.finRange ns).flatMap fun q => r.filter fun e => e.1 = q)

/-- `system_mo_lo_T.T` as a square matrix — pyscf_tools.py:479 -/
noncomputable def columns {n ns : ℕ} (r : List (Fin ns × (Fin n → ℝ))) : Matrix (Fin n) (Fin n) ℝ :=
  fun i a => match r[(a : ℕ)]? with
    | none => 0
    | some e => e.2 i

/-- `result["nelecs"]` — pyscf_tools.py:490-491, 397: `inds` is `indices_occ_lo` -/
def nelecs (nsystems : ℕ) (inds : List ℕ) : List ℕ := (List.range nsystems).map fun i => inds.count i

/-- the result of the method `svd`: the transformation from molecular to localized orbitals, the systems of the localized orbitals and
`nelecs` — pyscf_tools.py:411-491 -/
noncomputable def svdMethod (svd : Svd) {o v ns : ℕ} {m : Fin ns → ℕ} (so : (q : Fin ns) → Matrix (Fin o) (Fin (m q)) ℝ)
    (sv : (q : Fin ns) → Matrix (Fin v) (Fin (m q)) ℝ) :
    Except PyErr (Matrix (Fin o ⊕ Fin v) (Fin o ⊕ Fin v) ℝ × List ℕ × List ℕ) :=
  match localizeBlock svd so with
  | .error e => .error e
  | .ok ro =>
    match localizeBlock svd sv with
    | .error e => .error e
    | .ok rv => .ok (fromBlocks (columns ro) 0 0 (columns rv), ro.map (fun e => (e.1 : ℕ)) ++ rv.map (fun e => (e.1 : ℕ)),
        nelecs ns (ro.map fun e => (e.1 : ℕ)))

/-- `u, _, vh = np.linalg.svd(a); u.dot(vh)` — pyscf_tools.py:361-362, 369-370: the product exists only if the matrix is square -/
noncomputable def closest (svd : Svd) {a b : ℕ} (x : Matrix (Fin a) (Fin b) ℝ) : Except PyErr (Matrix (Fin a) (Fin a) ℝ) :=
  if h : a = b then .ok (svd.left x * (svd.right x).submatrix (Fin.cast h) (Fin.cast h)) else .error .valueError

/-- `np.argsort(weights)[::-1]` — pyscf_tools.py:353.  Simplification: equal weights are sorted as by a stable sort. -/
noncomputable def sortedByWeight {l : ℕ} (w : Fin l → ℝ) : List (Fin l) :=
  open Classical in ((List.finRange l).mergeSort fun i j => decide (w i ≤ w j)).reverse

/-- the other methods: the transformation, the orbitals `indices_occ_lo` and `nelecs` — pyscf_tools.py:349-397.  `olpO` and `olpV` are
the overlaps of the occupied and virtual orbitals with the `l` localized orbitals of PySCF; `nsystems` is `max(system_inds) + 1`. -/
noncomputable def otherMethod (svd : Svd) {o v l : ℕ} (olpO : Matrix (Fin o) (Fin l) ℝ) (olpV : Matrix (Fin v) (Fin l) ℝ)
    (nsystems : ℕ) : Except PyErr (Matrix (Fin o ⊕ Fin v) (Fin o ⊕ Fin v) ℝ × List (Fin l) × List ℕ) :=
  let idx := sortedByWeight fun i => (olpOᵀ * olpO) i i
  match closest svd (olpO.submatrix id (idx.take o).get) with
  | .error e => .error e
  | .ok a =>
    match closest svd (olpV.submatrix id (idx.drop o).get) with
    | .error e => .error e
    | .ok b => .ok (fromBlocks a 0 0 b, idx.take o, nelecs nsystems ((idx.take o).map fun i : Fin l => (i : ℕ)))

end Fanpy.Localize
