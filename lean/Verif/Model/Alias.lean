import Mathlib.Algebra.Order.Floor.Defs
import Mathlib.Algebra.Order.Field.Basic
import Mathlib.Data.List.Sort
import Verif.Model.Slater

/-!
# Model of the alias sampler (`fanpy/interface/fanci/alias.py`)

Floating point numbers are exact elements of an ordered field.  Arrays of length `n` are functions
of the index, read only below `n`.  An entry of `np.empty` that was never written is `none`.
The random numbers `np.random.rand()` are inputs.
-/

namespace Fanpy
namespace Alias

variable {K : Type} [Field K] [LinearOrder K]

/-- The tables of an `Alias` object: `n`, `cvec` and `ivec`
(`fanpy/interface/fanci/alias.py:30-35`). -/
structure Table (K : Type) where
  n : Nat
  cvec : Nat → K
  ivec : Nat → Option Nat

/-- The stacks `lesser` and `greater` (`fanpy/interface/fanci/alias.py:38-40`): the index is
appended to `greater` if its entry is above one and to `lesser` otherwise.  A Python list used as
a stack is a Lean list whose head is the end of the Python list. -/
def sortInto (c : Nat → K) : List Nat → List Nat × List Nat → List Nat × List Nat
  | [], st => st
  | i :: is, (lesser, greater) =>
    if 1 < c i then sortInto c is (lesser, i :: greater)
    else sortInto c is (i :: lesser, greater)

/-- The loop that populates the index table (`fanpy/interface/fanci/alias.py:43-48`).  The two
`pop` calls remove the heads, the final `append` pushes `g` on one of the stacks. -/
def populate (c : Nat → K) (iv : Nat → Option Nat) :
    (lesser greater : List Nat) → (Nat → K) × (Nat → Option Nat)
  | l :: ls, g :: gs =>
    let iv' := Function.update iv l (some g)
    let c' := Function.update c g (c g + c l - 1)
    if 1 < c' g then populate c' iv' ls (g :: gs) else populate c' iv' (g :: ls) gs
  | [], _ => (c, iv)
  | _, [] => (c, iv)
termination_by lesser greater => lesser.length + greater.length

/-- `Alias.__init__` (`fanpy/interface/fanci/alias.py:18-48`).  A vector whose sum is zero makes
numpy divide by zero and fill the table with `nan`; the field division of the model does not
describe that case. -/
def init (pvec : List K) : Table K :=
  let n := pvec.length
  let c : Nat → K := fun i => pvec.getD i 0 * ((n : K) / pvec.sum)
  let st := sortInto c (List.range n) ([], [])
  let r := populate c (fun _ => none) st.1 st.2
  ⟨n, r.1, r.2⟩

/-- The array that the caller passed, after `Alias.__init__` returned
(`fanpy/interface/fanci/alias.py:33-34, 47`): `np.asarray(pvec, dtype=float)` does not copy an
array of floats, so that the object and the caller share one array and every in-place update is
visible to the caller.  An array of another type (`isFloat = false`) is copied. -/
def callerArray (isFloat : Bool) (pvec : List K) : List K :=
  if isFloat then (List.range pvec.length).map (init pvec).cvec else pvec

variable [FloorRing K]

/-- One draw (`fanpy/interface/fanci/alias.py:68-69`) from the two random numbers `u` and `v`.
`none` stands for the content of uninitialised memory. -/
def draw (t : Table K) (u v : K) : Option Nat :=
  let i := ⌊u * (t.n : K)⌋.toNat
  if t.cvec i < v then t.ivec i else some i

/-- The loop of `Alias.__call__` (`fanpy/interface/fanci/alias.py:66-71`): draw until the set has
`m` elements and return it sorted.  The random numbers are taken from a list; `none` means that
the loop is still running when the list is exhausted, or that a draw read uninitialised memory. -/
def call (t : Table K) (m : Nat) : List (K × K) → List Nat → Option (List Nat)
  | [], out => if out.length < m then none else some (out.mergeSort (· ≤ ·))
  | (u, v) :: rest, out =>
    if out.length < m then
      match draw t u v with
      | none => none
      | some x => call t m rest (if x ∈ out then out else x :: out)
    else some (out.mergeSort (· ≤ ·))

end Alias
end Fanpy
