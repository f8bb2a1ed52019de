import Verif.Model.IntHeap

/-!
# Specification: integrals as values

What the methods of a chemical Hamiltonian do if every Hamiltonian owns its integrals, and what the caller's own writes do
to the caller's arrays.
-/

namespace Fanpy.IntHeap
open Fanpy.Ham

variable {R : Type} [CommRing R]

/-- One event on the values of a generalized or restricted Hamiltonian; the writes of the caller do nothing. -/
def genValue (um : List R → Except PyErr (ℕ × (ℕ → ℕ → R))) (S : GenState R) : Event R → Except PyErr (GenState R)
  | .jacobi p q c s => (S.ham.rotateJacobi p q c s).map fun H => { S with ham := H }
  | .matrix rows _ cols u _ => (S.ham.rotateMatrix rows cols u).map fun H => { S with ham := H }
  | .params p => S.assignParams um p
  | .setRef => .ok { S with refNorb := S.ham.norb, refOne := S.ham.one, refTwo := S.ham.two }
  | .cache => .ok { S with ham := S.ham.cacheTwoInts }
  | .writeOne _ _ => .ok S
  | .writeTwo _ _ => .ok S

/-- One event on the values of an unrestricted Hamiltonian. -/
def unrValue (um : List R → Except PyErr (ℕ × (ℕ → ℕ → R))) (S : UnrState R) : Event R → Except PyErr (UnrState R)
  | .jacobi p q c s => (S.ham.rotateJacobi p q c s).map fun H => { S with ham := H }
  | .matrix rowsA rowsB cols u v => (S.ham.rotateMatrix rowsA rowsB cols u v).map fun H => { S with ham := H }
  | .params p => S.assignParams um p
  | .setRef => .ok { S with ref := S.ham.cacheTwoInts }
  | .cache => .ok { S with ham := S.ham.cacheTwoInts }
  | .writeOne _ _ => .ok S
  | .writeTwo _ _ => .ok S

/-- The caller's matrix at the place `a` after one event, if it was `h` before. -/
def ownOne (a : ℕ) (h : ℕ → ℕ → R) : Event R → ℕ → ℕ → R
  | .writeOne b h' => if a = b then h' else h
  | _ => h

/-- The caller's tensor at the place `a` after one event, if it was `g` before. -/
def ownTwo (a : ℕ) (g : ℕ → ℕ → ℕ → ℕ → R) : Event R → ℕ → ℕ → ℕ → ℕ → R
  | .writeTwo b g' => if a = b then g' else g
  | _ => g

/-- The caller writes only into arrays that exist before the Hamiltonian is made. -/
def Event.Own (n k : ℕ) : Event R → Prop
  | .writeOne a _ => a < n
  | .writeTwo a _ => a < k
  | _ => True

end Fanpy.IntHeap
