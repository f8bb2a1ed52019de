import Mathlib.Algebra.Ring.Defs

/-!
# First-order change of the integrals under an orbital rotation

The generator of the rotation of the orbitals `x` and `y` sends orbital `y` to `x` and orbital `x` to minus `y`; the first
order change of an array is the sum over its axes.
-/

namespace Fanpy.Spec

variable {R : Type} [CommRing R]

/-- the generator applied to one axis -/
def dAxis (x y : ℕ) (f : ℕ → R) (i : ℕ) : R := if i = x then -f y else if i = y then f x else 0

/-- first-order change of the one-electron integrals -/
def dOne (x y : ℕ) (h : ℕ → ℕ → R) (i j : ℕ) : R := dAxis x y (fun i => h i j) i + dAxis x y (fun j => h i j) j

/-- first-order change of the two-electron integrals if the first electron's axes are rotated -/
def dTwo13 (x y : ℕ) (g : ℕ → ℕ → ℕ → ℕ → R) (i j k l : ℕ) : R :=
  dAxis x y (fun i => g i j k l) i + dAxis x y (fun k => g i j k l) k

/-- first-order change of the two-electron integrals if the second electron's axes are rotated -/
def dTwo24 (x y : ℕ) (g : ℕ → ℕ → ℕ → ℕ → R) (i j k l : ℕ) : R :=
  dAxis x y (fun j => g i j k l) j + dAxis x y (fun l => g i j k l) l

/-- first-order change of the two-electron integrals -/
def dTwo (x y : ℕ) (g : ℕ → ℕ → ℕ → ℕ → R) (i j k l : ℕ) : R := dTwo13 x y g i j k l + dTwo24 x y g i j k l

end Fanpy.Spec
