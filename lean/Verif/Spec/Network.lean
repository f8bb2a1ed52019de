import Mathlib.Algebra.BigOperators.Group.Finset.Basic
import Mathlib.Algebra.Ring.Defs

/-! # Specification of a feed-forward network on occupations -/

namespace Fanpy.Spec

variable {R : Type} [CommSemiring R]

/-- `∑ g(((i₀ n + i₁) n + …) n + i_m)` over all tuples of `m + 1` elements of `s` -/
def tupleSum (n : ℕ) (s : Finset ℕ) : ℕ → (ℕ → R) → R
  | 0, g => ∑ i ∈ s, g i
  | m + 1, g => tupleSum n s m fun q => ∑ i ∈ s, g (q * n + i)

/-- the layers `x ↦ act (W x)` one after another -/
def network (act : R → R) (b : ℕ) (Ws : List (ℕ → ℕ → R)) (x : ℕ → R) : ℕ → R :=
  Ws.foldl (fun x W i => act (∑ j ∈ Finset.range b, W i j * x j)) x

end Fanpy.Spec
