import Mathlib.Data.Finset.Powerset
import Mathlib.Data.Nat.Factorial.Basic
import Mathlib.Algebra.Module.LinearMap.End
import Verif.Spec.Fock

/-!
# Specification: excitation operators and the exponential of a cluster operator
-/

namespace Fanpy.Spec
open Finset

/-- `a†_{c_r} ⋯ a†_{c_1} a_{a_r} ⋯ a_{a_1}` -/
noncomputable def excOp {R : Type*} [CommRing R] (annhs creas : List ℕ) : Module.End R (Fock R) :=
  (creas.reverse.map creOp).prod * (annhs.reverse.map annOp).prod

/-- the sum of the excitation operators from `U` to `V` of the given ranks, with amplitudes `t` -/
noncomputable def clusterOp {R : Type*} [CommRing R] (ranks : Finset ℕ) (U V : Finset ℕ) (t : Finset ℕ → Finset ℕ → R) :
    Module.End R (Fock R) :=
  ∑ r ∈ ranks, ∑ A ∈ U.powersetCard r, ∑ C ∈ V.powersetCard r, t A C • excOp (A.sort (· ≤ ·)) (C.sort (· ≤ ·))

/-- the exponential series up to the power `N` -/
noncomputable def expSeries {R : Type*} [Field R] (T : Module.End R (Fock R)) (N : ℕ) : Module.End R (Fock R) :=
  ∑ k ∈ range (N + 1), ((k.factorial : R)⁻¹) • T ^ k

end Fanpy.Spec
