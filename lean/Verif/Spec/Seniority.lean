import Verif.Spec.Cluster

/-!
# Specification: seniority-raising operators

Spin orbitals `i < K` are the alpha orbitals and `K ≤ i < 2 K` the beta orbitals of `K` spatial orbitals.  The operators are those of the
docstring of `SeniorityCC` (seniority_cc.py:13-27).
-/

namespace Fanpy.Spec
open Finset

/-- the other spin orbital of the same spatial orbital -/
def partner (K i : ℕ) : ℕ := if i < K then i + K else i - K

/-- the determinant `s` has the partner of every orbital of `a` and the partner of no orbital of `c` -/
def Paired (K : ℕ) (a c : List ℕ) (s : Finset ℕ) : Prop := (∀ i ∈ a, partner K i ∈ s) ∧ ∀ i ∈ c, partner K i ∉ s

instance (K : ℕ) (a c : List ℕ) (s : Finset ℕ) : Decidable (Paired K a c s) := by unfold Paired; infer_instance

/-- the product of the number operators of the partners of `a` and of `1 - n` for the partners of `c` -/
noncomputable def pairProj {R : Type*} [CommRing R] (K : ℕ) (a c : List ℕ) : Module.End R (Fock R) :=
  (a.map fun i => (creOp (partner K i) * annOp (partner K i) : Module.End R (Fock R))).prod *
    (c.map fun i => (1 - creOp (partner K i) * annOp (partner K i) : Module.End R (Fock R))).prod

/-- the seniority-raising operator -/
noncomputable def senOp {R : Type*} [CommRing R] (K : ℕ) (a c : List ℕ) : Module.End R (Fock R) := excOp a c * pairProj K a c

end Fanpy.Spec
