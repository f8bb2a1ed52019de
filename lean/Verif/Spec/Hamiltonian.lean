import Verif.Spec.Fock
import Verif.Spec.Occ
import Mathlib.Algebra.Field.Basic

/-!
# Specification: the molecular Hamiltonian in second quantisation

`H = ∑ h_ij a†_i a_j + 1/2 ∑ g_ijkl a†_i a†_j a_l a_k` over the orbitals `0, …, n-1` (physicists' notation for `g`).
-/

namespace Fanpy.Spec
open Finset

variable {R : Type*} [CommRing R]

/-- `⟨s| a†_i a_j |t⟩` -/
noncomputable def oneME (R : Type*) [CommRing R] (s t : Finset ℕ) (i j : ℕ) : R :=
  inner (ket s) (creOp i (annOp j (ket t)))

/-- `⟨s| a†_i a†_j a_l a_k |t⟩` -/
noncomputable def twoME (R : Type*) [CommRing R] (s t : Finset ℕ) (i j k l : ℕ) : R :=
  inner (ket s) (creOp i (creOp j (annOp l (annOp k (ket t)))))

/-- `⟨s| ∑ h_ij a†_i a_j |t⟩` -/
noncomputable def oneBody (n : ℕ) (h : ℕ → ℕ → R) (s t : Finset ℕ) : R :=
  ∑ i ∈ range n, ∑ j ∈ range n, h i j * oneME R s t i j

/-- `⟨s| ∑ g_ijkl a†_i a†_j a_l a_k |t⟩` (without the factor one half) -/
noncomputable def twoBody (n : ℕ) (g : ℕ → ℕ → ℕ → ℕ → R) (s t : Finset ℕ) : R :=
  ∑ i ∈ range n, ∑ j ∈ range n, ∑ k ∈ range n, ∑ l ∈ range n, g i j k l * twoME R s t i j k l

/-- `⟨s| H |t⟩` -/
noncomputable def hamME {F : Type*} [Field F] (n : ℕ) (h : ℕ → ℕ → F) (g : ℕ → ℕ → ℕ → ℕ → F) (s t : Finset ℕ) : F :=
  oneBody n h s t + 1 / 2 * twoBody n g s t

/-- Spin-orbital one-electron integrals from an alpha and a beta block: spin orbital `i < n` is the spatial orbital `i`
with spin alpha, `i ≥ n` is `i - n` with spin beta; the spins of both indices have to agree. -/
def blockOne (n : ℕ) (hA hB : ℕ → ℕ → R) (i j : ℕ) : R :=
  if i < n then (if j < n then hA i j else 0) else (if j < n then 0 else hB (i - n) (j - n))

/-- Spin-orbital two-electron integrals `⟨ij|kl⟩` from the alpha-alpha, alpha-beta and beta-beta blocks: the spins of
electron one (`i`, `k`) and of electron two (`j`, `l`) have to agree; the beta-alpha block follows from the alpha-beta
block by renaming the electrons. -/
def blockTwo (n : ℕ) (gAA gAB gBB : ℕ → ℕ → ℕ → ℕ → R) (i j k l : ℕ) : R :=
  if (i < n ↔ k < n) ∧ (j < n ↔ l < n) then
    if i < n then (if j < n then gAA i j k l else gAB i (j - n) k (l - n))
    else (if j < n then gAB j (i - n) l (k - n) else gBB (i - n) (j - n) (k - n) (l - n))
  else 0

end Fanpy.Spec
