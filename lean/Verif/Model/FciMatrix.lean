import Verif.Model.Hamiltonian
import Mathlib.Algebra.Field.Defs

/-!
# Model of `fci_cimatrix`

The Hamiltonian matrix of all Slater determinants with given numbers of alpha and beta electrons, built with the functions of PySCF
(interface/pyscf_tools.py:88-207), and the integrals that the class `PYSCF` makes for it (interface/pyscf.py).  PySCF is not part of the repository: its transformation of integrals (`ao2mo`), its numbering of strings (`cistring`), its diagonal
(`FCImake_hdiag_uhf`) and `hermi_triu` are modelled by what they are documented to do, its off-diagonal elements (`FCIpspace_h0tril`) are a
parameter.
-/

namespace Fanpy.Pyscf

open Fanpy.Slater

/-- the attribute `nelec`: an integer, a tuple or list of two integers, or anything else -/
inductive NElec
  | int (n : ℕ)
  | pair (a b : ℕ)
  | other

/-- the attributes of `hf_data` that are read; `isPyscf` is `type(hf_data) is PYSCF` -/
structure HFData (R : Type) where
  isPyscf : Bool
  norb : ℕ
  one : ℕ → ℕ → R
  two : ℕ → ℕ → ℕ → ℕ → R
  nelec : NElec

/-- `neleca`, `nelecb` — pyscf_tools.py:124-132 -/
def electrons : NElec → Except PyErr (ℕ × ℕ)
  | .int n => .ok (n - n / 2, n / 2)
  | .pair a b => .ok (a, b)
  | .other => .error .valueError

/-- the strings of `nelec` electrons in `norb` orbitals in the order of their addresses (`cistring.addr2str`, `_gen_occslst`): increasing -/
def strings (norb nelec : ℕ) : List ℕ := (List.range (2 ^ norb)).filter fun s => decide (totalOcc (some s) = nelec)

/-- `np.einsum("ijkl->ikjl", eri)` — pyscf_tools.py:118 -/
def chemist {R : Type} (two : ℕ → ℕ → ℕ → ℕ → R) : ℕ → ℕ → ℕ → ℕ → R := fun i k j l => two i j k l

variable {R : Type} [Field R]

/-- the attributes of an SCF object that `PYSCF` reads: `nao` basis functions, `nmo` columns of `mo_coeff`, `get_hcore()`, the integrals
`(pq|rs)` of the basis functions and the number of electrons of the molecule -/
structure Scf (R : Type) where
  nao : ℕ
  nmo : ℕ
  coeff : ℕ → ℕ → R
  hcore : ℕ → ℕ → R
  eri : ℕ → ℕ → ℕ → ℕ → R
  nelectron : ℕ

/-- `np.einsum("ji,jk,kl->il", mo_coeff, one_int_ao, mo_coeff)` — interface/pyscf.py:64-70 -/
def oneInt (m : Scf R) (i l : ℕ) : R :=
  ((List.range m.nao).map fun j => ((List.range m.nao).map fun k => m.coeff j i * m.hcore j k * m.coeff k l).sum).sum

/-- `ao2mo.general(eri, (C, C, C, C), compact=False)`: the integrals `(ij|kl)` of the molecular orbitals — interface/pyscf.py:82-86 -/
def moEri (m : Scf R) (i j k l : ℕ) : R :=
  ((List.range m.nao).map fun p => ((List.range m.nao).map fun q => ((List.range m.nao).map fun r => ((List.range m.nao).map fun s =>
    m.coeff p i * m.coeff q j * m.coeff r k * m.coeff s l * m.eri p q r s).sum).sum).sum).sum

/-- `PYSCF(mf)`: `two_int` is reshaped and transposed by `(0, 2, 1, 3)` — interface/pyscf.py:33-89 -/
def pyscf (m : Scf R) : HFData R :=
  ⟨true, m.nmo, oneInt m, fun i j k l => moEri m i k j l, .int m.nelectron⟩

/-- one entry of `FCImake_hdiag_uhf` for the occupied orbitals of the alpha and the beta string; the integrals of both spins are the same
— pyscf_tools.py:148-169 -/
def hdiagEntry (h1 : ℕ → ℕ → R) (jdiag kdiag : ℕ → ℕ → R) (oa ob : List ℕ) : R :=
  ((oa.map fun j => h1 j j).sum + (ob.map fun j => h1 j j).sum) +
    ((oa.map fun j => (oa.map fun k => jdiag j k - kdiag j k).sum + (ob.map fun k => jdiag j k * 2).sum).sum +
      (ob.map fun j => (ob.map fun k => jdiag j k - kdiag j k).sum).sum) / 2

/-- the arguments of `FCIpspace_h0tril`: `h1e`, `eri` in the notation of chemists, `stra`, `strb` and `norb`; its result are the entries
`(i, j)` with `j < i` -/
abbrev H0tril (R : Type) := (ℕ → ℕ → R) → (ℕ → ℕ → ℕ → ℕ → R) → List ℕ → List ℕ → ℕ → ℕ → ℕ → R

/-- `fci_cimatrix(hf_data)`: the matrix and the determinants — pyscf_tools.py:111-207 -/
def fciMatrix (h0tril : H0tril R) (hf : HFData R) : Except PyErr (List (List R) × List ℕ) :=
  if !hf.isPyscf then .error .typeError
  else do
    let eri := chemist hf.two
    let (neleca, nelecb) ← electrons hf.nelec
    let occa := (strings hf.norb neleca).map fun s => occIndices (some s)
    let occb := (strings hf.norb nelecb).map fun s => occIndices (some s)
    let na := occa.length
    let nb := occb.length
    let num := na * nb
    let jdiag := fun i j => eri i i j j
    let kdiag := fun i j => eri i j j i
    let hdiag := (List.range num).map fun i => hdiagEntry hf.one jdiag kdiag (occa.getD (i / nb) []) (occb.getD (i % nb) [])
    let addr := List.range num
    let stra := addr.map fun i => (strings hf.norb neleca).getD (i / nb) 0
    let strb := addr.map fun i => (strings hf.norb nelecb).getD (i % nb) 0
    let tril := h0tril hf.one eri stra strb hf.norb
    let matrix := addr.map fun i => addr.map fun j =>
      if i = j then hdiag.getD i 0 else if j < i then tril i j else tril j i
    let pspace := addr.map fun i =>
      (strings hf.norb neleca).getD (i / nb) 0 ||| ((strings hf.norb nelecb).getD (i % nb) 0 <<< hf.norb)
    return (matrix, pspace)

end Fanpy.Pyscf
