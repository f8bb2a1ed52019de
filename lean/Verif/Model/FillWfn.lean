import Verif.Model.Slater
import Mathlib.Data.Finset.Card
import Mathlib.Order.SymmDiff
import Mathlib.Data.Finset.SymmDiff

/-! Model of `FanCI.fill_wavefunction`, fanpy/interface/fanci/legacy.py:849-898, which makes the projection space of a
FanCI calculation.

A wavefunction of pyci is the list of its determinants, in the order in which they were added; a determinant is the set of
the orbitals with spin up and the set of those with spin down (for `genci_wfn` the second one is empty).  pyci itself is not
in the repository: `add_excitations`, `add_seniorities` and `add_all_dets` append the determinants that they ask for and
that are missing, in an order that is an argument of the model (`order`).  Simplification: numbers are natural numbers, as
pyci asks for `nocc_up ≥ nocc_dn`. -/

namespace Fanpy.FillWfn

/-- A determinant: orbitals with spin up, orbitals with spin down. -/
abbrev Det := Finset ℕ × Finset ℕ

/-- the classes that are told apart — legacy.py:851-862; `full` is `fullci_wfn` or `genci_wfn`. -/
inductive Kind
  | doci
  | full
  | other
  deriving DecidableEq, Repr

/-- the argument `fill` — legacy.py:867-887. -/
inductive Fill
  | excitation
  | seniority
  | none
  | other
  deriving DecidableEq, Repr

/-- the sizes of a wavefunction of pyci -/
structure Sizes where
  kind : Kind
  nbasis : ℕ
  noccUp : ℕ
  noccDn : ℕ

/-- `wfn.nvir_up` -/
def Sizes.nvirUp (z : Sizes) : ℕ := z.nbasis - z.noccUp

/-- `wfn.nocc` -/
def Sizes.nocc (z : Sizes) : ℕ := z.noccUp + z.noccDn

/-- `wfn.nvir` -/
def Sizes.nvir (z : Sizes) : ℕ := (z.nbasis - z.noccUp) + (z.nbasis - z.noccDn)

/-- `e_max` — legacy.py:852, 857. -/
def Sizes.eMax (z : Sizes) : ℕ :=
  match z.kind with
  | .doci => min z.noccUp z.nvirUp
  | _ => min z.nocc z.nvir

/-- `range(s_min, s_max + 1, 2)` — legacy.py:853-854, 858-859, 882. -/
def Sizes.seniorities (z : Sizes) : List ℕ :=
  match z.kind with
  | .doci => [0]
  | _ =>
    let sMin := z.noccUp - z.noccDn
    let sMax := min z.noccUp z.nvirUp
    (List.range ((sMax + 2 - sMin) / 2)).map (fun i => sMin + 2 * i)

/-- `connections` — legacy.py:855, 860. -/
def Sizes.connections (z : Sizes) : List ℕ :=
  match z.kind with
  | .doci => [1]
  | _ => [1, 2]

/-- how many electrons (pairs of electrons for `doci_wfn`) are moved from one determinant to the other: what pyci calls the
order of an excitation -/
def Sizes.distance (z : Sizes) (ref d : Det) : ℕ :=
  match z.kind with
  | .doci => (ref.1 \ d.1).card
  | _ => (ref.1 \ d.1).card + (ref.2 \ d.2).card

/-- the Hartree-Fock determinant, from which `add_excitations` excites by default -/
def Sizes.hf (z : Sizes) : Det := (Finset.range z.noccUp, Finset.range z.noccDn)

/-- number of orbitals with one electron -/
def seniority (d : Det) : ℕ := (symmDiff d.1 d.2).card

/-- append the determinants with a property that are missing: `pyci.add_excitations`, `pyci.add_seniorities`,
`wfn.add_all_dets` — legacy.py:874, 879, 885, 896. -/
def add (order : (Det → Bool) → List Det) (p : Det → Bool) (w : List Det) : List Det :=
  w ++ (order p).filter (fun d => decide (d ∉ w))

/-- the loops over orders and seniorities — legacy.py:871-874, 882-885. -/
def fillLoop (nproj : ℕ) (step : ℕ → List Det → List Det) : List ℕ → List Det → List Det
  | [], w => w
  | l :: ls, w => if nproj ≤ w.length then w else fillLoop nproj step ls (step l w)

/-- the determinants before they are counted — legacy.py:867-887. -/
def filled (z : Sizes) (order : (Det → Bool) → List Det) (w : List Det) (nproj : ℕ) : Fill → Except PyErr (List Det)
  | .excitation =>
    .ok (fillLoop nproj (fun n => add order (fun d => decide (z.distance z.hf d = n))) (List.range (z.eMax + 1)) w)
  | .seniority =>
    if z.kind = .doci ∧ w.length < nproj then .ok (add order (fun _ => true) w)
    else .ok (fillLoop nproj (fun n => add order (fun d => decide (seniority d = n))) z.seniorities w)
  | .none => .ok w
  | .other => .error .valueError

/-- `fill_wavefunction(wfn, nproj, fill)` — legacy.py:849-898. -/
def fillWavefunction (z : Sizes) (order : (Det → Bool) → List Det) (w : List Det) (nproj : ℕ) (fill : Fill) :
    Except PyErr (List Det) :=
  if z.kind = .other then .error .typeError
  else do
    let w1 ← filled z order w nproj fill
    if w1.length < nproj then .error .valueError
    else
      let w2 := if nproj < w1.length then w1.take nproj else w1
      return (w2.take nproj).foldl (fun acc ref => add order (fun d => decide (z.distance ref d ∈ z.connections)) acc) w2

end Fanpy.FillWfn
