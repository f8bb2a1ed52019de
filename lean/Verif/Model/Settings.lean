import Verif.Model.CI
import Mathlib.Data.List.DropRight

/-!
# Settings of wavefunctions

`BaseWavefunction.assign_memory` (fanpy/wfn/base.py) and the settings of `hCI` (fanpy/wfn/ci/hci.py).  Texts are lists of characters; `float(text)` is an argument, since
Python's reading of numbers is not modelled.  Simplifications: `lower` and `strip` for the letters and the white space of
ASCII.
-/

namespace Fanpy.Settings

/-- the argument `memory` -/
inductive MemArg (R : Type)
  | none
  | number (x : R)
  | text (s : List Char)
  | other

/-- `pat in s` -/
def occursIn (pat s : List Char) : Bool := s.tails.any (fun t => pat.isPrefixOf t)

/-- `s.rstrip(chars)` -/
def rstrip (chars s : List Char) : List Char := s.rdropWhile (fun c => decide (c ∈ chars))

/-- `s.lower()` -/
def lower (s : List Char) : List Char := s.map Char.toLower

/-- `assign_memory(memory)` — wfn/base.py:230-246; infinity is `none` -/
def assignMemory {R : Type} [Mul R] [NatCast R] (float : List Char → Option R) : MemArg R → Except PyErr (Option R)
  | .none => .ok Option.none
  | .number x => .ok (some x)
  | .text s =>
    if occursIn ['m', 'b'] (lower s) then
      match float (rstrip ['m', 'b', ' ', '.'] s) with
      | some x => .ok (some (((10 ^ 6 : ℕ) : R) * x))
      | Option.none => .error .valueError
    else if occursIn ['g', 'b'] (lower s) then
      match float (rstrip ['g', 'b', ' ', '.'] s) with
      | some x => .ok (some (((10 ^ 9 : ℕ) : R) * x))
      | Option.none => .error .valueError
    else .error .valueError
  | .other => .error .typeError

/-- the argument `hci_version` -/
inductive VersionArg
  | none
  | text (s : List Char)
  | other

/-- `assign_hci_version` — hci.py:200-206 -/
def assignVersion : VersionArg → Except PyErr CI.Version
  | .none => .ok .new
  | .text s => if s = "old".toList then .ok .old else if s = "new".toList then .ok .new else .error .typeError
  | .other => .error .typeError

/-- white space of ASCII -/
def isWhite (c : Char) : Bool := c = ' ' ∨ c = '\t' ∨ c = '\n' ∨ c = '\r' ∨ c = '\x0b' ∨ c = '\x0c'

/-- `s.strip()` -/
def strip (s : List Char) : List Char := (s.dropWhile isWhite).rdropWhile isWhite

/-- `assign_hci_pattern` — hci.py:233-242; `Option.none` is `None`, everything else is turned into its text by `str` -/
def assignPattern : Option (List Char) → Except PyErr CI.Pattern
  | none => .error .typeError
  | some s =>
    let key := lower (strip s)
    if key = "pos_diag".toList then .ok .posDiag
    else if key = "neg_diag".toList then .ok .negDiag
    else if key = "hch".toList then .ok .hch
    else if key = "vch".toList then .ok .vch
    else .error .typeError

/-- `assign_alphas` — hci.py:322-336 -/
def assignAlphas (p : CI.Pattern) : Except PyErr (ℚ × ℚ) :=
  let (a1, a2) := p.alphas
  if a1 < -1 ∨ a1 > 1 ∨ a2 < -1 ∨ a2 > 1 then .error .valueError else .ok (a1, a2)

/-- the argument `hierarchy` -/
inductive HierarchyArg
  | none
  | number (h : ℚ)
  | other

/-- `assign_hierarchy` — hci.py:266-270 -/
def assignHierarchy : HierarchyArg → Except PyErr (Option ℚ)
  | .none => .ok Option.none
  | .number h => .ok (some h)
  | .other => .error .typeError

/-- The possible hierarchies and the pairs of excitation and seniority — hci.py:300-315, 402-415: `None` cannot be added to a
number (`TypeError`; for the old version only when the pairs are computed, after the checks of the sizes). -/
def withHierarchy {α : Type} (nelec nspin : ℕ) (v : CI.Version) (h : Option ℚ) (rest : ℚ → Except PyErr α) :
    Except PyErr α :=
  match h, v with
  | some h, _ => rest h
  | none, .new => .error .typeError
  | none, .old => do
    CI.checkNelec nelec
    CI.checkNspin nspin
    .error .typeError

/-- the argument `refwfn` of `hCI` -/
inductive RefArg
  | none
  | sd (n : ℕ)
  | ci (nelec nspin : ℕ)
  | other

/-- the reference that is stored -/
inductive Ref
  | sd (n : ℕ)
  | ci
deriving DecidableEq

/-- `assign_refwfn` — hci.py:359-375 -/
def assignRefwfn (nelec nspin : ℕ) : RefArg → Except PyErr Ref
  | .none => do return .sd (← Slater.ground nelec nspin)
  | .sd n => if Slater.totalOcc (some n) ≠ nelec then .error .valueError else .ok (.sd n)
  | .ci ne ns => if ne ≠ nelec then .error .valueError else if ns ≠ nspin then .error .valueError else .ok .ci
  | .other => .error .typeError

/-- `hCI(nelec, nspin, hci_pattern, hierarchy, hci_version, sds, refwfn=refwfn)` — hci.py:164-171.  `sds` says whether
determinants were given.  The constructor of the base class runs `assign_sds` as well (with `None`); so the determinants are
made before the given ones are refused. -/
def hciNew {R : Type} [Zero R] [One R] (nelec nspin : ℕ) (pattern : Option (List Char)) (hierarchy : HierarchyArg)
    (version : VersionArg) (sds : Bool) (ref : RefArg) : Except PyErr (CI.Wfn R × (ℚ × ℚ) × Ref) := do
  let v ← assignVersion version
  let p ← assignPattern pattern
  let a ← assignAlphas p
  let h ← assignHierarchy hierarchy
  withHierarchy nelec nspin v h fun h => do
    let w ← CI.hciInit nelec nspin p h v
    if sds then .error .valueError
    else do
      let r ← assignRefwfn nelec nspin ref
      return (w, a, r)

end Fanpy.Settings
