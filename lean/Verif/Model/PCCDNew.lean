import Verif.Model.PCCD
import Verif.Model.CCMemo

/-!
# Model of the pair coupled cluster wavefunctions with an option for the single excitations

`fanpy/wfn/cc/pccd_ap1rog_NEW.py` and the classes derived from it (`apg1ro_d_NEW.py`, `apset1rog_d_NEW.py`, `ap1rog_generalized_NEW.py`,
`ap1rog_spin_NEW.py`, `apg1ro_sd_NEW.py`, `apset1rog_sd_NEW.py`), whose operators are those of the classes in `Verif.Model.PCCD`; and the
dictionary `exop_combinations` of all these classes, in which the products that are kept overwrite the ones that were generated.  Left out:
references that are CI wavefunctions; the cache of the overlaps (`Verif.Model.Cache`); the shape of the parameters.
-/

namespace Fanpy.PCCD
open Fanpy.Slater Fanpy.It Fanpy.CC

/-- the option `s_type`; `assign_s_type` accepts everything, and another value acts like `"free"` — pccd_ap1rog_NEW.py:293-316, 370-372, 420,
472 -/
inductive SType where
  | free | senO | senV | senOV
deriving DecidableEq

/-- `assign_s_type(s_type)` for a string — pccd_ap1rog_NEW.py:293-316 -/
def assignSType (s : String) : SType :=
  if s = "sen-o" then .senO else if s = "sen-v" then .senV else if s = "sen-ov" then .senOV else .free

/-- one operator of a product for `"sen-v"`; `none` if the product is skipped — pccd_ap1rog_NEW.py:430-462 -/
def keepOpV (n : ℕ) (occ : List ℕ) (trash exop : List ℕ) : Option (List ℕ) :=
  if exop.length = 2 then
    if exop.getD 1 0 ∈ trash then none
    else if exop.getD 1 0 < n then
      if exop.getD 1 0 + n ∈ occ then none else some ((exop.getD 1 0 + n) :: exop.getD 1 0 :: trash)
    else if exop.getD 1 0 - n ∈ occ then none else some ((exop.getD 1 0 - n) :: exop.getD 1 0 :: trash)
  else trashAll trash (exop.drop (exop.length / 2))

/-- one operator of a product for `"sen-ov"` — pccd_ap1rog_NEW.py:482-532 -/
def keepOpOV (n : ℕ) (occ : List ℕ) (trash exop : List ℕ) : Option (List ℕ) :=
  if exop.length = 2 then
    if exop.headD 0 ∈ trash ∨ exop.getD 1 0 ∈ trash then none
    else do
      let trash ← if exop.headD 0 < n then
          if exop.headD 0 + n ∉ occ then none else some ((exop.headD 0 + n) :: exop.headD 0 :: trash)
        else if exop.headD 0 - n ∉ occ then none else some ((exop.headD 0 - n) :: exop.headD 0 :: trash)
      if exop.getD 1 0 < n then
        if exop.getD 1 0 + n ∈ occ then none else some ((exop.getD 1 0 + n) :: exop.getD 1 0 :: trash)
      else if exop.getD 1 0 - n ∈ occ then none else some ((exop.getD 1 0 - n) :: exop.getD 1 0 :: trash)
  else trashAll trash exop

/-- is the product of these operators kept by `_olp`? — pccd_ap1rog_NEW.py:370-541 -/
def keepRowS (s : SType) (n : ℕ) (occ : List ℕ) (ops : List (List ℕ)) : Bool :=
  match s with
  | .free => true
  | .senO => keepRow n occ ops
  | .senV => (ops.foldlM (keepOpV n occ) []).isSome
  | .senOV => (ops.foldlM (keepOpOV n occ) []).isSome

/-- `indices_multi[exc_order] = indices_sign[selected_rows]` in `_olp` — pccd_ap1rog_NEW.py:370-541 -/
def selectRowsS {R : Type} (s : SType) (w : Wfn R) (occ : List ℕ) (paths : List (List ℕ × ℤ)) : List (List ℕ × ℤ) :=
  paths.filter fun p => keepRowS s w.nspatial occ (p.1.map fun i => w.indExops.getD i [])

/-- `assign_refwfn(refwfn)` for an integer: the occupied orbitals are split after the first `nspatial` of them, not after the first half —
pccd_ap1rog_NEW.py:278-291 -/
def assignRefNew (nelec nspin m : ℕ) : Except PyErr ℕ :=
  if totalOcc (some m) ≠ nelec then .error .valueError
  else if ¬ ((∀ i ∈ (occIndices (some m)).take (nspin / 2), i + nspin / 2 ∈ occIndices (some m)) ∧
      (∀ i ∈ (occIndices (some m)).drop (nspin / 2), nspin / 2 ≤ i ∧ i - nspin / 2 ∈ occIndices (some m))) then .error .valueError
  else .ok m

/-- `Class(nelec, nspin, ranks=ranks, indices=indices, refwfn=refwfn, params=params, exop_combinations=...)` —
pccd_ap1rog_NEW.py:158-168, cc/base.py:178-187; there is no such class derived from `CCSDsen0` -/
def initNew {R : Type} (k : Kind) (nelec nspin : ℕ) (ranksGiven : Bool) (indices : Option (List ℤ × List ℤ)) (refwfn : Option ℕ)
    (params : ℕ → R) (memoGiven : Bool) : Except PyErr (Wfn R) := do
  CI.checkNelec nelec
  if nelec % 2 ≠ 0 then .error .valueError
  else do
    CI.checkNspin nspin
    let ranks ← assignRanks k nelec
    let g ← ground nelec nspin
    if ranksGiven then .error (ranksError k)
    else do
      let exops ← assignExops k nspin g ranks indices
      let ref ← match refwfn with
        | none => .ok g
        | some m => assignRefNew nelec nspin m
      return ⟨⟨ranks, ref, exops, params, !memoGiven⟩, nspin / 2, exops⟩

/-- a wavefunction and its dictionary, see `CC.Memo` -/
structure PMemo (R : Type) where
  w : Wfn R
  dict : List (List ℕ × List (List ℕ × ℤ))
  refresh : ℤ

/-- the products of a key are overwritten — pccd_ap1rog.py:377, 494, pccd_ap1rog_NEW.py:416, 469, 539, 659, 774 -/
def store (dict : List (List ℕ × List (List ℕ × ℤ))) (key : List ℕ) (paths : List (List ℕ × ℤ)) : List (List ℕ × List (List ℕ × ℤ)) :=
  dict.map fun e => if e.1 = key then (e.1, paths) else e

section
variable {R : Type} [CommRing R]

/-- `temp_olp` with a selection and a function of the products — pccd_ap1rog.py:305-393, 412-510, pccd_ap1rog_NEW.py:339-555, 592-672,
694-788, cc/base.py:797-812 -/
def evaluate (s : PMemo R) (sd : ℕ) (same : R) (sel : List (List ℕ × ℤ) → List (List ℕ × ℤ)) (f : List (List ℕ × ℤ) → R) :
    PMemo R × Except PyErr R :=
  if sd = s.w.base.refwfn then (s, .ok same)
  else
    match signExcite (some s.w.base.refwfn) (diffOrbs sd s.w.base.refwfn).2 (diffOrbs sd s.w.base.refwfn).1 with
    | .error e => (s, .error e)
    | .ok sign =>
      match lookupPaths ⟨s.w.base, s.dict, s.refresh⟩ (diffOrbs sd s.w.base.refwfn).2 (diffOrbs sd s.w.base.refwfn).1 with
      | (s', .error e) => ({ s with dict := s'.dict }, .error e)
      | (s', .ok paths) =>
        ({ s with dict := store s'.dict ((diffOrbs sd s.w.base.refwfn).2 ++ (diffOrbs sd s.w.base.refwfn).1) (sel paths) },
          .ok ((sign : R) * f (sel paths)))

/-- what can be done to a wavefunction: overlaps, an entry of the first or second derivative, and `assign_params` -/
inductive PCall (R : Type) where
  | overlap (sd : ℕ)
  | derivative (sd j : ℕ)
  | second (sd a b : ℕ)
  | assignParams (p : ℕ → R)

/-- one call for a class of `Verif.Model.PCCD`: the overlap inspects the determinant, the derivative the reference — pccd_ap1rog.py:327,
434; `_olp_double_derivative` is that of `BaseCC` and selects nothing — cc/base.py:783-820 -/
def call (s : PMemo R) : PCall R → PMemo R × Except PyErr R
  | .overlap sd => evaluate s sd 1 (selectRows s.w (occIndices (some sd))) (amplitudes s.w.base.params)
  | .derivative sd j =>
    evaluate s sd 0 (selectRows s.w (occIndices (some s.w.base.refwfn))) (fun paths => dAmplitudes s.w.base.params paths j)
  | .second sd a b => evaluate s sd 0 id (fun paths => ddAmplitudes s.w.base.params paths a b)
  | .assignParams p => ({ s with w := { s.w with base := { s.w.base with params := p } } }, .ok 0)

/-- one call for a class with `s_type`: the overlap inspects the reference and selects by `s_type`; the derivatives inspect the determinant
and do not look at `s_type` — pccd_ap1rog_NEW.py:366, 616-659, 716-774 -/
def callNew (t : SType) (s : PMemo R) : PCall R → PMemo R × Except PyErr R
  | .overlap sd => evaluate s sd 1 (selectRowsS t s.w (occIndices (some s.w.base.refwfn))) (amplitudes s.w.base.params)
  | .derivative sd j => evaluate s sd 0 (selectRows s.w (occIndices (some sd))) (fun paths => dAmplitudes s.w.base.params paths j)
  | .second sd a b => evaluate s sd 0 (selectRows s.w (occIndices (some sd))) (fun paths => ddAmplitudes s.w.base.params paths a b)
  | .assignParams p => ({ s with w := { s.w with base := { s.w.base with params := p } } }, .ok 0)

/-- a sequence of calls, with the exceptions caught: the values -/
def calls (step : PMemo R → PCall R → PMemo R × Except PyErr R) (s : PMemo R) : List (PCall R) → List (Except PyErr R)
  | [] => []
  | c :: cs => (step s c).2 :: calls step (step s c).1 cs

/-- `_olp(sd)` with an empty dictionary — pccd_ap1rog_NEW.py:318-555 -/
def overlapS (t : SType) (w : Wfn R) (sd : ℕ) : Except PyErr R := (callNew t ⟨w, [], 0⟩ (.overlap sd)).2

/-- entry `j` of `_olp_deriv(sd)` with an empty dictionary — pccd_ap1rog_NEW.py:557-672 -/
def dOverlapS (t : SType) (w : Wfn R) (sd j : ℕ) : Except PyErr R := (callNew t ⟨w, [], 0⟩ (.derivative sd j)).2

/-- entry `(a, b)` of `_olp_double_derivative(sd)` with an empty dictionary — pccd_ap1rog_NEW.py:675-788 -/
def ddOverlapS (t : SType) (w : Wfn R) (sd a b : ℕ) : Except PyErr R := (callNew t ⟨w, [], 0⟩ (.second sd a b)).2

end

end Fanpy.PCCD
