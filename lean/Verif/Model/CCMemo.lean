import Verif.Model.CC

/-!
# Model of the memo of the coupled cluster wavefunctions

The dictionary `exop_combinations` of `fanpy/wfn/cc/base.py`, which `Model/CC.lean` leaves out.  The cache of the overlaps is that of
`Model/Cache.lean` and is left out here.
-/

namespace Fanpy.CC
open Fanpy.Slater Fanpy.It Fanpy.Graphs

/-- a wavefunction and its dictionary, newest entry first; `refresh` is `refresh_exops`, with zero for `None` -/
structure Memo (R : Type) where
  w : Wfn R
  dict : List (List ℕ × List (List ℕ × ℤ))
  refresh : ℤ

/-- the products for given orbitals, looked up or generated — cc/base.py:714-719, 900-902, 1009: the dictionary is emptied when it has
more than `refresh` entries, before one is added; the key is one tuple -/
def lookupPaths {R : Type} (s : Memo R) (aInds cInds : List ℕ) : Memo R × Except PyErr (List (List ℕ × ℤ)) :=
  if !s.w.memo then (s, .error .attributeError)
  else
    match s.dict.lookup (aInds ++ cInds) with
    | some paths => (s, .ok paths)
    | none =>
      let dict := if s.refresh ≠ 0 ∧ (s.dict.length : ℤ) > s.refresh then [] else s.dict
      match possibleExops s.w.ranks s.w.exops aInds cInds with
      | .error e => ({ s with dict }, .error e)
      | .ok paths => ({ s with dict := (aInds ++ cInds, paths) :: dict }, .ok paths)

section
variable {R : Type} [CommRing R]

/-- `temp_olp` with a function of the products — cc/base.py:699-722, 749-773, 797-812 -/
def evaluate (s : Memo R) (sd : ℕ) (same : R) (f : List (List ℕ × ℤ) → R) : Memo R × Except PyErr R :=
  if sd = s.w.refwfn then (s, .ok same)
  else
    match signExcite (some s.w.refwfn) (diffOrbs sd s.w.refwfn).2 (diffOrbs sd s.w.refwfn).1 with
    | .error e => (s, .error e)
    | .ok sign =>
      match lookupPaths s (diffOrbs sd s.w.refwfn).2 (diffOrbs sd s.w.refwfn).1 with
      | (s', .error e) => (s', .error e)
      | (s', .ok paths) => (s', .ok ((sign : R) * f paths))

/-- what can be done to a wavefunction: overlaps, an entry of the first or second derivative, `assign_params`, `assign_refwfn` with a
determinant, and `assign_exops` -/
inductive Call (R : Type) where
  | overlap (sd : ℕ)
  | derivative (sd j : ℕ)
  | second (sd a b : ℕ)
  | assignParams (p : ℕ → R)
  | assignRefwfn (ref : ℕ)
  | assignExops (exops : List (List ℕ))

/-- one call — cc/base.py:676-820 for the overlaps, 449, 384-388, 337, 358; none of the assignments empties the dictionary.  The values
are those of the overlaps, zero for an assignment. -/
def call (nelec : ℕ) (s : Memo R) : Call R → Memo R × Except PyErr R
  | .overlap sd => evaluate s sd 1 (amplitudes s.w.params)
  | .derivative sd j => evaluate s sd 0 (fun paths => dAmplitudes s.w.params paths j)
  | .second sd a b => evaluate s sd 0 (fun paths => ddAmplitudes s.w.params paths a b)
  | .assignParams p => ({ s with w := { s.w with params := p } }, .ok 0)
  | .assignRefwfn ref =>
    if totalOcc (some ref) ≠ nelec then (s, .error .valueError) else ({ s with w := { s.w with refwfn := ref } }, .ok 0)
  | .assignExops exops => ({ s with w := { s.w with exops } }, .ok 0)

/-- a sequence of calls, with the exceptions caught: the wavefunction and the values -/
def calls (nelec : ℕ) (s : Memo R) : List (Call R) → Memo R × List (Except PyErr R)
  | [] => (s, [])
  | c :: cs => ((calls nelec (call nelec s c).1 cs).1, (call nelec s c).2 :: (calls nelec (call nelec s c).1 cs).2)

end

end Fanpy.CC
