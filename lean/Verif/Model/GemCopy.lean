import Verif.Model.AP1roG

/-!
# Parameters of a geminal wavefunction from another one

`assign_params(other)` of `fanpy/wfn/geminal/base.py` and `ap1rog.py`, and `dict_orbpair_ind` and `dict_ind_orbpair` of the classes.  See
`Verif.Model.Geminal` for what is left out; wavefunctions of rank two (`rank2_approx.py`) have another `assign_params`.
-/

namespace Fanpy.Geminal

open Fanpy

variable {R : Type} [Field R]

/-- the keys and values of `dict_orbpair_ind` and `dict_ind_orbpair` -/
inductive Key
  | pair (p : ℕ × ℕ)
  | int (k : ℕ)
deriving DecidableEq

/-- all pairs — apg.py:110 -/
def apgPairs (nspin : ℕ) : List (ℕ × ℕ) :=
  (List.range nspin).flatMap fun i => (List.range' (i + 1) (nspin - (i + 1))).map fun j => (i, j)

/-- the pairs of two sets — apsetg.py:110 -/
def apsetgPairs (nspin : ℕ) : List (ℕ × ℕ) :=
  (List.range (nspin / 2)).flatMap fun i => (List.range' (nspin / 2) (nspin - nspin / 2)).map fun j => (i, j)

/-- a geminal wavefunction -/
inductive Other (R : Type)
  | gem (w : Wfn R)
  | ap1rog (w : AP1roG R)

/-- `nelec` -/
def Other.nelec : Other R → ℕ
  | .gem w => w.nelec
  | .ap1rog w => w.nelec

/-- `nspin` -/
def Other.nspin : Other R → ℕ
  | .gem w => w.nspin
  | .ap1rog w => w.nspin

/-- `ngem` -/
def Other.ngem : Other R → ℕ
  | .gem w => w.ngem
  | .ap1rog w => w.ngem

/-- `params` -/
def Other.params : Other R → ℕ → ℕ → R
  | .gem w => w.params
  | .ap1rog w => w.params

/-- the number of columns of `params` — base.py:174 -/
def Other.norbpair : Other R → ℕ
  | .gem w => w.norbpair
  | .ap1rog w => w.virPairs.length

/-- `dict_ind_orbpair.items()` — apg.py:111-112, base.py:280, ap1rog.py:285-287; in apsetg.py:112-113 the comprehensions are written the other
way round -/
def Other.items : Other R → List (Key × Key)
  | .gem w =>
    match w.kind with
    | .apg => (apgPairs w.nspin).zipIdx.map fun e => (.int e.2, .pair e.1)
    | .apsetg => (apsetgPairs w.nspin).zipIdx.map fun e => (.pair e.1, .int e.2)
    | .apig pairs => pairs.zipIdx.map fun e => (.int e.2, .pair e.1)
  | .ap1rog w => w.virPairs.zipIdx.map fun e => (.int e.2, .pair e.1)

/-- `list(dict_orbpair_ind.keys())` — analysis/printer/geminal.py:30, 129, analysis/dataframe/geminal.py:25, 116 -/
def Other.pairKeys (w : Other R) : List Key := w.items.map fun e => e.2

/-- `get_col_ind(orbpair)` of the classes for a key: a number is not a tuple (`TypeError`, apg.py:138-143), cannot be unpacked (`TypeError`,
apsetg.py:135) and is not a key of the dictionary (`ValueError`, base.py:351-354) -/
def Other.keyColInd : Other R → Key → Except PyErr ℕ
  | .gem w, .pair p => w.colInd p
  | .gem w, .int _ =>
    match w.kind with
    | .apg => .error .typeError
    | .apsetg => .error .typeError
    | .apig _ => .error .valueError
  | .ap1rog w, .pair p => dictColInd w.virPairs p
  | .ap1rog _, .int _ => .error .valueError

/-- `other.params[:, ind]` — base.py:318: a column, or two columns for a tuple -/
def Other.column (o : Other R) : Key → Except PyErr (Option (ℕ → R))
  | .int k => if k < o.norbpair then .ok (some fun g => o.params g k) else .error .indexError
  | .pair p => if p.1 < o.norbpair ∧ p.2 < o.norbpair then .ok none else .error .indexError

/-- one step of the loop — base.py:316-324: the right side is evaluated first; two columns do not fit into one (`ValueError`) -/
def copyStep (w o : Other R) (acc : ℕ → ℕ → R) (item : Key × Key) : Except PyErr (ℕ → ℕ → R) :=
  match o.column item.1 with
  | .error e => .error e
  | .ok v =>
    match w.keyColInd item.2, v with
    | .ok c, some v => .ok fun g c' => if c' = c then v g else acc g c'
    | .ok _, none => .ok acc
    | .error .valueError, _ => .ok acc
    | .error e, _ => .error e

/-- the parameters that `assign_params(other)` assigns — base.py:306-324 -/
def copyParams (w o : Other R) : Except PyErr (ℕ → ℕ → R) :=
  if w.nelec ≠ o.nelec then .error .valueError
  else if w.nspin ≠ o.nspin then .error .valueError
  else if w.ngem ≠ o.ngem then .error .valueError
  else o.items.foldlM (copyStep w o) fun _ _ => 0

/-- the wavefunction with other parameters — base.py:328 -/
def Other.setParams (w : Other R) (p : ℕ → ℕ → R) : Other R :=
  match w with
  | .gem w => .gem { w with params := p }
  | .ap1rog w => .ap1rog { w with params := p }

/-- `assign_params(params=other)` — base.py:306-329, ap1rog.py:170-174 -/
def Other.assignFrom (w o : Other R) : Except PyErr (Other R) := (copyParams w o).map w.setParams

/-- `" ".join(map(str, pair))` of a key in `DataFrameGeminal` (analysis/dataframe/geminal.py:42, 126) and `for idx in orb_pair` in the
printers (analysis/printer/geminal.py:60, 81, 147-148, 198-199): a number is not iterable -/
def iterKey : Key → Except PyErr (List ℕ)
  | .pair p => .ok [p.1, p.2]
  | .int _ => .error .typeError

end Fanpy.Geminal
