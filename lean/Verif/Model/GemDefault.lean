import Verif.Model.GemCopy

/-!
# Default parameters of geminal wavefunctions

`assign_params()` of `fanpy/wfn/geminal/base.py` and `ap1rog.py`; see `Verif.Model.Geminal`.
-/

namespace Fanpy.Geminal

open Fanpy

variable {R : Type} [Field R]

/-- one step of the loop — base.py:302-304 -/
def defaultStep (w : Wfn R) (acc : ℕ → ℕ → R) (i : ℕ) : Except PyErr (ℕ → ℕ → R) :=
  match w.colInd (i, i + w.nspin / 2) with
  | .error e => .error e
  | .ok c => .ok fun g c' => if g = i ∧ c' = c then acc g c' + 1 else acc g c'

/-- the default parameters — base.py:300-304 -/
def defaultParams (w : Wfn R) : Except PyErr (ℕ → ℕ → R) := (List.range w.ngem).foldlM (defaultStep w) fun _ _ => 0

/-- `assign_params()` — base.py:300-329, ap1rog.py:170-174 -/
def Other.assignDefault : Other R → Except PyErr (Other R)
  | .gem w => (defaultParams w).map fun p => .gem { w with params := p }
  | .ap1rog w => .ok (.ap1rog { w with params := fun _ _ => 0 })

end Fanpy.Geminal
