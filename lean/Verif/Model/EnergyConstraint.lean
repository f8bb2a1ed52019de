import Mathlib.Analysis.SpecialFunctions.Pow.Real
import Verif.Model.Slater

/-!
# Model of the energy constraint

`fanpy/eqn/constraints/energy.py`.  The energy (`EnergyOneSideProjection.objective`) is an input of every call.  Real numbers; the
`nan` and `inf` that `numpy` gives for bases that are not positive or 1 make all comparisons false, so nothing is adjusted;
simplified: `min_diff` is positive.
-/

namespace Fanpy.EnergyConstraint

/-- the attributes — energy.py:78-83; the history is a `deque`, its left end is the head of the list -/
structure State where
  ref : ℝ
  history : List ℝ
  queueSize : ℤ
  base : ℝ
  minDiff : ℝ
  simple : Bool

/-- append and, if there are too many, popleft — energy.py:108-110 -/
def push (queueSize : ℤ) (h : List ℝ) (d : ℝ) : List ℝ :=
  if ((h ++ [d]).length : ℤ) > queueSize then (h ++ [d]).tail else h ++ [d]

/-- `np.log(x) / np.log(self.base)` — energy.py:121 -/
noncomputable def order (s : State) (x : ℝ) : ℝ := Real.log x / Real.log s.base

open Classical in
/-- the adjustment if the energy did not change significantly — energy.py:121-141; `h` is the new history, `d` the difference.  An
empty history is an `IndexError` of `energy_diff_order[0]`. -/
noncomputable def adjust (s : State) (energy d : ℝ) (h : List ℝ) : State × Except PyErr ℝ :=
  match h with
  | [] => ({ s with history := h }, .error .indexError)
  | d0 :: _ =>
    if s.base ≤ 0 ∨ s.base = 1 then ({ s with history := h }, .ok d)
    else if order s d0 < order s s.minDiff then ({ s with history := h }, .ok d)
    else if ∀ x ∈ h, order s d0 - 1 < order s x ∧ order s x < order s d0 + 1 then
      ({ s with ref := energy - s.base ^ (order s d0 - 1), history := [] }, .ok d)
    else ({ s with history := h }, .ok d)

open Classical in
/-- `EnergyConstraint.objective(params)` when the energy is `energy` — energy.py:103-141 -/
noncomputable def objective (s : State) (energy : ℝ) : State × Except PyErr ℝ :=
  let d := energy - s.ref
  if s.simple then (s, .ok d)
  else
    let h := push s.queueSize s.history d
    if d ≤ 0 then ({ s with history := h, ref := s.ref + s.base * d }, .ok d)
    else if (h.length : ℤ) ≠ s.queueSize ∨ ∃ i ∈ h, i ≤ 0 then ({ s with history := h }, .ok d)
    else adjust s energy d h

end Fanpy.EnergyConstraint
