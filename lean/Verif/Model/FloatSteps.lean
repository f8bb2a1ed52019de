import Mathlib.Data.Real.Basic
import Verif.Model.FANPT

/-! The steps of `FANPT.optimize` (fanpy/fanpt/fanpt.py:284-302) in floating point arithmetic. -/

namespace Fanpy.FANPT

/-- the values of `l` and `final_l` of the loop with the rounding `fl` after every operation — fanpt.py:286 and 300.
`np.linspace(start, stop, num, endpoint=False)` is `arange(num) * ((stop - start) / num) + start`.  (`schedule` is the same with
exact numbers.) -/
noncomputable def floatSchedule (fl : ℝ → ℝ) (lambdaI lambdaF : ℝ) (steps : ℕ) : List (ℝ × ℝ) :=
  (List.range steps).map fun i : ℕ =>
    let l := fl (fl (i * fl (fl (lambdaF - lambdaI) / steps)) + lambdaI)
    (l, fl (l + fl (fl (lambdaF - lambdaI) / steps)))

end Fanpy.FANPT
