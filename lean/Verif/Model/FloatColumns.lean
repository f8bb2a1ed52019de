import Mathlib.Analysis.Real.Sqrt
import Verif.Model.Slater

/-! Two formulas with a square root, in floating point arithmetic: `APG.get_orbpair` (fanpy/wfn/geminal/apg.py:172-179) and the dimension in
`unitary_matrix` (fanpy/tools/math_tools.py:362-365).  `fl` is the rounding after every operation and every conversion of an integer to a
float; `x ** 0.5` and `np.sqrt(x)` are the square root rounded once; `//` of floats is exact here (its result is an integer below `2 ** 53`). -/

namespace Fanpy.Gem

/-- `i = (2 * nspin - 1 - ((1 - 2 * nspin) ** 2 - 8 * col_ind) ** 0.5) // 2` — apg.py:177 -/
noncomputable def floatRow (fl : ℝ → ℝ) (nspin : ℕ) (col : ℤ) : ℝ :=
  (⌊fl (fl (2 * nspin - 1) - fl √(fl ((1 - 2 * nspin) ^ 2 - 8 * col))) / 2⌋ : ℤ)

/-- `j = col_ind - (i * nspin - i * (i + 1) // 2 - i - 1)` for the float `i` — apg.py:178 -/
noncomputable def floatCol (fl : ℝ → ℝ) (nspin : ℕ) (col : ℤ) (i : ℝ) : ℝ :=
  fl (fl col - fl (fl (fl (fl (i * fl nspin) - (⌊fl (i * fl (i + 1)) / 2⌋ : ℤ)) - i) - 1))

/-- `APG.get_orbpair(col_ind)` — apg.py:172-179 (`apgOrbpair` is the same with exact numbers) -/
noncomputable def floatOrbpair (fl : ℝ → ℝ) (nspin : ℕ) (col : ℤ) : Except PyErr (ℝ × ℝ) :=
  if 0 ≤ col ∧ (col : ℝ) < fl (nspin * (nspin - 1) / 2) then
    .ok (floatRow fl nspin col, floatCol fl nspin col (floatRow fl nspin col))
  else .error .valueError

/-- `dim = (1 + np.sqrt(1 + 8 * antiherm_elements.size)) / 2` — math_tools.py:362 -/
noncomputable def floatDim (fl : ℝ → ℝ) (size : ℕ) : ℝ := fl (fl (1 + fl √(fl (1 + 8 * size))) / 2)

end Fanpy.Gem
