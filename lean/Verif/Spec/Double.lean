import Mathlib.Data.Real.Basic
import Mathlib.Algebra.Order.Round

/-! Numbers of the type `float`: 53 significant bits.  The range of the exponents is left out: there is no overflow and no underflow. -/

namespace Fanpy.Double

/-- a floating point number: an integer of at most 53 bits times a power of two -/
def IsDouble (x : ℝ) : Prop := ∃ m e : ℤ, |m| ≤ 2 ^ 53 ∧ x = m * (2 : ℝ) ^ e

/-- rounding to a nearest floating point number, as IEEE 754 prescribes for the result of every arithmetical operation (the rule for
ties is left open) -/
def IsRounding (fl : ℝ → ℝ) : Prop := ∀ x, IsDouble (fl x) ∧ ∀ d, IsDouble d → |fl x - x| ≤ |d - x|

end Fanpy.Double
