import Verif.Lemmas.Double
import Mathlib.Analysis.Real.Sqrt

/-! Lemmas on rounded square roots. -/

namespace Fanpy.Double

theorem fl_ge {fl : ℝ → ℝ} (hfl : IsRounding fl) {d x : ℝ} (hd : IsDouble d) (h : d ≤ x) : d ≤ fl x := by
  by_contra hc
  rw [not_le] at hc
  have := (hfl x).2 d hd
  rw [abs_of_neg (by linarith), abs_of_nonpos (by linarith)] at this
  linarith

theorem fl_le {fl : ℝ → ℝ} (hfl : IsRounding fl) {d x : ℝ} (hd : IsDouble d) (h : x ≤ d) : fl x ≤ d := by
  by_contra hc
  rw [not_le] at hc
  have := (hfl x).2 d hd
  rw [abs_of_pos (by linarith), abs_of_nonneg (by linarith)] at this
  linarith

theorem isDouble_int {n : ℤ} (h : |n| ≤ 2 ^ 53) : IsDouble n := ⟨n, 0, h, by simp⟩

theorem isDouble_div {n : ℤ} (k : ℕ) (h : |n| ≤ 2 ^ 53) : IsDouble (n / 2 ^ k) :=
  ⟨n, -k, h, by rw [zpow_neg, zpow_natCast, div_eq_mul_inv]⟩

theorem fl_int {fl : ℝ → ℝ} (hfl : IsRounding fl) {n : ℤ} (h : |n| ≤ 2 ^ 53) : fl n = n := fl_double hfl (isDouble_int h)

/-- an integer plus or minus `2 ^ (-25)` -/
theorem isDouble_near {m : ℤ} (h : |m| ≤ 2 ^ 27) : IsDouble (m + 1 / 2 ^ 25) ∧ IsDouble (m - 1 / 2 ^ 25) := by
  rw [abs_le] at h
  have a := isDouble_div (n := m * 2 ^ 25 + 1) 25 (by rw [abs_le]; omega)
  have b := isDouble_div (n := m * 2 ^ 25 - 1) 25 (by rw [abs_le]; omega)
  push_cast at a b
  constructor
  · convert a using 1; ring
  · convert b using 1; ring

/-- the rounded square root of an integer between the squares of `m` and `m + 2`, at a distance of 8 -/
theorem sqrt_above {fl : ℝ → ℝ} (hfl : IsRounding fl) {m D : ℤ} (h0 : 0 ≤ m) (hm : m ≤ 2 ^ 26) (h : m ^ 2 + 8 ≤ D) :
    (m : ℝ) + 1 / 2 ^ 25 ≤ fl √(D : ℝ) := by
  apply fl_ge hfl (isDouble_near (by rw [abs_le]; omega)).1
  apply Real.le_sqrt_of_sq_le
  have h1 : ((m ^ 2 + 8 : ℤ) : ℝ) ≤ D := Int.cast_le.2 h
  have h2 : (m : ℝ) ≤ 2 ^ 26 := by exact_mod_cast hm
  push_cast at h1
  nlinarith

theorem sqrt_below {fl : ℝ → ℝ} (hfl : IsRounding fl) {m D : ℤ} (h0 : 1 ≤ m) (hm : m ≤ 2 ^ 26) (h : D ≤ m ^ 2 - 8) :
    fl √(D : ℝ) ≤ (m : ℝ) - 1 / 2 ^ 25 := by
  apply fl_le hfl (isDouble_near (by rw [abs_le]; omega)).2
  have h1 : (D : ℝ) ≤ ((m ^ 2 - 8 : ℤ) : ℝ) := Int.cast_le.2 h
  have h2 : (m : ℝ) ≤ 2 ^ 26 := by exact_mod_cast hm
  have h3 : (1 : ℝ) ≤ m := by exact_mod_cast h0
  push_cast at h1
  apply Real.sqrt_le_iff.2
  constructor
  · norm_num; linarith
  · nlinarith

theorem sqrt_le {fl : ℝ → ℝ} (hfl : IsRounding fl) {m D : ℤ} (h0 : 0 ≤ m) (hm : m ≤ 2 ^ 53) (h : D ≤ m ^ 2) : fl √(D : ℝ) ≤ m := by
  apply fl_le hfl (isDouble_int (by rw [abs_le]; omega))
  apply Real.sqrt_le_iff.2
  exact ⟨by exact_mod_cast h0, by exact_mod_cast h⟩

theorem sqrt_sq {fl : ℝ → ℝ} (hfl : IsRounding fl) {m : ℤ} (h0 : 0 ≤ m) (hm : m ≤ 2 ^ 53) : fl √((m ^ 2 : ℤ) : ℝ) = m := by
  push_cast
  rw [Real.sqrt_sq (by exact_mod_cast h0)]
  exact fl_int hfl (by rw [abs_le]; omega)

end Fanpy.Double
