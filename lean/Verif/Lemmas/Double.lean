import Verif.Spec.Double
import Mathlib.Data.Int.Log
import Mathlib.Tactic

/-! Lemmas on floating point numbers: there is a rounding, and the nearest number is known from the exponent. -/

namespace Fanpy.Double

theorem isDouble_int_mul {m e : ℤ} (h : |m| ≤ 2 ^ 53) : IsDouble (m * (2 : ℝ) ^ e) := ⟨m, e, h, rfl⟩

theorem isDouble_zero : IsDouble 0 := ⟨0, 0, by simp, by simp⟩

theorem isDouble_nat {n : ℕ} (h : n ≤ 2 ^ 53) : IsDouble n := ⟨n, 0, by simpa using (by exact_mod_cast h : (n : ℤ) ≤ 2 ^ 53), by simp⟩

/-- floating point numbers are multiples of `2 ^ e`, or at most `2 ^ (e + 52)` -/
theorem multiple_or_small {d : ℝ} (hd : IsDouble d) (e : ℤ) :
    (∃ n : ℤ, d = n * (2 : ℝ) ^ e) ∨ |d| ≤ (2 : ℝ) ^ 52 * (2 : ℝ) ^ e := by
  obtain ⟨m, e', hm, rfl⟩ := hd
  by_cases h : e ≤ e'
  · left
    refine ⟨m * 2 ^ (e' - e).toNat, ?_⟩
    have : (2 : ℝ) ^ e' = (2 : ℝ) ^ ((e' - e).toNat : ℤ) * (2 : ℝ) ^ e := by
      rw [← zpow_add₀ (by norm_num : (2 : ℝ) ≠ 0), Int.toNat_of_nonneg (by omega)]
      congr 1; ring
    rw [this]
    push_cast
    rw [zpow_natCast]
    ring
  · right
    have h1 : (2 : ℝ) ^ e' ≤ (2 : ℝ) ^ (e - 1) := zpow_le_zpow_right₀ (by norm_num) (by omega)
    have h2 : (|(m : ℝ)|) ≤ 2 ^ 53 := by exact_mod_cast hm
    rw [abs_mul, abs_of_pos (by positivity : (0 : ℝ) < 2 ^ e')]
    calc |(m : ℝ)| * (2 : ℝ) ^ e' ≤ 2 ^ 53 * (2 : ℝ) ^ (e - 1) := mul_le_mul h2 h1 (by positivity) (by positivity)
      _ = (2 : ℝ) ^ 52 * (2 : ℝ) ^ e := by
          rw [zpow_sub₀ (by norm_num : (2 : ℝ) ≠ 0)]
          norm_num
          ring

/-- no floating point number is nearer than the nearest multiple of `2 ^ e`, if the number has the exponent `e + 52` at least -/
theorem round_nearest {y δ : ℝ} (hy : (2 : ℝ) ^ 52 ≤ |y|) (hδ : (∃ n : ℤ, δ = n) ∨ |δ| ≤ (2 : ℝ) ^ 52) :
    |(round y : ℝ) - y| ≤ |δ - y| := by
  rw [abs_sub_comm, abs_sub_comm δ]
  rcases hδ with ⟨n, rfl⟩ | hδ
  · exact round_le y n
  · rcases le_total 0 y with h0 | h0
    · rw [abs_of_nonneg h0] at hy
      have h1 : |y - (round y : ℝ)| ≤ |y - 2 ^ 52| := by
        have := round_le y (2 ^ 52)
        rwa [show (((2 ^ 52 : ℤ)) : ℝ) = 2 ^ 52 by norm_num] at this
      rw [abs_of_nonneg (by linarith : (0 : ℝ) ≤ y - 2 ^ 52)] at h1
      have h2 := (abs_le.1 hδ).2
      rw [abs_of_nonneg (by linarith : (0 : ℝ) ≤ y - δ)]
      linarith
    · rw [abs_of_nonpos h0] at hy
      have h1 : |y - (round y : ℝ)| ≤ |y - -2 ^ 52| := by
        have := round_le y (-2 ^ 52)
        rwa [show (((-2 ^ 52 : ℤ)) : ℝ) = -2 ^ 52 by norm_num] at this
      rw [abs_of_nonpos (by linarith : y - -2 ^ 52 ≤ (0 : ℝ))] at h1
      have h2 := (abs_le.1 hδ).1
      rw [abs_of_nonpos (by linarith : y - δ ≤ (0 : ℝ))]
      linarith

theorem scale {d : ℝ} (hd : IsDouble d) (e : ℤ) : (∃ n : ℤ, d / (2 : ℝ) ^ e = n) ∨ |d / (2 : ℝ) ^ e| ≤ (2 : ℝ) ^ 52 := by
  have hp : (0 : ℝ) < 2 ^ e := by positivity
  rcases multiple_or_small hd e with ⟨n, h⟩ | h
  · exact .inl ⟨n, by rw [h]; field_simp⟩
  · right
    rw [abs_div, abs_of_pos hp, div_le_iff₀ hp]
    exact h

/-- the rounding with the help of the exponent -/
noncomputable def roundTo (x : ℝ) : ℝ :=
  if x = 0 then 0 else round (x / (2 : ℝ) ^ (Int.log 2 |x| - 52)) * (2 : ℝ) ^ (Int.log 2 |x| - 52)

theorem isRounding_roundTo : IsRounding roundTo := by
  intro x
  rw [roundTo]
  split_ifs with h0
  · subst h0
    exact ⟨isDouble_zero, fun d _ => by simp⟩
  · have hx : 0 < |x| := abs_pos.2 h0
    set e := Int.log 2 |x| - 52 with he
    have hp : (0 : ℝ) < 2 ^ e := by positivity
    have hlo : (2 : ℝ) ^ 52 * (2 : ℝ) ^ e ≤ |x| := by
      have := Int.zpow_log_le_self (b := 2) (by norm_num) hx
      rw [he, zpow_sub₀ (by norm_num : (2 : ℝ) ≠ 0)]
      push_cast at this
      calc (2 : ℝ) ^ 52 * ((2 : ℝ) ^ Int.log 2 |x| / (2 : ℝ) ^ (52 : ℤ)) = (2 : ℝ) ^ Int.log 2 |x| := by
            norm_num
            ring
        _ ≤ |x| := this
    have hhi : |x| < (2 : ℝ) ^ 53 * (2 : ℝ) ^ e := by
      have := Int.lt_zpow_succ_log_self (b := 2) (by norm_num) |x|
      push_cast at this
      calc |x| < (2 : ℝ) ^ (Int.log 2 |x| + 1) := this
        _ = (2 : ℝ) ^ 53 * (2 : ℝ) ^ e := by
            rw [he, zpow_sub₀ (by norm_num : (2 : ℝ) ≠ 0), zpow_add₀ (by norm_num : (2 : ℝ) ≠ 0)]
            norm_num
            ring
    have hy1 : (2 : ℝ) ^ 52 ≤ |x / (2 : ℝ) ^ e| := by
      rw [abs_div, abs_of_pos hp, le_div_iff₀ hp]; exact hlo
    have hy2 : |x / (2 : ℝ) ^ e| ≤ (2 : ℝ) ^ 53 := by
      rw [abs_div, abs_of_pos hp, div_le_iff₀ hp]; exact hhi.le
    refine ⟨isDouble_int_mul ?_, fun d hd => ?_⟩
    · obtain ⟨a, b⟩ := abs_le.1 hy2
      obtain ⟨c, d⟩ := abs_le.1 (abs_sub_round (x / (2 : ℝ) ^ e))
      have u : ((round (x / (2 : ℝ) ^ e) : ℤ) : ℝ) < ((2 ^ 53 + 1 : ℤ) : ℝ) := by
        rw [show (((2 ^ 53 + 1 : ℤ)) : ℝ) = 2 ^ 53 + 1 by norm_num]
        linarith
      have l : ((-2 ^ 53 - 1 : ℤ) : ℝ) < ((round (x / (2 : ℝ) ^ e) : ℤ) : ℝ) := by
        rw [show (((-2 ^ 53 - 1 : ℤ)) : ℝ) = -2 ^ 53 - 1 by norm_num]
        linarith
      have u' := Int.cast_lt.1 u
      have l' := Int.cast_lt.1 l
      rw [abs_le]
      constructor <;> omega
    · have := round_nearest hy1 (scale hd e)
      have key : ∀ z : ℝ, |z - x| = |z / (2 : ℝ) ^ e - x / (2 : ℝ) ^ e| * (2 : ℝ) ^ e := fun z => by
        rw [← sub_div, abs_div, abs_of_pos hp, div_mul_cancel₀ _ hp.ne']
      rw [key, key d, mul_div_assoc, div_self hp.ne', mul_one]
      exact mul_le_mul_of_nonneg_right this hp.le

/-- a rounding leaves floating point numbers alone -/
theorem fl_double {fl : ℝ → ℝ} (hfl : IsRounding fl) {x : ℝ} (hx : IsDouble x) : fl x = x := by
  have := (hfl x).2 x hx
  rw [sub_self, abs_zero] at this
  exact sub_eq_zero.1 (abs_eq_zero.1 (le_antisymm this (abs_nonneg _)))

/-- the value of a rounding: an integer `m` of 53 bits times `2 ^ e`, if it is less than half a unit away -/
theorem fl_eq {fl : ℝ → ℝ} (hfl : IsRounding fl) {x : ℝ} {m e : ℤ} (hm : |m| ≤ 2 ^ 53) (hy : (2 : ℝ) ^ 52 * (2 : ℝ) ^ e ≤ x)
    (h : |(m : ℝ) - x / (2 : ℝ) ^ e| < 1 / 2) : fl x = m * (2 : ℝ) ^ e := by
  have hp : (0 : ℝ) < 2 ^ e := by positivity
  obtain ⟨hd, hn⟩ := hfl x
  have h1 := hn _ (isDouble_int_mul (e := e) hm)
  have key : ∀ z : ℝ, |z - x| = |z / (2 : ℝ) ^ e - x / (2 : ℝ) ^ e| * (2 : ℝ) ^ e := fun z => by
    rw [← sub_div, abs_div, abs_of_pos hp, div_mul_cancel₀ _ hp.ne']
  rw [key, key (m * 2 ^ e), mul_div_assoc, div_self hp.ne', mul_one] at h1
  have h2 := le_of_mul_le_mul_right h1 hp
  have hy' : (2 : ℝ) ^ 52 ≤ x / (2 : ℝ) ^ e := by rw [le_div_iff₀ hp]; exact hy
  set y := x / (2 : ℝ) ^ e with hyd
  set δ := fl x / (2 : ℝ) ^ e with hδ
  have close : ∀ n : ℤ, |(n : ℝ) - y| < 1 / 2 → n = m := fun n hn => by
    have a := abs_lt.1 hn
    have b := abs_lt.1 h
    have c1 : (n : ℝ) - m < 1 := by linarith
    have c2 : (-1 : ℝ) < n - m := by linarith
    have c1' : n - m < 1 := by exact_mod_cast c1
    have c2' : -1 < n - m := by exact_mod_cast c2
    omega
  have fin : δ = m → fl x = m * (2 : ℝ) ^ e := fun hh => by
    rw [← hh, hδ, div_mul_cancel₀ _ hp.ne']
  apply fin
  rcases scale hd e with ⟨n, hn⟩ | hs
  · rw [← hδ] at hn
    rw [hn] at h2 ⊢
    rw [close n (lt_of_le_of_lt h2 h)]
  · rw [← hδ] at hs
    have h3 := (abs_le.1 hs).2
    have h4 : |δ - y| = y - δ := by rw [abs_sub_comm, abs_of_nonneg (by linarith)]
    have h5 : ((2 ^ 52 : ℤ) : ℝ) = 2 ^ 52 := by push_cast; ring
    have h6 : (2 ^ 52 : ℤ) = m := by
      apply close
      rw [h5, abs_sub_comm, abs_of_nonneg (by linarith)]
      rw [h4] at h2
      linarith
    have h7 : (m : ℝ) = 2 ^ 52 := by rw [← h6]; push_cast; ring
    rw [h7] at h2 ⊢
    rw [h4, abs_sub_comm, abs_of_nonneg (by linarith)] at h2
    linarith

end Fanpy.Double
