import Verif.Lemmas.Double
import Verif.Model.FloatSteps

/-! C85, with rounded numbers. -/

namespace Fanpy.Props
open Fanpy.FANPT Fanpy.Double

/-- The schedule with rounded numbers is the schedule if nothing is rounded. -/
theorem C85_float_exact (li lf : ℝ) (steps : ℕ) : floatSchedule id li lf steps = schedule li lf steps := by
  refine List.map_congr_left fun i _ => ?_
  simp only [id, Prod.mk.injEq]
  constructor <;> ring

/-- There is a rounding, so that the hypothesis of the next theorems can be met. -/
theorem C85_rounding_exists : ∃ fl, IsRounding fl := ⟨_, isRounding_roundTo⟩

/-- **C85.**  With a number of steps that is a power of two, from 0 to 1, nothing is rounded: every step passes the check of the updater and
the last one ends at 1. -/
theorem C85_float_pow {fl : ℝ → ℝ} (hfl : IsRounding fl) (k : ℕ) (hk : k ≤ 53) :
    floatSchedule fl 0 1 (2 ^ k) = schedule 0 1 (2 ^ k) ∧
    ∀ s ∈ floatSchedule fl 0 1 (2 ^ k), checkUpdater s.1 s.2 1 = .ok () := by
  have hone : fl (1 - 0) = 1 := by
    rw [sub_zero]
    exact fl_double hfl ⟨1, 0, by norm_num, by simp⟩
  have hd : ∀ n : ℕ, n ≤ 2 ^ k → IsDouble (n * (1 / (2 : ℝ) ^ k)) := fun n hn => by
    refine ⟨n, -k, ?_, ?_⟩
    · have : n ≤ 2 ^ 53 := hn.trans (Nat.pow_le_pow_right (by norm_num) hk)
      rw [Nat.abs_cast]
      exact_mod_cast this
    · rw [zpow_neg, zpow_natCast]
      push_cast
      ring
  have hstep : fl (1 / (2 : ℝ) ^ k) = 1 / (2 : ℝ) ^ k := by
    have := hd 1 (Nat.one_le_two_pow)
    rw [Nat.cast_one, one_mul] at this
    exact fl_double hfl this
  have heq : floatSchedule fl 0 1 (2 ^ k) = (List.range (2 ^ k)).map fun i : ℕ =>
      ((i : ℝ) * (1 / (2 : ℝ) ^ k), ((i + 1 : ℕ) : ℝ) * (1 / (2 : ℝ) ^ k)) := by
    refine List.map_congr_left fun i hi => ?_
    have hi' : i < 2 ^ k := List.mem_range.1 hi
    simp only [hone, Nat.cast_pow, Nat.cast_ofNat, hstep, add_zero]
    rw [fl_double hfl (hd i hi'.le), fl_double hfl (hd i hi'.le)]
    rw [show (i : ℝ) * (1 / 2 ^ k) + 1 / 2 ^ k = ((i + 1 : ℕ) : ℝ) * (1 / (2 : ℝ) ^ k) by push_cast; ring]
    rw [fl_double hfl (hd (i + 1) hi')]
  refine ⟨?_, ?_⟩
  · rw [heq]
    refine List.map_congr_left fun i _ => ?_
    simp only [Prod.mk.injEq]
    push_cast
    constructor <;> ring
  · rw [heq]
    intro s hs
    obtain ⟨i, hi, rfl⟩ := List.mem_map.1 hs
    have hi' : i < 2 ^ k := List.mem_range.1 hi
    have hp : (0 : ℝ) < 2 ^ k := by positivity
    rw [checkUpdater, if_neg, if_neg (by norm_num)]
    rw [not_not]
    refine ⟨mul_lt_mul_of_pos_right (by push_cast; linarith) (by positivity), ?_⟩
    have : ((i + 1 : ℕ) : ℝ) ≤ 2 ^ k := by exact_mod_cast hi'
    change ((i + 1 : ℕ) : ℝ) * (1 / 2 ^ k) ≤ 1
    rw [mul_one_div, div_le_one hp]
    exact this

/-- **C85, disagreement.**  With 93 steps from 0 to 1 the last `final_l` is rounded to a number above 1, and the updater raises a `ValueError`
after the 92 steps before.  (In the arithmetic of exact numbers every step passes: `C85_schedule_partial`.) -/
theorem C85_rounding_disagrees {fl : ℝ → ℝ} (hfl : IsRounding fl) :
    ∃ s, (floatSchedule fl 0 1 93)[92]? = some s ∧ 1 < s.2 ∧ checkUpdater s.1 s.2 1 = .error .valueError := by
  have h0 : fl (1 - 0) = 1 := by
    rw [sub_zero]
    exact fl_double hfl ⟨1, 0, by norm_num, by simp⟩
  have h1 : fl (1 / 93) = (6198502712940038 : ℤ) * (2 : ℝ) ^ (-59 : ℤ) := by
    apply fl_eq hfl (by norm_num) (by norm_num)
    rw [abs_lt]
    constructor <;> norm_num
  have h2 : fl (92 * ((6198502712940038 : ℤ) * (2 : ℝ) ^ (-59 : ℤ))) = (8910347649851305 : ℤ) * (2 : ℝ) ^ (-53 : ℤ) := by
    apply fl_eq hfl (by norm_num) (by norm_num)
    rw [abs_lt]
    constructor <;> norm_num
  have h3 : fl ((8910347649851305 : ℤ) * (2 : ℝ) ^ (-53 : ℤ) + 0) = (8910347649851305 : ℤ) * (2 : ℝ) ^ (-53 : ℤ) := by
    rw [add_zero]
    exact fl_double hfl (isDouble_int_mul (by norm_num))
  have h4 : fl ((8910347649851305 : ℤ) * (2 : ℝ) ^ (-53 : ℤ) + (6198502712940038 : ℤ) * (2 : ℝ) ^ (-59 : ℤ)) =
      (4503599627370497 : ℤ) * (2 : ℝ) ^ (-52 : ℤ) := by
    apply fl_eq hfl (by norm_num) (by norm_num)
    rw [abs_lt]
    constructor <;> norm_num
  refine ⟨((8910347649851305 : ℤ) * (2 : ℝ) ^ (-53 : ℤ), (4503599627370497 : ℤ) * (2 : ℝ) ^ (-52 : ℤ)), ?_, ?_, ?_⟩
  · rw [floatSchedule, List.getElem?_map, List.getElem?_range (by norm_num)]
    simp only [Option.map_some, Nat.cast_ofNat, h0, h1, h2, h3, h4]
  · norm_num
  · rw [checkUpdater, if_pos]
    norm_num

end Fanpy.Props
