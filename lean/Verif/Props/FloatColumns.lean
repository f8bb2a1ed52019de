import Verif.Lemmas.FloatColumns
import Verif.Model.FloatColumns
import Verif.Props.FloatSteps
import Verif.Props.GeminalColumns
import Verif.Props.Unitary

/-! C37 and C57, with rounded numbers. -/

namespace Fanpy.Props
open Fanpy.Gem Fanpy.Geminal Fanpy.Double Fanpy.Spec

theorem floatRow_eq {fl : ℝ → ℝ} (hfl : IsRounding fl) {n i j : ℕ} (hn : n ≤ 2 ^ 25) (h1 : i < j) (h2 : j < n) {c : ℤ}
    (hc : 2 * c = 2 * (n * i) - i * (i + 1) + 2 * (j - i - 1)) : floatRow fl n c = i := by
  have hD : ((1 - 2 * (n : ℝ)) ^ 2 - 8 * c) = (((1 - 2 * n) ^ 2 - 8 * c : ℤ) : ℝ) := by push_cast; ring
  have hD1 : ((1 - 2 * n) ^ 2 - 8 * c : ℤ) = (2 * n - 3 - 2 * i) ^ 2 + 8 * (n - j) := by linarith [hc]
  have hD2 : ((1 - 2 * n) ^ 2 - 8 * c : ℤ) = (2 * n - 1 - 2 * i) ^ 2 - 8 * (j - i - 1) := by linarith [hc]
  generalize hDD : ((1 - 2 * n) ^ 2 - 8 * c : ℤ) = D at *
  have b0 : (0 : ℤ) ≤ D := by rw [hD1]; have := sq_nonneg (2 * (n : ℤ) - 3 - 2 * i); omega
  have b1 : D ≤ 2 ^ 53 := by
    have h3 : ((2 * n - 1 - 2 * i) : ℤ) ^ 2 ≤ (2 ^ 26) ^ 2 := by
      apply pow_le_pow_left₀ <;> omega
    rw [hD2]; omega
  have hD3 : fl (D : ℝ) = D := fl_int hfl (by rw [abs_le]; omega)
  have e1 : fl (2 * (n : ℝ) - 1) = ((2 * n - 1 : ℤ) : ℝ) := by
    rw [show 2 * (n : ℝ) - 1 = ((2 * n - 1 : ℤ) : ℝ) by push_cast; ring]
    exact fl_int hfl (by rw [abs_le]; omega)
  have s1 := Double.sqrt_le hfl (m := 2 * n - 1 - 2 * i) (D := D) (by omega) (by omega) (by omega)
  have s2 := Double.sqrt_above hfl (m := 2 * n - 3 - 2 * i) (D := D) (by omega) (by omega) (by omega)
  rw [floatRow, hD, hD3, e1]
  generalize fl √(D : ℝ) = p at s1 s2
  push_cast at s1 s2 ⊢
  have t1 : (2 * (i : ℤ) : ℤ) ≤ fl (2 * (n : ℝ) - 1 - p) := by
    apply fl_ge hfl (isDouble_int (by rw [abs_le]; omega))
    push_cast
    linarith
  have t2 : fl (2 * (n : ℝ) - 1 - p) ≤ ((2 * i + 2 : ℤ) : ℝ) - 1 / 2 ^ 25 := by
    apply fl_le hfl (isDouble_near (by rw [abs_le]; omega)).2
    push_cast
    linarith
  push_cast at t1 t2
  have : ⌊fl (2 * (n : ℝ) - 1 - p) / 2⌋ = (i : ℤ) := by
    rw [Int.floor_eq_iff]
    push_cast
    constructor
    · linarith
    · norm_num at t2; linarith
  rw [this]
  simp

theorem floatCol_eq {fl : ℝ → ℝ} (hfl : IsRounding fl) {n i j : ℕ} (hn : n ≤ 2 ^ 25) (h1 : i < j) (h2 : j < n) {c : ℤ}
    (hc : 2 * c = 2 * (n * i) - i * (i + 1) + 2 * (j - i - 1)) : floatCol fl n c i = j := by
  obtain ⟨t, ht⟩ := (Int.even_mul_succ_self i).two_dvd
  have bi : (i : ℤ) * n ≤ 2 ^ 25 * 2 ^ 25 := mul_le_mul (by omega) (by omega) (by omega) (by omega)
  have bi0 : (0 : ℤ) ≤ i * n := by positivity
  have bt : (i : ℤ) * (i + 1) ≤ 2 ^ 25 * 2 ^ 25 := mul_le_mul (by omega) (by omega) (by omega) (by omega)
  have bt0 : (0 : ℤ) ≤ i * (i + 1) := by positivity
  have hc' : c = n * i - t + (j - i - 1) := by rw [ht] at hc; omega
  have e1 : fl (n : ℝ) = n := by have := fl_int hfl (n := (n : ℤ)) (by rw [abs_le]; omega); simpa using this
  have e2 : fl ((i : ℝ) + 1) = ((i + 1 : ℤ) : ℝ) := by
    rw [show (i : ℝ) + 1 = ((i + 1 : ℤ) : ℝ) by push_cast; ring]
    exact fl_int hfl (by rw [abs_le]; omega)
  have e3 : fl ((i : ℝ) * n) = ((i * n : ℤ) : ℝ) := by
    rw [show (i : ℝ) * n = ((i * n : ℤ) : ℝ) by push_cast; ring]
    exact fl_int hfl (by rw [abs_le]; omega)
  have e4 : fl ((i : ℝ) * ((i + 1 : ℤ) : ℝ)) = ((2 * t : ℤ) : ℝ) := by
    rw [← ht, show (i : ℝ) * ((i + 1 : ℤ) : ℝ) = ((i * (i + 1) : ℤ) : ℝ) by push_cast; ring]
    exact fl_int hfl (by rw [abs_le]; omega)
  have e5 : ⌊((2 * t : ℤ) : ℝ) / 2⌋ = t := by
    rw [Int.floor_eq_iff]; push_cast; constructor <;> linarith
  have e6 : fl (((i * n : ℤ) : ℝ) - (t : ℝ)) = ((i * n - t : ℤ) : ℝ) := by
    rw [show ((i * n : ℤ) : ℝ) - (t : ℝ) = ((i * n - t : ℤ) : ℝ) by push_cast; ring]
    exact fl_int hfl (by rw [abs_le]; omega)
  have e7 : fl (((i * n - t : ℤ) : ℝ) - (i : ℝ)) = ((i * n - t - i : ℤ) : ℝ) := by
    rw [show ((i * n - t : ℤ) : ℝ) - (i : ℝ) = ((i * n - t - i : ℤ) : ℝ) by push_cast; ring]
    exact fl_int hfl (by rw [abs_le]; omega)
  have e8 : fl (((i * n - t - i : ℤ) : ℝ) - 1) = ((i * n - t - i - 1 : ℤ) : ℝ) := by
    rw [show ((i * n - t - i : ℤ) : ℝ) - 1 = ((i * n - t - i - 1 : ℤ) : ℝ) by push_cast; ring]
    exact fl_int hfl (by rw [abs_le]; omega)
  have hcomm : (n : ℤ) * i = i * n := mul_comm _ _
  have e9 : fl (c : ℝ) = c := fl_int hfl (by rw [abs_le]; omega)
  have e10 : fl ((c : ℝ) - ((i * n - t - i - 1 : ℤ) : ℝ)) = ((j : ℤ) : ℝ) := by
    rw [show (c : ℝ) - ((i * n - t - i - 1 : ℤ) : ℝ) = ((c - (i * n - t - i - 1) : ℤ) : ℝ) by push_cast; ring,
      show c - (i * n - t - i - 1 : ℤ) = j by omega]
    exact fl_int hfl (by rw [abs_le]; omega)
  rw [floatCol, e1, e2, e3, e4, e5, e6, e7, e8, e9, e10]
  simp

/-- **C37.**  With rounded numbers, `APG.get_orbpair` is the inverse of `APG.get_col_ind` as well, for up to `2 ^ 25` spin orbitals. -/
theorem C37_float_orbpair {fl : ℝ → ℝ} (hfl : IsRounding fl) (n : ℕ) (hn : n ≤ 2 ^ 25) (c : ℤ) (p : ℝ × ℝ) :
    floatOrbpair fl n c = .ok p ↔ ∃ i j : ℤ, p = ((i : ℝ), (j : ℝ)) ∧ i < j ∧ apgColInd n (i, j) = .ok c := by
  have hlen := C37_apg_length n
  have hcond : ((c : ℝ) < fl ((n : ℝ) * (n - 1) / 2)) ↔ c < (n * (n - 1) / 2 : ℕ) := by
    have hv : (n : ℝ) * (n - 1) / 2 = (((n * (n - 1) / 2 : ℕ) : ℤ) : ℝ) := by
      rcases n with - | k
      · simp
      · obtain ⟨t, ht⟩ := (Nat.even_mul_succ_self k).two_dvd
        rw [Nat.add_sub_cancel, mul_comm (k + 1), ht, Nat.mul_div_cancel_left _ (by norm_num)]
        have : ((k * (k + 1) : ℕ) : ℝ) = ((2 * t : ℕ) : ℝ) := by rw [ht]
        push_cast at this ⊢
        linarith
    have hb : n * (n - 1) / 2 ≤ 2 ^ 50 := by
      have : n * (n - 1) ≤ 2 ^ 25 * 2 ^ 25 := Nat.mul_le_mul hn (by omega)
      omega
    rw [hv, fl_int hfl (by rw [abs_le]; omega), Int.cast_lt]
  rw [floatOrbpair]
  simp only [hcond]
  constructor
  · intro h
    split_ifs at h with hc
    have hlt : c.toNat < (pairsAll n).length := by omega
    have hm := mem_pairsAll.1 (List.getElem_mem hlt)
    have hix := (nodup_pairsAll n).idxOf_getElem _ hlt
    generalize (pairsAll n)[c.toNat] = q at hm hix
    obtain ⟨i, j⟩ := q
    have hidx := idxOf_pairsAll hm.1 hm.2
    rw [hix] at hidx
    simp only at hidx hm
    have hc2 : 2 * c = 2 * (n * i) - i * (i + 1) + 2 * (j - i - 1) := by
      obtain ⟨t, ht⟩ := (Int.even_mul_succ_self i).two_dvd
      rw [ht] at hidx ⊢
      omega
    have hr := floatRow_eq hfl hn hm.1 hm.2 hc2
    rw [hr, floatCol_eq hfl hn hm.1 hm.2 hc2] at h
    have hp := Except.ok.inj h
    refine ⟨i, j, by rw [← hp]; simp, by exact_mod_cast hm.1, ?_⟩
    have := (C37_apg_col n i j hm.1 hm.2).1
    rw [hix] at this
    rw [this]
    congr 1
    omega
  · rintro ⟨i, j, rfl, hij, h⟩
    have hb : 0 ≤ i ∧ j < n := by
      by_contra hcon
      have := C37_apg_col_rejects n (i, j) (by simp only; omega)
      rw [this] at h
      cases h
    obtain ⟨i, rfl⟩ := Int.eq_ofNat_of_zero_le hb.1
    obtain ⟨j, rfl⟩ := Int.eq_ofNat_of_zero_le (show 0 ≤ j by omega)
    have h1 : i < j := by omega
    have h2 : j < n := by omega
    rw [(C37_apg_col n i j h1 h2).1] at h
    have hc := Except.ok.inj h
    have hlt : (pairsAll n).idxOf (i, j) < (pairsAll n).length := List.idxOf_lt_length_of_mem (mem_pairsAll.2 ⟨h1, h2⟩)
    have hidx := idxOf_pairsAll h1 h2
    have hc2 : 2 * c = 2 * (n * i) - i * (i + 1) + 2 * (j - i - 1) := by
      obtain ⟨t, ht⟩ := (Int.even_mul_succ_self i).two_dvd
      rw [ht] at hidx ⊢
      omega
    rw [if_pos (by omega), floatRow_eq hfl hn h1 h2 hc2, floatCol_eq hfl hn h1 h2 hc2]
    simp

/-- **C37, disagreement.**  With `2 ^ 28` spin orbitals the last column of the first row, that of the pair `(0, 2 ^ 28 - 1)`, is given the
pair `(1, 1)`. -/
theorem C37_float_disagrees {fl : ℝ → ℝ} (hfl : IsRounding fl) :
    apgColInd (2 ^ 28) (0, 2 ^ 28 - 1) = .ok (2 ^ 28 - 2) ∧ floatOrbpair fl (2 ^ 28) (2 ^ 28 - 2) = .ok (1, 1) := by
  refine ⟨by decide, ?_⟩
  have hb : fl (((2 ^ 28 : ℕ) : ℝ) * (((2 ^ 28 : ℕ) : ℝ) - 1) / 2) = ((2 ^ 28 - 1 : ℤ) : ℝ) * (2 : ℝ) ^ (27 : ℤ) := by
    rw [show ((2 ^ 28 : ℕ) : ℝ) * (((2 ^ 28 : ℕ) : ℝ) - 1) / 2 = ((2 ^ 28 - 1 : ℤ) : ℝ) * (2 : ℝ) ^ (27 : ℤ) by norm_num]
    exact fl_double hfl (isDouble_int_mul (by norm_num))
  have hD : fl ((1 - 2 * ((2 ^ 28 : ℕ) : ℝ)) ^ 2 - 8 * ((2 ^ 28 - 2 : ℤ) : ℝ)) = ((2 ^ 53 - 6 * 2 ^ 24 + 1 : ℤ) : ℝ) * (2 : ℝ) ^ (5 : ℤ) := by
    apply fl_eq hfl (by norm_num) (by norm_num)
    rw [abs_lt]
    constructor <;> norm_num
  have hs : fl √(((2 ^ 53 - 6 * 2 ^ 24 + 1 : ℤ) : ℝ) * (2 : ℝ) ^ (5 : ℤ)) = ((2 ^ 53 - 3 * 2 ^ 24 : ℤ) : ℝ) * (2 : ℝ) ^ (-24 : ℤ) := by
    have l1 : (2 : ℝ) ^ 29 - 3 ≤ √(((2 ^ 53 - 6 * 2 ^ 24 + 1 : ℤ) : ℝ) * (2 : ℝ) ^ (5 : ℤ)) := by
      apply Real.le_sqrt_of_sq_le
      norm_num
    have l2 : √(((2 ^ 53 - 6 * 2 ^ 24 + 1 : ℤ) : ℝ) * (2 : ℝ) ^ (5 : ℤ)) ≤ (2 : ℝ) ^ 29 - 3 + 24 / 2 ^ 30 := by
      apply Real.sqrt_le_iff.2
      constructor <;> norm_num
    apply fl_eq hfl (by norm_num)
    · refine le_trans ?_ l1
      norm_num
    · rw [abs_lt]
      norm_num at l1 l2 ⊢
      constructor <;> linarith
  have h1 : fl (2 * ((2 ^ 28 : ℕ) : ℝ) - 1) = ((2 ^ 29 - 1 : ℤ) : ℝ) := by
    rw [show 2 * ((2 ^ 28 : ℕ) : ℝ) - 1 = ((2 ^ 29 - 1 : ℤ) : ℝ) by norm_num]
    exact fl_int hfl (by norm_num)
  have hrow : floatRow fl (2 ^ 28) (2 ^ 28 - 2) = 1 := by
    rw [floatRow, hD, hs, h1]
    rw [show ((2 ^ 29 - 1 : ℤ) : ℝ) - ((2 ^ 53 - 3 * 2 ^ 24 : ℤ) : ℝ) * (2 : ℝ) ^ (-24 : ℤ) = ((2 : ℤ) : ℝ) by norm_num,
      fl_int hfl (by norm_num)]
    norm_num
  have f : ∀ {x : ℝ} (n : ℤ), x = n → |n| ≤ 2 ^ 53 → fl x = n := fun n h h' => by rw [h]; exact fl_int hfl h'
  have hcol : floatCol fl (2 ^ 28) (2 ^ 28 - 2) 1 = 1 := by
    rw [floatCol, f (x := ((2 ^ 28 - 2 : ℤ) : ℝ)) (2 ^ 28 - 2) rfl (by norm_num), f (x := ((2 ^ 28 : ℕ) : ℝ)) (2 ^ 28) (by norm_num) (by norm_num),
      f (x := (1 : ℝ) + 1) 2 (by norm_num) (by norm_num), f (x := 1 * ((2 ^ 28 : ℤ) : ℝ)) (2 ^ 28) (by norm_num) (by norm_num),
      f (x := 1 * ((2 : ℤ) : ℝ)) 2 (by norm_num) (by norm_num)]
    rw [show ⌊((2 : ℤ) : ℝ) / 2⌋ = 1 by norm_num, f (x := ((2 ^ 28 : ℤ) : ℝ) - ((1 : ℤ) : ℝ)) (2 ^ 28 - 1) (by norm_num) (by norm_num),
      f (x := ((2 ^ 28 - 1 : ℤ) : ℝ) - 1) (2 ^ 28 - 2) (by norm_num) (by norm_num),
      f (x := ((2 ^ 28 - 2 : ℤ) : ℝ) - 1) (2 ^ 28 - 3) (by norm_num) (by norm_num),
      f (x := ((2 ^ 28 - 2 : ℤ) : ℝ) - ((2 ^ 28 - 3 : ℤ) : ℝ)) 1 (by norm_num) (by norm_num)]
    norm_num
  rw [floatOrbpair, hb, if_pos, hrow, hcol]
  constructor <;> norm_num

/-- **C57.**  With rounded numbers, the test of the dimension is that of exact numbers, for up to `2 ^ 48` elements: the rounded dimension is the
integer `k` exactly if the number of elements is that of the upper triangle of a matrix of dimension `k`. -/
theorem C57_float_dim {fl : ℝ → ℝ} (hfl : IsRounding fl) (size : ℕ) (h : size ≤ 2 ^ 48) (k : ℤ) :
    floatDim fl size = k ↔ 1 ≤ k ∧ 2 * (size : ℤ) = k * (k - 1) := by
  have hD : (1 : ℝ) + 8 * size = ((1 + 8 * size : ℤ) : ℝ) := by push_cast; ring
  have hf : fl ((1 : ℝ) + 8 * size) = ((1 + 8 * size : ℤ) : ℝ) := by
    rw [hD]; exact fl_int hfl (by rw [abs_le]; omega)
  have half : ∀ {q : ℝ}, IsDouble q → fl (q / 2) = q / 2 := fun {q} hq => by
    obtain ⟨m, e, hm, rfl⟩ := hq
    apply fl_double hfl
    refine ⟨m, e - 1, hm, ?_⟩
    rw [zpow_sub₀ (by norm_num : (2 : ℝ) ≠ 0), zpow_one]
    ring
  rw [floatDim, hf, half (hfl _).1]
  obtain ⟨r, hr⟩ : ∃ r, r = Nat.sqrt (1 + 8 * size) := ⟨_, rfl⟩
  have r1 : r * r ≤ 1 + 8 * size := by rw [hr]; exact Nat.sqrt_le _
  have r2 : 1 + 8 * size < (r + 1) * (r + 1) := by rw [hr]; exact Nat.lt_succ_sqrt _
  have r0 : 1 ≤ r := by
    by_contra hc
    have : r = 0 := by omega
    subst this
    omega
  have r3 : r < 50000000 := by
    by_contra hc
    have : 50000000 * 50000000 ≤ r * r := Nat.mul_le_mul (by omega) (by omega)
    omega
  obtain ⟨a, ha⟩ : ∃ a, r = 2 * a + 1 ∨ r = 2 * a + 2 := ⟨(r - 1) / 2, by omega⟩
  obtain ⟨t, ht⟩ := (Nat.even_mul_succ_self a).two_dvd
  obtain ⟨u, hu⟩ := (Nat.even_mul_succ_self (a + 1)).two_dvd
  have sq : ∀ b w : ℕ, b * (b + 1) = 2 * w → (2 * b + 1) * (2 * b + 1) = 1 + 8 * w := fun b w hw => by
    nlinarith
  have sa := sq a t ht
  have su := sq (a + 1) u hu
  have lo : t ≤ size := by
    have : (2 * a + 1) * (2 * a + 1) ≤ r * r := Nat.mul_le_mul (by omega) (by omega)
    omega
  have hi : size < u := by
    have : (r + 1) * (r + 1) ≤ (2 * (a + 1) + 1) * (2 * (a + 1) + 1) := Nat.mul_le_mul (by omega) (by omega)
    omega
  rcases Nat.eq_or_lt_of_le lo with hlo | hlo
  · have hs : ((1 + 8 * size : ℤ) : ℝ) = (((2 * a + 1 : ℤ) ^ 2 : ℤ) : ℝ) := by
      congr 1
      rw [← hlo]
      have : ((2 * a + 1 : ℤ)) * (2 * a + 1) = 1 + 8 * t := by exact_mod_cast sa
      rw [pow_two, this]
    rw [hs, Double.sqrt_sq hfl (by omega) (by omega)]
    rw [show (1 : ℝ) + ((2 * a + 1 : ℤ) : ℝ) = ((2 * a + 2 : ℤ) : ℝ) by push_cast; ring, fl_int hfl (by rw [abs_le]; omega),
      show ((2 * a + 2 : ℤ) : ℝ) / 2 = ((a + 1 : ℤ) : ℝ) by push_cast; ring, Int.cast_inj]
    have hz : (a : ℤ) * (a + 1) = 2 * size := by rw [← hlo]; exact_mod_cast ht
    constructor
    · rintro rfl
      exact ⟨by omega, by rw [← hz]; ring⟩
    · rintro ⟨hk, he⟩
      have : (k - (a + 1)) * (k + a) = 0 := by linarith
      rcases mul_eq_zero.1 this with h' | h'
      · omega
      · omega
  · have p1 := Double.sqrt_above hfl (m := 2 * a + 1) (D := 1 + 8 * size) (by omega) (by omega) (by
      have : ((2 * a + 1 : ℤ)) * (2 * a + 1) = 1 + 8 * t := by exact_mod_cast sa
      rw [pow_two, this]; omega)
    have p2 := Double.sqrt_below hfl (m := 2 * a + 3) (D := 1 + 8 * size) (by omega) (by omega) (by
      have : ((2 * (a + 1) + 1 : ℤ)) * (2 * (a + 1) + 1) = 1 + 8 * u := by exact_mod_cast su
      have e : (2 * (a : ℤ) + 3) ^ 2 = (2 * (a + 1) + 1) * (2 * (a + 1) + 1) := by ring
      rw [e, this]; omega)
    generalize fl √((1 + 8 * size : ℤ) : ℝ) = p at p1 p2
    have q1 : ((2 * a + 2 : ℤ) : ℝ) + 1 / 2 ^ 25 ≤ fl (1 + p) := by
      apply fl_ge hfl (isDouble_near (by rw [abs_le]; omega)).1
      push_cast at p1 ⊢
      linarith
    have q2 : fl (1 + p) ≤ ((2 * a + 4 : ℤ) : ℝ) - 1 / 2 ^ 25 := by
      apply fl_le hfl (isDouble_near (by rw [abs_le]; omega)).2
      push_cast at p2 ⊢
      linarith
    constructor
    · intro hk
      exfalso
      have hk' : fl (1 + p) = ((2 * k : ℤ) : ℝ) := by push_cast; linarith
      rw [hk'] at q1 q2
      have q1' : ((2 * a + 2 : ℤ) : ℝ) < ((2 * k : ℤ) : ℝ) := lt_of_lt_of_le (by norm_num) q1
      have q2' : ((2 * k : ℤ) : ℝ) < ((2 * a + 4 : ℤ) : ℝ) := lt_of_le_of_lt q2 (by norm_num)
      have := Int.cast_lt.1 q1'
      have := Int.cast_lt.1 q2'
      omega
    · rintro ⟨hk, he⟩
      exfalso
      have hz : (a : ℤ) * (a + 1) < k * (k - 1) := by
        rw [← he]
        have : (a : ℤ) * (a + 1) = 2 * t := by exact_mod_cast ht
        omega
      have hz' : k * (k - 1) < ((a : ℤ) + 1) * (a + 2) := by
        rw [← he]
        have : ((a : ℤ) + 1) * (a + 1 + 1) = 2 * u := by exact_mod_cast hu
        have e : ((a : ℤ) + 1) * (a + 2) = (a + 1) * (a + 1 + 1) := by ring
        rw [e, this]; omega
      have k1 : (a : ℤ) + 1 < k := by
        by_contra hc
        have : k * (k - 1) ≤ (a + 1) * a := mul_le_mul (by omega) (by omega) (by omega) (by omega)
        linarith
      have k2 : k < (a : ℤ) + 2 := by
        by_contra hc
        have : ((a : ℤ) + 2) * (a + 1) ≤ k * (k - 1) := mul_le_mul (by omega) (by omega) (by omega) (by omega)
        linarith
      omega

-- a rounding exists (`C85_rounding_exists`); three elements are those of a matrix of dimension 3, four are those of none
example {fl : ℝ → ℝ} (hfl : IsRounding fl) : floatDim fl 3 = 3 ∧ ∀ k : ℤ, floatDim fl 4 ≠ k := by
  refine ⟨?_, fun k hk => ?_⟩
  · have := (C57_float_dim hfl 3 (by norm_num) 3).2 ⟨by norm_num, by norm_num⟩
    exact_mod_cast this
  · obtain ⟨h1, h2⟩ := (C57_float_dim hfl 4 (by norm_num) k).1 hk
    norm_num at h2
    have : k < 4 := by nlinarith
    interval_cases k <;> omega

-- the last pair of four spin orbitals
example {fl : ℝ → ℝ} (hfl : IsRounding fl) : floatOrbpair fl 4 5 = .ok (2, 3) :=
  (C37_float_orbpair hfl 4 (by norm_num) 5 (2, 3)).2 ⟨2, 3, by norm_num, by norm_num, by decide⟩

end Fanpy.Props
