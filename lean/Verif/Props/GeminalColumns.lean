import Verif.Model.Geminal
import Verif.Spec.Geminal
import Mathlib.Tactic.Linarith
import Mathlib.Tactic.LinearCombination

/-! # C37: orbital pairs and column indices of the geminal wavefunctions -/

namespace Fanpy.Props
open Fanpy.Slater Fanpy.Geminal Fanpy.Spec

/-! ## Lexicographic lists of pairs -/

theorem mem_rows (n : ℕ) (a len : ℕ → ℕ) (p : ℕ × ℕ) :
    p ∈ (List.range n).flatMap (fun i => (List.range' (a i) (len i)).map fun j => (i, j)) ↔
      p.1 < n ∧ a p.1 ≤ p.2 ∧ p.2 < a p.1 + len p.1 := by
  simp only [List.mem_flatMap, List.mem_range, List.mem_map, List.mem_range'_1]
  constructor
  · rintro ⟨i, hi, j, hj, rfl⟩; exact ⟨hi, hj⟩
  · rintro ⟨h1, h2⟩; exact ⟨p.1, h1, p.2, h2, rfl⟩

theorem nodup_rows (n : ℕ) (a len : ℕ → ℕ) :
    ((List.range n).flatMap (fun i => (List.range' (a i) (len i)).map fun j => (i, j))).Nodup := by
  rw [List.nodup_flatMap]
  constructor
  · intro i _
    exact List.Nodup.map (fun x y h => (Prod.mk.inj h).2) List.nodup_range'
  · refine List.nodup_range.imp ?_
    intro i j hij
    simp only [Function.onFun, List.disjoint_left, List.mem_map]
    rintro _ ⟨x, -, rfl⟩ ⟨y, -, h⟩
    exact hij (Prod.mk.inj h).1.symm

theorem length_rows (n : ℕ) (a len : ℕ → ℕ) :
    ((List.range n).flatMap (fun i => (List.range' (a i) (len i)).map fun j => (i, j))).length =
      ∑ i ∈ Finset.range n, len i := by
  rw [List.length_flatMap, ← List.sum_toFinset _ List.nodup_range, List.toFinset_range]
  simp

theorem idxOf_rows (n : ℕ) (a len : ℕ → ℕ) (p : ℕ × ℕ) (h1 : p.1 < n) (h2 : a p.1 ≤ p.2)
    (h3 : p.2 < a p.1 + len p.1) :
    ((List.range n).flatMap (fun i => (List.range' (a i) (len i)).map fun j => (i, j))).idxOf p =
      ∑ i ∈ Finset.range p.1, len i + (p.2 - a p.1) := by
  obtain ⟨i, j⟩ := p
  simp only at h1 h2 h3 ⊢
  obtain ⟨m, rfl⟩ : ∃ m, n = i + (m + 1) := ⟨n - i - 1, by omega⟩
  rw [List.range_add, List.flatMap_append, List.idxOf_append_of_notMem, length_rows]
  · congr 1
    rw [List.range_succ_eq_map, List.map_cons, List.flatMap_cons, List.idxOf_append_of_mem]
    · have hinj : Function.Injective fun j : ℕ => (i + 0, j) := fun x y h => (Prod.mk.inj h).2
      have := List.nodup_range' (s := a i) (n := len i)
      have hg : (List.range' (a (i + 0)) (len (i + 0)))[j - a i]? = some j := by
        rw [Nat.add_zero, List.getElem?_range' (by omega)]; congr 1; omega
      have hg' : ((List.range' (a (i + 0)) (len (i + 0))).map fun j => (i + 0, j))[j - a i]? = some (i, j) := by
        rw [List.getElem?_map, hg]; rfl
      obtain ⟨hl, he⟩ := List.getElem?_eq_some_iff.1 hg'
      rw [← he]
      apply List.Nodup.idxOf_getElem
      exact List.Nodup.map hinj List.nodup_range'
    · simp only [List.mem_map, List.mem_range'_1]
      exact ⟨j, ⟨by simpa using h2, by simpa using h3⟩, by simp⟩
  · rw [mem_rows]; simp

/-! ## `APG` -/

theorem mem_pairsAll {nspin : ℕ} {p : ℕ × ℕ} : p ∈ pairsAll nspin ↔ p.1 < p.2 ∧ p.2 < nspin := by
  rw [pairsAll, mem_rows nspin (fun i => i + 1) (fun i => nspin - (i + 1))]; omega

theorem nodup_pairsAll (nspin : ℕ) : (pairsAll nspin).Nodup :=
  nodup_rows nspin (fun i => i + 1) (fun i => nspin - (i + 1))

theorem sum_tri (n i : ℕ) (h : i ≤ n) : 2 * (∑ a ∈ Finset.range i, (n - (a + 1))) + i * (i + 1) = 2 * (n * i) := by
  induction i with
  | zero => simp
  | succ i ih =>
    rw [Finset.sum_range_succ]
    have := ih (by omega)
    obtain ⟨m, rfl⟩ : ∃ m, n = i + 1 + m := ⟨n - (i + 1), by omega⟩
    rw [show i + 1 + m - (i + 1) = m by omega]
    nlinarith

/-- There are `nspin (nspin - 1) / 2` columns. -/
theorem C37_apg_length (nspin : ℕ) : (pairsAll nspin).length = nspin * (nspin - 1) / 2 := by
  have h := sum_tri nspin nspin le_rfl
  rw [pairsAll, length_rows nspin (fun i => i + 1) (fun i => nspin - (i + 1))]
  rcases nspin with - | n
  · simp
  · rw [show n + 1 - 1 = n by omega]
    symm
    apply Nat.div_eq_of_eq_mul_right (by norm_num)
    nlinarith

theorem idxOf_pairsAll {nspin i j : ℕ} (h1 : i < j) (h2 : j < nspin) :
    ((pairsAll nspin).idxOf (i, j) : ℤ) = nspin * i - i * (i + 1) / 2 + (j - i - 1) := by
  have e := idxOf_rows nspin (fun i => i + 1) (fun i => nspin - (i + 1)) (i, j) (by simp only; omega)
    (by simp only; omega) (by simp only; omega)
  simp only at e
  rw [pairsAll, e]
  have h := sum_tri nspin i (by omega)
  have h' : 2 * ((∑ a ∈ Finset.range i, (nspin - (a + 1)) : ℕ) : ℤ) + i * (i + 1) = 2 * (nspin * i) := by
    exact_mod_cast h
  have e2 : (i * (i + 1) : ℤ) / 2 = nspin * i - ((∑ a ∈ Finset.range i, (nspin - (a + 1)) : ℕ) : ℤ) := by
    apply Int.ediv_eq_of_eq_mul_right (by norm_num)
    linarith
  rw [e2]
  push_cast [show i + 1 ≤ j by omega]
  ring

/-- C37. `APG.get_col_ind` gives the position of the pair in the lexicographic list of pairs, whichever orbital of the
pair comes first. -/
theorem C37_apg_col (nspin i j : ℕ) (h1 : i < j) (h2 : j < nspin) :
    apgColInd nspin ((i : ℤ), (j : ℤ)) = .ok ((pairsAll nspin).idxOf (i, j) : ℤ) ∧
      apgColInd nspin ((j : ℤ), (i : ℤ)) = .ok ((pairsAll nspin).idxOf (i, j) : ℤ) := by
  rw [idxOf_pairsAll h1 h2]
  constructor
  · simp only [apgColInd]
    rw [if_neg (show ¬ ((i : ℤ) > j) by omega), if_pos (by omega)]
  · simp only [apgColInd]
    rw [if_pos (show ((j : ℤ) > i) by omega), if_pos (by omega)]

/-- C37. Any other pair of integers is rejected. -/
theorem C37_apg_col_rejects (nspin : ℕ) (p : ℤ × ℤ)
    (h : p.1 = p.2 ∨ p.1 < 0 ∨ p.2 < 0 ∨ (nspin : ℤ) ≤ p.1 ∨ (nspin : ℤ) ≤ p.2) :
    apgColInd nspin p = .error .valueError := by
  obtain ⟨i, j⟩ := p
  rw [apgColInd]
  simp only at h ⊢
  rw [if_neg]
  split_ifs <;> simp only <;> omega

theorem apgOrbpair_idxOf {nspin i j : ℕ} (h1 : i < j) (h2 : j < nspin) :
    apgOrbpair nspin ((pairsAll nspin).idxOf (i, j) : ℤ) = .ok ((i : ℤ), (j : ℤ)) := by
  have hlt : (pairsAll nspin).idxOf (i, j) < (pairsAll nspin).length :=
    List.idxOf_lt_length_of_mem (mem_pairsAll.2 ⟨h1, h2⟩)
  have hidx := idxOf_pairsAll h1 h2
  generalize (pairsAll nspin).idxOf (i, j) = c at *
  rw [C37_apg_length] at hlt
  have hev : ∀ m : ℤ, 2 * (m * (m + 1) / 2) = m * (m + 1) := fun m =>
    Int.mul_ediv_cancel' (Int.even_mul_succ_self m).two_dvd
  have hq : ((c : ℤ) : ℚ) < (nspin : ℚ) * (nspin - 1) / 2 := by
    rw [lt_div_iff₀ (by norm_num)]
    have h3 : c * 2 < nspin * (nspin - 1) := by
      have := Nat.div_mul_le_self (nspin * (nspin - 1)) 2
      omega
    have h4 : ((c * 2 : ℕ) : ℚ) < ((nspin * (nspin - 1) : ℕ) : ℚ) := by exact_mod_cast h3
    push_cast [show 1 ≤ nspin by omega] at h4 ⊢
    exact h4
  rw [apgOrbpair, if_pos ⟨by omega, hq⟩]
  have hi : ⌊(2 * (nspin : ℝ) - 1 - Real.sqrt ((1 - 2 * (nspin : ℝ)) ^ 2 - 8 * ((c : ℤ) : ℝ))) / 2⌋ = (i : ℤ) := by
    have h2c : 2 * (c : ℤ) = 2 * (nspin * i) - i * (i + 1) + 2 * (j - i - 1) := by
      have := hev i; rw [hidx]; linarith
    have h2r : 2 * ((c : ℤ) : ℝ) = 2 * (nspin * i) - i * (i + 1) + 2 * (j - i - 1) := by exact_mod_cast h2c
    have hij : (i : ℝ) + 1 ≤ j := by exact_mod_cast h1
    have hjn : (j : ℝ) + 1 ≤ nspin := by exact_mod_cast h2
    have s1 : Real.sqrt ((1 - 2 * (nspin : ℝ)) ^ 2 - 8 * ((c : ℤ) : ℝ)) ≤ 2 * nspin - 1 - 2 * i := by
      apply Real.sqrt_le_iff.2
      constructor
      · linarith
      · nlinarith
    have s2 : 2 * (nspin : ℝ) - 1 - 2 * (i + 1) < Real.sqrt ((1 - 2 * (nspin : ℝ)) ^ 2 - 8 * ((c : ℤ) : ℝ)) := by
      apply Real.lt_sqrt_of_sq_lt
      nlinarith
    rw [Int.floor_eq_iff, Int.cast_natCast (R := ℝ) i]
    constructor <;> linarith
  simp only [hi]
  rw [hidx]
  congr 2
  ring

theorem colCond (nspin : ℕ) (c : ℤ) (hc : 0 ≤ c) :
    (c : ℚ) < (nspin : ℚ) * (nspin - 1) / 2 ↔ c.toNat < (pairsAll nspin).length := by
  obtain ⟨c', rfl⟩ := Int.eq_ofNat_of_zero_le hc
  rw [lt_div_iff₀ (by norm_num), C37_apg_length]
  rcases nspin with - | n
  · simp
  · rw [show ((n + 1 : ℕ) : ℚ) * (((n + 1 : ℕ) : ℚ) - 1) = (((n + 1) * n : ℕ) : ℚ) by push_cast; ring,
      show (((c' : ℕ) : ℤ) : ℚ) * 2 = ((c' * 2 : ℕ) : ℚ) by push_cast; ring, Nat.cast_lt]
    have h7 : 2 ∣ (n + 1) * n := by rw [mul_comm]; exact (Nat.even_mul_succ_self n).two_dvd
    simp only [Int.toNat_natCast, Nat.add_sub_cancel]
    omega

/-- C37. `APG.get_orbpair` is the inverse of `APG.get_col_ind`: it returns the pair `i < j` with that column. -/
theorem C37_apg_orbpair_partial (nspin : ℕ) (c : ℤ) (p : ℤ × ℤ) :
    apgOrbpair nspin c = .ok p ↔ p.1 < p.2 ∧ apgColInd nspin p = .ok c := by
  constructor
  · intro h
    by_cases hc : 0 ≤ c ∧ (c : ℚ) < (nspin : ℚ) * (nspin - 1) / 2
    · have hlt := (colCond nspin c hc.1).1 hc.2
      have hm := mem_pairsAll.1 (List.getElem_mem hlt)
      have hix := (nodup_pairsAll nspin).idxOf_getElem _ hlt
      generalize (pairsAll nspin)[c.toNat] = q at hm hix
      obtain ⟨i, j⟩ := q
      have e := apgOrbpair_idxOf hm.1 hm.2
      have e' := (C37_apg_col nspin i j hm.1 hm.2).1
      rw [hix, Int.toNat_of_nonneg hc.1] at e e'
      rw [e] at h
      obtain rfl : ((i : ℤ), (j : ℤ)) = p := by injection h
      exact ⟨by simpa using hm.1, e'⟩
    · rw [apgOrbpair, if_neg hc] at h; cases h
  · rintro ⟨hp, h⟩
    obtain ⟨i, j⟩ := p
    have hv : 0 ≤ i ∧ i < j ∧ j < nspin := by
      by_contra hv
      rw [C37_apg_col_rejects _ _ (by simp only at hp ⊢; omega)] at h
      cases h
    obtain ⟨a, rfl⟩ := Int.eq_ofNat_of_zero_le hv.1
    obtain ⟨b, rfl⟩ := Int.eq_ofNat_of_zero_le (show 0 ≤ j by omega)
    have hab : a < b := by exact_mod_cast hv.2.1
    have hbn : b < nspin := by exact_mod_cast hv.2.2
    have e' := (C37_apg_col nspin a b hab hbn).1
    rw [e'] at h
    have : ((pairsAll nspin).idxOf (a, b) : ℤ) = c := by injection h
    rw [← this]
    exact apgOrbpair_idxOf hab hbn

/-- C37. `APG.get_orbpair` rejects the integers that are not columns, and only those. -/
theorem C37_apg_orbpair_rejects (nspin : ℕ) (c : ℤ) :
    apgOrbpair nspin c = .error .valueError ↔ ¬ (0 ≤ c ∧ c < (nspin * (nspin - 1) / 2 : ℕ)) := by
  rw [apgOrbpair, ← C37_apg_length]
  by_cases hc : 0 ≤ c
  · have e := colCond nspin c hc
    split_ifs with h
    · have := e.1 h.2
      simp only [false_iff, not_not]; omega
    · have : ¬ c.toNat < (pairsAll nspin).length := fun h' => h ⟨hc, e.2 h'⟩
      simp only [true_iff]; omega
  · rw [if_neg (by tauto)]; simp [hc]

/-! ## `BasicAPsetG` -/

theorem mem_pairsSets {nspin : ℕ} {p : ℕ × ℕ} :
    p ∈ pairsSets nspin ↔ p.1 < nspin / 2 ∧ nspin / 2 ≤ p.2 ∧ p.2 < nspin := by
  rw [pairsSets, mem_rows (nspin / 2) (fun _ => nspin / 2) (fun _ => nspin - nspin / 2)]; omega

theorem nodup_pairsSets (nspin : ℕ) : (pairsSets nspin).Nodup :=
  nodup_rows (nspin / 2) (fun _ => nspin / 2) (fun _ => nspin - nspin / 2)

/-- There are `nspatial ** 2` columns (`nspin` is even). -/
theorem C37_apsetg_length (nspin : ℕ) (he : nspin % 2 = 0) : (pairsSets nspin).length = (nspin / 2) ^ 2 := by
  rw [pairsSets, length_rows (nspin / 2) (fun _ => nspin / 2) (fun _ => nspin - nspin / 2), Finset.sum_const,
    Finset.card_range, smul_eq_mul, show nspin - nspin / 2 = nspin / 2 by omega, sq]

/-- C37. `BasicAPsetG.get_col_ind` gives the position of the pair in the lexicographic list of pairs. -/
theorem C37_apsetg_col (nspin i j : ℕ) (he : nspin % 2 = 0) (h1 : i < nspin / 2) (h2 : nspin / 2 ≤ j)
    (h3 : j < nspin) :
    apsetgColInd nspin ((i : ℤ), (j : ℤ)) = .ok ((pairsSets nspin).idxOf (i, j) : ℤ) := by
  have e := idxOf_rows (nspin / 2) (fun _ => nspin / 2) (fun _ => nspin - nspin / 2) (i, j) h1 h2
    (by simp only; omega)
  simp only [Finset.sum_const, Finset.card_range, smul_eq_mul] at e
  rw [apsetgColInd, if_pos (by simp only; omega), pairsSets, e]
  congr 1
  rw [show nspin - nspin / 2 = nspin / 2 by omega]
  push_cast [h2]
  ring

/-- C37. Any other pair of integers is rejected. -/
theorem C37_apsetg_col_rejects (nspin : ℕ) (p : ℤ × ℤ)
    (h : p.1 < 0 ∨ ((nspin / 2 : ℕ) : ℤ) ≤ p.1 ∨ p.2 < (nspin / 2 : ℕ) ∨ (nspin : ℤ) ≤ p.2) :
    apsetgColInd nspin p = .error .valueError := by
  rw [apsetgColInd, if_neg (by omega)]

/-- C37. `BasicAPsetG.get_orbpair` is the inverse of `BasicAPsetG.get_col_ind`. -/
theorem C37_apsetg_orbpair (nspin : ℕ) (he : nspin % 2 = 0) (c : ℤ) (p : ℤ × ℤ) :
    apsetgOrbpair nspin c = .ok p ↔ apsetgColInd nspin p = .ok c := by
  obtain ⟨i, j⟩ := p
  rw [apsetgOrbpair, apsetgColInd]
  obtain ⟨m, rfl⟩ : ∃ m, nspin = 2 * m := ⟨nspin / 2, by omega⟩
  rw [show 2 * m / 2 = m by omega]
  push_cast
  by_cases hm : m = 0
  · subst hm
    rw [if_neg (by simp), if_neg (by simp)]
    simp
  have hm0 : (0 : ℤ) < m := by omega
  constructor
  · split_ifs with h1 h2
    · intro h
      have hp : (c / (m : ℤ), c - c / m * m + m) = (i, j) := by injection h
      obtain ⟨rfl, rfl⟩ := Prod.mk.inj hp
      congr 1; ring
    · intro h
      have hp : (c / (m : ℤ), c - c / m * m + m) = (i, j) := by injection h
      obtain ⟨rfl, rfl⟩ := Prod.mk.inj hp
      exfalso
      apply h2
      have e1 := Int.emod_nonneg c hm0.ne'
      have e2 := Int.emod_lt_of_pos c hm0
      have e3 : c - c / m * m = c % m := by rw [Int.emod_def]; ring
      rw [e3]
      refine ⟨Int.ediv_nonneg h1.1 hm0.le, ?_, by omega, by omega⟩
      rw [Int.ediv_lt_iff_lt_mul hm0, ← sq]; exact h1.2
    · intro h; cases h
    · intro h; cases h
  · split_ifs with h1 h2
    · intro h
      have hc : (m : ℤ) * i + j - m = c := by injection h
      subst hc
      have e : ((m : ℤ) * i + j - m) / m = i := by
        rw [show (m : ℤ) * i + j - m = (j - m) + m * i by ring, Int.add_mul_ediv_left _ _ hm0.ne',
          Int.ediv_eq_zero_of_lt (by omega) (by omega), zero_add]
      simp only [e]
      congr 2
      ring
    · intro h
      have hc : (m : ℤ) * i + j - m = c := by injection h
      exfalso
      apply h2
      subst hc
      constructor
      · nlinarith
      · nlinarith
    · intro h; cases h
    · intro h; cases h

/-- C37. `BasicAPsetG.get_orbpair` rejects the integers that are not columns, and only those. -/
theorem C37_apsetg_orbpair_rejects (nspin : ℕ) (c : ℤ) :
    apsetgOrbpair nspin c = .error .valueError ↔ ¬ (0 ≤ c ∧ c < ((nspin / 2) ^ 2 : ℕ)) := by
  rw [apsetgOrbpair]
  push_cast
  split_ifs with h <;> simp [h]

/-! ## `APIG`: a table -/

/-- C37. For a table without repeated pairs `get_col_ind` and `get_orbpair` are inverse of each other. -/
theorem C37_table (pairs : List (ℕ × ℕ)) (h : pairs.Nodup) (p : ℕ × ℕ) (c : ℕ) :
    dictColInd pairs p = .ok c ↔ dictOrbpair pairs c = .ok p := by
  rw [dictColInd, dictOrbpair]
  constructor
  · split_ifs with hm
    · intro hc
      have : pairs.idxOf p = c := by injection hc
      rw [← this, List.getElem?_eq_getElem (List.idxOf_lt_length_of_mem hm), List.getElem_idxOf]
    · intro hc; cases hc
  · intro hc
    rcases hg : pairs[c]? with - | q
    · rw [hg] at hc; cases hc
    · rw [hg] at hc
      have : q = p := by injection hc
      subst this
      obtain ⟨hl, rfl⟩ := List.getElem?_eq_some_iff.1 hg
      rw [if_pos (List.getElem_mem _), h.idxOf_getElem _ hl]

/-- C37. Pairs that are not in the table, and columns beyond its end, are rejected. -/
theorem C37_table_rejects (pairs : List (ℕ × ℕ)) (p : ℕ × ℕ) (c : ℕ) :
    (p ∉ pairs → dictColInd pairs p = .error .valueError) ∧
      (pairs.length ≤ c → dictOrbpair pairs c = .error .valueError) := by
  constructor
  · intro h; rw [dictColInd, if_neg h]
  · intro h; rw [dictOrbpair, List.getElem?_eq_none h]

-- four spin orbitals
example : apgColInd 4 (2, 1) = .ok 3 := by decide
example : apgOrbpair 4 3 = .ok (1, 2) := by
  rw [C37_apg_orbpair_partial]; exact ⟨by norm_num, by decide⟩
example : apsetgColInd 4 (1, 2) = .ok 2 ∧ apsetgOrbpair 4 2 = .ok (1, 2) := by
  rw [C37_apsetg_orbpair _ rfl]; decide
example : apsetgColInd 4 (2, 1) = .error .valueError := C37_apsetg_col_rejects _ _ (by decide)

end Fanpy.Props
