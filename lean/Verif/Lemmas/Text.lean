import Verif.Model.Text
import Verif.Lemmas.Bits2

/-! Helper lemmas: binary and decimal texts, joining and splitting. -/

namespace Fanpy.Text
open Fanpy.Slater Fanpy.Spec

theorem fmtBits_ne_nil (K n : ℕ) : fmtBits K n ≠ [] := by
  simp only [fmtBits, ne_eq, List.append_eq_nil_iff, not_and]
  exact fun _ => Nat.toDigits_ne_nil

theorem length_fmtBits (K n : ℕ) : (fmtBits K n).length = max K (Nat.toDigits 2 n).length := by
  simp [fmtBits]; omega

theorem length_fmtBits_of_lt {K n : ℕ} (hK : 0 < K) (h : n < 2 ^ K) : (fmtBits K n).length = K := by
  rw [length_fmtBits]
  have := (Nat.length_toDigits_le_iff (b := 2) (n := n) (by decide) hK).2 h
  omega

/-- the `i`-th digit from the right -/
theorem getD_reverse_toDigits (n i : ℕ) :
    (Nat.toDigits 2 n).reverse.getD i '0' = if n.testBit i then '1' else '0' := by
  induction n using Nat.strong_induction_on generalizing i with
  | _ n ih =>
    by_cases h : n < 2
    · rw [Nat.toDigits_of_lt_base h]
      have : n = 0 ∨ n = 1 := by omega
      rcases this with rfl | rfl <;> cases i <;> simp [Nat.digitChar, Nat.testBit_succ]
    · rw [Nat.toDigits_of_base_le (by decide) (by omega), List.reverse_append]
      cases i with
      | zero =>
        have : n % 2 = 0 ∨ n % 2 = 1 := by omega
        rcases this with e | e <;> simp [Nat.testBit_zero, e, Nat.digitChar]
      | succ i =>
        rw [Nat.testBit_succ]
        simpa using ih (n / 2) (by omega) i

theorem getD_reverse_fmtBits (K n i : ℕ) :
    (fmtBits K n).reverse.getD i '0' = if n.testBit i then '1' else '0' := by
  rw [← getD_reverse_toDigits, fmtBits, List.reverse_append, List.reverse_replicate]
  by_cases h : i < (Nat.toDigits 2 n).reverse.length
  · rw [List.getD_append _ _ _ _ h]
  · rw [List.getD_append_right _ _ _ _ (by omega), List.getD_eq_default _ _ (by omega : _ ≤ i)]
    simp only [List.getD_eq_getElem?_getD, List.getElem?_replicate]
    split <;> simp

theorem bitChar_mem_fmtBits {K n : ℕ} {c : Char} (h : c ∈ fmtBits K n) : c = '0' ∨ c = '1' := by
  rw [← List.mem_reverse, List.mem_iff_getElem] at h
  obtain ⟨i, hi, rfl⟩ := h
  rw [← List.getD_eq_getElem _ '0' hi, getD_reverse_fmtBits]
  split <;> simp

/-- Reading zeros and ones, most significant first. -/
theorem parseInt_bits {s : List Char} (hne : s ≠ []) (h : ∀ c ∈ s, c = '0' ∨ c = '1') :
    ∃ m, parseInt 2 s = .ok m ∧ ∀ i, m.testBit i = decide (s.reverse.getD i '0' = '1') := by
  refine ⟨Nat.ofDigitChars 2 s 0, ?_, ?_⟩
  · rw [parseInt, if_neg (by simpa using hne), if_pos]
    rw [List.all_eq_true]
    intro c hc
    rcases h c hc with rfl | rfl <;> decide
  · clear hne
    induction s using List.reverseRecOn with
    | nil => simp
    | append_singleton s c ih =>
      intro i
      have hs := ih (fun c hc => h c (by simp [hc]))
      have hc := h c (by simp)
      rw [Nat.ofDigitChars_append, Nat.ofDigitChars_cons, Nat.ofDigitChars_nil, List.reverse_append]
      cases i with
      | zero =>
        rcases hc with rfl | rfl <;> simp [Nat.testBit_zero, Nat.add_mod]
      | succ i =>
        rw [Nat.testBit_succ]
        have : (2 * Nat.ofDigitChars 2 s 0 + (c.toNat - '0'.toNat)) / 2 = Nat.ofDigitChars 2 s 0 := by
          rcases hc with rfl | rfl
          · simp
          · simp only [Char.reduceToNat]; omega
        rw [this, hs]
        simp

theorem parseInt_ten_pyStr (n : ℕ) : parseInt 10 (pyStr n) = .ok n := by
  rw [parseInt, if_neg (by simp [pyStr, Nat.toDigits_ne_nil]), if_pos]
  · simp [pyStr]
  · rw [List.all_eq_true]
    intro c hc
    have h := Nat.isDigit_of_mem_toDigits (by decide) (by decide) hc
    rw [h]
    simp only [Bool.true_and, decide_eq_true_eq]
    simp only [Char.isDigit, Bool.and_eq_true, decide_eq_true_eq] at h
    have := h.2
    have h2 : c.toNat ≤ 57 := by
      simpa [UInt32.le_iff_toNat_le] using this
    omega

theorem pyStr_ne_nil (n : ℕ) : pyStr n ≠ [] := Nat.toDigits_ne_nil

theorem space_notMem_pyStr (n : ℕ) : ' ' ∉ pyStr n := by
  intro h
  have := Nat.isDigit_of_mem_toDigits (b := 10) (by decide) (by decide) h
  revert this; decide

theorem space_notMem_bits {s : List Char} (h : ∀ c ∈ s, c = '0' ∨ c = '1') : ' ' ∉ s := by
  intro hs
  rcases h _ hs with h | h <;> revert h <;> decide

theorem splitOn_joinSp {parts : List (List Char)} (hne : parts ≠ []) (h : ∀ p ∈ parts, ' ' ∉ p) :
    (joinSp parts).splitOn ' ' = parts := by
  induction parts with
  | nil => exact absurd rfl hne
  | cons p ps ih =>
    cases ps with
    | nil =>
      simp only [joinSp, List.intercalate_singleton, List.splitOn_eq_splitOnP]
      apply List.splitOnP_eq_singleton
      intro c hc
      have := h p (by simp)
      simp only [beq_eq_false_iff_ne, ne_eq]
      rintro rfl; exact this hc
    | cons q qs =>
      have ih' := ih (by simp) (fun p hp => h p (by simp [hp]))
      have e : joinSp (p :: q :: qs) = p ++ ' ' :: joinSp (q :: qs) := by
        simp [joinSp, List.intercalate]
      rw [e, List.splitOn_eq_splitOnP, List.splitOnP_append_cons_of_forall_mem _ _ (by simp),
        ← List.splitOn_eq_splitOnP, ih']
      intro c hc
      have := h p (by simp)
      simp only [beq_eq_false_iff_ne, ne_eq]
      rintro rfl; exact this hc

theorem splitSp_joinSp {parts : List (List Char)} (h : ∀ p ∈ parts, p ≠ [] ∧ ' ' ∉ p) :
    splitSp (joinSp parts) = parts := by
  by_cases hne : parts = []
  · subst hne; simp [joinSp, splitSp]
  · rw [splitSp, splitOn_joinSp hne (fun p hp => (h p hp).2), List.filter_eq_self]
    intro p hp
    simpa using (h p hp).1

theorem splitSp_joinSp_pyStr (l : List ℕ) : splitSp (joinSp (l.map pyStr)) = l.map pyStr := by
  apply splitSp_joinSp
  intro p hp
  obtain ⟨n, _, rfl⟩ := List.mem_map.1 hp
  exact ⟨pyStr_ne_nil n, space_notMem_pyStr n⟩

theorem mapM_parseInt_pyStr (l : List ℕ) : (l.map pyStr).mapM (parseInt 10) = .ok l := by
  induction l with
  | nil => rfl
  | cons n l ih =>
    rw [List.map_cons, List.mapM_cons, parseInt_ten_pyStr, ih]; rfl

/-- Reading back the numbers of a label. -/
theorem mapM_parse_joined (l : List ℕ) : (splitSp (joinSp (l.map pyStr))).mapM (parseInt 10) = .ok l := by
  rw [splitSp_joinSp_pyStr, mapM_parseInt_pyStr]

end Fanpy.Text
