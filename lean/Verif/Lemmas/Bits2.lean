import Verif.Lemmas.Bits

/-! Helper lemmas for string-based conversions, annihilation and creation. -/

namespace Fanpy.Slater
open Fanpy.Spec

theorem foldl_bits (l : List ℕ) (acc : ℕ) :
    l.foldl (fun acc d => 2 * acc + d) acc = acc * 2 ^ l.length + Nat.ofDigits 2 l.reverse := by
  induction l generalizing acc with
  | nil => simp
  | cons a l ih =>
    simp only [List.foldl_cons, List.reverse_cons, List.length_cons]
    rw [ih, Nat.ofDigits_append]
    simp [Nat.ofDigits_singleton]; ring

theorem intOfBits_ok {l : List ℕ} (h : l ≠ []) : intOfBits l = .ok (Nat.ofDigits 2 l.reverse) := by
  cases l with
  | nil => exact absurd rfl h
  | cons a l =>
    simp only [intOfBits]
    rw [foldl_bits]; simp

theorem testBit_ofDigits {l : List ℕ} (h : ∀ d ∈ l, d < 2) (i : ℕ) :
    (Nat.ofDigits 2 l).testBit i = decide (l.getD i 0 = 1) := by
  induction l generalizing i with
  | nil => simp [Nat.ofDigits]
  | cons a l ih =>
    have ha : a < 2 := h a (by simp)
    have hl : ∀ d ∈ l, d < 2 := fun d hd => h d (by simp [hd])
    rw [Nat.ofDigits_cons]
    cases i with
    | zero =>
      rw [Nat.testBit_zero]
      have : (a + 2 * Nat.ofDigits 2 l) % 2 = a := by omega
      simp [this]
    | succ i =>
      rw [Nat.testBit_succ]
      have : (a + 2 * Nat.ofDigits 2 l) / 2 = Nat.ofDigits 2 l := by omega
      rw [this, ih hl]; simp

/-- Characterisation of `annihilate`. -/
theorem annihilate_eq_some_iff {sd sd' : ℕ} {l : List ℕ} :
    annihilate (some sd) l = some sd' ↔
      l.Nodup ∧ (∀ i ∈ l, sd.testBit i = true) ∧ occSet sd' = occSet sd \ l.toFinset := by
  induction l generalizing sd with
  | nil => rw [annihilate]; simp; exact eq_comm
  | cons i l ih =>
    simp only [annihilate, occ_some]
    cases hb : sd.testBit i
    · simp [hb]
    · simp only [Bool.not_true, Bool.false_eq_true, if_false]
      rw [ih, occSet_xor_of_mem hb]
      constructor
      · rintro ⟨h1, h2, h3⟩
        have hi : i ∉ l := by
          intro hi
          have := h2 i hi
          rw [testBit_xor_shift] at this
          simp [hb] at this
        refine ⟨List.nodup_cons.2 ⟨hi, h1⟩, ?_, ?_⟩
        · intro j hj
          rcases List.mem_cons.1 hj with rfl | hj
          · exact hb
          · have := h2 j hj
            rw [testBit_xor_shift] at this
            have hne : i ≠ j := fun h => hi (h ▸ hj)
            simpa [hne] using this
        · rw [h3]; ext j; simp; tauto
      · rintro ⟨h1, h2, h3⟩
        rw [List.nodup_cons] at h1
        refine ⟨h1.2, ?_, ?_⟩
        · intro j hj
          rw [testBit_xor_shift]
          have hne : i ≠ j := fun h => h1.1 (h ▸ hj)
          simp [hne, h2 j (by simp [hj])]
        · rw [h3]; ext j; simp; tauto

/-- Characterisation of `create`. -/
theorem create_eq_some_iff {sd sd' : ℕ} {l : List ℕ} :
    create (some sd) l = some sd' ↔
      l.Nodup ∧ (∀ i ∈ l, sd.testBit i = false) ∧ occSet sd' = occSet sd ∪ l.toFinset := by
  induction l generalizing sd with
  | nil => rw [create]; simp; exact eq_comm
  | cons i l ih =>
    simp only [create, occ_some]
    cases hb : sd.testBit i
    · simp only [Bool.not_false, if_true]
      rw [ih, occSet_or]
      constructor
      · rintro ⟨h1, h2, h3⟩
        have hi : i ∉ l := by
          intro hi
          have := h2 i hi
          rw [testBit_or_shift] at this
          simp at this
        refine ⟨List.nodup_cons.2 ⟨hi, h1⟩, ?_, ?_⟩
        · intro j hj
          rcases List.mem_cons.1 hj with rfl | hj
          · exact hb
          · have := h2 j hj
            rw [testBit_or_shift] at this
            simp at this
            exact this.1
        · rw [h3]; ext j; simp
      · rintro ⟨h1, h2, h3⟩
        rw [List.nodup_cons] at h1
        refine ⟨h1.2, ?_, ?_⟩
        · intro j hj
          rw [testBit_or_shift]
          have hne : i ≠ j := fun h => h1.1 (h ▸ hj)
          simp [hne, h2 j (by simp [hj])]
        · rw [h3]; ext j; simp
    · simp [hb]

@[simp] theorem annihilate_none (l : List ℕ) : annihilate none l = none := by cases l <;> rfl
@[simp] theorem create_none (l : List ℕ) : create none l = none := by cases l <;> rfl

theorem annihilate_of {sd : ℕ} {l : List ℕ} (h1 : l.Nodup) (h2 : ∀ i ∈ l, sd.testBit i = true) :
    annihilate (some sd) l = some (sdOf (occSet sd \ l.toFinset)) :=
  annihilate_eq_some_iff.2 ⟨h1, h2, occSet_sdOf _⟩

theorem create_of {sd : ℕ} {l : List ℕ} (h1 : l.Nodup) (h2 : ∀ i ∈ l, sd.testBit i = false) :
    create (some sd) l = some (sdOf (occSet sd ∪ l.toFinset)) :=
  create_eq_some_iff.2 ⟨h1, h2, occSet_sdOf _⟩

theorem annihilate_eq_none_iff {sd : ℕ} {l : List ℕ} :
    annihilate (some sd) l = none ↔ ¬ (l.Nodup ∧ ∀ i ∈ l, sd.testBit i = true) := by
  constructor
  · rintro h ⟨h1, h2⟩
    rw [annihilate_of h1 h2] at h; cases h
  · intro h
    cases hc : annihilate (some sd) l with
    | none => rfl
    | some x => exact absurd ⟨(annihilate_eq_some_iff.1 hc).1, (annihilate_eq_some_iff.1 hc).2.1⟩ h

theorem create_eq_none_iff {sd : ℕ} {l : List ℕ} :
    create (some sd) l = none ↔ ¬ (l.Nodup ∧ ∀ i ∈ l, sd.testBit i = false) := by
  constructor
  · rintro h ⟨h1, h2⟩
    rw [create_of h1 h2] at h; cases h
  · intro h
    cases hc : create (some sd) l with
    | none => rfl
    | some x => exact absurd ⟨(create_eq_some_iff.1 hc).1, (create_eq_some_iff.1 hc).2.1⟩ h

theorem annihilate_append (sd : Option ℕ) (l₁ l₂ : List ℕ) :
    annihilate sd (l₁ ++ l₂) = annihilate (annihilate sd l₁) l₂ := by
  induction l₁ generalizing sd with
  | nil => rfl
  | cons i l ih =>
    cases sd with
    | none => simp
    | some s =>
      simp only [List.cons_append, annihilate]
      split_ifs
      · simp
      · exact ih _

theorem create_append (sd : Option ℕ) (l₁ l₂ : List ℕ) :
    create sd (l₁ ++ l₂) = create (create sd l₁) l₂ := by
  induction l₁ generalizing sd with
  | nil => rfl
  | cons i l ih =>
    cases sd with
    | none => simp
    | some s =>
      simp only [List.cons_append, create]
      split_ifs
      · exact ih _
      · simp

theorem lt_two_pow_iff {sd n : ℕ} : sd < 2 ^ n ↔ ∀ i ∈ occSet sd, i < n := by
  constructor
  · intro h i hi
    rw [mem_occSet] at hi
    by_contra hc
    have := Nat.testBit_lt_two_pow (lt_of_lt_of_le h (Nat.pow_le_pow_right (by norm_num) (not_lt.1 hc)))
    rw [this] at hi; cases hi
  · intro h
    apply Nat.lt_of_testBit n <;> try simp
    · cases hb : sd.testBit n
      · rfl
      · exact absurd (h n (mem_occSet.2 hb)) (lt_irrefl n)
    · intro j hj
      rw [Nat.testBit_two_pow_of_ne (by omega)]
      cases hb : sd.testBit j
      · rfl
      · exact absurd (h j (mem_occSet.2 hb)) (by omega)

theorem splitSpin_ok {sd n : ℕ} (hn : 0 < n) : splitSpin sd n = .ok (sd % 2 ^ n, sd / 2 ^ n) := by
  have h1 : ¬ ((n : ℤ) ≤ 0) := by omega
  have h2 : Nat.ofDigits 2 (List.replicate n 1) = 2 ^ n - 1 := by
    apply Nat.eq_of_testBit_eq
    intro i
    rw [testBit_ofDigits (by intro d hd; simp at hd; omega), Nat.testBit_two_pow_sub_one]
    by_cases hi : i < n
    · simp [hi]
    · simp [hi]
  simp only [splitSpin, if_neg h1, Int.toNat_natCast]
  rw [intOfBits_ok (by simp; omega)]
  simp only [List.reverse_replicate]
  rw [h2, Nat.shiftRight_eq_div_pow]
  show Except.ok _ = _
  rw [Nat.and_two_pow_sub_one_eq_mod]

end Fanpy.Slater
