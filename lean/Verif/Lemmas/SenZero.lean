import Verif.Lemmas.SpinSplit

/-!
# Determinants of seniority zero
-/

namespace Fanpy.Lemmas
open Finset Fanpy.Spec Fanpy.Slater Fanpy.Props Fanpy.Ham

theorem getSeniority_eq {n sd : ℕ} (hn : 0 < n) :
    getSeniority sd n = .ok (occSet ((sd % 2 ^ n) ^^^ (sd / 2 ^ n))).card := by
  simp only [getSeniority, splitSpin_ok hn, bind, Except.bind, pure, Except.pure, totalOcc_eq]

theorem seniority_zero_iff {n sd : ℕ} (hn : 0 < n) : getSeniority sd n = .ok 0 ↔ sd / 2 ^ n = sd % 2 ^ n := by
  rw [getSeniority_eq hn]
  constructor
  · intro h
    have h := Except.ok.inj h
    rw [Finset.card_eq_zero, occSet_xor, ← Finset.bot_eq_empty, symmDiff_eq_bot] at h
    exact (occSet_injective h).symm
  · intro h
    rw [h, Nat.xor_self]; rfl

theorem and_mod (a b n : ℕ) : (a &&& b) % 2 ^ n = (a % 2 ^ n) &&& (b % 2 ^ n) := by
  apply Nat.eq_of_testBit_eq; intro i
  simp only [Nat.testBit_mod_two_pow, Nat.testBit_and]
  cases decide (i < n) <;> simp

theorem and_div (a b n : ℕ) : (a &&& b) / 2 ^ n = (a / 2 ^ n) &&& (b / 2 ^ n) := by
  apply Nat.eq_of_testBit_eq; intro i
  simp only [Nat.testBit_div_two_pow, Nat.testBit_and]

theorem xor_mod (a b n : ℕ) : (a ^^^ b) % 2 ^ n = (a % 2 ^ n) ^^^ (b % 2 ^ n) := by
  apply Nat.eq_of_testBit_eq; intro i
  simp only [Nat.testBit_mod_two_pow, Nat.testBit_xor]
  cases decide (i < n) <;> simp

theorem xor_div (a b n : ℕ) : (a ^^^ b) / 2 ^ n = (a / 2 ^ n) ^^^ (b / 2 ^ n) := by
  apply Nat.eq_of_testBit_eq; intro i
  simp only [Nat.testBit_div_two_pow, Nat.testBit_xor]

theorem diffOrbs_split {n a b : ℕ} (ha : a / 2 ^ n = a % 2 ^ n) (hb : b / 2 ^ n = b % 2 ^ n) :
    diffOrbs a b =
      ((diffOrbs (a % 2 ^ n) (b % 2 ^ n)).1 ++ (diffOrbs (a % 2 ^ n) (b % 2 ^ n)).1.map (· + n),
       (diffOrbs (a % 2 ^ n) (b % 2 ^ n)).2 ++ (diffOrbs (a % 2 ^ n) (b % 2 ^ n)).2.map (· + n)) := by
  simp only [diffOrbs]
  rw [occIndices_split ((a ^^^ b) &&& a) n, occIndices_split ((a ^^^ b) &&& b) n]
  simp only [and_mod, and_div, xor_mod, xor_div, ha, hb]

theorem sharedSd_split {n a b : ℕ} (ha : a / 2 ^ n = a % 2 ^ n) (hb : b / 2 ^ n = b % 2 ^ n) :
    sharedSd a b % 2 ^ n = (a % 2 ^ n) &&& (b % 2 ^ n) ∧ sharedSd a b / 2 ^ n = (a % 2 ^ n) &&& (b % 2 ^ n) := by
  simp only [sharedSd, and_mod, and_div, ha, hb, and_self]

/-- the sign of a pair of orbitals `p`, `p + n` in a determinant of seniority zero depends only on the number of pairs -/
theorem phase_pair {n p : ℕ} {U u : Finset ℕ} (hU : ∀ i ∈ U, i < n) (hp : p < n) (hu : u = U ∪ U.image (· + n)) :
    phase u p * phase u (p + n) = (-1) ^ U.card := by
  have h1 : u.filter (· < p) = U.filter (· < p) := by
    ext i; subst hu
    simp only [Finset.mem_filter, Finset.mem_union, Finset.mem_image]
    constructor
    · rintro ⟨h | ⟨j, -, rfl⟩, h2⟩
      · exact ⟨h, h2⟩
      · omega
    · exact fun h => ⟨Or.inl h.1, h.2⟩
  have h2 : u.filter (· < p + n) = U ∪ (U.filter (· < p)).image (· + n) := by
    ext i; subst hu
    simp only [Finset.mem_filter, Finset.mem_union, Finset.mem_image]
    constructor
    · rintro ⟨h | ⟨j, h, rfl⟩, h2⟩
      · exact Or.inl h
      · exact Or.inr ⟨j, ⟨h, by omega⟩, rfl⟩
    · rintro (h | ⟨j, h, rfl⟩)
      · exact ⟨Or.inl h, by have := hU i h; omega⟩
      · exact ⟨Or.inr ⟨j, h.1, rfl⟩, by omega⟩
  have h3 : Disjoint U ((U.filter (· < p)).image (· + n)) := by
    rw [Finset.disjoint_left]
    intro i hi h
    rw [Finset.mem_image] at h
    obtain ⟨j, -, rfl⟩ := h
    have := hU _ hi; omega
  rw [phase, phase, h1, h2, Finset.card_union_of_disjoint h3,
    Finset.card_image_of_injective _ (fun a b h => by simpa using h), pow_add, mul_left_comm, ← mul_pow]
  simp

end Fanpy.Lemmas
