import Verif.Model.Binomial
import Mathlib.Data.Nat.Choose.Basic
import Mathlib.Data.Finset.Powerset
import Mathlib.Data.Fintype.Card
import Mathlib.Tactic.Ring
import Mathlib.Tactic.Linarith

/-! # C137: binomial coefficients -/

namespace Fanpy.Props
open Fanpy.Binomial

theorem binomial_loop (N t : ℕ) (h : t ≤ N) : loop N t = ((N.descFactorial t : ℤ), (t.factorial : ℤ)) := by
  induction t with
  | zero => rfl
  | succ j ih =>
    rw [loop, ih (by omega), Nat.descFactorial_succ, Nat.factorial_succ]
    have : ((N - j : ℕ) : ℤ) = N - j := Nat.cast_sub (by omega)
    simp only [Nat.cast_mul, this, Nat.cast_add, Nat.cast_one, Prod.mk.injEq]
    constructor <;> ring

theorem binomial_comb (N k : ℕ) (h : k ≤ N) : comb N k = (N.choose k : ℤ) := by
  rw [comb, if_neg (by omega)]
  have key : ∀ t ≤ N, (loop N t).1 / (loop N t).2 = (N.choose t : ℤ) := by
    intro t ht
    rw [binomial_loop N t ht, Nat.choose_eq_descFactorial_div_factorial]
    exact (Int.natCast_div _ _).symm
  by_cases hk : 2 * k ≤ N
  · have : (min (k : ℤ) (N - k)).toNat = k := by omega
    simp only [this]
    exact key k h
  · have : (min (k : ℤ) (N - k)).toNat = N - k := by omega
    simp only [this]
    rw [key (N - k) (by omega), Nat.choose_symm h]

/-- **C137, integers.**  `binomial(n, k)` is the number of sets of `k` objects out of `n`; there is none for negative numbers.  Nothing is printed. -/
theorem C137_int (n k : ℤ) :
    binomial (.int n) (.int k) = .ok (if 0 ≤ n ∧ 0 ≤ k then (((Finset.range n.toNat).powerset.filter fun s => s.card = k.toNat).card : ℤ) else 0, []) := by
  have h : ∀ N k : ℕ, (((Finset.range N).powerset.filter fun s => s.card = k).card) = N.choose k := by
    intro N k
    rw [← Finset.powersetCard_eq_filter, Finset.card_powersetCard, Finset.card_range]
  simp only [binomial, floored, h, List.append_nil]
  congr 2
  by_cases hn : 0 ≤ n ∧ 0 ≤ k
  · rw [if_pos hn]
    obtain ⟨N, rfl⟩ := Int.eq_ofNat_of_zero_le hn.1
    obtain ⟨K, rfl⟩ := Int.eq_ofNat_of_zero_le hn.2
    by_cases hk : K ≤ N
    · exact binomial_comb N K hk
    · rw [comb, if_pos (by omega)]
      simp [Nat.choose_eq_zero_of_lt (not_le.1 hk)]
  · rw [if_neg hn, comb, if_pos (by omega)]

/-- **C137, floats.**  The result is that of the largest integers that are not above the numbers, with one message for each number that is not an
integer of Python, that of `n` before that of `k`. -/
theorem C137_float (n k : Num) (a b : ℤ)
    (hn : n = .int a ∨ ∃ x : ℚ, n = .float x ∧ a ≤ x ∧ x < a + 1) (hk : k = .int b ∨ ∃ x : ℚ, k = .float x ∧ b ≤ x ∧ x < b + 1) :
    ∃ value printed, binomial (.int a) (.int b) = .ok (value, []) ∧ binomial n k = .ok (value, printed) ∧
      ((∃ x, n = .float x) ↔ ("n", a) ∈ printed) ∧ ((∃ x, k = .float x) ↔ ("k", b) ∈ printed) ∧
      printed.Sublist [("n", a), ("k", b)] := by
  have hf : ∀ (c : ℤ) (x : ℚ), c ≤ x → x < c + 1 → ⌊x⌋ = c := fun c x h1 h2 => Int.floor_eq_iff.2 ⟨h1, h2⟩
  rcases hn with rfl | ⟨x, rfl, h1, h2⟩ <;> rcases hk with rfl | ⟨y, rfl, h3, h4⟩
  · exact ⟨_, _, rfl, rfl, by simp, by simp, by simp⟩
  · refine ⟨comb a b, [("k", b)], rfl, by simp [binomial, floored, hf b y h3 h4], by simp, by simp, by simp⟩
  · refine ⟨comb a b, [("n", a)], rfl, by simp [binomial, floored, hf a x h1 h2], by simp, by simp, by simp⟩
  · refine ⟨comb a b, [("n", a), ("k", b)], rfl, by simp [binomial, floored, hf a x h1 h2, hf b y h3 h4], by simp, by simp, by simp⟩

/-- **C137, errors.**  Infinite numbers and `nan` are refused; `n` is looked at first. -/
theorem C137_errors (n k : Num) :
    (∃ e, binomial n k = .error e) ↔ n = .inf ∨ n = .nan ∨ k = .inf ∨ k = .nan := by
  cases n <;> cases k <;> simp [binomial, floored]

/-- `binomial(5, 3)`, `binomial(4, -1)` and `binomial(4.5, 2)` -/
example : binomial (.int 5) (.int 3) = .ok (10, []) ∧ binomial (.int 4) (.int (-1)) = .ok (0, []) ∧
    binomial (.float (9 / 2)) (.int 2) = .ok (6, [("n", 4)]) := by
  refine ⟨by decide +kernel, by decide +kernel, ?_⟩
  have : ⌊(9 / 2 : ℚ)⌋ = 4 := by rw [Int.floor_eq_iff]; norm_num
  simp only [binomial, floored, this]
  decide +kernel

end Fanpy.Props
