import Verif.Lemmas.Bits2

/-! Helper lemmas for `interleave` and `deinterleave`. -/

namespace Fanpy.Slater
open Fanpy.Spec

/-- least-significant-first interleaving of two digit lists -/
def weave (a b : List ℕ) : List ℕ := (a.zip b).flatMap (fun p => [p.1, p.2])

theorem reverse_weave {a b : List ℕ} (h : a.length = b.length) :
    (weave a b).reverse = weave b.reverse a.reverse := by
  have key : ∀ (l : List (ℕ × ℕ)), (l.flatMap (fun p => [p.1, p.2])).reverse
      = (l.reverse.map Prod.swap).flatMap (fun p => [p.1, p.2]) := by
    intro l
    induction l with
    | nil => rfl
    | cons p l ih => simp [ih]
  unfold weave
  rw [key]
  congr 1
  rw [List.map_reverse, List.zip_swap]
  apply List.ext_getElem
  · simp
  · intro i h1 h2
    simp only [List.length_reverse, List.length_zip] at h1 h2
    simp [h]

theorem weave_getD {a b : List ℕ} (h : a.length = b.length) (i : ℕ) :
    (weave a b).getD (2 * i) 0 = a.getD i 0 ∧ (weave a b).getD (2 * i + 1) 0 = b.getD i 0 := by
  induction a generalizing b i with
  | nil =>
    cases b with
    | nil => simp [weave]
    | cons => simp at h
  | cons x a ih =>
    cases b with
    | nil => simp at h
    | cons y b =>
      have h' : a.length = b.length := by simpa using h
      have hw : weave (x :: a) (y :: b) = x :: y :: weave a b := by simp [weave]
      cases i with
      | zero => simp [hw]
      | succ i =>
        have := ih h' i
        rw [hw, show 2 * (i + 1) = 2 * i + 1 + 1 by ring]
        simpa using this

theorem weave_mem_lt {a b : List ℕ} (ha : ∀ d ∈ a, d < 2) (hb : ∀ d ∈ b, d < 2) : ∀ d ∈ weave a b, d < 2 := by
  intro d hd
  simp only [weave, List.mem_flatMap, List.mem_cons, List.not_mem_nil, or_false] at hd
  obtain ⟨p, hp, hd⟩ := hd
  have := List.of_mem_zip (a := p.1) (b := p.2) hp
  rcases hd with rfl | rfl
  · exact ha _ this.1
  · exact hb _ this.2

theorem length_weave {a b : List ℕ} (h : a.length = b.length) : (weave a b).length = 2 * a.length := by
  simp [weave, List.length_flatMap, h]; ring

theorem binRev_length_le {sd m : ℕ} (hm : 0 < m) (h : sd < 2 ^ m) : (binRev sd).length ≤ m := by
  unfold binRev
  split_ifs with h0
  · simp; omega
  · exact (Nat.digits_length_le_iff (by norm_num) sd).2 h

theorem binRev_getD_bit (sd i : ℕ) : (binRev sd).getD i 0 = if sd.testBit i then 1 else 0 := by
  rw [binRev_getD, testBit_eq]
  rcases Nat.mod_two_eq_zero_or_one (sd >>> i) with h2 | h2 <;> simp [h2]

theorem pad_getD (sd k i : ℕ) :
    (binRev sd ++ List.replicate k 0).getD i 0 = if sd.testBit i then 1 else 0 := by
  by_cases h : i < (binRev sd).length
  · rw [List.getD_append _ _ _ _ h, binRev_getD_bit]
  · rw [List.getD_append_right _ _ _ _ (by omega), testBit_of_ge_length (by omega)]
    by_cases h2 : i - (binRev sd).length < k <;> simp [h2]

theorem interleave_spec {n sd : ℕ} (hn : 0 < n) (h : sd < 2 ^ (2 * n)) :
    ∃ r, interleave sd n = .ok r ∧ (∀ i, i < n → r.testBit (2 * i) = sd.testBit i) ∧
      (∀ i, i < n → r.testBit (2 * i + 1) = sd.testBit (i + n)) ∧ r < 2 ^ (2 * n) := by
  have h1 : ¬ ((n : ℤ) ≤ 0) := by omega
  have hlen := binRev_length_le (m := 2 * n) (by omega) h
  set B := List.replicate (n * 2 - (binStr sd).length) 0 ++ binStr sd with hB
  have hBlen : B.length = 2 * n := by
    simp [hB, binStr]; omega
  have hBr : B.reverse = binRev sd ++ List.replicate (n * 2 - (binStr sd).length) 0 := by
    simp [hB, binStr]
  have hdig : ∀ d ∈ B, d < 2 := by
    intro d hd
    rw [hB, List.mem_append] at hd
    rcases hd with hd | hd
    · simp at hd; omega
    · exact binRev_mem_lt (by simpa [binStr] using hd)
  have hlt : (B.take n).length = (B.drop n).length := by simp [hBlen]; omega
  have hwne : weave (B.take n) (B.drop n) ≠ [] := by
    intro hc
    have := length_weave hlt
    rw [hc] at this
    simp [hBlen] at this; omega
  have htd : ∀ d ∈ (weave (B.drop n).reverse (B.take n).reverse), d < 2 := by
    apply weave_mem_lt
    · intro d hd; exact hdig d (List.mem_of_mem_drop (List.mem_reverse.1 hd))
    · intro d hd; exact hdig d (List.mem_of_mem_take (List.mem_reverse.1 hd))
  have hrev : (B.drop n).reverse.length = (B.take n).reverse.length := by simp [hBlen]; omega
  have hdr : (B.drop n).reverse = B.reverse.take n := by
    rw [List.reverse_drop]; congr 1; omega
  have htr : (B.take n).reverse = B.reverse.drop n := by
    rw [List.reverse_take]; congr 1; omega
  refine ⟨Nat.ofDigits 2 (weave (B.drop n).reverse (B.take n).reverse), ?_, ?_, ?_, ?_⟩
  · simp only [interleave, if_neg h1, Int.toNat_natCast]
    rw [← hB]
    show intOfBits (weave (B.take n) (B.drop n)) = _
    rw [intOfBits_ok hwne, reverse_weave hlt]
  · intro i hi
    rw [testBit_ofDigits htd, (weave_getD hrev i).1, hdr]
    have : (B.reverse.take n).getD i 0 = B.reverse.getD i 0 := by
      simp [List.getD_eq_getElem?_getD, hi]
    rw [this, hBr, pad_getD]
    cases sd.testBit i <;> simp
  · intro i hi
    rw [testBit_ofDigits htd, (weave_getD hrev i).2, htr]
    have : (B.reverse.drop n).getD i 0 = B.reverse.getD (i + n) 0 := by
      simp [List.getD_eq_getElem?_getD, Nat.add_comm]
    rw [this, hBr, pad_getD]
    cases sd.testBit (i + n) <;> simp
  · have := Nat.ofDigits_lt_base_pow_length (b := 2) (by norm_num) htd
    rwa [length_weave hrev, show (B.drop n).reverse.length = n by simp [hBlen]; omega] at this

theorem takeEven_getD (l : List ℕ) (i : ℕ) : (takeEven l).getD i 0 = l.getD (2 * i) 0 := by
  induction l using takeEven.induct generalizing i with
  | case1 => simp [takeEven]
  | case2 a => cases i <;> simp [takeEven, Nat.mul_succ]
  | case3 a b l ih =>
    cases i with
    | zero => simp [takeEven]
    | succ i =>
      rw [show 2 * (i + 1) = 2 * i + 1 + 1 by ring]
      simpa [takeEven] using ih i

theorem takeEven_length (l : List ℕ) : (takeEven l).length = (l.length + 1) / 2 := by
  induction l using takeEven.induct with
  | case1 => simp [takeEven]
  | case2 a => simp [takeEven]
  | case3 a b l ih => simp [takeEven, ih]; omega

theorem takeEven_mem {l : List ℕ} {x : ℕ} (h : x ∈ takeEven l) : x ∈ l := by
  induction l using takeEven.induct with
  | case1 => simp [takeEven] at h
  | case2 a => simpa [takeEven] using h
  | case3 a b l ih =>
    simp only [takeEven, List.mem_cons] at h ⊢
    rcases h with h | h
    · exact Or.inl h
    · exact Or.inr (Or.inr (ih h))

theorem deinterleave_spec {n sd : ℕ} (hn : 0 < n) (h : sd < 2 ^ (2 * n)) :
    ∃ r, deinterleave sd n = .ok r ∧ (∀ i, i < n → r.testBit i = sd.testBit (2 * i)) ∧
      (∀ i, i < n → r.testBit (i + n) = sd.testBit (2 * i + 1)) ∧ r < 2 ^ (2 * n) := by
  have h1 : ¬ ((n : ℤ) ≤ 0) := by omega
  have hlen := binRev_length_le (m := 2 * n) (by omega) h
  set L := binRev sd with hL
  have ha : (takeEven L).length ≤ n := by rw [takeEven_length]; omega
  have hb : (takeEven L.tail).length ≤ n := by rw [takeEven_length]; simp; omega
  set A := takeEven L ++ List.replicate (n - (takeEven L).length) 0 with hA
  set C := takeEven L.tail ++ List.replicate (n - (takeEven L.tail).length) 0 with hC
  have hAl : A.length = n := by simp [hA]; omega
  have hCl : C.length = n := by simp [hC]; omega
  have hd : ∀ d ∈ A ++ C, d < 2 := by
    intro d hd
    simp only [hA, hC, List.mem_append, List.mem_replicate] at hd
    rcases hd with (hd | hd) | (hd | hd)
    · exact binRev_mem_lt (takeEven_mem hd)
    · omega
    · exact binRev_mem_lt (List.mem_of_mem_tail (takeEven_mem hd))
    · omega
  have padD : ∀ (l : List ℕ) (k i : ℕ), (l ++ List.replicate k 0).getD i 0 = l.getD i 0 := by
    intro l k i
    by_cases hi : i < l.length
    · rw [List.getD_append _ _ _ _ hi]
    · rw [List.getD_append_right _ _ _ _ (by omega), List.getD_eq_default _ _ (by omega : l.length ≤ i)]
      by_cases h2 : i - l.length < k <;> simp [h2]
  refine ⟨Nat.ofDigits 2 (A ++ C), ?_, ?_, ?_, ?_⟩
  · simp only [deinterleave, if_neg h1, Int.toNat_natCast]
    rw [← hL]
    rw [intOfBits_ok]
    · congr 1
      congr 1
      simp [hA, hC]
    · intro hc
      have := congrArg List.length hc
      simp only [List.length_append, List.length_replicate, List.length_reverse, List.length_nil] at this
      omega
  · intro i hi
    rw [testBit_ofDigits hd, List.getD_append _ _ _ _ (by omega), hA, padD, takeEven_getD, hL, binRev_getD_bit]
    cases sd.testBit (2 * i) <;> simp
  · intro i hi
    rw [testBit_ofDigits hd, List.getD_append_right _ _ _ _ (by omega), hAl, Nat.add_sub_cancel, hC, padD,
      takeEven_getD]
    have : L.tail.getD (2 * i) 0 = L.getD (2 * i + 1) 0 := by
      cases L <;> simp
    rw [this, hL, binRev_getD_bit]
    cases sd.testBit (2 * i + 1) <;> simp
  · have := Nat.ofDigits_lt_base_pow_length (b := 2) (by norm_num) hd
    rwa [List.length_append, hAl, hCl, ← two_mul] at this

end Fanpy.Slater
