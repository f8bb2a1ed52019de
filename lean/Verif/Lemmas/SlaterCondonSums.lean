import Verif.Lemmas.SlaterCondon

/-! One- and two-body matrix elements summed against integrals. -/

namespace Fanpy.Spec
open Finset

variable {R : Type*} [CommRing R]

theorem sum_ite_mem_range {n : ℕ} {s : Finset ℕ} (hs : ∀ i ∈ s, i < n) (f : ℕ → R) :
    (∑ i ∈ range n, if i ∈ s then f i else 0) = ∑ i ∈ s, f i := by
  rw [← Finset.sum_filter]
  congr 1
  ext i
  simp only [Finset.mem_filter, Finset.mem_range]
  exact ⟨fun h => h.2, fun h => ⟨hs i h, h⟩⟩

theorem sum_eq_pt {n a : ℕ} (ha : a < n) (f : ℕ → R) : (∑ i ∈ range n, if i = a then f i else 0) = f a := by
  rw [Finset.sum_ite_eq' (range n) a f, if_pos (Finset.mem_range.2 ha)]

theorem oneBody_same {n : ℕ} (h : ℕ → ℕ → R) {s : Finset ℕ} (hs : ∀ i ∈ s, i < n) :
    oneBody n h s s = ∑ i ∈ s, h i i := by
  rw [oneBody, ← sum_ite_mem_range hs]
  apply Finset.sum_congr rfl
  intro i hi
  rw [← sum_eq_pt (Finset.mem_range.1 hi) (fun j => if i ∈ s then h i j else 0)]
  apply Finset.sum_congr rfl
  intro j _
  rw [oneME_same]
  by_cases e : j = i
  · subst e; by_cases hj : j ∈ s <;> simp [hj]
  · rw [if_neg e, if_neg (fun h => e h.1.symm), mul_zero]

theorem oneBody_single {n : ℕ} (h : ℕ → ℕ → R) {u : Finset ℕ} {a b : ℕ} (ha : a ∉ u) (hb : b ∉ u) (hab : a ≠ b)
    (han : a < n) (hbn : b < n) :
    oneBody n h (insert a u) (insert b u) = ((phase u a * phase u b : ℤ) : R) * h a b := by
  rw [oneBody, ← sum_eq_pt han (fun i => ((phase u a * phase u b : ℤ) : R) * h i b)]
  apply Finset.sum_congr rfl
  intro i _
  by_cases hi : i = a
  · rw [if_pos hi, ← sum_eq_pt hbn (fun j => ((phase u a * phase u b : ℤ) : R) * h i j)]
    apply Finset.sum_congr rfl
    intro j _
    rw [oneME_single u ha hb hab]
    by_cases hj : j = b
    · rw [if_pos ⟨hi, hj⟩, if_pos hj]; ring
    · rw [if_neg (fun h => hj h.2), if_neg hj, mul_zero]
  · rw [if_neg hi]
    apply Finset.sum_eq_zero
    intro j _
    rw [oneME_single u ha hb hab, if_neg (fun h => hi h.1), mul_zero]

theorem oneBody_far {n : ℕ} (h : ℕ → ℕ → R) {s t : Finset ℕ} (hst : s.card ≠ t.card ∨ 1 < (s \ t).card) :
    oneBody n h s t = 0 := by
  apply Finset.sum_eq_zero; intro i _
  apply Finset.sum_eq_zero; intro j _
  by_cases e : oneME R s t i j = 0
  · rw [e, mul_zero]
  · have := oneME_ne_zero e; omega

theorem twoBody_far {n : ℕ} (g : ℕ → ℕ → ℕ → ℕ → R) {s t : Finset ℕ} (hst : s.card ≠ t.card ∨ 2 < (s \ t).card) :
    twoBody n g s t = 0 := by
  apply Finset.sum_eq_zero; intro i _
  apply Finset.sum_eq_zero; intro j _
  apply Finset.sum_eq_zero; intro k _
  apply Finset.sum_eq_zero; intro l _
  by_cases e : twoME R s t i j k l = 0
  · rw [e, mul_zero]
  · have := twoME_ne_zero e; omega

/-- a point mass -/
theorem sum4_point {n a b c d : ℕ} (ha : a < n) (hb : b < n) (hc : c < n) (hd : d < n) (g : ℕ → ℕ → ℕ → ℕ → R) :
    (∑ i ∈ range n, ∑ j ∈ range n, ∑ k ∈ range n, ∑ l ∈ range n,
      g i j k l * (if i = a ∧ j = b ∧ k = c ∧ l = d then 1 else 0)) = g a b c d := by
  rw [Finset.sum_eq_single a, Finset.sum_eq_single b, Finset.sum_eq_single c, Finset.sum_eq_single d]
  · simp
  all_goals first
    | (intro x _ hx; simp [hx])
    | (intro h; exact absurd (Finset.mem_range.2 (by assumption)) h)

theorem sum4_same_direct {n : ℕ} {s : Finset ℕ} (hs : ∀ i ∈ s, i < n) (g : ℕ → ℕ → ℕ → ℕ → R) :
    (∑ i ∈ range n, ∑ j ∈ range n, ∑ k ∈ range n, ∑ l ∈ range n,
      g i j k l * (if i = k ∧ j = l ∧ i ∈ s ∧ j ∈ s then 1 else 0)) = ∑ i ∈ s, ∑ j ∈ s, g i j i j := by
  rw [← sum_ite_mem_range hs]
  apply Finset.sum_congr rfl; intro i hi
  by_cases his : i ∈ s
  · rw [if_pos his, ← sum_ite_mem_range hs]
    apply Finset.sum_congr rfl; intro j hj
    rw [Finset.sum_eq_single i, Finset.sum_eq_single j]
    · simp [his]
    · intro x _ hx; simp [Ne.symm hx]
    · intro h; exact absurd hj h
    · intro x _ hx; simp [Ne.symm hx]
    · intro h; exact absurd hi h
  · simp [his]

theorem sum4_same_exch {n : ℕ} {s : Finset ℕ} (hs : ∀ i ∈ s, i < n) (g : ℕ → ℕ → ℕ → ℕ → R) :
    (∑ i ∈ range n, ∑ j ∈ range n, ∑ k ∈ range n, ∑ l ∈ range n,
      g i j k l * (if i = l ∧ j = k ∧ i ∈ s ∧ j ∈ s then 1 else 0)) = ∑ i ∈ s, ∑ j ∈ s, g i j j i := by
  rw [← sum4_same_direct hs (fun i j k l => g i j l k)]
  apply Finset.sum_congr rfl; intro i _
  apply Finset.sum_congr rfl; intro j _
  rw [Finset.sum_comm]

theorem twoBody_same {n : ℕ} (g : ℕ → ℕ → ℕ → ℕ → R) {s : Finset ℕ} (hs : ∀ i ∈ s, i < n) :
    twoBody n g s s = ∑ i ∈ s, ∑ j ∈ s, (g i j i j - g i j j i) := by
  simp only [twoBody, twoME_same, mul_sub, Finset.sum_sub_distrib]
  rw [sum4_same_direct hs, sum4_same_exch hs]

theorem sum4_single {n : ℕ} {u : Finset ℕ} (hu : ∀ i ∈ u, i < n) {a b : ℕ} (ha : a < n) (hb : b < n)
    (g : ℕ → ℕ → ℕ → ℕ → R) :
    (∑ i ∈ range n, ∑ j ∈ range n, ∑ k ∈ range n, ∑ l ∈ range n,
      g i j k l * (if i = a ∧ k = b ∧ j = l ∧ j ∈ u then 1 else 0)) = ∑ m ∈ u, g a m b m := by
  rw [Finset.sum_eq_single a, ← sum_ite_mem_range hu]
  · apply Finset.sum_congr rfl; intro j hj
    rw [Finset.sum_eq_single b, Finset.sum_eq_single j]
    · by_cases h : j ∈ u <;> simp [h]
    · intro x _ hx; simp [Ne.symm hx]
    · intro h; exact absurd hj h
    · intro x _ hx; simp [hx]
    · intro h; exact absurd (Finset.mem_range.2 hb) h
  · intro x _ hx; simp [hx]
  · intro h; exact absurd (Finset.mem_range.2 ha) h

theorem sum4_swap_right (n : ℕ) (F : ℕ → ℕ → ℕ → ℕ → R) :
    (∑ i ∈ range n, ∑ j ∈ range n, ∑ k ∈ range n, ∑ l ∈ range n, F i j k l) =
      ∑ i ∈ range n, ∑ j ∈ range n, ∑ k ∈ range n, ∑ l ∈ range n, F i j l k := by
  apply Finset.sum_congr rfl; intro i _
  apply Finset.sum_congr rfl; intro j _
  rw [Finset.sum_comm]

theorem sum4_swap_left (n : ℕ) (F : ℕ → ℕ → ℕ → ℕ → R) :
    (∑ i ∈ range n, ∑ j ∈ range n, ∑ k ∈ range n, ∑ l ∈ range n, F i j k l) =
      ∑ i ∈ range n, ∑ j ∈ range n, ∑ k ∈ range n, ∑ l ∈ range n, F j i k l := by
  rw [Finset.sum_comm]

theorem twoBody_single {n : ℕ} (g : ℕ → ℕ → ℕ → ℕ → R) {u : Finset ℕ} (hu : ∀ i ∈ u, i < n) {a b : ℕ}
    (ha : a ∉ u) (hb : b ∉ u) (hab : a ≠ b) (han : a < n) (hbn : b < n) :
    twoBody n g (insert a u) (insert b u) = ((phase u a * phase u b : ℤ) : R) *
      ∑ m ∈ u, (g a m b m - g a m m b - g m a b m + g m a m b) := by
  have e : ∀ i j k l, g i j k l * twoME R (insert a u) (insert b u) i j k l = ((phase u a * phase u b : ℤ) : R) *
      (g i j k l * (if i = a ∧ k = b ∧ j = l ∧ j ∈ u then 1 else 0)
        - g i j k l * (if i = a ∧ l = b ∧ j = k ∧ j ∈ u then 1 else 0)
        - g i j k l * (if j = a ∧ k = b ∧ i = l ∧ i ∈ u then 1 else 0)
        + g i j k l * (if j = a ∧ l = b ∧ i = k ∧ i ∈ u then 1 else 0)) := by
    intro i j k l
    rw [twoME_single u ha hb hab]; ring
  simp only [twoBody, e, ← Finset.mul_sum]
  congr 1
  simp only [Finset.sum_add_distrib, Finset.sum_sub_distrib]
  rw [sum4_single hu han hbn g]
  rw [sum4_swap_right n (fun i j k l => g i j k l * (if i = a ∧ l = b ∧ j = k ∧ j ∈ u then 1 else 0)),
    sum4_single hu han hbn (fun i j k l => g i j l k)]
  rw [sum4_swap_left n (fun i j k l => g i j k l * (if j = a ∧ k = b ∧ i = l ∧ i ∈ u then 1 else 0)),
    sum4_single hu han hbn (fun i j k l => g j i k l)]
  rw [sum4_swap_left n (fun i j k l => g i j k l * (if j = a ∧ l = b ∧ i = k ∧ i ∈ u then 1 else 0)),
    sum4_swap_right n (fun i j k l => g j i k l * (if i = a ∧ l = b ∧ j = k ∧ j ∈ u then 1 else 0)),
    sum4_single hu han hbn (fun i j k l => g j i l k)]

theorem twoBody_double {n : ℕ} (g : ℕ → ℕ → ℕ → ℕ → R) {u : Finset ℕ} {a b c d : ℕ}
    (ha : a ∉ u) (hb : b ∉ u) (hc : c ∉ u) (hd : d ∉ u)
    (hab : a ≠ b) (hcd : c ≠ d) (hac : a ≠ c) (had : a ≠ d) (hbc : b ≠ c) (hbd : b ≠ d)
    (han : a < n) (hbn : b < n) (hcn : c < n) (hdn : d < n) :
    twoBody n g (insert a (insert b u)) (insert c (insert d u)) =
      ((eps (insert a (insert b u)) a b * eps (insert c (insert d u)) c d : ℤ) : R) *
      (g a b c d - g a b d c - g b a c d + g b a d c) := by
  have e : ∀ i j k l, g i j k l * twoME R (insert a (insert b u)) (insert c (insert d u)) i j k l =
      ((eps (insert a (insert b u)) a b * eps (insert c (insert d u)) c d : ℤ) : R) *
      (g i j k l * (if i = a ∧ j = b ∧ k = c ∧ l = d then 1 else 0)
        - g i j k l * (if i = a ∧ j = b ∧ k = d ∧ l = c then 1 else 0)
        - g i j k l * (if i = b ∧ j = a ∧ k = c ∧ l = d then 1 else 0)
        + g i j k l * (if i = b ∧ j = a ∧ k = d ∧ l = c then 1 else 0)) := by
    intro i j k l
    rw [twoME_double u ha hb hc hd hab hcd hac had hbc hbd]; ring
  simp only [twoBody, e, ← Finset.mul_sum]
  congr 1
  simp only [Finset.sum_add_distrib, Finset.sum_sub_distrib]
  rw [sum4_point han hbn hcn hdn, sum4_point han hbn hdn hcn, sum4_point hbn han hcn hdn, sum4_point hbn han hdn hcn]

end Fanpy.Spec
