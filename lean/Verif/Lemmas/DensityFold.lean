import Verif.Lemmas.Density

/-! # Helper lemmas for the density matrices: the loops -/

set_option linter.unusedSimpArgs false
set_option linter.unusedSectionVars false

namespace Fanpy.Lemmas
open Fanpy.Ham Fanpy.Spec Fanpy.Slater Finset

variable {R : Type} [CommRing R]

/-- the spatial orbital -/
def sp (n i : ℕ) : ℕ := if i < n then i else i - n

/-- whether adding at the spin orbitals `(i, j)` shows up in array `m` at `(a, b)` -/
def W1 (R : Type) [CommRing R] (ob : OrbType) (n m a b i j : ℕ) : R :=
  match ob, m with
  | .generalized, 0 => if a = i ∧ b = j then 1 else 0
  | .restricted, 0 => if (i < n ↔ j < n) ∧ a = sp n i ∧ b = sp n j then 1 else 0
  | .unrestricted, 0 => if i < n ∧ j < n ∧ a = sp n i ∧ b = sp n j then 1 else 0
  | .unrestricted, 1 => if ¬ i < n ∧ ¬ j < n ∧ a = sp n i ∧ b = sp n j then 1 else 0
  | _, _ => 0

def W2 (R : Type) [CommRing R] (ob : OrbType) (n m a b c d i j k l : ℕ) : R :=
  match ob, m with
  | .generalized, 0 => if a = i ∧ b = j ∧ c = k ∧ d = l then 1 else 0
  | .restricted, 0 => if (i < n ↔ k < n) ∧ (j < n ↔ l < n) ∧ a = sp n i ∧ b = sp n j ∧ c = sp n k ∧ d = sp n l then 1 else 0
  | .unrestricted, 0 =>
    if (i < n ∧ k < n ∧ j < n ∧ l < n) ∧ a = sp n i ∧ b = sp n j ∧ c = sp n k ∧ d = sp n l then 1 else 0
  | .unrestricted, 1 =>
    if (i < n ∧ k < n ∧ ¬ j < n ∧ ¬ l < n) ∧ a = sp n i ∧ b = sp n j ∧ c = sp n k ∧ d = sp n l then 1 else 0
  | .unrestricted, 2 =>
    if (¬ i < n ∧ ¬ k < n ∧ ¬ j < n ∧ ¬ l < n) ∧ a = sp n i ∧ b = sp n j ∧ c = sp n k ∧ d = sp n l then 1 else 0
  | _, _ => 0

theorem sp_lt {n i : ℕ} (h : i < 2 * n) : sp n i < n := by unfold sp; split_ifs <;> omega

theorem spatialIndex_sp {i n : ℕ} (h : i < 2 * n) : spatialIndex i n = .ok ((sp n i : ℕ) : ℤ) := spatialIndex_ok h

theorem bump2_apply (f : ℕ → ℕ → R) (a b : ℕ) (v : R) (x y : ℕ) :
    bump2 f a b v x y = f x y + v * if x = a ∧ y = b then 1 else 0 := by
  rw [bump2]; split_ifs <;> simp

theorem bump4_apply (f : ℕ → ℕ → ℕ → ℕ → R) (a b c d : ℕ) (v : R) (x y z w : ℕ) :
    bump4 f a b c d v x y z w = f x y z w + v * if x = a ∧ y = b ∧ z = c ∧ w = d then 1 else 0 := by
  rw [bump4]; split_ifs <;> simp

theorem guard_ok2 {n a b : ℕ} (ha : a < n) (hb : b < n) : guardIdx n [a, b] = .ok () := by simp [guardIdx, ha, hb]

theorem guard_ok4 {n a b c d : ℕ} (ha : a < n) (hb : b < n) (hc : c < n) (hd : d < n) :
    guardIdx n [a, b, c, d] = .ok () := by simp [guardIdx, ha, hb, hc, hd]

theorem addOne_ok (ob : OrbType) (n : ℕ) (ms : List (ℕ → ℕ → R)) (hms : ms.length = (ob.shape n).1) {i j : ℕ} (v : R)
    (hi : i < 2 * n) (hj : j < 2 * n) :
    ∃ ms', addOneDensity (ob.shape n).2.2 ms i j v ob = .ok ms' ∧ ms'.length = (ob.shape n).1 ∧
      ∀ m < (ob.shape n).1, ∀ a b, ms'.getD m (fun _ _ => 0) a b =
        ms.getD m (fun _ _ => 0) a b + v * W1 R ob n m a b i j := by
  have hsi := sp_lt hi
  have hsj := sp_lt hj
  cases ob with
  | restricted =>
    obtain ⟨f, rfl⟩ : ∃ f, ms = [f] := List.length_eq_one_iff.1 hms
    simp only [addOneDensity, OrbType.shape, List.length_singleton, ne_eq, not_true, and_false, if_false, reduceCtorEq,
      false_and, spatialIndex_sp hi, spatialIndex_sp hj, isAlpha_ok hi, isAlpha_ok hj, bind, Except.bind,
      decide_eq_decide, Int.toNat_natCast, guard_ok2 hsi hsj, pure, Except.pure]
    by_cases h : i < n ↔ j < n
    · rw [if_pos h]
      refine ⟨_, rfl, rfl, fun m hm a b => ?_⟩
      obtain rfl : m = 0 := by omega
      simp only [List.modify_zero_cons, List.getD_cons_zero, bump2_apply, W1, h, true_and]
    · rw [if_neg h]
      refine ⟨_, rfl, rfl, fun m hm a b => ?_⟩
      obtain rfl : m = 0 := by omega
      simp [W1, h]
  | unrestricted =>
    obtain ⟨f, g, rfl⟩ : ∃ f g, ms = [f, g] := List.length_eq_two.1 hms
    simp only [addOneDensity, OrbType.shape, List.length_cons, List.length_nil, ne_eq, not_true, and_false, if_false, reduceCtorEq,
      false_and, or_self, spatialIndex_sp hi, spatialIndex_sp hj, isAlpha_ok hi, isAlpha_ok hj, bind, Except.bind,
      decide_eq_true_eq, Int.toNat_natCast, guard_ok2 hsi hsj, pure, Except.pure]
    by_cases h1 : i < n <;> by_cases h2 : j < n
    all_goals
      simp only [h1, h2, and_self, and_true, and_false, true_and, false_and, if_true, if_false, not_true, not_false_iff]
      refine ⟨_, rfl, rfl, fun m hm a b => ?_⟩
      obtain rfl | rfl : m = 0 ∨ m = 1 := by omega
      all_goals simp [W1, h1, h2, bump2_apply, List.modify_cons]
  | generalized =>
    obtain ⟨f, rfl⟩ : ∃ f, ms = [f] := List.length_eq_one_iff.1 hms
    simp only [addOneDensity, OrbType.shape, List.length_singleton, ne_eq, not_true, and_false, if_false, reduceCtorEq,
      false_and, bind, Except.bind, guard_ok2 hi hj, pure, Except.pure]
    refine ⟨_, rfl, rfl, fun m hm a b => ?_⟩
    obtain rfl : m = 0 := by omega
    simp [W1, bump2_apply]

theorem addTwo_ok (ob : OrbType) (n : ℕ) (ms : List (ℕ → ℕ → ℕ → ℕ → R)) (hms : ms.length = (ob.shape n).2.1)
    {i j k l : ℕ} (v : R) (hi : i < 2 * n) (hj : j < 2 * n) (hk : k < 2 * n) (hl : l < 2 * n) :
    ∃ ms', addTwoDensity (ob.shape n).2.2 ms i j k l v ob = .ok ms' ∧ ms'.length = (ob.shape n).2.1 ∧
      ∀ m < (ob.shape n).2.1, ∀ a b c d, ms'.getD m (fun _ _ _ _ => 0) a b c d =
        ms.getD m (fun _ _ _ _ => 0) a b c d + v * W2 R ob n m a b c d i j k l := by
  have hsi := sp_lt hi
  have hsj := sp_lt hj
  have hsk := sp_lt hk
  have hsl := sp_lt hl
  cases ob with
  | restricted =>
    obtain ⟨f, rfl⟩ : ∃ f, ms = [f] := List.length_eq_one_iff.1 hms
    simp only [addTwoDensity, OrbType.shape, List.length_singleton, ne_eq, not_true, and_false, if_false, reduceCtorEq,
      false_and, spatialIndex_sp hi, spatialIndex_sp hj, spatialIndex_sp hk, spatialIndex_sp hl, isAlpha_ok hi,
      isAlpha_ok hj, isAlpha_ok hk, isAlpha_ok hl, bind, Except.bind, decide_eq_decide, Int.toNat_natCast,
      guard_ok4 hsi hsj hsk hsl, pure, Except.pure]
    by_cases h : (i < n ↔ k < n) ∧ (j < n ↔ l < n)
    · rw [if_pos h]
      refine ⟨_, rfl, rfl, fun m hm a b c d => ?_⟩
      obtain rfl : m = 0 := by omega
      simp only [List.modify_zero_cons, List.getD_cons_zero, bump4_apply, W2, h.1, h.2, true_and]
    · rw [if_neg h]
      refine ⟨_, rfl, rfl, fun m hm a b c d => ?_⟩
      obtain rfl : m = 0 := by omega
      rw [W2, if_neg (fun h' => h ⟨h'.1, h'.2.1⟩), mul_zero, add_zero]
  | unrestricted =>
    obtain ⟨f, g, e, rfl⟩ : ∃ f g e, ms = [f, g, e] := List.length_eq_three.1 hms
    simp only [addTwoDensity, OrbType.shape, List.length_cons, List.length_nil, ne_eq, not_true, and_false, if_false, reduceCtorEq,
      false_and, or_self, spatialIndex_sp hi, spatialIndex_sp hj, spatialIndex_sp hk, spatialIndex_sp hl, isAlpha_ok hi,
      isAlpha_ok hj, isAlpha_ok hk, isAlpha_ok hl, bind, Except.bind, decide_eq_true_eq, Int.toNat_natCast,
      guard_ok4 hsi hsj hsk hsl, pure, Except.pure]
    by_cases h1 : i < n <;> by_cases h2 : j < n <;> by_cases h3 : k < n <;> by_cases h4 : l < n
    all_goals
      simp only [h1, h2, h3, h4, and_self, and_true, and_false, true_and, false_and, if_true, if_false, not_true, not_false_iff]
      refine ⟨_, rfl, rfl, fun m hm a b c d => ?_⟩
      obtain rfl | rfl | rfl : m = 0 ∨ m = 1 ∨ m = 2 := by omega
      all_goals simp [W2, h1, h2, h3, h4, bump4_apply, List.modify_cons]
  | generalized =>
    obtain ⟨f, rfl⟩ : ∃ f, ms = [f] := List.length_eq_one_iff.1 hms
    simp only [addTwoDensity, OrbType.shape, List.length_singleton, ne_eq, not_true, and_false, if_false, reduceCtorEq,
      false_and, bind, Except.bind, guard_ok4 hi hj hk hl, pure, Except.pure]
    refine ⟨_, rfl, rfl, fun m hm a b c d => ?_⟩
    obtain rfl : m = 0 := by omega
    simp [W2, bump4_apply]

theorem foldOne_ok (ob : OrbType) (n : ℕ) (l : List (ℕ × ℕ × R)) (hl : ∀ x ∈ l, x.1 < 2 * n ∧ x.2.1 < 2 * n)
    (ms : List (ℕ → ℕ → R)) (hms : ms.length = (ob.shape n).1) :
    ∃ ms', l.foldlM (fun m a => addOneDensity (ob.shape n).2.2 m a.1 a.2.1 a.2.2 ob) ms = .ok ms' ∧
      ms'.length = (ob.shape n).1 ∧ ∀ m < (ob.shape n).1, ∀ a b, ms'.getD m (fun _ _ => 0) a b =
        ms.getD m (fun _ _ => 0) a b + (l.map fun x => x.2.2 * W1 R ob n m a b x.1 x.2.1).sum := by
  induction l generalizing ms with
  | nil => exact ⟨ms, rfl, hms, by simp⟩
  | cons x l ih =>
    obtain ⟨ms1, h1, h2, h3⟩ := addOne_ok ob n ms hms x.2.2 (hl x (by simp)).1 (hl x (by simp)).2
    obtain ⟨ms2, h4, h5, h6⟩ := ih (fun y hy => hl y (by simp [hy])) ms1 h2
    refine ⟨ms2, ?_, h5, fun m hm a b => ?_⟩
    · rw [List.foldlM_cons, h1]; exact h4
    · rw [h6 m hm, h3 m hm, List.map_cons, List.sum_cons]; ring

theorem foldTwo_ok (ob : OrbType) (n : ℕ) (l : List (ℕ × ℕ × ℕ × ℕ × R))
    (hl : ∀ x ∈ l, x.1 < 2 * n ∧ x.2.1 < 2 * n ∧ x.2.2.1 < 2 * n ∧ x.2.2.2.1 < 2 * n)
    (ms : List (ℕ → ℕ → ℕ → ℕ → R)) (hms : ms.length = (ob.shape n).2.1) :
    ∃ ms', l.foldlM (fun m a => addTwoDensity (ob.shape n).2.2 m a.1 a.2.1 a.2.2.1 a.2.2.2.1 a.2.2.2.2 ob) ms = .ok ms' ∧
      ms'.length = (ob.shape n).2.1 ∧ ∀ m < (ob.shape n).2.1, ∀ a b c d, ms'.getD m (fun _ _ _ _ => 0) a b c d =
        ms.getD m (fun _ _ _ _ => 0) a b c d +
          (l.map fun x => x.2.2.2.2 * W2 R ob n m a b c d x.1 x.2.1 x.2.2.1 x.2.2.2.1).sum := by
  induction l generalizing ms with
  | nil => exact ⟨ms, rfl, hms, by simp⟩
  | cons x l ih =>
    obtain ⟨g1, g2, g3, g4⟩ := hl x (by simp)
    obtain ⟨ms1, h1, h2, h3⟩ := addTwo_ok ob n ms hms x.2.2.2.2 g1 g2 g3 g4
    obtain ⟨ms2, h4, h5, h6⟩ := ih (fun y hy => hl y (by simp [hy])) ms1 h2
    refine ⟨ms2, ?_, h5, fun m hm a b c d => ?_⟩
    · rw [List.foldlM_cons, h1]; exact h4
    · rw [h6 m hm, h3 m hm, List.map_cons, List.sum_cons]; ring

theorem sum_ite_and {N : ℕ} {i j : ℕ} (hi : i < N) (hj : j < N) (f : ℕ → ℕ → R) :
    ∑ a ∈ range N, ∑ b ∈ range N, (if a = i ∧ b = j then f a b else 0) = f i j := by
  rw [sum_eq_single i (fun a _ ha => by simp [ha]) (fun h => absurd (mem_range.2 hi) h),
    sum_eq_single j (fun a _ ha => by simp [ha]) (fun h => absurd (mem_range.2 hj) h)]
  simp

theorem sum_weights1 (N : ℕ) (W : ℕ → ℕ → R) (l : List (ℕ × ℕ × R)) (hl : ∀ x ∈ l, x.1 < N ∧ x.2.1 < N) :
    (l.map fun x => x.2.2 * W x.1 x.2.1).sum = ∑ i ∈ range N, ∑ j ∈ range N, W i j * total1 l i j := by
  induction l with
  | nil => simp [total1]
  | cons x l ih =>
    rw [List.map_cons, List.sum_cons, ih fun y hy => hl y (by simp [hy])]
    have e : ∀ i j, W i j * total1 (x :: l) i j = (if i = x.1 ∧ j = x.2.1 then x.2.2 * W i j else 0) + W i j * total1 l i j := by
      intro i j
      rw [total1, List.map_cons, List.sum_cons, ← total1, mul_add]
      split_ifs <;> ring
    simp only [e, sum_add_distrib]
    rw [sum_ite_and (hl x (by simp)).1 (hl x (by simp)).2 fun i j => x.2.2 * W i j]

theorem sum_weights2 (N : ℕ) (W : ℕ → ℕ → ℕ → ℕ → R) (l : List (ℕ × ℕ × ℕ × ℕ × R))
    (hl : ∀ x ∈ l, x.1 < N ∧ x.2.1 < N ∧ x.2.2.1 < N ∧ x.2.2.2.1 < N) :
    (l.map fun x => x.2.2.2.2 * W x.1 x.2.1 x.2.2.1 x.2.2.2.1).sum =
      ∑ i ∈ range N, ∑ j ∈ range N, ∑ k ∈ range N, ∑ m ∈ range N, W i j k m * total2 l i j k m := by
  induction l with
  | nil => simp [total2]
  | cons x l ih =>
    rw [List.map_cons, List.sum_cons, ih fun y hy => hl y (by simp [hy])]
    have e : ∀ i j k m, W i j k m * total2 (x :: l) i j k m =
        (if i = x.1 ∧ j = x.2.1 then if k = x.2.2.1 ∧ m = x.2.2.2.1 then x.2.2.2.2 * W i j k m else 0 else 0) +
          W i j k m * total2 l i j k m := by
      intro i j k m
      rw [total2, List.map_cons, List.sum_cons, ← total2, mul_add, ← ite_and]
      simp only [and_assoc]
      split_ifs <;> ring
    simp only [e, sum_add_distrib]
    obtain ⟨g1, g2, g3, g4⟩ := hl x (by simp)
    congr 1
    rw [← sum_ite_and g1 g2 fun i j => x.2.2.2.2 * W i j x.2.2.1 x.2.2.2.1]
    refine sum_congr rfl fun i _ => sum_congr rfl fun j _ => ?_
    split_ifs with h
    · rw [sum_ite_and g3 g4 fun k m => x.2.2.2.2 * W i j k m]
    · simp

theorem diagAdds_mem {v : R} {l : List ℕ} {x : ℕ × ℕ × ℕ × ℕ × R} (hx : x ∈ diagAdds v l) :
    x.1 ∈ l ∧ x.2.1 ∈ l ∧ x.2.2.1 ∈ l ∧ x.2.2.2.1 ∈ l := by
  induction l with
  | nil => simp [diagAdds] at hx
  | cons i l ih =>
    rw [diagAdds, List.mem_append, List.mem_flatMap] at hx
    rcases hx with ⟨j, hj, hx⟩ | hx
    · simp only [List.mem_cons, List.not_mem_nil, or_false] at hx
      rcases hx with rfl | rfl | rfl | rfl <;> simp [hj]
    · obtain ⟨h1, h2, h3, h4⟩ := ih hx
      simp [h1, h2, h3, h4]

theorem oneAdds_lt {N : ℕ} {sh le ri : List ℕ} {v : R} (h1 : ∀ i ∈ sh, i < N) (h2 : ∀ i ∈ le, i < N) (h3 : ∀ i ∈ ri, i < N) :
    ∀ x ∈ oneAdds sh le ri v, x.1 < N ∧ x.2.1 < N := by
  intro x hx
  unfold oneAdds at hx
  split at hx
  · obtain ⟨i, hi, rfl⟩ := List.mem_map.1 hx
    exact ⟨h1 i hi, h1 i hi⟩
  · simp only [List.mem_cons, List.not_mem_nil, or_false, forall_eq] at hx h2 h3
    rcases hx with rfl | rfl <;> simp [h2, h3]
  · simp at hx

theorem twoAdds_lt {N : ℕ} {sh le ri : List ℕ} {v : R} (h1 : ∀ i ∈ sh, i < N) (h2 : ∀ i ∈ le, i < N) (h3 : ∀ i ∈ ri, i < N) :
    ∀ x ∈ twoAdds sh le ri v, x.1 < N ∧ x.2.1 < N ∧ x.2.2.1 < N ∧ x.2.2.2.1 < N := by
  intro x hx
  unfold twoAdds at hx
  split at hx
  · obtain ⟨g1, g2, g3, g4⟩ := diagAdds_mem hx
    exact ⟨h1 _ g1, h1 _ g2, h1 _ g3, h1 _ g4⟩
  · obtain ⟨j, hj, hx⟩ := List.mem_flatMap.1 hx
    have hj := h1 j hj
    simp only [List.mem_cons, List.not_mem_nil, or_false, forall_eq] at hx h2 h3
    rcases hx with rfl | rfl | rfl | rfl | rfl | rfl | rfl | rfl <;> simp [h2, h3, hj]
  · simp only [List.mem_cons, List.not_mem_nil, or_false, forall_eq_or_imp, forall_eq] at hx h2 h3
    rcases hx with rfl | rfl | rfl | rfl | rfl | rfl | rfl | rfl <;> simp [h2, h3]
  · simp at hx

/-- the arrays hold the weighted sums of the spin orbital densities `F1`, `F2` -/
def Holds (ob : OrbType) (n : ℕ) (ms : List (ℕ → ℕ → R) × List (ℕ → ℕ → ℕ → ℕ → R)) (F1 : ℕ → ℕ → R)
    (F2 : ℕ → ℕ → ℕ → ℕ → R) : Prop :=
  ms.1.length = (ob.shape n).1 ∧ ms.2.length = (ob.shape n).2.1 ∧
  (∀ m < (ob.shape n).1, ∀ a b, ms.1.getD m (fun _ _ => 0) a b =
    ∑ i ∈ range (2 * n), ∑ j ∈ range (2 * n), W1 R ob n m a b i j * F1 i j) ∧
  ∀ m < (ob.shape n).2.1, ∀ a b c d, ms.2.getD m (fun _ _ _ _ => 0) a b c d =
    ∑ i ∈ range (2 * n), ∑ j ∈ range (2 * n), ∑ k ∈ range (2 * n), ∑ l ∈ range (2 * n),
      W2 R ob n m a b c d i j k l * F2 i j k l

theorem pairStep_ok (ob : OrbType) (n : ℕ) (ms : List (ℕ → ℕ → R) × List (ℕ → ℕ → ℕ → ℕ → R)) (F1 : ℕ → ℕ → R)
    (F2 : ℕ → ℕ → ℕ → ℕ → R) (h : Holds ob n ms F1 F2) (p : (R × ℕ) × R × ℕ) (h1 : p.1.2 < 2 ^ (2 * n))
    (h2 : p.2.2 < 2 ^ (2 * n)) :
    ∃ ms', pairStep (ob.shape n).2.2 ob ms p = .ok ms' ∧
      Holds ob n ms' (fun i j => F1 i j + p.1.1 * p.2.1 * pairOne p.1.2 p.2.2 i j)
        (fun i j k l => F2 i j k l + p.1.1 * p.2.1 * pairTwo p.1.2 p.2.2 i j k l) := by
  obtain ⟨⟨x, s⟩, y, t⟩ := p
  simp only at h1 h2 ⊢
  obtain ⟨l1, l2, v1, v2⟩ := h
  rw [lt_two_pow_iff] at h1 h2
  unfold pairStep
  simp only
  split_ifs with hl
  · refine ⟨ms, rfl, ?_⟩
    have hne : (occSet s).card ≠ (occSet t).card := by
      intro hc
      apply hl
      have := card_sdiff_swap hc
      rw [← diffOrbs_fst_length, ← diffOrbs_snd_length] at this
      exact this.symm
    have hst : s ≠ t := by rintro rfl; exact hne rfl
    have e1 : ∀ i j, pairOne (R := R) s t i j = 0 := by
      intro i j
      rw [pairOne, if_neg hst, oneME_zero_of_card (Or.inl hne), oneME_zero_of_card (Or.inl hne.symm), add_zero]
    have e2 : ∀ i j k l, pairTwo (R := R) s t i j k l = 0 := by
      intro i j k l
      rw [pairTwo, if_neg hst, twoME_zero_of_card (Or.inl hne), twoME_zero_of_card (Or.inl hne.symm), add_zero]
    simp only [e1, e2, mul_zero, add_zero]
    exact ⟨l1, l2, v1, v2⟩
  · rw [ne_eq, not_not] at hl
    have hsh : ∀ i ∈ sharedOrbs s t, i < 2 * n := by
      intro i hi
      rw [← List.mem_toFinset, sharedOrbs_toFinset, mem_inter] at hi
      exact h1 i hi.1
    have hle : ∀ i ∈ (diffOrbs s t).1, i < 2 * n := by
      intro i hi
      rw [← List.mem_toFinset, diffOrbs_fst_toFinset, mem_sdiff] at hi
      exact h1 i hi.1
    have hri : ∀ i ∈ (diffOrbs s t).2, i < 2 * n := by
      intro i hi
      rw [← List.mem_toFinset, diffOrbs_snd_toFinset, mem_sdiff] at hi
      exact h2 i hi.1
    obtain ⟨one, o1, o2, o3⟩ := foldOne_ok ob n _ (oneAdds_lt (v := pairVal x y s t) hsh hle hri) ms.1 l1
    obtain ⟨two, t1, t2, t3⟩ := foldTwo_ok ob n _ (twoAdds_lt (v := pairVal x y s t) hsh hle hri) ms.2 l2
    unfold pairVal at o1 t1
    refine ⟨(one, two), ?_, o2, t2, fun m hm a b => ?_, fun m hm a b c d => ?_⟩
    · rw [o1]
      simp only [bind, Except.bind]
      rw [t1]
      rfl
    · rw [o3 m hm, v1 m hm, sum_weights1 (2 * n) _ _ (oneAdds_lt hsh hle hri), ← sum_add_distrib]
      refine sum_congr rfl fun i _ => ?_
      rw [← sum_add_distrib]
      refine sum_congr rfl fun j _ => ?_
      rw [total1_pair x y s t i j hl, mul_add]
    · rw [t3 m hm, v2 m hm, sum_weights2 (2 * n) _ _ (twoAdds_lt hsh hle hri), ← sum_add_distrib]
      refine sum_congr rfl fun i _ => ?_
      rw [← sum_add_distrib]
      refine sum_congr rfl fun j _ => ?_
      rw [← sum_add_distrib]
      refine sum_congr rfl fun k _ => ?_
      rw [← sum_add_distrib]
      refine sum_congr rfl fun m' _ => ?_
      rw [total2_pair x y s t i j k m' hl, mul_add]

theorem pairs_ok (ob : OrbType) (n : ℕ) (l : List ((R × ℕ) × R × ℕ)) (hl : ∀ p ∈ l, p.1.2 < 2 ^ (2 * n) ∧ p.2.2 < 2 ^ (2 * n))
    (ms : List (ℕ → ℕ → R) × List (ℕ → ℕ → ℕ → ℕ → R)) (F1 : ℕ → ℕ → R)
    (F2 : ℕ → ℕ → ℕ → ℕ → R) (h : Holds ob n ms F1 F2) :
    ∃ ms', l.foldlM (pairStep (ob.shape n).2.2 ob) ms = .ok ms' ∧
      Holds ob n ms' (fun i j => F1 i j + (l.map fun p => p.1.1 * p.2.1 * pairOne p.1.2 p.2.2 i j).sum)
        (fun i j k m => F2 i j k m + (l.map fun p => p.1.1 * p.2.1 * pairTwo p.1.2 p.2.2 i j k m).sum) := by
  induction l generalizing ms F1 F2 with
  | nil => exact ⟨ms, rfl, by simpa using h⟩
  | cons p l ih =>
    obtain ⟨ms1, h1, h2⟩ := pairStep_ok ob n ms F1 F2 h p (hl p (by simp)).1 (hl p (by simp)).2
    obtain ⟨ms2, h3, h4⟩ := ih (fun q hq => hl q (by simp [hq])) ms1 _ _ h2
    refine ⟨ms2, ?_, ?_⟩
    · rw [List.foldlM_cons, h1]; exact h3
    · simpa only [List.map_cons, List.sum_cons, add_assoc] using h4

end Fanpy.Lemmas
