import Verif.Lemmas.DensityFold
import Verif.Spec.Density

/-! # Helper lemmas for the density matrices: the sum over pairs, the number operator -/

set_option linter.unusedSimpArgs false
set_option linter.unusedSectionVars false

namespace Fanpy.Lemmas
open Fanpy.Ham Fanpy.Spec Fanpy.Slater Finset

section
variable {R : Type} [CommRing R]

theorem inner_add_left (u v w : Fock R) : Spec.inner (u + v) w = Spec.inner u w + Spec.inner v w :=
  Finsupp.sum_add_index' (by simp) (by intros; ring)

theorem inner_add_right (u v w : Fock R) : Spec.inner u (v + w) = Spec.inner u v + Spec.inner u w := by
  simp only [Spec.inner, Finsupp.add_apply, mul_add]
  exact Finsupp.sum_add

theorem inner_smul_right (c : R) (u v : Fock R) : Spec.inner u (c • v) = c * Spec.inner u v := by
  simp only [Spec.inner, Finsupp.smul_apply, smul_eq_mul, Finsupp.mul_sum]
  exact Finsupp.sum_congr fun s _ => by ring

theorem inner_smul_left (c : R) (u v : Fock R) : Spec.inner (c • u) v = c * Spec.inner u v := by
  simp only [Spec.inner]
  rw [Finsupp.sum_smul_index (by simp), Finsupp.mul_sum]
  exact Finsupp.sum_congr fun s _ => by ring

theorem inner_zero_left (u : Fock R) : Spec.inner 0 u = 0 := by simp [Spec.inner]
theorem inner_zero_right (u : Fock R) : Spec.inner u 0 = 0 := by simp [Spec.inner]

theorem inner_sum_right {ι : Type} (s : Finset ι) (u : Fock R) (f : ι → Fock R) :
    Spec.inner u (∑ i ∈ s, f i) = ∑ i ∈ s, Spec.inner u (f i) := by
  classical
  induction s using Finset.induction_on with
  | empty => simp [inner_zero_right]
  | insert a s ha ih => rw [sum_insert ha, sum_insert ha, inner_add_right, ih]

/-- the vector of a list of pairs -/
noncomputable def vecOf (l : List (R × ℕ)) : Fock R := (l.map fun p => p.1 • ket (occSet p.2)).sum

theorem vecOf_cons (p : R × ℕ) (l : List (R × ℕ)) : vecOf (p :: l) = p.1 • ket (occSet p.2) + vecOf l := by
  simp [vecOf]

theorem inner_vecOf (l l' : List (R × ℕ)) (A : Fock R →ₗ[R] Fock R) : Spec.inner (vecOf l) (A (vecOf l')) =
    (l.map fun p => (l'.map fun q => p.1 * q.1 * Spec.inner (ket (occSet p.2)) (A (ket (occSet q.2)))).sum).sum := by
  induction l with
  | nil => simp [vecOf, inner_zero_left]
  | cons p l ih =>
    rw [vecOf_cons, inner_add_left, ih, List.map_cons, List.sum_cons, inner_smul_left]
    congr 1
    clear ih
    induction l' with
    | nil => simp [vecOf, inner_zero_right]
    | cons q l' ih =>
      rw [vecOf_cons, map_add, inner_add_right, mul_add, ih, map_smul, inner_smul_right, List.map_cons, List.sum_cons]
      ring

/-- the pairs of a list, each unordered pair once -/
def tri {α : Type} : List α → List (α × α)
  | [] => []
  | p :: rest => ((p :: rest).map fun q => (p, q)) ++ tri rest

theorem tri_sum (l : List (R × ℕ)) (hn : (l.map Prod.snd).Nodup) (B : ℕ → ℕ → R) :
    ((tri l).map fun p => p.1.1 * p.2.1 * if p.1.2 = p.2.2 then B p.1.2 p.1.2 else B p.1.2 p.2.2 + B p.2.2 p.1.2).sum =
      (l.map fun p => (l.map fun q => p.1 * q.1 * B p.2 q.2).sum).sum := by
  induction l with
  | nil => simp [tri]
  | cons p l ih =>
    obtain ⟨h1, h2⟩ := List.nodup_cons.1 hn
    rw [tri, List.map_append, List.sum_append, ih h2, List.map_map, List.map_cons, List.sum_cons, List.map_cons,
      List.sum_cons, List.map_cons, List.sum_cons]
    have e1 : (l.map fun q => ((p :: l).map fun r => q.1 * r.1 * B q.2 r.2).sum) =
        l.map fun q => q.1 * p.1 * B q.2 p.2 + (l.map fun r => q.1 * r.1 * B q.2 r.2).sum := by
      refine List.map_congr_left fun q _ => ?_
      rw [List.map_cons, List.sum_cons]
    have e2 : (l.map ((fun p : (R × ℕ) × R × ℕ => p.1.1 * p.2.1 *
        if p.1.2 = p.2.2 then B p.1.2 p.1.2 else B p.1.2 p.2.2 + B p.2.2 p.1.2) ∘ fun q => (p, q))) =
        l.map fun q => p.1 * q.1 * B p.2 q.2 + q.1 * p.1 * B q.2 p.2 := by
      refine List.map_congr_left fun q hq => ?_
      have : p.2 ≠ q.2 := by
        intro h
        exact h1 (h ▸ List.mem_map_of_mem hq)
      simp only [Function.comp, if_neg this]
      ring
    rw [e1, e2, List.sum_map_add, List.sum_map_add]
    simp only [Function.comp, if_true]
    ring

theorem tri_mem {α : Type} {l : List α} {p : α × α} (h : p ∈ tri l) : p.1 ∈ l ∧ p.2 ∈ l := by
  induction l with
  | nil => simp [tri] at h
  | cons a l ih =>
    rw [tri, List.mem_append] at h
    rcases h with h | h
    · obtain ⟨q, hq, rfl⟩ := List.mem_map.1 h
      exact ⟨by simp, hq⟩
    · exact ⟨by simp [(ih h).1], by simp [(ih h).2]⟩

theorem tri_pairOne (l : List (R × ℕ)) (hn : (l.map Prod.snd).Nodup) (i j : ℕ) :
    ((tri l).map fun p => p.1.1 * p.2.1 * pairOne p.1.2 p.2.2 i j).sum = rdm1 (vecOf l) i j := by
  have := inner_vecOf l l (creOp (R := R) i ∘ₗ annOp j)
  rw [rdm1]
  refine Eq.trans ?_ this.symm
  exact tri_sum l hn fun s t => oneME R (occSet s) (occSet t) i j

theorem tri_pairTwo (l : List (R × ℕ)) (hn : (l.map Prod.snd).Nodup) (i j k m : ℕ) :
    ((tri l).map fun p => p.1.1 * p.2.1 * pairTwo p.1.2 p.2.2 i j k m).sum = rdm2 (vecOf l) i j k m := by
  have := inner_vecOf l l (creOp (R := R) i ∘ₗ creOp j ∘ₗ annOp m ∘ₗ annOp k)
  rw [rdm2]
  refine Eq.trans ?_ this.symm
  exact tri_sum l hn fun s t => twoME R (occSet s) (occSet t) i j k m

/-- `∑_{j<M} a†_j a_j` -/
noncomputable def numOp (M : ℕ) (v : Fock R) : Fock R := ∑ j ∈ range M, creOp j (annOp j v)

theorem numOp_add (M : ℕ) (u v : Fock R) : numOp M (u + v) = numOp M u + numOp M v := by
  simp [numOp, sum_add_distrib]

theorem numOp_smul (M : ℕ) (c : R) (v : Fock R) : numOp M (c • v) = c • numOp M v := by
  simp [numOp, smul_sum]

theorem numOp_single (M : ℕ) (s : Finset ℕ) (c : R) (h : ∀ i ∈ s, i < M) :
    numOp M (Finsupp.single s c) = (s.card : R) • Finsupp.single s c := by
  have e : ∀ j, creOp j (annOp j (Finsupp.single s c)) = if j ∈ s then Finsupp.single s c else 0 := by
    intro j
    rw [annOp_single]
    split_ifs with hj
    · rw [creOp_single, if_neg (notMem_erase j s), insert_erase hj]
      congr 1
      have : phase (s.erase j) j = phase s j := by rw [phase_erase]; simp
      rw [this]
      have h2 := phase_sq s j
      have h3 : ((phase s j : ℤ) : R) * ((phase s j : ℤ) : R) = 1 := by
        rw [← Int.cast_mul, h2, Int.cast_one]
      linear_combination c * h3
    · simp
  simp only [numOp, e]
  rw [← sum_filter, filter_mem_eq_inter, inter_eq_right.2 (fun i hi => mem_range.2 (h i hi)), sum_const, Nat.cast_smul_eq_nsmul]

/-- the number operator on a vector of determinants with `N` electrons -/
theorem numOp_vecOf (M N : ℕ) (l : List (R × ℕ)) (h : ∀ p ∈ l, p.2 < 2 ^ M ∧ (occSet p.2).card = N) :
    numOp M (vecOf l) = (N : R) • vecOf l := by
  induction l with
  | nil => simp [vecOf, numOp]
  | cons p l ih =>
    obtain ⟨h1, h2⟩ := h p (by simp)
    rw [lt_two_pow_iff] at h1
    rw [vecOf_cons, numOp_add, ih fun q hq => h q (by simp [hq]), numOp_smul, ket, numOp_single M _ _ h1, h2, smul_add,
      smul_comm]

theorem numOp_ann_vecOf (M N k : ℕ) (l : List (R × ℕ)) (h : ∀ p ∈ l, p.2 < 2 ^ M ∧ (occSet p.2).card = N) :
    numOp M (annOp k (vecOf l)) = ((N : R) - 1) • annOp k (vecOf l) := by
  induction l with
  | nil => simp [vecOf, numOp]
  | cons p l ih =>
    obtain ⟨h1, h2⟩ := h p (by simp)
    rw [lt_two_pow_iff] at h1
    rw [vecOf_cons, map_add, numOp_add, ih fun q hq => h q (by simp [hq]), map_smul, numOp_smul, smul_add, smul_comm]
    congr 2
    rw [ket, annOp_single]
    split_ifs with hk
    · rw [numOp_single M _ _ fun i hi => h1 i (mem_of_mem_erase hi), card_erase_of_mem hk, h2]
      have : 1 ≤ N := h2 ▸ card_pos.2 ⟨k, hk⟩
      rw [Nat.cast_sub this, Nat.cast_one]
    · simp [numOp]

theorem rdm1_trace (M N : ℕ) (l : List (R × ℕ)) (h : ∀ p ∈ l, p.2 < 2 ^ M ∧ (occSet p.2).card = N) :
    ∑ i ∈ range M, rdm1 (vecOf l) i i = N * Spec.inner (vecOf l) (vecOf l) := by
  simp only [rdm1]
  rw [← inner_sum_right, ← numOp, numOp_vecOf M N l h, inner_smul_right]

theorem rdm2_trace (M N : ℕ) (l : List (R × ℕ)) (h : ∀ p ∈ l, p.2 < 2 ^ M ∧ (occSet p.2).card = N) (i k : ℕ) :
    ∑ j ∈ range M, rdm2 (vecOf l) i j k j = (N - 1) * rdm1 (vecOf l) i k := by
  simp only [rdm2, rdm1]
  rw [← inner_sum_right, ← map_sum, ← numOp, numOp_ann_vecOf M N k l h, map_smul, inner_smul_right]

theorem rdm2_swap (v : Fock R) (i j k l : ℕ) : rdm2 v i j k l = rdm2 v j i l k := by
  have h1 : ∀ w : Fock R, annOp l (annOp k w) = - annOp k (annOp l w) := fun w => eq_neg_of_add_eq_zero_left (car_ann l k w)
  have h2 : ∀ w : Fock R, creOp i (creOp j w) = - creOp j (creOp i w) := fun w => eq_neg_of_add_eq_zero_left (car_cre i j w)
  rw [rdm2, rdm2, h1, map_neg, map_neg, h2, neg_neg]

end

section
variable {R : Type} [Field R] [LinearOrder R] [IsStrictOrderedRing R]

theorem rowPairs_all {thr : R} (ht : thr ≤ 0) (num c1 : ℕ) (p : R × ℕ) (l : List (R × ℕ)) :
    rowPairs thr num c1 p l = l.map fun q => (p, q) := by
  induction l with
  | nil => rfl
  | cons q l ih =>
    rw [rowPairs, if_neg, ih]
    · rfl
    · exact not_lt.2 (ht.trans (by positivity))

theorem allPairs_all {thr : R} (ht : thr ≤ 0) (num c1 : ℕ) (l : List (R × ℕ)) : allPairs thr num c1 l = tri l := by
  induction l generalizing c1 with
  | nil => rfl
  | cons q l ih =>
    rw [allPairs, if_neg, ih, rowPairs_all ht, tri]
    exact not_lt.2 (ht.trans (by positivity))

theorem sortedSds_perm (coeffs : List R) (sds : List ℕ) : (sortedSds coeffs sds).Perm (coeffs.zip sds) :=
  List.mergeSort_perm _ _

theorem vecOf_perm {l l' : List (R × ℕ)} (h : l.Perm l') : vecOf l = vecOf l' := (h.map _).sum_eq

/-- what the loops leave in the arrays, for any list of pairs of determinants that fit -/
theorem densityMatrix_pairs (coeffs : List R) (sds : List ℕ) (n : ℕ) (thr : R) (ob : OrbType)
    (hs : ∀ s ∈ sds, s < 2 ^ (2 * n)) (hne : coeffs.zip sds ≠ [])
    (hmem : ∀ p ∈ allPairs thr (sortedSds coeffs sds).length 0 (sortedSds coeffs sds), p.1 ∈ sortedSds coeffs sds ∧
      p.2 ∈ sortedSds coeffs sds) (chem : Bool) :
    ∃ ms, densityMatrix coeffs sds n chem thr ob = .ok (ms.1, if chem then ms.2.map chemist else ms.2) ∧
      Holds ob n ms
        (fun i j => ((allPairs thr (sortedSds coeffs sds).length 0 (sortedSds coeffs sds)).map fun p =>
          p.1.1 * p.2.1 * pairOne p.1.2 p.2.2 i j).sum)
        (fun i j k m => ((allPairs thr (sortedSds coeffs sds).length 0 (sortedSds coeffs sds)).map fun p =>
          p.1.1 * p.2.1 * pairTwo p.1.2 p.2.2 i j k m).sum) := by
  have hlt : ∀ p ∈ sortedSds coeffs sds, p.2 < 2 ^ (2 * n) := by
    intro p hp
    have := (sortedSds_perm coeffs sds).mem_iff.1 hp
    exact hs _ (List.of_mem_zip (a := p.1) (b := p.2) this).2
  have hne' : sortedSds coeffs sds ≠ [] := by
    intro h
    have := sortedSds_perm coeffs sds
    rw [h] at this
    exact hne this.nil_eq.symm
  have h0 : Holds (R := R) ob n (List.replicate (ob.shape n).1 fun _ _ => 0, List.replicate (ob.shape n).2.1 fun _ _ _ _ => 0)
      (fun _ _ => 0) (fun _ _ _ _ => 0) := by
    refine ⟨by simp, by simp, fun m hm a b => ?_, fun m hm a b c d => ?_⟩
    · simp [List.getD_eq_getElem?_getD, List.getElem?_replicate, hm]
    · simp [List.getD_eq_getElem?_getD, List.getElem?_replicate, hm]
  obtain ⟨ms, h1, h2⟩ := pairs_ok ob n (allPairs thr (sortedSds coeffs sds).length 0 (sortedSds coeffs sds))
    (fun p hp => ⟨hlt _ (hmem p hp).1, hlt _ (hmem p hp).2⟩) _ _ _ h0
  refine ⟨ms, ?_, by simpa using h2⟩
  unfold densityMatrix
  simp only [if_neg hne', h1]
  rfl

theorem zip_snd_nodup (coeffs : List R) (sds : List ℕ) (h : sds.Nodup) : ((coeffs.zip sds).map Prod.snd).Nodup := by
  refine h.sublist ?_
  induction coeffs generalizing sds with
  | nil => simp
  | cons x coeffs ih =>
    cases sds with
    | nil => simp
    | cons s sds => exact (ih sds (List.nodup_cons.1 h).2).cons_cons s

theorem densityMatrix_all (coeffs : List R) (sds : List ℕ) (n : ℕ) (thr : R) (ht : thr ≤ 0) (ob : OrbType)
    (hs : ∀ s ∈ sds, s < 2 ^ (2 * n)) (hne : coeffs.zip sds ≠ []) (hn : sds.Nodup) (chem : Bool) :
    ∃ ms, densityMatrix coeffs sds n chem thr ob = .ok (ms.1, if chem then ms.2.map chemist else ms.2) ∧
      Holds ob n ms (rdm1 (ciVec coeffs sds)) (rdm2 (ciVec coeffs sds)) := by
  obtain ⟨ms, h1, h2⟩ := densityMatrix_pairs coeffs sds n thr ob hs hne (by
    rw [allPairs_all ht]; exact fun p hp => tri_mem hp) chem
  refine ⟨ms, h1, ?_⟩
  rw [allPairs_all ht] at h2
  have hn' : ((sortedSds coeffs sds).map Prod.snd).Nodup :=
    (((sortedSds_perm coeffs sds).map Prod.snd).nodup_iff).2 (zip_snd_nodup coeffs sds hn)
  simp only [tri_pairOne _ hn', tri_pairTwo _ hn', vecOf_perm (sortedSds_perm coeffs sds)] at h2
  exact h2

/-! ## truncation -/

/-- what a pair of determinants adds -/
def pv (C : ℕ → ℕ → R) (p : (R × ℕ) × R × ℕ) : R := p.1.1 * p.2.1 * C p.1.2 p.2.2

theorem pv_le (C : ℕ → ℕ → R) (hC : ∀ s t, |C s t| ≤ 2) (p q : R × ℕ) : |pv C (p, q)| ≤ |p.1 * q.1| * 2 := by
  rw [pv, abs_mul]
  exact mul_le_mul_of_nonneg_left (hC _ _) (abs_nonneg _)

theorem row_le (C : ℕ → ℕ → R) (hC : ∀ s t, |C s t| ≤ 2) (p : R × ℕ) (X : R) (l : List (R × ℕ))
    (hl : ∀ q ∈ l, |p.1 * q.1| ≤ X) : |(l.map fun q => pv C (p, q)).sum| ≤ 2 * l.length * X := by
  induction l with
  | nil => simp
  | cons q l ih =>
    have h1 := ih fun r hr => hl r (by simp [hr])
    have h2 := pv_le C hC p q
    have h3 := hl q (by simp)
    rw [List.map_cons, List.sum_cons]
    refine (abs_add_le _ _).trans ?_
    push_cast [List.length_cons]
    nlinarith

theorem tri_le (C : ℕ → ℕ → R) (hC : ∀ s t, |C s t| ≤ 2) (hC1 : ∀ s, |C s s| ≤ 1) (X : R) (hX : 0 ≤ X) (l : List (R × ℕ))
    (hl : ∀ q ∈ l, |q.1| ≤ X) : |((tri l).map (pv C)).sum| ≤ (l.length : R) ^ 2 * X ^ 2 := by
  induction l with
  | nil => simp [tri]
  | cons p l ih =>
    have h0 := hl p (by simp)
    have hpq : ∀ q ∈ l, |p.1 * q.1| ≤ X ^ 2 := by
      intro q hq
      rw [abs_mul, sq]
      exact mul_le_mul h0 (hl q (by simp [hq])) (abs_nonneg _) hX
    have h1 := ih fun r hr => hl r (by simp [hr])
    have h2 := row_le C hC p (X ^ 2) l hpq
    have h3 : |pv C (p, p)| ≤ X ^ 2 := by
      rw [pv, abs_mul, abs_mul]
      calc |p.1| * |p.1| * |C p.2 p.2| ≤ |p.1| * |p.1| * 1 := mul_le_mul_of_nonneg_left (hC1 _) (by positivity)
        _ = |p.1| * |p.1| := mul_one _
        _ ≤ X ^ 2 := by rw [sq]; exact mul_le_mul h0 h0 (abs_nonneg _) hX
    rw [tri, List.map_append, List.sum_append, List.map_map, List.map_cons, List.sum_cons]
    refine (abs_add_le _ _).trans ?_
    have h4 : |((pv C ∘ fun q => (p, q)) p) + (l.map (pv C ∘ fun q => (p, q))).sum| ≤ X ^ 2 + 2 * l.length * X ^ 2 :=
      (abs_add_le _ _).trans (add_le_add h3 h2)
    push_cast [List.length_cons]
    linarith [h4, h1]

theorem rowPairs_diff (C : ℕ → ℕ → R) (hC : ∀ s t, |C s t| ≤ 2) (thr : R) (ht : 0 ≤ thr) (num c1 : ℕ) (p : R × ℕ) (l : List (R × ℕ))
    (hl : l.Pairwise fun p q => |q.1| ≤ |p.1|) :
    |(l.map fun q => pv C (p, q)).sum - ((rowPairs thr num c1 p l).map (pv C)).sum| * ((num : R) - c1) ^ 2 ≤
      2 * l.length * thr := by
  induction l with
  | nil => simp [rowPairs]
  | cons q l ih =>
    obtain ⟨g1, g2⟩ := List.pairwise_cons.1 hl
    rw [rowPairs]
    split_ifs with h
    · rw [List.map_nil, List.sum_nil, sub_zero]
      have h1 := row_le C hC p |p.1 * q.1| (q :: l) (by
        intro r hr
        rcases List.mem_cons.1 hr with rfl | hr
        · exact le_rfl
        · rw [abs_mul, abs_mul]
          exact mul_le_mul_of_nonneg_left (g1 r hr) (abs_nonneg _))
      calc _ ≤ 2 * ((q :: l).length : R) * |p.1 * q.1| * ((num : R) - c1) ^ 2 := mul_le_mul_of_nonneg_right h1 (sq_nonneg _)
        _ = 2 * ((q :: l).length : R) * (|p.1 * q.1| * ((num : R) - c1) ^ 2) := by ring
        _ ≤ _ := mul_le_mul_of_nonneg_left h.le (by positivity)
    · rw [List.map_cons, List.sum_cons, List.map_cons, List.sum_cons, add_sub_add_left_eq_sub]
      refine (ih g2).trans ?_
      push_cast [List.length_cons]
      nlinarith

theorem allPairs_diff (C : ℕ → ℕ → R) (hC : ∀ s t, |C s t| ≤ 2) (hC1 : ∀ s, |C s s| ≤ 1) (thr : R) (ht : 0 ≤ thr) (num : ℕ)
    (l : List (R × ℕ)) (c1 : ℕ) (hnum : num = c1 + l.length) (hl : l.Pairwise fun p q => |q.1| ≤ |p.1|) :
    |((tri l).map (pv C)).sum - ((allPairs thr num c1 l).map (pv C)).sum| ≤ l.length * thr := by
  induction l generalizing c1 with
  | nil => simp [tri, allPairs]
  | cons p l ih =>
    obtain ⟨g1, g2⟩ := List.pairwise_cons.1 hl
    have hm : (num : R) - c1 = ((p :: l).length : R) := by rw [hnum]; push_cast; ring
    rw [allPairs]
    split_ifs with h
    · rw [List.map_nil, List.sum_nil, sub_zero]
      have h1 := tri_le C hC hC1 |p.1| (abs_nonneg _) (p :: l) (by
        intro q hq
        rcases List.mem_cons.1 hq with rfl | hq
        · exact le_rfl
        · exact g1 q hq)
      rw [hm] at h
      rw [sq_abs] at h1
      push_cast [List.length_cons] at h h1 ⊢
      nlinarith [mul_nonneg (Nat.cast_nonneg (α := R) l.length) ht]
    · have hrow : rowPairs thr num c1 p (p :: l) = (p, p) :: rowPairs thr num c1 p l := by
        rw [rowPairs, if_neg]
        rw [abs_mul_self]
        rwa [mul_pow, sq p.1] at h
      have h1 := rowPairs_diff C hC thr ht num c1 p l g2
      have h2 := ih (c1 + 1) (by rw [hnum, List.length_cons]; ring) g2
      rw [hm] at h1
      rw [hrow, tri, List.map_append, List.sum_append, List.map_append, List.sum_append, List.map_map, List.map_cons, List.sum_cons,
        List.map_cons, List.sum_cons]
      set A := (l.map (pv C ∘ fun q => (p, q))).sum with hA
      have hA' : (l.map fun q => pv C (p, q)).sum = A := rfl
      rw [hA'] at h1
      set B := ((rowPairs thr num c1 p l).map (pv C)).sum
      have h3 : |A - B| ≤ thr := by
        have hpos : (0 : R) < ((p :: l).length : R) ^ 2 := by
          rw [List.length_cons]; positivity
        rw [← mul_le_mul_iff_left₀ hpos]
        refine h1.trans ?_
        push_cast [List.length_cons]
        have : (0 : R) ≤ l.length := Nat.cast_nonneg _
        nlinarith [mul_nonneg (sq_nonneg (l.length : R)) ht]
      have e : ∀ a t b : R, a + A + t - (a + B + b) = (A - B) + (t - b) := by intros; ring
      have e' : ((pv C ∘ fun q => (p, q)) p) = pv C (p, p) := rfl
      rw [e', e]
      refine (abs_add_le _ _).trans ?_
      push_cast [List.length_cons]
      linarith

theorem rowPairs_mem {thr : R} {num c1 : ℕ} {p : R × ℕ} {l : List (R × ℕ)} {x : (R × ℕ) × R × ℕ}
    (h : x ∈ rowPairs thr num c1 p l) : x.1 = p ∧ x.2 ∈ l := by
  induction l with
  | nil => simp [rowPairs] at h
  | cons q l ih =>
    rw [rowPairs] at h
    split_ifs at h
    · simp at h
    · rcases List.mem_cons.1 h with rfl | h
      · simp
      · exact ⟨(ih h).1, by simp [(ih h).2]⟩

theorem allPairs_mem {thr : R} {num c1 : ℕ} {l : List (R × ℕ)} {x : (R × ℕ) × R × ℕ}
    (h : x ∈ allPairs thr num c1 l) : x.1 ∈ l ∧ x.2 ∈ l := by
  induction l generalizing c1 with
  | nil => simp [allPairs] at h
  | cons q l ih =>
    rw [allPairs] at h
    split_ifs at h
    · simp at h
    · rcases List.mem_append.1 h with h | h
      · obtain ⟨h1, h2⟩ := rowPairs_mem h
        exact ⟨by simp [h1], h2⟩
      · exact ⟨by simp [(ih h).1], by simp [(ih h).2]⟩

theorem sortedSds_sorted (coeffs : List R) (sds : List ℕ) : (sortedSds coeffs sds).Pairwise fun p q => |q.1| ≤ |p.1| := by
  have := List.pairwise_mergeSort (le := fun p q : R × ℕ => decide (|q.1| ≤ |p.1|))
    (by intro a b c h1 h2; simp only [decide_eq_true_eq] at *; exact h2.trans h1)
    (by intro a b; simp only [Bool.or_eq_true, decide_eq_true_eq]; exact le_total _ _) (coeffs.zip sds)
  exact this.imp fun h => by simpa using h

theorem abs_oneME_le (s t : Finset ℕ) (i j : ℕ) : |oneME R s t i j| ≤ 1 := by
  rw [oneME, ket, ket, annOp_single]
  split_ifs
  · rw [creOp_single]
    split_ifs
    · simp [inner_zero_right]
    · rw [inner_single, Finsupp.single_apply]
      split_ifs
      · rcases neg_one_pow_eq_or ℤ ((t.erase j).filter (· < i)).card with h | h <;>
        rcases neg_one_pow_eq_or ℤ (t.filter (· < j)).card with h' | h' <;> simp [phase, h, h']
      · simp
  · simp [inner_zero_right]

theorem phase_abs (s : Finset ℕ) (i : ℕ) : |((phase s i : ℤ) : R)| = 1 := by
  rcases neg_one_pow_eq_or ℤ (s.filter (· < i)).card with h | h <;> simp [phase, h]

theorem abs_twoME_le (s t : Finset ℕ) (i j k l : ℕ) : |twoME R s t i j k l| ≤ 1 := by
  rw [twoME, ket, ket, annOp_single]
  split_ifs
  · rw [annOp_single]
    split_ifs
    · rw [creOp_single]
      split_ifs
      · simp [inner_zero_right]
      · rw [creOp_single]
        split_ifs
        · simp [inner_zero_right]
        · rw [inner_single, Finsupp.single_apply]
          split_ifs
          · simp [abs_mul, phase_abs]
          · simp
    · simp [inner_zero_right]
  · simp [inner_zero_right]

theorem abs_pairOne (s t : ℕ) (i j : ℕ) : |pairOne (R := R) s t i j| ≤ 2 := by
  rw [pairOne]
  split_ifs
  · exact (abs_oneME_le _ _ _ _).trans one_le_two
  · refine (abs_add_le _ _).trans ?_
    have h1 := abs_oneME_le (R := R) (occSet s) (occSet t) i j
    have h2 := abs_oneME_le (R := R) (occSet t) (occSet s) i j
    linarith

theorem abs_pairOne_same (s : ℕ) (i j : ℕ) : |pairOne (R := R) s s i j| ≤ 1 := by
  rw [pairOne, if_pos rfl]; exact abs_oneME_le _ _ _ _

theorem abs_pairTwo (s t : ℕ) (i j k l : ℕ) : |pairTwo (R := R) s t i j k l| ≤ 2 := by
  rw [pairTwo]
  split_ifs
  · exact (abs_twoME_le _ _ _ _ _ _).trans one_le_two
  · refine (abs_add_le _ _).trans ?_
    have h1 := abs_twoME_le (R := R) (occSet s) (occSet t) i j k l
    have h2 := abs_twoME_le (R := R) (occSet t) (occSet s) i j k l
    linarith

theorem abs_pairTwo_same (s : ℕ) (i j k l : ℕ) : |pairTwo (R := R) s s i j k l| ≤ 1 := by
  rw [pairTwo, if_pos rfl]; exact abs_twoME_le _ _ _ _ _ _

/-- any threshold: the arrays hold densities that differ by at most `num_sds * thr` from the exact ones -/
theorem densityMatrix_any (coeffs : List R) (sds : List ℕ) (n : ℕ) (thr : R) (ht : 0 ≤ thr) (ob : OrbType)
    (hs : ∀ s ∈ sds, s < 2 ^ (2 * n)) (hne : coeffs.zip sds ≠ []) (hn : sds.Nodup) (chem : Bool) :
    ∃ ms F1 F2, densityMatrix coeffs sds n chem thr ob = .ok (ms.1, if chem then ms.2.map chemist else ms.2) ∧
      Holds ob n ms F1 F2 ∧
      (∀ i j, |F1 i j - rdm1 (ciVec coeffs sds) i j| ≤ (coeffs.zip sds).length * thr) ∧
      ∀ i j k l, |F2 i j k l - rdm2 (ciVec coeffs sds) i j k l| ≤ (coeffs.zip sds).length * thr := by
  obtain ⟨ms, h1, h2⟩ := densityMatrix_pairs coeffs sds n thr ob hs hne (fun p hp => allPairs_mem hp) chem
  refine ⟨ms, _, _, h1, h2, fun i j => ?_, fun i j k l => ?_⟩
  all_goals
    have hn' : ((sortedSds coeffs sds).map Prod.snd).Nodup :=
      (((sortedSds_perm coeffs sds).map Prod.snd).nodup_iff).2 (zip_snd_nodup coeffs sds hn)
    have hv : ciVec coeffs sds = vecOf (sortedSds coeffs sds) := (vecOf_perm (sortedSds_perm coeffs sds)).symm
    rw [hv, abs_sub_comm, ← (sortedSds_perm coeffs sds).length_eq]
  · rw [← tri_pairOne _ hn']
    exact allPairs_diff (fun s t => pairOne s t i j) (fun s t => abs_pairOne s t i j) (fun s => abs_pairOne_same s i j) thr ht _
      (sortedSds coeffs sds) 0 (by simp) (sortedSds_sorted coeffs sds)
  · rw [← tri_pairTwo _ hn']
    exact allPairs_diff (fun s t => pairTwo s t i j k l) (fun s t => abs_pairTwo s t i j k l)
      (fun s => abs_pairTwo_same s i j k l) thr ht _ (sortedSds coeffs sds) 0 (by simp) (sortedSds_sorted coeffs sds)

end

/-! ## reading the arrays -/

section
variable {R : Type} [CommRing R]

theorem sum_sp (n a : ℕ) (ha : a < n) (f : ℕ → R) : ∑ i ∈ range (2 * n), (if a = sp n i then f i else 0) = f a + f (a + n) := by
  have e : ∀ i ∈ range (2 * n), (if a = sp n i then f i else 0) = (if i = a then f i else 0) + if i = a + n then f i else 0 := by
    intro i hi
    rw [mem_range] at hi
    unfold sp
    split_ifs <;> first | omega | simp
  rw [sum_congr rfl e, sum_add_distrib, sum_ite_eq', sum_ite_eq', if_pos (mem_range.2 (by omega)),
    if_pos (mem_range.2 (by omega))]

theorem holds_generalized {n : ℕ} {ms : List (ℕ → ℕ → R) × List (ℕ → ℕ → ℕ → ℕ → R)} {F1 : ℕ → ℕ → R}
    {F2 : ℕ → ℕ → ℕ → ℕ → R} (h : Holds .generalized n ms F1 F2) :
    ∃ D G, ms = ([D], [G]) ∧ (∀ i < 2 * n, ∀ j < 2 * n, D i j = F1 i j) ∧
      ∀ i < 2 * n, ∀ j < 2 * n, ∀ k < 2 * n, ∀ l < 2 * n, G i j k l = F2 i j k l := by
  obtain ⟨h1, h2, h3, h4⟩ := h
  obtain ⟨D, hD⟩ := List.length_eq_one_iff.1 h1
  obtain ⟨G, hG⟩ := List.length_eq_one_iff.1 h2
  refine ⟨D, G, Prod.ext hD hG, fun i hi j hj => ?_, fun i hi j hj k hk l hl => ?_⟩
  · have := h3 0 (by simp [OrbType.shape]) i j
    rw [hD] at this
    refine this.trans ?_
    rw [← sum_ite_and hi hj F1]
    refine sum_congr rfl fun a _ => sum_congr rfl fun b _ => ?_
    rw [W1, ite_mul, one_mul, zero_mul]
    exact if_congr (by rw [eq_comm, @eq_comm _ j]) rfl rfl
  · have := h4 0 (by simp [OrbType.shape]) i j k l
    rw [hG] at this
    refine this.trans ?_
    rw [← sum_ite_and hi hj fun i j => F2 i j k l]
    refine sum_congr rfl fun a _ => sum_congr rfl fun b _ => ?_
    rw [← sum_ite_and hk hl fun k l => if a = i ∧ b = j then F2 a b k l else 0]
    refine sum_congr rfl fun c _ => sum_congr rfl fun d _ => ?_
    rw [W2, ite_mul, one_mul, zero_mul, ← ite_and]
    exact if_congr (by constructor <;> (rintro ⟨⟩; simp_all)) rfl rfl

theorem weight2 (n a b : ℕ) (ha : a < n) (hb : b < n) (P : ℕ → ℕ → Prop) [DecidableRel P] (F : ℕ → ℕ → R) :
    ∑ i ∈ range (2 * n), ∑ j ∈ range (2 * n), (if P i j ∧ a = sp n i ∧ b = sp n j then 1 else 0) * F i j =
      (if P a b then F a b else 0) + (if P a (b + n) then F a (b + n) else 0) +
        ((if P (a + n) b then F (a + n) b else 0) + if P (a + n) (b + n) then F (a + n) (b + n) else 0) := by
  rw [← sum_sp n b hb fun j => if P a j then F a j else 0, ← sum_sp n b hb fun j => if P (a + n) j then F (a + n) j else 0,
    ← sum_sp n a ha fun i => ∑ j ∈ range (2 * n), if b = sp n j then if P i j then F i j else 0 else 0]
  refine sum_congr rfl fun i _ => ?_
  split_ifs with h
  · refine sum_congr rfl fun j _ => ?_
    by_cases h1 : P i j <;> by_cases h2 : b = sp n j <;> simp [h1, h2, h]
  · refine sum_eq_zero fun j _ => ?_
    simp [h]

theorem weight4 (n a b c d : ℕ) (ha : a < n) (hb : b < n) (hc : c < n) (hd : d < n) (P : ℕ → ℕ → ℕ → ℕ → Prop)
    [∀ i j k l, Decidable (P i j k l)] (F : ℕ → ℕ → ℕ → ℕ → R) :
    ∑ i ∈ range (2 * n), ∑ j ∈ range (2 * n), ∑ k ∈ range (2 * n), ∑ l ∈ range (2 * n),
        (if P i j k l ∧ a = sp n i ∧ b = sp n j ∧ c = sp n k ∧ d = sp n l then 1 else 0) * F i j k l =
      ((({a, a + n} : Finset ℕ) ×ˢ ({b, b + n} : Finset ℕ)) ×ˢ (({c, c + n} : Finset ℕ) ×ˢ ({d, d + n} : Finset ℕ))).sum
        fun x => if P x.1.1 x.1.2 x.2.1 x.2.2 then F x.1.1 x.1.2 x.2.1 x.2.2 else 0 := by
  have hp : ∀ (a : ℕ), a < n → ∀ f : ℕ → R, ∑ i ∈ ({a, a + n} : Finset ℕ), f i = ∑ i ∈ range (2 * n), if a = sp n i then f i else 0 := by
    intro a ha f
    rw [sum_sp n a ha, sum_pair (by omega)]
  rw [sum_product, sum_product]
  simp only [sum_product]
  rw [hp a ha]
  refine sum_congr rfl fun i _ => ?_
  by_cases h1 : a = sp n i
  swap
  · rw [if_neg h1]
    refine sum_eq_zero fun j _ => sum_eq_zero fun k _ => sum_eq_zero fun l _ => ?_
    simp [h1]
  rw [if_pos h1, hp b hb]
  refine sum_congr rfl fun j _ => ?_
  by_cases h2 : b = sp n j
  swap
  · rw [if_neg h2]
    refine sum_eq_zero fun k _ => sum_eq_zero fun l _ => ?_
    simp [h2]
  rw [if_pos h2, hp c hc]
  refine sum_congr rfl fun k _ => ?_
  by_cases h3 : c = sp n k
  swap
  · rw [if_neg h3]
    refine sum_eq_zero fun l _ => ?_
    simp [h3]
  rw [if_pos h3, hp d hd]
  refine sum_congr rfl fun l _ => ?_
  by_cases h4 : d = sp n l
  swap
  · simp [h4]
  by_cases h5 : P i j k l <;> simp [h1, h2, h3, h4, h5]

theorem holds_restricted {n : ℕ} {ms : List (ℕ → ℕ → R) × List (ℕ → ℕ → ℕ → ℕ → R)} {F1 : ℕ → ℕ → R}
    {F2 : ℕ → ℕ → ℕ → ℕ → R} (h : Holds .restricted n ms F1 F2) :
    ∃ D G, ms = ([D], [G]) ∧ (∀ i < n, ∀ j < n, D i j = F1 i j + F1 (i + n) (j + n)) ∧
      ∀ i < n, ∀ j < n, ∀ k < n, ∀ l < n, G i j k l = F2 i j k l + F2 i (j + n) k (l + n) + F2 (i + n) j (k + n) l +
        F2 (i + n) (j + n) (k + n) (l + n) := by
  obtain ⟨h1, h2, h3, h4⟩ := h
  obtain ⟨D, hD⟩ := List.length_eq_one_iff.1 h1
  obtain ⟨G, hG⟩ := List.length_eq_one_iff.1 h2
  refine ⟨D, G, Prod.ext hD hG, fun i hi j hj => ?_, fun i hi j hj k hk l hl => ?_⟩
  · have := h3 0 (by simp [OrbType.shape]) i j
    rw [hD] at this
    refine this.trans ?_
    simp only [W1]
    rw [weight2 n i j hi hj fun i j => (i < n ↔ j < n)]
    simp [hi, hj]
  · have := h4 0 (by simp [OrbType.shape]) i j k l
    rw [hG] at this
    refine this.trans ?_
    have e := weight4 n i j k l hi hj hk hl (fun i j k l => (i < n ↔ k < n) ∧ (j < n ↔ l < n)) F2
    simp only [W2]
    refine Eq.trans ?_ (e.trans ?_)
    · refine sum_congr rfl fun a _ => sum_congr rfl fun b _ => sum_congr rfl fun c _ => sum_congr rfl fun d _ => ?_
      simp only [and_assoc]
    · have hn : ∀ x < n, x ≠ x + n := by intros; omega
      simp only [sum_product, sum_pair (hn i hi), sum_pair (hn j hj), sum_pair (hn k hk), sum_pair (hn l hl)]
      simp [hi, hj, hk, hl]
      ring

theorem holds_unrestricted {n : ℕ} {ms : List (ℕ → ℕ → R) × List (ℕ → ℕ → ℕ → ℕ → R)} {F1 : ℕ → ℕ → R}
    {F2 : ℕ → ℕ → ℕ → ℕ → R} (h : Holds .unrestricted n ms F1 F2) :
    ∃ Da Db Gaa Gab Gbb, ms = ([Da, Db], [Gaa, Gab, Gbb]) ∧ (∀ i < n, ∀ j < n, Da i j = F1 i j ∧ Db i j = F1 (i + n) (j + n)) ∧
      ∀ i < n, ∀ j < n, ∀ k < n, ∀ l < n, Gaa i j k l = F2 i j k l ∧ Gab i j k l = F2 i (j + n) k (l + n) ∧
        Gbb i j k l = F2 (i + n) (j + n) (k + n) (l + n) := by
  obtain ⟨h1, h2, h3, h4⟩ := h
  obtain ⟨Da, Db, hD⟩ := List.length_eq_two.1 h1
  obtain ⟨Gaa, Gab, Gbb, hG⟩ := List.length_eq_three.1 h2
  refine ⟨Da, Db, Gaa, Gab, Gbb, Prod.ext hD hG, fun i hi j hj => ⟨?_, ?_⟩, fun i hi j hj k hk l hl => ⟨?_, ?_, ?_⟩⟩
  · have := h3 0 (by simp [OrbType.shape]) i j
    rw [hD] at this
    refine this.trans ?_
    simp only [W1, ← and_assoc]
    simp only [and_assoc (c := j = sp n _)]
    rw [weight2 n i j hi hj fun i j => (i < n ∧ j < n)]
    simp [hi, hj]
  · have := h3 1 (by simp [OrbType.shape]) i j
    rw [hD] at this
    refine this.trans ?_
    simp only [W1, ← and_assoc]
    simp only [and_assoc (c := j = sp n _)]
    rw [weight2 n i j hi hj fun i j => (¬ i < n ∧ ¬ j < n)]
    simp [hi, hj]
  all_goals have hn : ∀ x < n, x ≠ x + n := by intros; omega
  · have := h4 0 (by simp [OrbType.shape]) i j k l
    rw [hG] at this
    refine this.trans ?_
    have e := weight4 n i j k l hi hj hk hl (fun i j k l => i < n ∧ k < n ∧ j < n ∧ l < n) F2
    refine e.trans ?_
    simp only [sum_product, sum_pair (hn i hi), sum_pair (hn j hj), sum_pair (hn k hk), sum_pair (hn l hl)]
    simp [hi, hj, hk, hl]
  · have := h4 1 (by simp [OrbType.shape]) i j k l
    rw [hG] at this
    refine this.trans ?_
    have e := weight4 n i j k l hi hj hk hl (fun i j k l => i < n ∧ k < n ∧ ¬ j < n ∧ ¬ l < n) F2
    refine e.trans ?_
    simp only [sum_product, sum_pair (hn i hi), sum_pair (hn j hj), sum_pair (hn k hk), sum_pair (hn l hl)]
    simp [hi, hj, hk, hl]
  · have := h4 2 (by simp [OrbType.shape]) i j k l
    rw [hG] at this
    refine this.trans ?_
    have e := weight4 n i j k l hi hj hk hl (fun i j k l => ¬ i < n ∧ ¬ k < n ∧ ¬ j < n ∧ ¬ l < n) F2
    refine e.trans ?_
    simp only [sum_product, sum_pair (hn i hi), sum_pair (hn j hj), sum_pair (hn k hk), sum_pair (hn l hl)]
    simp [hi, hj, hk, hl]

end

end Fanpy.Lemmas
