import Verif.Model.Density
import Verif.Lemmas.SdPair
import Verif.Lemmas.SlaterCondon
import Verif.Lemmas.SpinSplit

/-! # Helper lemmas for the density matrices -/

set_option linter.unusedSimpArgs false

namespace Fanpy.Lemmas
open Fanpy.Ham Fanpy.Spec Fanpy.Slater Finset

variable {R : Type} [CommRing R]

/-! ### The sign -/

theorem neg_one_pow_countLess (shared diff : List ℕ) (hn : shared.Nodup) :
    (-1 : ℤ) ^ countLess shared diff = (diff.map (phase shared.toFinset)).prod := by
  have h1 : ∀ d, phase shared.toFinset d = (-1) ^ (shared.filter (· < d)).length := by
    intro d
    rw [phase]
    congr 1
    rw [← List.toFinset_card_of_nodup (hn.filter _), List.toFinset_filter]
    congr 1
    ext x
    simp
  have h2 : ∀ diff : List ℕ, countLess shared diff = (diff.map fun d => (shared.filter (· < d)).length).sum := by
    intro diff
    clear hn h1
    induction shared with
    | nil => simp [countLess]
    | cons a s ih =>
      have e : countLess (a :: s) diff = (diff.filter fun d => a < d).length + countLess s diff := by
        simp [countLess]
      rw [e, ih]
      clear e ih
      induction diff with
      | nil => rfl
      | cons d ds ih =>
        rw [List.map_cons, List.sum_cons, List.map_cons, List.sum_cons, ← ih]
        by_cases h : a < d
        · rw [List.filter_cons_of_pos (by simpa using h), List.filter_cons_of_pos (by simpa using h)]
          simp only [List.length_cons]
          omega
        · rw [List.filter_cons_of_neg (by simpa using h), List.filter_cons_of_neg (by simpa using h)]
          omega
  rw [h2]
  induction diff with
  | nil => simp
  | cons d ds ih => rw [List.map_cons, List.sum_cons, pow_add, ih, List.map_cons, List.prod_cons, h1]

/-! ### Sums over lists with one non-zero term -/

theorem list_sum_single {M : Type} [AddCommMonoid M] (l : List ℕ) (hn : l.Nodup) (f : ℕ → M) (a : ℕ)
    (hf : ∀ x, x ≠ a → f x = 0) : (l.map f).sum = if a ∈ l then f a else 0 := by
  induction l with
  | nil => simp
  | cons b l ih =>
    obtain ⟨h1, h2⟩ := List.nodup_cons.1 hn
    rw [List.map_cons, List.sum_cons, ih h2]
    by_cases hb : b = a
    · subst hb
      rw [if_neg h1, if_pos (by simp), add_zero]
    · rw [hf b hb, zero_add]
      simp [Ne.symm hb]

/-- the total of the values added at one place -/
def total1 (l : List (ℕ × ℕ × R)) (i j : ℕ) : R := (l.map fun a => if i = a.1 ∧ j = a.2.1 then a.2.2 else 0).sum

def total2 (l : List (ℕ × ℕ × ℕ × ℕ × R)) (i j k m : ℕ) : R :=
  (l.map fun a => if i = a.1 ∧ j = a.2.1 ∧ k = a.2.2.1 ∧ m = a.2.2.2.1 then a.2.2.2.2 else 0).sum

/-- the contribution of an unordered pair of determinants to `⟨a†_i a_j⟩` -/
noncomputable def pairOne (s t : ℕ) (i j : ℕ) : R :=
  if s = t then oneME R (occSet s) (occSet s) i j
  else oneME R (occSet s) (occSet t) i j + oneME R (occSet t) (occSet s) i j

noncomputable def pairTwo (s t : ℕ) (i j k l : ℕ) : R :=
  if s = t then twoME R (occSet s) (occSet s) i j k l
  else twoME R (occSet s) (occSet t) i j k l + twoME R (occSet t) (occSet s) i j k l

/-- the value added for a pair -/
def pairVal (x y : R) (s t : ℕ) : R :=
  x * y * (-1) ^ (countLess (sharedOrbs s t) (diffOrbs s t).1 + countLess (sharedOrbs s t) (diffOrbs s t).2)

theorem pairVal_eq (x y : R) (s t : ℕ) : pairVal x y s t = x * y * ((((diffOrbs s t).1.map
    (phase (sharedOrbs s t).toFinset)).prod * ((diffOrbs s t).2.map (phase (sharedOrbs s t).toFinset)).prod : ℤ) : R) := by
  rw [pairVal, pow_add, ← neg_one_pow_countLess _ _ (sharedOrbs_nodup s t),
    ← neg_one_pow_countLess _ _ (sharedOrbs_nodup s t)]
  push_cast
  rfl

theorem oneME_zero_of_card {s t : Finset ℕ} (h : s.card ≠ t.card ∨ 1 < (s \ t).card) (i j : ℕ) : oneME R s t i j = 0 := by
  by_contra hne
  have := oneME_ne_zero hne
  omega

theorem twoME_zero_of_card {s t : Finset ℕ} (h : s.card ≠ t.card ∨ 2 < (s \ t).card) (i j k l : ℕ) :
    twoME R s t i j k l = 0 := by
  by_contra hne
  have := twoME_ne_zero hne
  omega

theorem card_sdiff_swap {s t : Finset ℕ} (h : s.card = t.card) : (s \ t).card = (t \ s).card := by
  have h1 := Finset.card_sdiff_add_card_inter s t
  have h2 := Finset.card_sdiff_add_card_inter t s
  rw [Finset.inter_comm] at h2
  omega

theorem eps_ordered (u : Finset ℕ) {a b : ℕ} (ha : a ∉ u) (hb : b ∉ u) (hab : a < b) :
    eps (insert a (insert b u)) a b = phase u a * phase u b := by
  have hne : a ∉ insert b u := by simp [ha, hab.ne]
  rw [eps, Finset.erase_insert hne, phase_insert, phase_insert, phase_insert]
  simp [hb, ha, hab.ne, not_lt.2 hab.le]

theorem total1_pair (x y : R) (s t : ℕ) (i j : ℕ) (hl : (diffOrbs s t).2.length = (diffOrbs s t).1.length) :
    total1 (oneAdds (sharedOrbs s t) (diffOrbs s t).1 (diffOrbs s t).2 (pairVal x y s t)) i j =
      x * y * pairOne s t i j := by
  rw [pairVal_eq]
  rcases sdPair_cases s t with ⟨h, -⟩ | ⟨-, h1, h2⟩ | ⟨rfl, h1, -⟩ | ⟨a, b, u, h1, h2, ha, hb, hab, e1, e2, -⟩ |
    ⟨a, b, c, d, u, h1, h2, ha, hb, hc, hd, hab, hcd, hac, had, hbc, hbd, e1, e2, -⟩
  · exact absurd hl.symm h
  · have hst : s ≠ t := by rintro rfl; simp at h2
    have hcard : (occSet s).card = (occSet t).card := (diff_lengths_iff s t).1 hl.symm
    rw [pairOne, if_neg hst, oneME_zero_of_card (.inr (by omega)),
      oneME_zero_of_card (.inr (by rw [← card_sdiff_swap hcard]; omega)), add_zero, mul_zero]
    obtain ⟨a, b, c, l1, e1⟩ : ∃ a b c l, (diffOrbs s t).1 = a :: b :: c :: l := by
      rcases hd : (diffOrbs s t).1 with _ | ⟨a, _ | ⟨b, _ | ⟨c, l⟩⟩⟩
      · rw [hd] at h1; simp at h1
      · rw [hd] at h1; simp at h1
      · rw [hd] at h1; simp at h1
      · exact ⟨a, b, c, l, rfl⟩
    rw [e1]
    rfl
  · rw [h1, pairOne, if_pos rfl, oneME_same]
    simp only [oneAdds, total1, List.map_map, List.map_nil, List.prod_nil, mul_one, Int.cast_one]
    rw [list_sum_single _ (sharedOrbs_nodup s s) _ i]
    · simp only [Function.comp, ← List.mem_toFinset, sharedOrbs_toFinset, Finset.inter_self]
      by_cases h2 : i ∈ occSet s
      · by_cases h3 : i = j
        · simp [h2, h3]
        · simp [h2, h3, Ne.symm h3]
      · simp [h2]
    · intro z hz
      simp [Ne.symm hz]
  · have hst : s ≠ t := by
      rintro rfl
      rw [e1] at e2
      have : a ∈ insert b u := e2 ▸ mem_insert_self a u
      simp [hab, ha] at this
    rw [h1, h2, pairOne, if_neg hst, e1, e2, oneME_single u ha hb hab, oneME_single u hb ha hab.symm]
    simp only [oneAdds, total1, List.map_cons, List.map_nil, List.sum_cons, List.sum_nil, List.prod_cons, List.prod_nil,
      mul_one, one_mul, add_zero, mul_add, mul_ite, mul_zero, mul_comm (phase u b)]
  · have hst : s ≠ t := by
      rintro rfl
      rw [e1] at e2
      have : a ∈ insert c (insert d u) := e2 ▸ mem_insert_self a _
      simp [hac, had, ha] at this
    have hsd : (occSet s \ occSet t).card = 2 := by rw [← diffOrbs_fst_length, h1]; rfl
    have hcard : (occSet s).card = (occSet t).card := (diff_lengths_iff s t).1 hl.symm
    rw [pairOne, if_neg hst, oneME_zero_of_card (.inr (by omega)),
      oneME_zero_of_card (.inr (by rw [← card_sdiff_swap hcard]; omega)), add_zero, mul_zero, h1]
    rfl

theorem total2_diag (v : R) (l : List ℕ) (hn : l.Nodup) (i j k m : ℕ) : total2 (diagAdds v l) i j k m =
    v * ((if i = k ∧ j = m ∧ i ∈ l ∧ j ∈ l then 1 else 0) - (if i = m ∧ j = k ∧ i ∈ l ∧ j ∈ l then 1 else 0)) := by
  induction l with
  | nil => simp [diagAdds, total2]
  | cons a l ih =>
    obtain ⟨h1, h2⟩ := List.nodup_cons.1 hn
    have e : total2 (diagAdds v (a :: l)) i j k m =
        (l.map fun z => (if i = a ∧ j = z ∧ k = a ∧ m = z then v else 0) + ((if i = z ∧ j = a ∧ k = z ∧ m = a then v else 0) +
          ((if i = a ∧ j = z ∧ k = z ∧ m = a then -v else 0) + (if i = z ∧ j = a ∧ k = a ∧ m = z then -v else 0)))).sum +
        total2 (diagAdds v l) i j k m := by
      simp only [diagAdds, total2, List.map_append, List.sum_append, List.flatMap, List.map_flatten, List.map_map,
        List.sum_flatten]
      congr 2
      refine List.map_congr_left fun z _ => ?_
      simp [Function.comp]
    rw [e, ih h2]
    simp only [List.sum_map_add]
    rw [list_sum_single l h2 _ j (by intro z hz; rw [if_neg]; rintro ⟨_, h, _⟩; exact hz h.symm),
      list_sum_single l h2 _ i (by intro z hz; rw [if_neg]; rintro ⟨h, _⟩; exact hz h.symm),
      list_sum_single l h2 _ j (by intro z hz; rw [if_neg]; rintro ⟨_, h, _⟩; exact hz h.symm),
      list_sum_single l h2 _ i (by intro z hz; rw [if_neg]; rintro ⟨h, _⟩; exact hz h.symm)]
    clear e ih
    by_cases hi : i = a
    · subst hi
      by_cases hj : j = i
      · subst hj
        simp only [h1, if_false, false_and, and_false, List.mem_cons, or_false, and_true, add_zero, zero_add, sub_self,
          mul_zero]
        rw [if_congr (and_comm (a := j = m)) rfl rfl, sub_self, mul_zero]
      · by_cases hjl : j ∈ l
        · simp only [h1, hj, hjl, if_true, if_false, false_and, and_false, true_and, and_true, List.mem_cons, or_true,
            or_false, true_or, add_zero, zero_add, sub_self, mul_zero, eq_comm (a := k), eq_comm (a := m)]
          split_ifs <;> simp_all
        · simp [h1, hj, hjl]
    · by_cases hj : j = a
      · subst hj
        by_cases hil : i ∈ l
        · simp only [h1, hi, hil, if_true, if_false, false_and, and_false, true_and, and_true, List.mem_cons, or_true,
            or_false, true_or, add_zero, zero_add, sub_self, mul_zero, eq_comm (a := k), eq_comm (a := m)]
          split_ifs <;> simp_all
        · simp [h1, hi, hil]
      · simp [hi, hj]

theorem total2_pair (x y : R) (s t : ℕ) (i j k m : ℕ) (hl : (diffOrbs s t).2.length = (diffOrbs s t).1.length) :
    total2 (twoAdds (sharedOrbs s t) (diffOrbs s t).1 (diffOrbs s t).2 (pairVal x y s t)) i j k m =
      x * y * pairTwo s t i j k m := by
  rw [pairVal_eq]
  rcases sdPair_cases s t with ⟨h, -⟩ | ⟨-, h1, h2⟩ | ⟨rfl, h1, -⟩ | ⟨a, b, u, h1, h2, ha, hb, hab, e1, e2, -⟩ |
    ⟨a, b, c, d, u, h1, h2, ha, hb, hc, hd, hab, hcd, hac, had, hbc, hbd, e1, e2, -⟩
  · exact absurd hl.symm h
  · have hst : s ≠ t := by rintro rfl; simp at h2
    have hcard : (occSet s).card = (occSet t).card := (diff_lengths_iff s t).1 hl.symm
    rw [pairTwo, if_neg hst, twoME_zero_of_card (.inr (by omega)),
      twoME_zero_of_card (.inr (by rw [← card_sdiff_swap hcard]; omega)), add_zero, mul_zero]
    obtain ⟨a, b, c, l1, e1⟩ : ∃ a b c l, (diffOrbs s t).1 = a :: b :: c :: l := by
      rcases hd : (diffOrbs s t).1 with _ | ⟨a, _ | ⟨b, _ | ⟨c, l⟩⟩⟩
      · rw [hd] at h1; simp at h1
      · rw [hd] at h1; simp at h1
      · rw [hd] at h1; simp at h1
      · exact ⟨a, b, c, l, rfl⟩
    rw [e1]
    rfl
  · rw [h1, pairTwo, if_pos rfl, twoME_same]
    simp only [twoAdds, List.map_nil, List.prod_nil, mul_one, Int.cast_one]
    rw [total2_diag _ _ (sharedOrbs_nodup s s)]
    simp only [← List.mem_toFinset, sharedOrbs_toFinset, Finset.inter_self]
  · have hst : s ≠ t := by
      rintro rfl
      rw [e1] at e2
      have : a ∈ insert b u := e2 ▸ mem_insert_self a u
      simp [hab, ha] at this
    rw [h1, h2, pairTwo, if_neg hst, e1, e2, twoME_single u ha hb hab, twoME_single u hb ha hab.symm]
    simp only [List.map_cons, List.map_nil, List.prod_cons, List.prod_nil, mul_one, one_mul, mul_comm (phase u b)]
    set v : R := x * y * ((phase u a * phase u b : ℤ) : R) with hv
    have hm : ∀ z, z ∈ sharedOrbs s t ↔ z ∈ u := fun z => by rw [← h2, List.mem_toFinset]
    have hn := sharedOrbs_nodup s t
    have e : total2 (twoAdds (sharedOrbs s t) [a] [b] v) i j k m =
        ((sharedOrbs s t).map fun z =>
          (if i = a ∧ j = z ∧ k = b ∧ m = z then v else 0) + ((if i = z ∧ j = a ∧ k = z ∧ m = b then v else 0) +
          ((if i = b ∧ j = z ∧ k = a ∧ m = z then v else 0) + ((if i = z ∧ j = b ∧ k = z ∧ m = a then v else 0) +
          ((if i = a ∧ j = z ∧ k = z ∧ m = b then -v else 0) + ((if i = z ∧ j = a ∧ k = b ∧ m = z then -v else 0) +
          ((if i = z ∧ j = b ∧ k = a ∧ m = z then -v else 0) + (if i = b ∧ j = z ∧ k = z ∧ m = a then -v else 0)))))))).sum := by
      simp only [twoAdds, total2, List.flatMap, List.map_flatten, List.map_map, List.sum_flatten]
      congr 1
      refine List.map_congr_left fun z _ => ?_
      simp [Function.comp]
    rw [e]
    simp only [List.sum_map_add]
    have jz : ∀ (P : ℕ → Prop) [DecidablePred P] (w : R) (q : ℕ), (∀ z, P z → z = q) →
        ((sharedOrbs s t).map fun z => if P z then w else 0).sum = if q ∈ u then (if P q then w else 0) else 0 := by
      intro P _ w q hP
      rw [list_sum_single _ hn _ q (fun z hz => if_neg fun h => hz (hP z h))]
      simp only [hm]
    rw [jz _ v j (fun z h => h.2.1.symm), jz _ v i (fun z h => h.1.symm), jz _ v j (fun z h => h.2.1.symm),
      jz _ v i (fun z h => h.1.symm), jz _ (-v) j (fun z h => h.2.1.symm), jz _ (-v) i (fun z h => h.1.symm),
      jz _ (-v) i (fun z h => h.1.symm), jz _ (-v) j (fun z h => h.2.1.symm)]
    have c1 : ∀ (p q r : Prop) [Decidable p] [Decidable q] [Decidable r] (w : R),
        (if p then (if q then w else 0) else 0) = w * (if q ∧ p then 1 else 0) := by
      intro p q r _ _ _ w
      by_cases hp : p <;> by_cases hq : q <;> simp [hp, hq]
    have c2 : ∀ (p q : Prop) [Decidable p] [Decidable q] (w : R),
        (if p then (if q then w else 0) else 0) = w * (if q ∧ p then 1 else 0) := fun p q _ _ w => c1 p q True w
    simp only [c2, true_and]
    have r : ∀ (p q : Prop) [Decidable p] [Decidable q], (p ↔ q) → (if p then (1 : R) else 0) = if q then 1 else 0 :=
      fun p q _ _ h => if_congr h rfl rfl
    rw [r ((i = a ∧ k = b ∧ m = j) ∧ j ∈ u) (i = a ∧ k = b ∧ j = m ∧ j ∈ u)
        ⟨fun h => ⟨h.1.1, h.1.2.1, h.1.2.2.symm, h.2⟩, fun h => ⟨⟨h.1, h.2.1, h.2.2.1.symm⟩, h.2.2.2⟩⟩,
      r ((j = a ∧ k = i ∧ m = b) ∧ i ∈ u) (j = a ∧ m = b ∧ i = k ∧ i ∈ u)
        ⟨fun h => ⟨h.1.1, h.1.2.2, h.1.2.1.symm, h.2⟩, fun h => ⟨⟨h.1, h.2.2.1.symm, h.2.1⟩, h.2.2.2⟩⟩,
      r ((i = a ∧ k = j ∧ m = b) ∧ j ∈ u) (i = a ∧ m = b ∧ j = k ∧ j ∈ u)
        ⟨fun h => ⟨h.1.1, h.1.2.2, h.1.2.1.symm, h.2⟩, fun h => ⟨⟨h.1, h.2.2.1.symm, h.2.1⟩, h.2.2.2⟩⟩,
      r ((j = a ∧ k = b ∧ m = i) ∧ i ∈ u) (j = a ∧ k = b ∧ i = m ∧ i ∈ u)
        ⟨fun h => ⟨h.1.1, h.1.2.1, h.1.2.2.symm, h.2⟩, fun h => ⟨⟨h.1, h.2.1, h.2.2.1.symm⟩, h.2.2.2⟩⟩]
    rw [r ((i = b ∧ k = a ∧ m = j) ∧ j ∈ u) (i = b ∧ k = a ∧ j = m ∧ j ∈ u)
        ⟨fun h => ⟨h.1.1, h.1.2.1, h.1.2.2.symm, h.2⟩, fun h => ⟨⟨h.1, h.2.1, h.2.2.1.symm⟩, h.2.2.2⟩⟩,
      r ((j = b ∧ k = i ∧ m = a) ∧ i ∈ u) (j = b ∧ m = a ∧ i = k ∧ i ∈ u)
        ⟨fun h => ⟨h.1.1, h.1.2.2, h.1.2.1.symm, h.2⟩, fun h => ⟨⟨h.1, h.2.2.1.symm, h.2.1⟩, h.2.2.2⟩⟩,
      r ((i = b ∧ k = j ∧ m = a) ∧ j ∈ u) (i = b ∧ m = a ∧ j = k ∧ j ∈ u)
        ⟨fun h => ⟨h.1.1, h.1.2.2, h.1.2.1.symm, h.2⟩, fun h => ⟨⟨h.1, h.2.2.1.symm, h.2.1⟩, h.2.2.2⟩⟩,
      r ((j = b ∧ k = a ∧ m = i) ∧ i ∈ u) (j = b ∧ k = a ∧ i = m ∧ i ∈ u)
        ⟨fun h => ⟨h.1.1, h.1.2.1, h.1.2.2.symm, h.2⟩, fun h => ⟨⟨h.1, h.2.1, h.2.2.1.symm⟩, h.2.2.2⟩⟩]
    rw [hv]
    ring
  · have hst : s ≠ t := by
      rintro rfl
      rw [e1] at e2
      have : a ∈ insert c (insert d u) := e2 ▸ mem_insert_self a _
      simp [hac, had, ha] at this
    rw [h1, h2, pairTwo, if_neg hst, e1, e2, twoME_double u ha hb hc hd hab.ne hcd.ne hac had hbc hbd,
      twoME_double u hc hd ha hb hcd.ne hab.ne hac.symm hbc.symm had.symm hbd.symm, eps_ordered u ha hb hab,
      eps_ordered u hc hd hcd]
    simp only [List.map_cons, List.map_nil, List.prod_cons, List.prod_nil, mul_one]
    rw [mul_comm (phase u c * phase u d)]
    have c0 : ∀ (p : Prop) [Decidable p] (w : R), (if p then w else 0) = w * (if p then 1 else 0) := by
      intro p _ w
      by_cases hp : p <;> simp [hp]
    simp only [twoAdds, total2, List.map_cons, List.map_nil, List.sum_cons, List.sum_nil, add_zero]
    simp only [c0 _ (-_), c0 _ (x * y * _)]
    ring

end Fanpy.Lemmas
