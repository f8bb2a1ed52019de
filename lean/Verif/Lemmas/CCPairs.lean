import Mathlib.Data.List.Sublists
import Verif.Lemmas.CCMain
import Verif.Model.PCCD

/-! Products of excitation operators, and products of sums of excitation operators. -/

namespace Fanpy.CC
open Fanpy.Spec Fanpy.Slater Fanpy.Graphs Fanpy.It Fanpy.Props

section
variable {R : Type*} [CommRing R]

/-- the coefficient of a product of operators -/
theorem prod_coeff {V : Finset ℕ} (S : List (List ℕ × List ℕ)) (hS : ∀ q ∈ S, Op V q) (t : List ℕ × List ℕ → R) (s u : Finset ℕ) :
    ((S.map fun p => t p • (excOp p.1 p.2 : Module.End R (Fock R))).prod (ket s)) u =
      (S.map t).prod * (((-1 : ℤ) ^ hops 0 S : ℤ) : R) * (excOp (S.flatMap Prod.fst) (S.flatMap Prod.snd) (ket s : Fock R)) u := by
  have e : (S.map fun p => t p • (excOp p.1 p.2 : Module.End R (Fock R))).prod =
      (S.map t).prod • (S.map fun p => (excOp p.1 p.2 : Module.End R (Fock R))).prod := by
    clear hS
    induction S with
    | nil => simp
    | cons p S ih => rw [List.map_cons, List.prod_cons, ih, List.map_cons, List.prod_cons, List.map_cons, List.prod_cons,
        smul_mul_smul_comm]
  rw [e, prod_excOp S hS, LinearMap.smul_apply, Finsupp.smul_apply, zsmul_coeff, smul_eq_mul, mul_assoc]

/-- the coefficient of a product of operators that takes one determinant to another -/
theorem prod_coeff_path {V : Finset ℕ} (S : List (List ℕ × List ℕ)) (hS : ∀ q ∈ S, Op V q) (t : List ℕ × List ℕ → R) (s u : Finset ℕ)
    {a c : List ℕ} (ha : a.Pairwise (· < ·)) (hc : c.Pairwise (· < ·)) (hl : a.length = c.length) (h2 : (S.flatMap Prod.fst).Perm a)
    (h3 : (S.flatMap Prod.snd).Perm c) :
    ((S.map fun p => t p • (excOp p.1 p.2 : Module.End R (Fock R))).prod (ket s)) u =
      (S.map t).prod * (sgn S : R) * (excOp a c (ket s : Fock R)) u := by
  rw [prod_coeff S hS, mul_assoc, mul_assoc]
  congr 1
  have n1 := h2.nodup_iff.2 (ha.imp fun h => by omega : a.Nodup)
  have n2 := h3.nodup_iff.2 (hc.imp fun h => by omega : c.Nodup)
  have hl' : (S.flatMap Prod.fst).length = (S.flatMap Prod.snd).length := by rw [h2.length_eq, h3.length_eq, hl]
  rw [excOp_perm h2 h3 hl' n1 n2 ha hc, zsmul_coeff, ← mul_assoc, ← Int.cast_mul]
  congr 2
  rw [sgn, listSign_reverse n1, listSign_reverse n2, hl']
  have : ((-1 : ℤ) ^ ((S.flatMap Prod.snd).length * ((S.flatMap Prod.snd).length - 1) / 2)) *
      (-1) ^ ((S.flatMap Prod.snd).length * ((S.flatMap Prod.snd).length - 1) / 2) = 1 := by
    rw [← mul_pow]; simp
  linear_combination (-((-1 : ℤ) ^ hops 0 S * listSign (S.flatMap Prod.fst) * listSign (S.flatMap Prod.snd))) * this

/-- the other products do not contribute -/
theorem prod_coeff_ne {V : Finset ℕ} (S : List (List ℕ × List ℕ)) (hS : ∀ q ∈ S, Op V q) (t : List ℕ × List ℕ → R) (s u : Finset ℕ)
    {a c : List ℕ} (ha : a.Nodup) (hc : c.Nodup) (has : a.toFinset = s \ u) (hcs : c.toFinset = u \ s)
    (hne : ((S.map fun p => t p • (excOp p.1 p.2 : Module.End R (Fock R))).prod (ket s)) u ≠ 0) :
    (S.flatMap Prod.fst).Perm a ∧ (S.flatMap Prod.snd).Perm c := by
  rw [prod_coeff S hS] at hne
  obtain ⟨h1, h2, h3, h4⟩ := excOp_ket_ne (V := V) (fun i hi => by
    obtain ⟨q, hq, hi⟩ := List.mem_flatMap.1 hi
    exact (hS q hq).ann i hi) (fun i hi => by
    obtain ⟨q, hq, hi⟩ := List.mem_flatMap.1 hi
    exact (hS q hq).cre i hi) (right_ne_zero_of_mul hne)
  exact ⟨(List.perm_ext_iff_of_nodup h1 ha).2 fun i => by rw [← List.mem_toFinset, h3, ← has, List.mem_toFinset],
    (List.perm_ext_iff_of_nodup h2 hc).2 fun i => by rw [← List.mem_toFinset, h4, ← hcs, List.mem_toFinset]⟩

/-- a sum of products of operators -/
theorem kept_sum {V : Finset ℕ} (Qs : List (List ℕ × List ℕ)) (hop : ∀ q ∈ Qs, Op V q) (hQ : Qs.Nodup) (keep : List (List ℕ × List ℕ) → Bool)
    (t : List ℕ × List ℕ → R) (s u : Finset ℕ) {a c : List ℕ} (ha : a.Pairwise (· < ·)) (hc : c.Pairwise (· < ·)) (hl : a.length = c.length)
    (has : a.toFinset = s \ u) (hcs : c.toFinset = u \ s) (L : List (List (List ℕ × List ℕ))) (hLn : L.Nodup)
    (hL : ∀ S, S ∈ L ↔ S.Sublist Qs ∧ (S.flatMap Prod.fst).Perm a ∧ (S.flatMap Prod.snd).Perm c ∧ keep S = true) :
    ((((Qs.sublists'.filter keep).map fun S => (S.map fun p => t p • (excOp p.1 p.2 : Module.End R (Fock R))).prod).sum :
      Module.End R (Fock R)) (ket s)) u = (L.map fun S => (S.map t).prod * (sgn S : R)).sum * (excOp a c (ket s : Fock R)) u := by
  have e : ∀ M : List (List (List ℕ × List ℕ)),
      (((M.map fun S => (S.map fun p => t p • (excOp p.1 p.2 : Module.End R (Fock R))).prod).sum : Module.End R (Fock R)) (ket s)) u =
        (M.map fun S => ((S.map fun p => t p • (excOp p.1 p.2 : Module.End R (Fock R))).prod (ket s)) u).sum := by
    intro M
    induction M with
    | nil => simp
    | cons S M ih => rw [List.map_cons, List.sum_cons, List.map_cons, List.sum_cons, LinearMap.add_apply, Finsupp.add_apply, ih]
  rw [e, ← List.sum_map_mul_right, ← List.sum_toFinset _ hLn, ← List.sum_toFinset _ ((List.nodup_sublists'.2 hQ).filter _)]
  have hna : a.Nodup := ha.imp fun h => by omega
  have hnc : c.Nodup := hc.imp fun h => by omega
  rw [← Finset.sum_subset (s₁ := L.toFinset)]
  · apply Finset.sum_congr rfl
    intro S hS
    obtain ⟨h1, h2, h3, -⟩ := (hL S).1 (List.mem_toFinset.1 hS)
    rw [prod_coeff_path S (fun q hq => hop q (h1.subset hq)) t s u ha hc hl h2 h3]
  · intro S hS
    obtain ⟨h1, h2, h3, h4⟩ := (hL S).1 (List.mem_toFinset.1 hS)
    rw [List.mem_toFinset, List.mem_filter, List.mem_sublists']
    exact ⟨h1, h4⟩
  · intro S hS hn
    rw [List.mem_toFinset, List.mem_filter, List.mem_sublists'] at hS
    by_contra hne
    obtain ⟨h2, h3⟩ := prod_coeff_ne S (fun q hq => hop q (hS.1.subset hq)) t s u hna hnc has hcs hne
    exact hn (List.mem_toFinset.2 ((hL S).2 ⟨hS.1, h2, h3, hS.2⟩))

end

/-! ## Products of sums -/

theorem sublists'_filter {α : Type*} (p : α → Bool) (l : List α) : (l.filter p).sublists' = l.sublists'.filter fun S => S.all p := by
  induction l with
  | nil => rfl
  | cons x l ih =>
    rw [List.sublists'_cons, List.filter_append, List.filter_map]
    by_cases h : p x = true
    · rw [List.filter_cons_of_pos h, List.sublists'_cons, ih]
      congr 2
      apply List.filter_congr
      intro S _
      simp [h]
    · rw [List.filter_cons_of_neg h, ih]
      have : (l.sublists'.filter ((fun S => S.all p) ∘ List.cons x)) = [] := by
        rw [List.filter_eq_nil_iff]
        intro S _
        simp [h]
      rw [this]; simp

section
variable {A : Type*} [Ring A] {α ι : Type*} [DecidableEq ι]

/-- one plus the sum of the elements of a group -/
def groupSum (x : α → A) (g : α → ι) (Q : List α) (i : ι) : A := 1 + ((Q.filter fun q => decide (g q = i)).map x).sum

theorem groupSum_cons_ne (x : α → A) (g : α → ι) (q : α) (Q : List α) {i : ι} (h : g q ≠ i) : groupSum x g (q :: Q) i = groupSum x g Q i := by
  rw [groupSum, groupSum, List.filter_cons_of_neg (by simpa using h)]

theorem groupSum_cons_eq (x : α → A) (g : α → ι) (q : α) (Q : List α) : groupSum x g (q :: Q) (g q) = x q + groupSum x g Q (g q) := by
  rw [groupSum, groupSum, List.filter_cons_of_pos (by simp), List.map_cons, List.sum_cons]
  abel

theorem groupSum_filter (x : α → A) (g : α → ι) (Q : List α) (i j : ι) :
    groupSum x g (Q.filter fun q => decide (g q ≠ j)) i = if i = j then 1 else groupSum x g Q i := by
  rw [groupSum, groupSum, List.filter_filter]
  split_ifs with h
  · subst h
    have : (Q.filter fun a => decide (g a = i) && decide (g a ≠ i)) = [] := by
      rw [List.filter_eq_nil_iff]; intro q _; simp
    rw [this]; simp
  · congr 3
    apply List.filter_congr
    intro q _
    by_cases hq : g q = i
    · simp [hq, h]
    · simp [hq]

theorem prod_groupSum_cons (x : α → A) (g : α → ι) (q : α) (Q : List α) (hc : ∀ p ∈ Q, Commute (x q) (x p)) (l : List ι) (hl : l.Nodup) :
    (l.map (groupSum x g (q :: Q))).prod = (l.map (groupSum x g Q)).prod +
      if g q ∈ l then x q * (l.map (groupSum x g (Q.filter fun p => decide (g p ≠ g q)))).prod else 0 := by
  induction l with
  | nil => simp
  | cons i l ih =>
    rw [List.nodup_cons] at hl
    rw [List.map_cons, List.prod_cons, List.map_cons, List.prod_cons, List.map_cons, List.prod_cons, ih hl.2, groupSum_filter]
    by_cases h : i = g q
    · subst h
      rw [if_neg hl.1, if_pos (by simp), if_pos rfl, groupSum_cons_eq, one_mul, add_zero, add_mul, add_comm]
      congr 2
      congr 1
      apply List.map_congr_left
      intro j hj
      rw [groupSum_filter, if_neg (by rintro rfl; exact hl.1 hj)]
    · rw [groupSum_cons_ne x g q Q (Ne.symm h), mul_add, if_neg h]
      congr 1
      by_cases hm : g q ∈ l
      · rw [if_pos hm, if_pos (by simp [hm]), ← mul_assoc, ← mul_assoc]
        congr 1
        symm
        apply Commute.add_right (Commute.one_right _)
        apply Commute.list_sum_right
        intro y hy
        obtain ⟨p, hp, rfl⟩ := List.mem_map.1 hy
        exact hc p (List.mem_of_mem_filter hp)
      · rw [if_neg hm, if_neg (by simp [hm]; exact Ne.symm h), mul_zero]

/-- a product of sums is the sum of the products with at most one element of each group -/
theorem prod_groupSum (x : α → A) (g : α → ι) (l : List ι) (hl : l.Nodup) (Q : List α) (hc : ∀ p ∈ Q, ∀ q ∈ Q, Commute (x p) (x q))
    (hg : ∀ q ∈ Q, g q ∈ l) : (l.map (groupSum x g Q)).prod =
      ((Q.sublists'.filter fun S => decide (S.map g).Nodup).map fun S => (S.map x).prod).sum := by
  obtain ⟨k, hk⟩ : ∃ k, Q.length = k := ⟨_, rfl⟩
  induction k using Nat.strong_induction_on generalizing Q with
  | _ k ih =>
    cases Q with
    | nil =>
      have : l.map (groupSum x g []) = l.map fun _ => 1 := List.map_congr_left fun i _ => by simp [groupSum]
      rw [this]; simp
    | cons q Q =>
      have h1 := ih Q.length (by rw [← hk]; simp) Q (fun p hp r hr => hc p (by simp [hp]) r (by simp [hr])) (fun p hp => hg p (by simp [hp])) rfl
      have h2 := ih (Q.filter fun p => decide (g p ≠ g q)).length (by
          have := List.length_filter_le (fun p => decide (g p ≠ g q)) Q
          rw [← hk, List.length_cons]; omega) (Q.filter fun p => decide (g p ≠ g q))
        (fun p hp r hr => hc p (by simp [List.mem_of_mem_filter hp]) r (by simp [List.mem_of_mem_filter hr]))
        (fun p hp => hg p (by simp [List.mem_of_mem_filter hp])) rfl
      rw [prod_groupSum_cons x g q Q (fun p hp => hc q (by simp) p (by simp [hp])) l hl, if_pos (hg q (by simp)), h1, h2,
        List.sublists'_cons, List.filter_append, List.map_append, List.sum_append, List.filter_map, List.map_map, sublists'_filter,
        List.filter_filter, ← List.sum_map_mul_left]
      congr 2
      have : ∀ M : List (List α), (M.filter fun a => decide (a.map g).Nodup && a.all fun p => decide (g p ≠ g q)) =
          M.filter ((fun S => decide (S.map g).Nodup) ∘ List.cons q) := by
        intro M
        apply List.filter_congr
        intro S _
        rw [Bool.eq_iff_iff]
        simp only [Bool.and_eq_true, decide_eq_true_eq, List.all_eq_true, Function.comp_apply, List.map_cons, List.nodup_cons, List.mem_map,
          not_exists, not_and]
        tauto
      rw [this]
      apply List.map_congr_left
      intro S _
      simp
end

end Fanpy.CC
