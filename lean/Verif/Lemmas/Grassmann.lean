import Mathlib.Data.List.Sublists
import Mathlib.Data.Nat.Factorial.Basic
import Mathlib.Algebra.Ring.Commute
import Mathlib.Algebra.BigOperators.Group.List.Basic
import Mathlib.Tactic.NoncommRing
import Mathlib.Tactic.Abel
import Verif.Lemmas.Sign

/-! Powers of sums of commuting elements of square zero, and products of anticommuting elements. -/

namespace Fanpy.Spec
open Fanpy.Slater

section
variable {A : Type*} [Ring A]

theorem add_pow_sq_zero {x X : A} (h : Commute x X) (hx : x * x = 0) (k : ℕ) :
    (x + X) ^ (k + 1) = X ^ (k + 1) + (k + 1) • (x * X ^ k) := by
  induction k with
  | zero => simp [add_comm]
  | succ k ih =>
    rw [pow_succ' (x + X), ih, add_mul, mul_add, mul_add, mul_smul_comm, mul_smul_comm, ← mul_assoc x x, hx, zero_mul, smul_zero,
      add_zero, ← pow_succ', ← mul_assoc X x, ← h.eq, mul_assoc x X, ← pow_succ', add_smul (k + 1) 1, one_smul]
    abel

theorem sum_pow_sublists (l : List A) (hc : ∀ x ∈ l, ∀ y ∈ l, Commute x y) (hs : ∀ x ∈ l, x * x = 0) (k : ℕ) :
    l.sum ^ k = k.factorial • ((l.sublistsLen k).map List.prod).sum := by
  induction l generalizing k with
  | nil => cases k <;> simp
  | cons x l ih =>
    cases k with
    | zero => simp
    | succ k =>
      have ih := ih (fun x hx y hy => hc x (by simp [hx]) y (by simp [hy])) (fun x hx => hs x (by simp [hx]))
      have hX : Commute x l.sum := Commute.list_sum_right _ _ fun y hy => hc x (by simp) y (by simp [hy])
      rw [List.sum_cons, add_pow_sq_zero hX (hs x (by simp)), ih, ih, List.sublistsLen_succ_cons, List.map_append, List.sum_append,
        smul_add, List.map_map]
      congr 1
      have e : ((List.sublistsLen k l).map (List.prod ∘ List.cons x)).sum = x * ((List.sublistsLen k l).map List.prod).sum := by
        rw [← List.sum_map_mul_left]; simp [Function.comp_def]
      rw [e, Nat.factorial_succ, mul_smul_comm, ← mul_smul]

/-- products of generators that anticommute -/
theorem prod_anticomm {ι κ : Type*} (f : ι → A) (g : κ → A) (l : List ι) (m : List κ)
    (h : ∀ i ∈ l, ∀ j ∈ m, f i * g j = -(g j * f i)) :
    (l.map f).prod * (m.map g).prod = (-1 : ℤ) ^ (l.length * m.length) • ((m.map g).prod * (l.map f).prod) := by
  have one : ∀ (i : ι) (m : List κ), (∀ j ∈ m, f i * g j = -(g j * f i)) →
      f i * (m.map g).prod = (-1 : ℤ) ^ m.length • ((m.map g).prod * f i) := by
    intro i m h
    induction m with
    | nil => simp
    | cons j m ih =>
      rw [List.map_cons, List.prod_cons, ← mul_assoc, h j (by simp), neg_mul, mul_assoc, ih fun j hj => h j (by simp [hj]),
        List.length_cons, pow_succ, mul_smul_comm, mul_assoc, mul_neg_one, neg_smul]
  induction l with
  | nil => simp
  | cons i l ih =>
    rw [List.map_cons, List.prod_cons, mul_assoc, ih fun i hi => h i (by simp [hi]), mul_smul_comm, ← mul_assoc,
      one i m (h i (by simp)), smul_mul_assoc, smul_smul, mul_assoc, ← pow_add, List.length_cons]
    congr 2; ring

theorem prod_perm_sign (θ : ℕ → A) (h : ∀ i j, θ i * θ j = -(θ j * θ i)) {l m : List ℕ} (hp : l.Perm m) :
    listSign l • (l.map θ).prod = listSign m • (m.map θ).prod := by
  induction hp with
  | nil => rfl
  | cons x hp ih =>
    rename_i l m
    rw [List.map_cons, List.map_cons, List.prod_cons, List.prod_cons, listSign, listSign, (hp.map _).prod_eq, mul_smul, mul_smul,
      ← mul_smul_comm (listSign l), ← mul_smul_comm (listSign m), ih]
  | swap x y l =>
    by_cases hxy : x = y
    · subst hxy; rfl
    · have := listSign_swap_adjacent [] l x y hxy
      simp only [List.nil_append] at this
      simp only [List.map_cons, List.prod_cons, ← mul_assoc]
      rw [h y x, neg_mul, smul_neg, ← neg_smul]
      rw [this]
  | trans _ _ h1 h2 => exact h1.trans h2

theorem prod_dup_zero (θ : ℕ → A) (h : ∀ i j, θ i * θ j = -(θ j * θ i)) (h0 : ∀ i, θ i * θ i = 0) {l : List ℕ} (hl : ¬ l.Nodup) :
    (l.map θ).prod = 0 := by
  induction l with
  | nil => simp at hl
  | cons x l ih =>
    rw [List.map_cons, List.prod_cons]
    by_cases hn : l.Nodup
    · have hx : x ∈ l := by
        by_contra hx; exact hl (List.nodup_cons.2 ⟨hx, hn⟩)
      obtain ⟨p, q, rfl⟩ := List.append_of_mem hx
      rw [List.map_append, List.prod_append, List.map_cons, List.prod_cons, ← mul_assoc]
      have := prod_anticomm θ θ [x] p (fun i _ j _ => h i j)
      simp only [List.map_cons, List.map_nil, List.prod_cons, List.prod_nil, mul_one] at this
      rw [this, smul_mul_assoc, mul_assoc, ← mul_assoc (θ x), h0, zero_mul, mul_zero, smul_zero]
    · rw [ih hn, mul_zero]

end

end Fanpy.Spec
