import Verif.Model.MathTools
import Mathlib.Logic.Equiv.Embedding
import Mathlib.Data.Fintype.CardEmbedding
import Mathlib.LinearAlgebra.Matrix.Permanent
import Mathlib.Algebra.BigOperators.Ring.Finset
import Mathlib.Algebra.BigOperators.Fin
import Mathlib.Algebra.BigOperators.Field
import Mathlib.Combinatorics.Enumerative.InclusionExclusion
import Mathlib.Logic.Equiv.Fin.Basic
import Mathlib.Tactic.Ring
import Mathlib.Tactic.LinearCombination

/-! Helper lemmas on permanents. -/

namespace Fanpy.MathTools
open Fanpy.It

theorem mem_kperms {α : Type*} {k : ℕ} {l : List α} (hl : l.Nodup) {p : List α} :
    p ∈ permsAux k l ↔ p.length = k ∧ p.Nodup ∧ ∀ x ∈ p, x ∈ l := by
  induction k generalizing l p with
  | zero =>
    simp only [permsAux, List.mem_singleton]
    constructor
    · rintro rfl; simp
    · rintro ⟨h, -⟩; simpa using h
  | succ k ih =>
    simp only [permsAux, List.mem_flatMap, List.mem_range]
    constructor
    · rintro ⟨i, hi, hp⟩
      rw [List.getElem?_eq_getElem hi] at hp
      simp only [List.mem_map] at hp
      obtain ⟨q, hq, rfl⟩ := hp
      obtain ⟨h1, h2, h3⟩ := (ih (hl.sublist (List.eraseIdx_sublist _ _))).1 hq
      refine ⟨by simp [h1], ?_, ?_⟩
      · rw [List.nodup_cons]
        refine ⟨fun h => ?_, h2⟩
        have := h3 _ h
        rw [List.mem_eraseIdx_iff_getElem] at this
        obtain ⟨j, hj, hne, he⟩ := this
        exact hne ((hl.getElem_inj_iff).1 he)
      · intro x hx
        rw [List.mem_cons] at hx
        rcases hx with rfl | hx
        · exact List.getElem_mem _
        · exact List.mem_of_mem_eraseIdx (h3 x hx)
    · rintro ⟨h1, h2, h3⟩
      rcases p with - | ⟨x, q⟩
      · simp at h1
      rw [List.nodup_cons] at h2
      obtain ⟨i, hi, rfl⟩ := List.getElem_of_mem (h3 x (by simp))
      refine ⟨i, hi, ?_⟩
      rw [List.getElem?_eq_getElem hi]
      simp only [List.mem_map]
      refine ⟨q, (ih (hl.sublist (List.eraseIdx_sublist _ _))).2 ⟨by simpa using h1, h2.2, ?_⟩, rfl⟩
      intro y hy
      rw [List.mem_eraseIdx_iff_getElem]
      obtain ⟨j, hj, rfl⟩ := List.getElem_of_mem (h3 y (by simp [hy]))
      refine ⟨j, hj, ?_, rfl⟩
      rintro rfl
      exact h2.1 hy

theorem kperms_nodup {α : Type*} {k : ℕ} {l : List α} (hl : l.Nodup) : (permsAux k l).Nodup := by
  induction k generalizing l with
  | zero => simp [permsAux]
  | succ k ih =>
    simp only [permsAux]
    rw [List.nodup_flatMap]
    refine ⟨?_, ?_⟩
    · intro i hi
      rw [List.getElem?_eq_getElem (List.mem_range.1 hi)]
      simp only
      exact (ih (hl.sublist (List.eraseIdx_sublist _ _))).map fun a b h => by simpa using h
    · refine List.Pairwise.imp_of_mem ?_ (List.nodup_range (n := l.length))
      intro i j hi hj hij
      rw [List.mem_range] at hi hj
      rw [Function.onFun, List.disjoint_left, List.getElem?_eq_getElem hi, List.getElem?_eq_getElem hj]
      intro p hp hp'
      simp only [List.mem_map] at hp hp'
      obtain ⟨q, -, rfl⟩ := hp
      obtain ⟨q', -, he⟩ := hp'
      rw [List.cons.injEq] at he
      exact hij ((hl.getElem_inj_iff).1 he.1).symm

theorem zipWith_range_prod {R : Type*} [CommMonoid R] (f : ℕ → ℕ → R) (m : ℕ) (g : Fin m → ℕ) :
    (List.zipWith f (List.range m) (List.ofFn g)).prod = ∏ i : Fin m, f i (g i) := by
  have : List.zipWith f (List.range m) (List.ofFn g) = List.ofFn fun i : Fin m => f i (g i) := by
    apply List.ext_getElem
    · simp
    · intro i h1 h2; simp
  rw [this, List.prod_ofFn]

/-- the sum over `itertools.permutations(range(n), m)` is the sum over injections -/
theorem kperms_sum {R : Type*} [CommSemiring R] (f : ℕ → ℕ → R) (m n : ℕ) :
    ((permsAux m (List.range n)).map fun p => (List.zipWith f (List.range m) p).prod).sum =
      ∑ e : Fin m ↪ Fin n, ∏ i : Fin m, f i (e i) := by
  rw [← List.sum_toFinset _ (kperms_nodup List.nodup_range)]
  symm
  refine Finset.sum_bij (fun (e : Fin m ↪ Fin n) _ => List.ofFn fun i => (e i : ℕ)) ?_ ?_ ?_ ?_
  · intro e _
    rw [List.mem_toFinset, mem_kperms List.nodup_range]
    refine ⟨by simp, ?_, ?_⟩
    · rw [List.nodup_ofFn]
      intro a b h
      exact e.injective (Fin.ext h)
    · intro x hx
      rw [List.mem_ofFn] at hx
      obtain ⟨i, rfl⟩ := hx
      simp
  · intro e _ e' _ h
    have := List.ofFn_injective h
    ext i
    exact congrFun this i
  · intro p hp
    rw [List.mem_toFinset, mem_kperms List.nodup_range] at hp
    obtain ⟨h1, h2, h3⟩ := hp
    subst h1
    refine ⟨⟨fun i => ⟨p[i], List.mem_range.1 (h3 _ (List.getElem_mem _))⟩, ?_⟩, Finset.mem_univ _, ?_⟩
    · intro a b h
      have := congrArg Fin.val h
      simp only at this
      exact Fin.ext ((h2.getElem_inj_iff).1 this)
    · simp
  · intro e _
    rw [zipWith_range_prod]

theorem foldl_add {α R : Type*} [AddCommMonoid R] (g : α → R) (l : List α) (a : R) :
    l.foldl (fun acc x => acc + g x) a = a + (l.map g).sum := by
  induction l generalizing a with
  | nil => simp
  | cons x l ih => rw [List.foldl_cons, ih, List.map_cons, List.sum_cons, add_assoc]

/-! ## inclusion–exclusion -/

/-- Ryser's formula -/
theorem ryser {R : Type*} [CommRing R] (n : ℕ) (M : Fin n → Fin n → R) :
    ∑ S : Finset (Fin n), (-1) ^ (n - S.card) * ∏ i, ∑ j ∈ S, M i j = ∑ e : Fin n ↪ Fin n, ∏ i, M i (e i) := by
  have h1 : ∀ S : Finset (Fin n), (-1 : R) ^ (n - S.card) * ∏ i, ∑ j ∈ S, M i j =
      ∑ f : Fin n → Fin n, (if ∀ i, f i ∈ S then (-1) ^ (n - S.card) * ∏ i, M i (f i) else 0) := by
    intro S
    rw [Finset.prod_univ_sum, Finset.mul_sum, ← Finset.sum_filter]
    apply Finset.sum_congr _ (fun _ _ => rfl)
    ext f; simp
  rw [Finset.sum_congr rfl fun S _ => h1 S, Finset.sum_comm]
  have h2 : ∀ f : Fin n → Fin n, ∑ S : Finset (Fin n),
      (if ∀ i, f i ∈ S then (-1 : R) ^ (n - S.card) * ∏ i, M i (f i) else 0) =
      if Function.Injective f then ∏ i, M i (f i) else 0 := by
    intro f
    have e1 : ∑ S : Finset (Fin n), (if ∀ i, f i ∈ S then (-1 : R) ^ (n - S.card) * ∏ i, M i (f i) else 0) =
        (∑ S : Finset (Fin n), if ∀ i, f i ∈ S then (-1 : R) ^ (n - S.card) else 0) * ∏ i, M i (f i) := by
      rw [Finset.sum_mul]
      apply Finset.sum_congr rfl
      intro S _
      split_ifs <;> simp
    have e2 : (∑ S : Finset (Fin n), if ∀ i, f i ∈ S then (-1 : R) ^ (n - S.card) else 0) =
        ∑ U ∈ (Finset.univ.image f)ᶜ.powerset, (-1 : R) ^ U.card := by
      rw [← Finset.sum_filter]
      refine Finset.sum_nbij' (fun S => Sᶜ) (fun U => Uᶜ) ?_ ?_ ?_ ?_ ?_
      · intro S hS
        rw [Finset.mem_filter] at hS
        rw [Finset.mem_powerset]
        intro x hx
        rw [Finset.mem_compl] at hx ⊢
        intro h
        rw [Finset.mem_image] at h
        obtain ⟨i, -, rfl⟩ := h
        exact hx (hS.2 i)
      · intro U hU
        rw [Finset.mem_powerset] at hU
        rw [Finset.mem_filter]
        refine ⟨Finset.mem_univ _, fun i => ?_⟩
        rw [Finset.mem_compl]
        intro h
        have := hU h
        rw [Finset.mem_compl] at this
        exact this (Finset.mem_image_of_mem _ (Finset.mem_univ _))
      · intro S _; simp
      · intro U _; simp
      · intro S _
        rw [Finset.card_compl, Fintype.card_fin]
    have e3 : ∑ U ∈ (Finset.univ.image f)ᶜ.powerset, (-1 : R) ^ U.card =
        if (Finset.univ.image f)ᶜ = ∅ then 1 else 0 := by
      have := Finset.sum_powerset_neg_one_pow_card (x := (Finset.univ.image f)ᶜ)
      have h := congrArg (Int.cast : ℤ → R) this
      push_cast at h
      rw [h]
    rw [e1, e2, e3]
    have e4 : (Finset.univ.image f)ᶜ = ∅ ↔ Function.Injective f := by
      rw [Finset.compl_eq_empty_iff, Finite.injective_iff_surjective, Finset.eq_univ_iff_forall]
      simp [Function.Surjective]
    by_cases h : Function.Injective f
    · rw [if_pos (e4.2 h), if_pos h, one_mul]
    · rw [if_neg (fun h' => h (e4.1 h')), if_neg h, zero_mul]
  rw [Finset.sum_congr rfl fun f _ => h2 f, ← Finset.sum_filter]
  symm
  refine Finset.sum_bij (fun (e : Fin n ↪ Fin n) _ => (e : Fin n → Fin n)) ?_ ?_ ?_ ?_
  · intro e _; simp [e.injective]
  · intro e _ e' _ h; exact DFunLike.coe_injective h
  · intro f hf
    rw [Finset.mem_filter] at hf
    exact ⟨⟨f, hf.2⟩, Finset.mem_univ _, rfl⟩
  · intro e _; rfl

/-- rows of ones multiply the sum over injections by a factorial -/
theorem embedding_pad {R : Type*} [CommRing R] (m k : ℕ) (f : ℕ → ℕ → R) (hf : ∀ i j, m ≤ i → f i j = 1) :
    ∑ e : Fin (m + k) ↪ Fin (m + k), ∏ i : Fin (m + k), f i (e i) =
      (k.factorial : R) * ∑ e : Fin m ↪ Fin (m + k), ∏ i : Fin m, f i (e i) := by
  have h1 : ∑ e : Fin (m + k) ↪ Fin (m + k), ∏ i : Fin (m + k), f i (e i) =
      ∑ e : Fin m ⊕ Fin k ↪ Fin (m + k), ∏ i : Fin m, f i (e (Sum.inl i)) := by
    refine Fintype.sum_equiv (Equiv.embeddingCongr finSumFinEquiv.symm (Equiv.refl _)) _ _ ?_
    intro e
    rw [← Fintype.prod_equiv finSumFinEquiv (fun s => f (finSumFinEquiv s) (e (finSumFinEquiv s))) _ (fun _ => rfl),
      Fintype.prod_sum_type]
    have : ∏ j : Fin k, f (finSumFinEquiv (Sum.inr j : Fin m ⊕ Fin k)) (e (finSumFinEquiv (Sum.inr j))) = 1 := by
      apply Finset.prod_eq_one
      intro j _
      apply hf
      simp
    rw [this, mul_one]
    apply Finset.prod_congr rfl
    intro i _
    simp [Equiv.embeddingCongr]
  rw [h1, Fintype.sum_equiv Equiv.sumEmbeddingEquivSigmaEmbeddingRestricted
    (fun e : Fin m ⊕ Fin k ↪ Fin (m + k) => ∏ i : Fin m, f i (e (Sum.inl i)))
    (fun p : (Σ e : Fin m ↪ Fin (m + k), Fin k ↪ ↥(Set.range e)ᶜ) => ∏ i : Fin m, f i (p.1 i)) (fun e => rfl)]
  rw [Fintype.sum_sigma, Finset.mul_sum]
  apply Finset.sum_congr rfl
  intro e _
  show ∑ _y : Fin k ↪ ↥(Set.range e)ᶜ, ∏ i : Fin m, f i (e i) = _
  rw [Finset.sum_const, Finset.card_univ, nsmul_eq_mul]
  congr 2
  rw [Fintype.card_embedding_eq, Fintype.card_compl_set, Set.card_range_of_injective e.injective]
  simp [Nat.descFactorial_self]

/-! ## the Gray code loop -/

/-- binary increment, least significant bit first -/
def incr : List Bool → List Bool
  | [] => []
  | false :: g => true :: g
  | true :: g => false :: incr g

/-- position of the lowest zero bit -/
def lowZero : List Bool → ℕ
  | [] => 0
  | false :: _ => 0
  | true :: g => lowZero g + 1

/-- the `n` lowest bits of `t` -/
def bitsOf : ℕ → ℕ → List Bool
  | 0, _ => []
  | n + 1, t => decide (t % 2 = 1) :: bitsOf n (t / 2)

theorem length_bitsOf (n t : ℕ) : (bitsOf n t).length = n := by
  induction n generalizing t with
  | zero => rfl
  | succ n ih => simp [bitsOf, ih]

theorem incr_bitsOf (n t : ℕ) : incr (bitsOf n t) = bitsOf n (t + 1) := by
  induction n generalizing t with
  | zero => rfl
  | succ n ih =>
    rcases Nat.mod_two_eq_zero_or_one t with h | h
    · have h1 : (t + 1) % 2 = 1 := by omega
      have h2 : (t + 1) / 2 = t / 2 := by omega
      simp [bitsOf, h, h1, h2, incr]
    · have h1 : (t + 1) % 2 = 0 := by omega
      have h2 : (t + 1) / 2 = t / 2 + 1 := by omega
      simp [bitsOf, h, h1, h2, incr, ih]

theorem bitsOf_zero (n : ℕ) : bitsOf n 0 = List.replicate n false := by
  induction n with
  | zero => rfl
  | succ n ih => simp [bitsOf, ih, List.replicate_succ]

theorem bitsOf_all (n t : ℕ) (ht : t < 2 ^ n) : (bitsOf n t).all id = true ↔ t = 2 ^ n - 1 := by
  induction n generalizing t with
  | zero => simp [bitsOf] at ht ⊢; exact ht
  | succ n ih =>
    have hp : 0 < 2 ^ n := Nat.two_pow_pos n
    rw [pow_succ] at ht ⊢
    simp only [bitsOf, List.all_cons, id, Bool.and_eq_true, decide_eq_true_eq]
    have := ih (t / 2) (by omega)
    rw [this]
    omega

theorem bitsOf_inj (n t t' : ℕ) (ht : t < 2 ^ n) (ht' : t' < 2 ^ n) (h : bitsOf n t = bitsOf n t') : t = t' := by
  induction n generalizing t t' with
  | zero => simp at ht ht'; omega
  | succ n ih =>
    rw [pow_succ] at ht ht'
    simp only [bitsOf, List.cons.injEq, decide_eq_decide] at h
    have := ih (t / 2) (t' / 2) (by omega) (by omega) h.2
    omega

/-- the Gray code bit `c` -/
def grayBit (g : List Bool) (c : ℕ) : Bool := xor (g.getD c false) (g.getD (c + 1) false)

theorem grayBit_cons_succ (b : Bool) (g : List Bool) (c : ℕ) : grayBit (b :: g) (c + 1) = grayBit g c := by
  simp [grayBit]

theorem grayBit_cons_zero (b : Bool) (g : List Bool) : grayBit (b :: g) 0 = xor b (g.getD 0 false) := by
  simp [grayBit]

theorem lowZero_lt {g : List Bool} (h : g.all id = false) : lowZero g < g.length := by
  induction g with
  | nil => simp at h
  | cons b g ih =>
    cases b
    · simp [lowZero]
    · simp only [List.all_cons, id, Bool.true_and] at h
      have := ih h
      simp [lowZero, this]

theorem incr_getD_zero {g : List Bool} (h : g.all id = false) : (incr g).getD 0 false = !(g.getD 0 false) := by
  cases g with
  | nil => simp at h
  | cons b g => cases b <;> simp [incr]

theorem length_incr (g : List Bool) : (incr g).length = g.length := by
  induction g with
  | nil => rfl
  | cons b g ih => cases b <;> simp [incr, ih]

/-- incrementing the counter toggles exactly one Gray code bit -/
theorem grayBit_incr {g : List Bool} (h : g.all id = false) (c : ℕ) :
    grayBit (incr g) c = if c = lowZero g then !(grayBit g c) else grayBit g c := by
  induction g generalizing c with
  | nil => simp at h
  | cons b g ih =>
    cases b
    · simp only [incr, lowZero]
      cases c with
      | zero => simp [grayBit_cons_zero]
      | succ c => simp [grayBit_cons_succ]
    · simp only [List.all_cons, id, Bool.true_and] at h
      simp only [incr, lowZero]
      cases c with
      | zero =>
        have h0 : ¬ (0 = lowZero (true :: g)) := by simp [lowZero]
        rw [grayBit_cons_zero, grayBit_cons_zero, incr_getD_zero h]
        have : (if 0 = lowZero (true :: g) then !(xor true (g.getD 0 false)) else xor true (g.getD 0 false)) =
          xor true (g.getD 0 false) := if_neg h0
        refine Eq.trans ?_ this.symm
        cases g.getD 0 false <;> rfl
      | succ c =>
        rw [grayBit_cons_succ, grayBit_cons_succ, ih h]
        simp

theorem incr_getD_lowZero {g : List Bool} (h : g.all id = false) :
    (incr g).getD (lowZero g) false = true ∧ g.getD (lowZero g) false = false ∧
      (incr g).getD (lowZero g + 1) false = g.getD (lowZero g + 1) false := by
  induction g with
  | nil => simp at h
  | cons b g ih =>
    cases b
    · simp [incr, lowZero]
    · simp only [List.all_cons, id, Bool.true_and] at h
      simpa [incr, lowZero] using ih h

/-- the `for` loop increments the counter and finds the bit that changes -/
theorem grayFor_eq (pre g : List Bool) (ncol pos : ℕ) (val : Bool) (hn : ncol = pre.length + g.length)
    (h : g.all id = false) :
    grayFor ncol g.length pre.length (pre ++ g) pos val =
      (pre ++ incr g, pre.length + lowZero g, !((incr g).getD (lowZero g + 1) false)) := by
  induction g generalizing pre pos val with
  | nil => simp at h
  | cons b g ih =>
    rw [List.length_cons, grayFor]
    have hb : (pre ++ b :: g).getD pre.length false = b := by simp
    have hset : ∀ b', (pre ++ b :: g).set pre.length b' = pre ++ b' :: g := by simp
    simp only [hb, hset]
    cases b
    · simp only [Bool.not_false, if_true, incr, lowZero]
      rw [List.length_cons] at hn
      by_cases hl : pre.length = ncol - 1
      · have hg : g = [] := by
          have : g.length = 0 := by omega
          simpa using this
        subst hg
        rw [if_pos hl, ← hl]; simp
      · rw [if_neg hl]
        have : (pre ++ true :: g).getD (pre.length + 1) false = g.getD 0 false := by
          rw [List.getD_eq_getElem?_getD, List.getElem?_append_right (by omega)]
          simp
        rw [this]
        simp
    · simp only [Bool.not_true, Bool.false_eq_true, if_false, incr, lowZero]
      simp only [List.all_cons, id, Bool.true_and] at h
      have e : pre ++ false :: g = (pre ++ [false]) ++ g := by simp
      rw [e]
      have el : pre.length + 1 = (pre ++ [false]).length := by simp
      rw [el, ih (pre ++ [false]) _ _ (by simp at hn ⊢; omega) h]
      have : pre.length + (lowZero g + 1) = (pre ++ [false]).length + lowZero g := by simp; omega
      rw [this, List.getD_cons_succ]
      simp

/-- the set of columns selected by the Gray code of the counter `g` -/
def graySet (n : ℕ) (g : List Bool) : Finset (Fin n) := Finset.univ.filter fun c => grayBit g c = true

theorem getD_ge {g : List Bool} {c : ℕ} (h : g.length ≤ c) : g.getD c false = false := by
  rw [List.getD_eq_getElem?_getD, List.getElem?_eq_none h]; rfl

theorem graySet_incr_sum {R : Type*} [CommRing R] (n : ℕ) {g : List Bool} (h : g.all id = false)
    (f : Fin n → R) (hl : lowZero g < n) :
    ∑ c ∈ graySet n (incr g), f c = (∑ c ∈ graySet n g, f c) +
      (if (!((incr g).getD (lowZero g + 1) false)) = true then f ⟨lowZero g, hl⟩ else - f ⟨lowZero g, hl⟩) := by
  rw [graySet, graySet, Finset.sum_filter, Finset.sum_filter, ← sub_eq_iff_eq_add', ← Finset.sum_sub_distrib]
  rw [Finset.sum_eq_single (⟨lowZero g, hl⟩ : Fin n)]
  · obtain ⟨h1, h2, h3⟩ := incr_getD_lowZero h
    have e1 : grayBit (incr g) (lowZero g) = !((incr g).getD (lowZero g + 1) false) := by
      rw [grayBit, h1]; simp
    have e2 : grayBit g (lowZero g) = (incr g).getD (lowZero g + 1) false := by
      rw [grayBit, h2, h3]; simp
    simp only [e1, e2]
    cases (incr g).getD (lowZero g + 1) false <;> simp
  · intro c _ hc
    rw [grayBit_incr h, if_neg (fun e => hc (Fin.ext e)), sub_self]
  · intro h; exact absurd (Finset.mem_univ _) h

theorem graySet_incr_sign (n : ℕ) {g : List Bool} (h : g.all id = false) (hl : lowZero g < n) :
    (-1 : ℤ) ^ (graySet n (incr g)).card = - (-1) ^ (graySet n g).card := by
  have key : ∀ g', (-1 : ℤ) ^ (graySet n g').card = ∏ c : Fin n, if grayBit g' c = true then -1 else 1 := by
    intro g'
    rw [graySet, Finset.prod_ite, Finset.prod_const, Finset.prod_const_one, mul_one]
  rw [key, key, ← Finset.mul_prod_erase _ _ (Finset.mem_univ (⟨lowZero g, hl⟩ : Fin n)),
    ← Finset.mul_prod_erase Finset.univ (fun c : Fin n => if grayBit g c = true then (-1 : ℤ) else 1)
      (Finset.mem_univ (⟨lowZero g, hl⟩ : Fin n)), ← neg_mul]
  congr 1
  · simp only [grayBit_incr h, if_true]
    cases grayBit g (lowZero g) <;> simp
  · apply Finset.prod_congr rfl
    intro c hc
    rw [Finset.mem_erase] at hc
    rw [grayBit_incr h, if_neg (fun e => hc.1 (Fin.ext e))]

theorem graySet_sign (n t : ℕ) (ht : t < 2 ^ n) : (-1 : ℤ) ^ (graySet n (bitsOf n t)).card = (-1) ^ t := by
  induction t with
  | zero =>
    have : graySet n (bitsOf n 0) = ∅ := by
      rw [bitsOf_zero, graySet, Finset.filter_eq_empty_iff]
      intro c _
      have : ∀ k, (List.replicate n false).getD k false = false := by
        intro k
        rw [List.getD_eq_getElem?_getD, List.getElem?_replicate]
        split_ifs <;> rfl
      simp only [grayBit, this]; simp
    rw [this]; simp
  | succ t ih =>
    have hall : (bitsOf n t).all id = false := by
      rw [Bool.eq_false_iff]
      intro h
      have := (bitsOf_all n t (by omega)).1 h
      omega
    have hlz := lowZero_lt hall
    rw [length_bitsOf] at hlz
    rw [← incr_bitsOf, graySet_incr_sign n hall hlz, ih (by omega), pow_succ]; ring

/-- the counter values run through all subsets of the columns -/
theorem graySet_sum {R : Type*} [CommRing R] (n : ℕ) (F : Finset (Fin n) → R) :
    ∑ t ∈ Finset.range (2 ^ n), F (graySet n (bitsOf n t)) = ∑ S : Finset (Fin n), F S := by
  have hinj : ∀ t < 2 ^ n, ∀ t' < 2 ^ n, graySet n (bitsOf n t) = graySet n (bitsOf n t') → t = t' := by
    intro t ht t' ht' h
    apply bitsOf_inj n t t' ht ht'
    have hb : ∀ c, c < n → grayBit (bitsOf n t) c = grayBit (bitsOf n t') c := by
      intro c hc
      have := Finset.ext_iff.1 h ⟨c, hc⟩
      simp only [graySet, Finset.mem_filter, Finset.mem_univ, true_and] at this
      rw [Bool.eq_iff_iff]; exact this
    have hd : ∀ k c, c + k = n → (bitsOf n t).getD c false = (bitsOf n t').getD c false := by
      intro k
      induction k with
      | zero =>
        intro c hc
        rw [getD_ge (by rw [length_bitsOf]; omega), getD_ge (by rw [length_bitsOf]; omega)]
      | succ k ih =>
        intro c hc
        have h1 := ih (c + 1) (by omega)
        have h2 := hb c (by omega)
        rw [grayBit, grayBit, h1] at h2
        revert h2
        cases (bitsOf n t).getD c false <;> cases (bitsOf n t').getD c false <;> cases (bitsOf n t').getD (c + 1) false <;> simp
    apply List.ext_getElem (by rw [length_bitsOf, length_bitsOf])
    intro c h1 h2
    have := hd (n - c) c (by rw [length_bitsOf] at h1; omega)
    rwa [List.getD_eq_getElem?_getD, List.getD_eq_getElem?_getD, List.getElem?_eq_getElem h1,
      List.getElem?_eq_getElem h2] at this
  have himg : (Finset.range (2 ^ n)).image (fun t => graySet n (bitsOf n t)) = Finset.univ := by
    apply Finset.eq_univ_of_card
    rw [Finset.card_image_of_injOn]
    · simp
    · intro t ht t' ht' h
      exact hinj t (by simpa using ht) t' (by simpa using ht') h
  rw [← himg, Finset.sum_image]
  intro t ht t' ht' h
  exact hinj t (by simpa using ht) t' (by simpa using ht') h

/-- the state after `t` iterations -/
structure RInv {R : Type*} [CommRing R] (A : Arr2 R) (t : ℕ) (st : RyserState R) : Prop where
  gray : st.graycode = bitsOf A.ncol t
  sums : st.rowsums = List.ofFn fun r : Fin A.ncol => ∑ c ∈ graySet A.ncol (bitsOf A.ncol t), A.entry r c
  sign : st.sign = ((A.ncol + t) % 2 == 1)
  perm : st.permanent = ∑ u ∈ Finset.range t, (-1) ^ (A.ncol + (u + 1)) *
    ∏ r : Fin A.ncol, ∑ c ∈ graySet A.ncol (bitsOf A.ncol (u + 1)), A.entry r c

theorem rinv_step {R : Type*} [CommRing R] (A : Arr2 R) (t : ℕ) (st : RyserState R) (h : RInv A t st)
    (ht : t + 1 < 2 ^ A.ncol) : RInv A (t + 1) (ryserStep A st) := by
  obtain ⟨h1, h2, h3, h4⟩ := h
  have hall : (bitsOf A.ncol t).all id = false := by
    rw [Bool.eq_false_iff]
    intro h
    have := (bitsOf_all A.ncol t (by omega)).1 h
    omega
  have hlz := lowZero_lt hall
  rw [length_bitsOf] at hlz
  have hfor := grayFor_eq [] (bitsOf A.ncol t) A.ncol st.pos st.val (by simp [length_bitsOf]) hall
  simp only [List.length_nil, List.nil_append, length_bitsOf, Nat.zero_add] at hfor
  have hsums : (ryserStep A st).rowsums =
      List.ofFn fun r : Fin A.ncol => ∑ c ∈ graySet A.ncol (bitsOf A.ncol (t + 1)), A.entry r c := by
    simp only [ryserStep, h1, hfor, h2]
    apply List.ext_getElem
    · simp
    · intro r hr1 hr2
      simp only [List.getElem_map, List.getElem_zipIdx, List.getElem_ofFn, Nat.zero_add]
      rw [← incr_bitsOf, graySet_incr_sum A.ncol hall _ hlz]
      cases (incr (bitsOf A.ncol t)).getD (lowZero (bitsOf A.ncol t) + 1) false <;> simp [sub_eq_add_neg]
  refine ⟨?_, hsums, ?_, ?_⟩
  · simp only [ryserStep, h1, hfor]
    rw [incr_bitsOf]
  · simp only [ryserStep, h3]
    rw [← Nat.add_assoc, Bool.eq_iff_iff]
    simp; omega
  · have hp : (ryserStep A st).permanent =
        if st.sign then st.permanent + (ryserStep A st).rowsums.prod
        else st.permanent - (ryserStep A st).rowsums.prod := rfl
    rw [hp, hsums, h4, h3, Finset.sum_range_succ, List.prod_ofFn]
    by_cases hodd : (A.ncol + t) % 2 = 1
    · have : Even (A.ncol + (t + 1)) := by rw [Nat.even_iff]; omega
      rw [this.neg_one_pow, one_mul]
      simp [hodd]
    · have : Odd (A.ncol + (t + 1)) := by rw [Nat.odd_iff]; omega
      rw [this.neg_one_pow]
      simp [hodd, sub_eq_add_neg]

theorem ryserLoop_spec {R : Type*} [CommRing R] (A : Arr2 R) (fuel t : ℕ) (st : RyserState R) (h : RInv A t st)
    (ht : t < 2 ^ A.ncol) (hf : 2 ^ A.ncol - 1 ≤ t + fuel) :
    ∃ st', ryserLoop A fuel st = some st' ∧ RInv A (2 ^ A.ncol - 1) st' := by
  induction fuel generalizing t st with
  | zero =>
    have e : t = 2 ^ A.ncol - 1 := by omega
    refine ⟨st, ?_, e ▸ h⟩
    rw [ryserLoop, h.gray, if_pos ((bitsOf_all _ _ ht).2 e)]
  | succ fuel ih =>
    rw [ryserLoop, h.gray]
    by_cases e : t = 2 ^ A.ncol - 1
    · exact ⟨st, by rw [if_pos ((bitsOf_all _ _ ht).2 e)], e ▸ h⟩
    · rw [if_neg (fun h' => e ((bitsOf_all _ _ ht).1 h'))]
      exact ih (t + 1) (ryserStep A st) (rinv_step A t st h (by omega)) (by omega) (by omega)

/-- the loop computes the permanent of a square array -/
theorem ryserLoop_perm {R : Type*} [CommRing R] (A : Arr2 R) (hn : A.ncol ≠ 0) :
    ∃ st', ryserLoop A (2 ^ A.ncol)
        { graycode := List.replicate A.ncol false, pos := 0, val := false, rowsums := List.replicate A.ncol 0
          sign := A.ncol % 2 == 1, permanent := 0 } = some st' ∧
      st'.permanent = ∑ e : Fin A.ncol ↪ Fin A.ncol, ∏ i : Fin A.ncol, A.entry i (e i) := by
  have hempty : graySet A.ncol (bitsOf A.ncol 0) = ∅ := by
    rw [bitsOf_zero, graySet, Finset.filter_eq_empty_iff]
    intro c _
    have : ∀ k, (List.replicate A.ncol false).getD k false = false := by
      intro k
      rw [List.getD_eq_getElem?_getD, List.getElem?_replicate]
      split_ifs <;> rfl
    simp only [grayBit, this]; simp
  have hinv : RInv A 0 { graycode := List.replicate A.ncol false, pos := 0, val := false
                         rowsums := List.replicate A.ncol (0 : R), sign := A.ncol % 2 == 1, permanent := 0 } := by
    refine ⟨(bitsOf_zero _).symm, ?_, by simp, by simp⟩
    simp only [hempty, Finset.sum_empty]
    apply List.ext_getElem <;> simp
  obtain ⟨st', h1, h2⟩ := ryserLoop_spec A (2 ^ A.ncol) 0 _ hinv (Nat.two_pow_pos _)
    (by rw [Nat.zero_add]; exact Nat.sub_le _ _)
  refine ⟨st', h1, ?_⟩
  rw [h2.perm, ← ryser A.ncol (fun i j => A.entry i j)]
  rw [← graySet_sum A.ncol (fun S => (-1) ^ (A.ncol - S.card) * ∏ i : Fin A.ncol, ∑ j ∈ S, A.entry i j)]
  have hpos : 2 ^ A.ncol = (2 ^ A.ncol - 1) + 1 := by exact (Nat.sub_add_cancel (Nat.two_pow_pos A.ncol)).symm
  rw [hpos, Finset.sum_range_succ', hempty]
  have hz : ∏ i : Fin A.ncol, ∑ j ∈ (∅ : Finset (Fin A.ncol)), A.entry i j = 0 := by
    apply Finset.prod_eq_zero (Finset.mem_univ (⟨0, Nat.pos_of_ne_zero hn⟩ : Fin A.ncol))
    simp
  rw [hz, mul_zero, add_zero]
  apply Finset.sum_congr (by simp)
  intro u hu
  rw [Finset.mem_range] at hu
  congr 1
  have hs := graySet_sign A.ncol (u + 1) (by omega)
  have hle : (graySet A.ncol (bitsOf A.ncol (u + 1))).card ≤ A.ncol := by
    have := Finset.card_le_univ (graySet A.ncol (bitsOf A.ncol (u + 1)))
    simpa using this
  set k := (graySet A.ncol (bitsOf A.ncol (u + 1))).card
  have hsR : (-1 : R) ^ k = (-1) ^ (u + 1) := by
    have := congrArg (Int.cast : ℤ → R) hs
    push_cast at this
    exact this
  have e2 : (-1 : R) ^ (A.ncol - k) * (-1) ^ k = (-1) ^ A.ncol := by rw [← pow_add, Nat.sub_add_cancel hle]
  have e3 : (-1 : R) ^ k * (-1) ^ k = 1 := by rw [← mul_pow]; simp
  rw [pow_add, ← hsR]
  linear_combination ((-1 : R) ^ (A.ncol - k)) * e3 - ((-1 : R) ^ k) * e2

end Fanpy.MathTools
