import Verif.Lemmas.Bits2
import Verif.Spec.Fock
import Mathlib.Tactic.LinearCombination

/-! Lemmas about `sign_perm`, `sign_swap`, `sign_excite`. -/

namespace Fanpy.Slater
open Fanpy.Spec

/-! ### sign_perm -/

theorem signPermInner_eq (i : ℕ) (l : List ℕ) (s : ℤ) :
    signPermInner i l s = s * ((l.takeWhile (· ≠ i)).map (fun j => if i < j then (-1 : ℤ) else 1)).prod := by
  induction l generalizing s with
  | nil => simp [signPermInner]
  | cons j js ih =>
    rw [signPermInner]
    split_ifs with h1 h2
    · have : j ≠ i := by omega
      rw [ih]; simp [this]; omega
    · simp [h2]
    · rw [ih]; simp [h2]; omega

theorem signPermOuter_eq (J l : List ℕ) (s : ℤ) :
    signPermOuter J l s = s * (l.map (fun i =>
      ((J.takeWhile (· ≠ i)).map (fun j => if i < j then (-1 : ℤ) else 1)).prod)).prod := by
  induction l generalizing s with
  | nil => simp [signPermOuter]
  | cons i is ih => rw [signPermOuter, ih, signPermInner_eq]; simp [mul_assoc]

theorem takeWhile_append_mem {l : List ℕ} {i : ℕ} (r : List ℕ) (h : i ∈ l) :
    (l ++ r).takeWhile (· ≠ i) = l.takeWhile (· ≠ i) := by
  induction l with
  | nil => simp at h
  | cons a l ih =>
    by_cases ha : a = i
    · simp [ha]
    · have : i ∈ l := by simpa [Ne.symm ha] using h
      simp only [List.cons_append, List.takeWhile_cons, ha, ne_eq, not_false_eq_true, decide_true, if_true]
      rw [ih this]

theorem takeWhile_append_self {l : List ℕ} {i : ℕ} (h : i ∉ l) :
    (l ++ [i]).takeWhile (· ≠ i) = l := by
  induction l with
  | nil => simp
  | cons a l ih =>
    simp only [List.mem_cons, not_or] at h
    simp only [List.cons_append, List.takeWhile_cons, ne_eq, Ne.symm h.1, not_false_eq_true, decide_true, if_true]
    rw [ih h.2]

theorem prod_takeWhile_eq_listSign (l : List ℕ) (h : l.Nodup) :
    (l.map (fun i => ((l.takeWhile (· ≠ i)).map (fun j => if i < j then (-1 : ℤ) else 1)).prod)).prod
      = listSign l := by
  induction l using List.reverseRecOn with
  | nil => simp [listSign]
  | append_singleton l a ih =>
    rw [List.nodup_append] at h
    obtain ⟨hl, -, hd⟩ := h
    have ha : a ∉ l := fun hm => hd a hm a (by simp) rfl
    rw [listSign_append_singleton, List.map_append, List.prod_append, ← ih hl]
    congr 1
    · congr 1
      apply List.map_congr_left
      intro i hi
      rw [takeWhile_append_mem _ hi]
    · simp only [List.map_cons, List.map_nil, List.prod_cons, List.prod_nil, mul_one]
      rw [takeWhile_append_self ha]

theorem signPermOuter_perm (J l : List ℕ) (h : J.Nodup) (hp : l.Perm J) : signPermOuter J l 1 = listSign J := by
  rw [signPermOuter_eq, one_mul, (hp.map _).prod_eq, prod_takeWhile_eq_listSign J h]

theorem strictlyIncreasing_iff (l : List ℕ) : strictlyIncreasing l = true ↔ l.Pairwise (· < ·) := by
  unfold strictlyIncreasing
  induction l with
  | nil => simp
  | cons a l ih =>
    cases l with
    | nil => simp
    | cons b l =>
      simp only [List.tail_cons, List.zip_cons_cons, List.all_cons, Bool.and_eq_true, decide_eq_true_eq] at ih ⊢
      rw [ih, List.pairwise_cons (a := a)]
      constructor
      · rintro ⟨h1, h2⟩
        refine ⟨fun c hc => ?_, h2⟩
        rcases List.mem_cons.1 hc with rfl | hc
        · exact h1
        · exact lt_trans h1 ((List.pairwise_cons.1 h2).1 c hc)
      · rintro ⟨h1, h2⟩; exact ⟨h1 b (by simp), h2⟩

theorem signPerm_false (l : List ℕ) (h : l.Nodup) : signPerm l none false = .ok (listSign l) := by
  simp only [signPerm, Bool.false_eq_true, if_false]
  rw [signPermOuter_perm l _ h (List.mergeSort_perm _ _)]

theorem signPerm_true (l : List ℕ) (h : l.Nodup) : signPerm l none true = .ok (listSign l.reverse) := by
  simp only [signPerm, if_true]
  rw [signPermOuter_perm l.reverse _ (List.nodup_reverse.2 h) (List.mergeSort_perm _ _)]

/-! ### listSign: algebra -/

theorem listSign_sq (l : List ℕ) : listSign l * listSign l = 1 := by
  induction l with
  | nil => simp [listSign]
  | cons a l ih =>
    rw [listSign]
    have : ∀ m : List ℕ, (m.map (fun b => if b < a then (-1 : ℤ) else 1)).prod *
        (m.map (fun b => if b < a then (-1 : ℤ) else 1)).prod = 1 := by
      intro m
      induction m with
      | nil => simp
      | cons x m ihm =>
        simp only [List.map_cons, List.prod_cons]
        split_ifs <;> linear_combination ihm
    linear_combination (listSign l * listSign l) * this l + ih

/-- crossing sign of two lists: pairs `(a, b)` with `b < a` -/
def crossSign (l m : List ℕ) : ℤ := (l.map (fun a => (m.map (fun b => if b < a then (-1 : ℤ) else 1)).prod)).prod

theorem listSign_append (l m : List ℕ) : listSign (l ++ m) = listSign l * listSign m * crossSign l m := by
  induction l with
  | nil => simp [listSign, crossSign]
  | cons a l ih =>
    simp only [List.cons_append, listSign, ih, crossSign, List.map_append, List.prod_append, List.map_cons,
      List.prod_cons]
    ring

theorem crossSign_append_left (l l' m : List ℕ) : crossSign (l ++ l') m = crossSign l m * crossSign l' m := by
  simp [crossSign]

theorem crossSign_append_right (l m m' : List ℕ) : crossSign l (m ++ m') = crossSign l m * crossSign l m' := by
  induction l with
  | nil => simp [crossSign]
  | cons a l ih =>
    simp only [crossSign, List.map_cons, List.prod_cons, List.map_append, List.prod_append] at ih ⊢
    rw [ih]; ring

theorem crossSign_perm_left {l l' : List ℕ} (m : List ℕ) (h : l.Perm l') : crossSign l m = crossSign l' m :=
  (h.map _).prod_eq

theorem crossSign_perm_right (l : List ℕ) {m m' : List ℕ} (h : m.Perm m') : crossSign l m = crossSign l m' := by
  unfold crossSign
  congr 1
  apply List.map_congr_left
  intro a _
  exact (h.map _).prod_eq

theorem listSign_swap_adjacent (l r : List ℕ) (a b : ℕ) (hab : a ≠ b) :
    listSign (l ++ a :: b :: r) = - listSign (l ++ b :: a :: r) := by
  rw [listSign_append, listSign_append, crossSign_perm_right l (List.Perm.swap b a r)]
  simp only [listSign, List.map_cons, List.prod_cons]
  rcases lt_or_gt_of_ne hab with h | h
  · rw [if_neg h.not_gt, if_pos h]; ring
  · rw [if_pos h, if_neg h.not_gt]; ring

/-- moving one element over a block -/
theorem listSign_move (l m r : List ℕ) (a : ℕ) (ha : a ∉ m) :
    listSign (l ++ a :: m ++ r) = (-1) ^ m.length * listSign (l ++ m ++ a :: r) := by
  induction m generalizing l with
  | nil => simp
  | cons b m ih =>
    simp only [List.mem_cons, not_or] at ha
    have h1 := listSign_swap_adjacent l (m ++ r) a b ha.1
    have h2 := ih (l ++ [b]) ha.2
    simp only [List.append_assoc, List.cons_append, List.nil_append, List.length_cons, pow_succ] at h1 h2 ⊢
    rw [h1, h2]; ring

/-- exchanging two elements anywhere flips the sign -/
theorem listSign_swap (l m r : List ℕ) (a b : ℕ) (h : (a :: m ++ [b]).Nodup) :
    listSign (l ++ a :: m ++ b :: r) = - listSign (l ++ b :: m ++ a :: r) := by
  have hm : a ∉ m ∧ b ∉ m ∧ a ≠ b := by
    simp only [List.cons_append, List.nodup_cons, List.mem_append, List.mem_singleton, not_or, List.nodup_append] at h
    refine ⟨h.1.1, ?_, h.1.2⟩
    intro hb; exact h.2.2.2 b hb b rfl rfl
  have e1 := listSign_move l m (b :: r) a hm.1
  have e2 := listSign_move l m (a :: r) b hm.2.1
  have e3 := listSign_swap_adjacent (l ++ m) r a b hm.2.2
  rw [e1, e2, e3]; ring

theorem listSign_sorted {l : List ℕ} (h : l.Pairwise (· < ·)) : listSign l = 1 := by
  induction l with
  | nil => rfl
  | cons a l ih =>
    rw [List.pairwise_cons] at h
    rw [listSign, ih h.2, mul_one]
    apply List.prod_eq_one
    intro x hx
    obtain ⟨b, hb, rfl⟩ := List.mem_map.1 hx
    rw [if_neg (h.1 b hb).not_gt]

theorem listSign_reverse {l : List ℕ} (h : l.Nodup) :
    listSign l.reverse = (-1) ^ (l.length * (l.length - 1) / 2) * listSign l := by
  induction l with
  | nil => simp
  | cons a l ih =>
    rw [List.nodup_cons] at h
    rw [List.reverse_cons, listSign_append_singleton, ih h.2, listSign]
    have hr : (l.reverse.map (fun b => if a < b then (-1 : ℤ) else 1)).prod =
        (-1) ^ l.length * (l.map (fun b => if b < a then (-1 : ℤ) else 1)).prod := by
      rw [((List.reverse_perm l).map _).prod_eq]
      have hn := h.1
      clear ih h
      induction l with
      | nil => simp
      | cons b l ih =>
        simp only [List.mem_cons, not_or] at hn
        simp only [List.map_cons, List.prod_cons, ih hn.2, List.length_cons, pow_succ]
        rcases lt_or_gt_of_ne hn.1 with h | h
        · rw [if_pos h, if_neg h.not_gt]; ring
        · rw [if_neg h.not_gt, if_pos h]; ring
    rw [hr]
    have e : (a :: l).length * ((a :: l).length - 1) / 2 = l.length * (l.length - 1) / 2 + l.length := by
      simp only [List.length_cons, Nat.add_sub_cancel]
      rcases Nat.eq_zero_or_pos l.length with h0 | h0
      · simp [h0]
      · obtain ⟨k, hk⟩ : ∃ k, l.length = k + 1 := ⟨l.length - 1, by omega⟩
        rw [hk, Nat.add_sub_cancel, show (k + 1 + 1) * (k + 1) = (k + 1) * k + (k + 1) * 2 by ring,
          Nat.add_mul_div_right _ _ (by norm_num)]
    rw [e, pow_add]; ring

/-! ### sign_swap -/

theorem count_drop_take (s a b : ℕ) :
    (((binRev s).drop a).take b).count 1 = ((occSet s).filter (fun k => a ≤ k ∧ k < a + b)).card := by
  have hnd : ((List.range' a b).filter (fun k => s.testBit k)).Nodup := List.Nodup.filter _ List.nodup_range'
  have hset : (occSet s).filter (fun k => a ≤ k ∧ k < a + b) =
      ((List.range' a b).filter (fun k => s.testBit k)).toFinset := by
    ext k; simp [mem_occSet, List.mem_range'_1]; tauto
  rw [hset, List.toFinset_card_of_nodup hnd, ← List.countP_eq_length_filter]
  clear hnd hset
  induction b generalizing a with
  | zero => simp
  | succ b ih =>
    rw [List.range'_succ, List.countP_cons]
    by_cases ha : a < (binRev s).length
    · rw [List.drop_eq_getElem_cons ha, List.take_succ_cons, List.count_cons, binRev_getElem]
      rw [ih (a + 1)]
      cases s.testBit a <;> simp
    · have h1 : (binRev s).drop a = [] := List.drop_eq_nil_of_le (by omega)
      rw [h1]
      symm
      simp only [List.take_nil, List.count_nil, Nat.add_eq_zero_iff]
      constructor
      · rw [List.countP_eq_zero]
        intro k hk
        rw [List.mem_range'_1] at hk
        rw [testBit_of_ge_length (by omega)]; simp
      · rw [testBit_of_ge_length (by omega)]; simp

theorem neg_one_pow_mod (n : ℕ) : (if n % 2 = 0 then (1 : ℤ) else -1) = (-1) ^ n := by
  rcases Nat.even_or_odd n with h | h
  · rw [if_pos (Nat.even_iff.1 h), h.neg_one_pow]
  · rw [if_neg (by have := Nat.odd_iff.1 h; omega), h.neg_one_pow]

theorem signSwap_zero (s i : ℕ) (h : s.testBit i = true) : signSwap (some s) i 0 = .ok (phase (occSet s) i) := by
  have : ¬ i < 0 := by omega
  simp only [signSwap, occ_some, h, Bool.not_true, Bool.false_eq_true, if_false, if_neg this, Nat.sub_zero]
  rw [neg_one_pow_mod, count_drop_take, phase]
  congr 4
  ext k; simp

/-! ### sign_excite -/

theorem annString_cons (i : ℕ) (l : List ℕ) {R : Type*} [CommRing R] (v : Fock R) :
    annString (i :: l) v = annString l (annOp i v) := rfl
theorem creString_cons (i : ℕ) (l : List ℕ) {R : Type*} [CommRing R] (v : Fock R) :
    creString (i :: l) v = creString l (creOp i v) := rfl
@[simp] theorem annString_zero (l : List ℕ) {R : Type*} [CommRing R] : annString l (0 : Fock R) = 0 := by
  induction l with
  | nil => rfl
  | cons i l ih => rw [annString_cons, map_zero, ih]
@[simp] theorem creString_zero (l : List ℕ) {R : Type*} [CommRing R] : creString l (0 : Fock R) = 0 := by
  induction l with
  | nil => rfl
  | cons i l ih => rw [creString_cons, map_zero, ih]

theorem signExciteAnn_spec {R : Type*} [CommRing R] (sd : ℕ) (l : List ℕ) (c : ℤ) :
    (∃ s sd', signExciteAnn (some sd) l c = .ok (s, some sd') ∧ annihilate (some sd) l = some sd' ∧
      annString l (Finsupp.single (occSet sd) (c : R)) = Finsupp.single (occSet sd') (s : R) ∧ (s = c ∨ s = -c)) ∨
    (signExciteAnn (some sd) l c = .error .valueError ∧ annihilate (some sd) l = none ∧
      annString l (Finsupp.single (occSet sd) (c : R)) = 0) := by
  induction l generalizing sd c with
  | nil => left; exact ⟨c, sd, rfl, rfl, rfl, Or.inl rfl⟩
  | cons i l ih =>
    by_cases h : sd.testBit i = true
    · have hocc : (!(occ (some sd) i)) = false := by simp [h]
      have e1 : annihilate (some sd) [i] = some (sd ^^^ (1 <<< i)) := by simp [annihilate, h]
      have e2 : annihilate (some sd) (i :: l) = annihilate (some (sd ^^^ (1 <<< i))) l := by simp [annihilate, h]
      have e3 : signExciteAnn (some sd) (i :: l) c =
          signExciteAnn (some (sd ^^^ (1 <<< i))) l (c * phase (occSet sd) i) := by
        rw [signExciteAnn, hocc]
        simp only [Bool.false_eq_true, if_false, signSwap_zero sd i h, bind, Except.bind, e1]
      have e4 : annString (i :: l) (Finsupp.single (occSet sd) (c : R)) =
          annString l (Finsupp.single (occSet (sd ^^^ (1 <<< i))) ((c * phase (occSet sd) i : ℤ) : R)) := by
        rw [annString_cons, annOp_single, if_pos (mem_occSet.2 h), occSet_xor_of_mem h]; push_cast; rfl
      rw [e2, e3, e4]
      have hs : c * phase (occSet sd) i = c ∨ c * phase (occSet sd) i = -c := by
        rcases neg_one_pow_eq_or ℤ ((occSet sd).filter (· < i)).card with h | h <;> simp [phase, h]
      rcases ih (sd ^^^ (1 <<< i)) (c * phase (occSet sd) i) with ⟨s, sd', h1, h2, h3, h4⟩ | h1
      · left; refine ⟨s, sd', h1, h2, h3, ?_⟩
        rcases hs with hs | hs <;> rw [hs] at h4 <;> rcases h4 with h4 | h4 <;> simp [h4]
      · right; exact h1
    · right
      have hf : sd.testBit i = false := by simpa using h
      refine ⟨by simp [signExciteAnn, hf], by simp [annihilate, hf], ?_⟩
      rw [annString_cons, annOp_single, if_neg (by simp [mem_occSet, hf]), annString_zero]

theorem signExciteCre_spec {R : Type*} [CommRing R] (sd : ℕ) (l : List ℕ) (c : ℤ) :
    (∃ s sd', signExciteCre (some sd) l c = .ok s ∧ create (some sd) l = some sd' ∧
      creString l (Finsupp.single (occSet sd) (c : R)) = Finsupp.single (occSet sd') (s : R) ∧ (s = c ∨ s = -c)) ∨
    (signExciteCre (some sd) l c = .error .valueError ∧ create (some sd) l = none ∧
      creString l (Finsupp.single (occSet sd) (c : R)) = 0) := by
  induction l generalizing sd c with
  | nil => left; exact ⟨c, sd, rfl, rfl, rfl, Or.inl rfl⟩
  | cons i l ih =>
    by_cases h : sd.testBit i = true
    · right
      have e1 : create (some sd) [i] = none := by simp [create, h]
      refine ⟨by rw [signExciteCre, e1], by simp [create, h], ?_⟩
      rw [creString_cons, creOp_single, if_pos (by simp [mem_occSet, h]), creString_zero]
    · have hf : sd.testBit i = false := by simpa using h
      have e1 : create (some sd) [i] = some (sd ||| (1 <<< i)) := by simp [create, hf]
      have e2 : create (some sd) (i :: l) = create (some (sd ||| (1 <<< i))) l := by simp [create, hf]
      have ht : (sd ||| (1 <<< i)).testBit i = true := by rw [testBit_or_shift]; simp
      have hph : phase (occSet (sd ||| (1 <<< i))) i = phase (occSet sd) i := by
        rw [occSet_or, phase_insert]; simp
      have e3 : signExciteCre (some sd) (i :: l) c =
          signExciteCre (some (sd ||| (1 <<< i))) l (c * phase (occSet sd) i) := by
        rw [signExciteCre, e1]
        simp only [signSwap_zero _ i ht, bind, Except.bind, hph]
      have e4 : creString (i :: l) (Finsupp.single (occSet sd) (c : R)) =
          creString l (Finsupp.single (occSet (sd ||| (1 <<< i))) ((c * phase (occSet sd) i : ℤ) : R)) := by
        rw [creString_cons, creOp_single, if_neg (by simp [mem_occSet, hf]), occSet_or]; push_cast; rfl
      rw [e2, e3, e4]
      have hs : c * phase (occSet sd) i = c ∨ c * phase (occSet sd) i = -c := by
        rcases neg_one_pow_eq_or ℤ ((occSet sd).filter (· < i)).card with h | h <;> simp [phase, h]
      rcases ih (sd ||| (1 <<< i)) (c * phase (occSet sd) i) with ⟨s, sd', h1, h2, h3, h4⟩ | h1
      · left; refine ⟨s, sd', h1, h2, h3, ?_⟩
        rcases hs with hs | hs <;> rw [hs] at h4 <;> rcases h4 with h4 | h4 <;> simp [h4]
      · right; exact h1

end Fanpy.Slater
