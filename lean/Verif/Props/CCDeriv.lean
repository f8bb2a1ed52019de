import Mathlib.Tactic.Ring
import Mathlib.Logic.Function.Basic
import Verif.Props.CC

/-! # Properties C61 and C62: derivatives of the overlaps of coupled cluster wavefunctions -/

namespace Fanpy.Props
open Fanpy.Spec Fanpy.Slater Fanpy.Graphs Fanpy.It Fanpy.CC Fanpy.Lemmas

variable {R : Type} [CommRing R]

/-- the wavefunction with `h` added to its parameter `j` -/
def shift (w : Wfn R) (j : ℕ) (h : R) : Wfn R := { w with params := Function.update w.params j (w.params j + h) }

theorem amp_prod_update (p : ℕ → R) (j : ℕ) (x : R) (l : List ℕ) (h : j ∉ l) : (l.map (Function.update p j x)).prod = (l.map p).prod := by
  congr 1
  apply List.map_congr_left
  intro i hi
  rw [Function.update_of_ne]
  rintro rfl; exact h hi

theorem amp_prod_erase (p : ℕ → R) (j : ℕ) (l : List ℕ) (h : j ∈ l) : (l.map p).prod = p j * ((l.erase j).map p).prod := by
  rw [((List.perm_cons_erase h).map p).prod_eq]; simp

theorem amp_one_erase (p : ℕ → R) (j : ℕ) (l : List ℕ) (hn : l.Nodup) (h : j ∈ l) :
    (l.map fun i => if i = j then 1 else p i).prod = ((l.erase j).map p).prod := by
  rw [amp_prod_erase (fun i => if i = j then 1 else p i) j l h, if_pos rfl, one_mul]
  congr 1
  apply List.map_congr_left
  intro i hi
  rw [if_neg (fun e => by subst e; exact hn.not_mem_erase hi)]

/-- the operators of the products for a determinant with as many electrons as the reference are distinct -/
theorem expansion_nodup [Nontrivial R] (w : Wfn R) (hr : w.ranks.Nodup) (hpos : ∀ r ∈ w.ranks, 0 < r) (hm : w.memo = true) (sd : ℕ)
    (hsd : (occSet sd).card = (occSet w.refwfn).card) :
    ∃ s paths, (∀ p : ℕ → R, expansion { w with params := p } sd = .ok (s, paths)) ∧ ∀ p ∈ paths, p.1.Nodup := by
  obtain ⟨L, l1, l2, l3⟩ := possibleExops_spec w.ranks w.exops (diffOrbs sd w.refwfn).2 (diffOrbs sd w.refwfn).1
    hr hpos (sorted_occIndices _) (sorted_occIndices _) (diff_lengths hsd)
  obtain ⟨s, s1, -⟩ := signExcite_diff R sd w.refwfn
  refine ⟨s, L.map (out w.exops), fun p => ?_, ?_⟩
  · simp [expansion, s1, hm, l1, bind, Except.bind, pure, Except.pure]
  · intro p hp
    obtain ⟨S, hS, rfl⟩ := List.mem_map.1 hp
    have h := (l3 S).1 hS
    have ha : (diffOrbs sd w.refwfn).2.Nodup := (sorted_occIndices _).imp fun h => by omega
    have hn : (S.flatMap Prod.fst).Nodup := h.ann.nodup_iff.2 ha
    simp only [out]
    apply List.Nodup.map_on
    · intro x hx y hy e
      have e := (List.idxOf_inj (h.mem x hx)).1 e
      have h1 := h.len x hx
      have h2 := h.len y hy
      obtain ⟨e1, e2⟩ := List.append_inj e (by
        have := congrArg List.length e
        rw [List.length_append, List.length_append] at this; omega)
      exact Prod.ext e1 e2
    · refine (List.nodup_flatMap.1 hn).2.imp_of_mem ?_
      rintro x y hx hy hd rfl
      have h1 := hpos _ (h.rank x hx)
      obtain ⟨z, hz⟩ := List.exists_mem_of_length_pos h1
      exact hd hz hz

theorem amplitudes_shift (p : ℕ → R) (paths : List (List ℕ × ℤ)) (hn : ∀ q ∈ paths, q.1.Nodup) (j : ℕ) (h : R) :
    amplitudes (Function.update p j (p j + h)) paths = amplitudes p paths + h * dAmplitudes p paths j := by
  unfold amplitudes dAmplitudes
  rw [← List.sum_map_mul_left, ← List.sum_map_add]
  congr 1
  apply List.map_congr_left
  intro q hq
  have hq := hn q hq
  by_cases hj : j ∈ q.1
  · rw [if_pos hj, amp_one_erase p j q.1 hq hj, amp_prod_erase p j q.1 hj, amp_prod_erase _ j q.1 hj, Function.update_self,
      amp_prod_update p j _ _ hq.not_mem_erase]
    ring
  · rw [if_neg hj, amp_prod_update p j _ _ hj, mul_zero, add_zero]

theorem dAmplitudes_shift (p : ℕ → R) (paths : List (List ℕ × ℤ)) (hn : ∀ q ∈ paths, q.1.Nodup) (a b : ℕ) (h : R) :
    dAmplitudes (Function.update p b (p b + h)) paths a = dAmplitudes p paths a + h * ddAmplitudes p paths a b := by
  unfold ddAmplitudes dAmplitudes
  rw [← List.sum_map_mul_left, ← List.sum_map_add]
  congr 1
  apply List.map_congr_left
  intro q hq
  have hq := hn q hq
  by_cases ha : a ∈ q.1
  · rw [if_pos ha, if_pos ha, amp_one_erase _ a q.1 hq ha, amp_one_erase _ a q.1 hq ha]
    by_cases hb : b ∈ q.1.erase a
    · have hab : a ≠ b := by rintro rfl; exact hq.not_mem_erase hb
      rw [if_pos ⟨ha, List.mem_of_mem_erase hb, fun e => absurd e hab⟩, amp_prod_erase p b _ hb, amp_prod_erase _ b _ hb, Function.update_self,
        amp_prod_update p b _ _ (hq.erase a).not_mem_erase]
      ring
    · rw [amp_prod_update p b _ _ hb, if_neg, mul_zero, add_zero]
      rintro ⟨-, hb', hc⟩
      by_cases hab : a = b
      · have := hc hab
        have := List.nodup_iff_count_le_one.1 hq a
        omega
      · exact hb ((List.mem_erase_of_ne (Ne.symm hab)).2 hb')
  · rw [if_neg ha, if_neg ha, if_neg (fun h => ha h.1), mul_zero, add_zero]

/-- C61: the derivative with respect to a parameter is the rate at which the overlap changes with it; the overlap is affine in each parameter.
For any operators, hence for all classes that have the overlap of `BaseCC`. -/
theorem C61_derivative [Nontrivial R] (w : Wfn R) (hr : w.ranks.Nodup) (hpos : ∀ r ∈ w.ranks, 0 < r) (hm : w.memo = true) (sd : ℕ)
    (hsd : (occSet sd).card = (occSet w.refwfn).card) (j : ℕ) :
    ∃ x d, overlap w sd = .ok x ∧ dOverlap w sd j = .ok d ∧ ∀ h, overlap (shift w j h) sd = .ok (x + h * d) := by
  by_cases hs : sd = w.refwfn
  · exact ⟨1, 0, by simp [overlap, hs], by simp [dOverlap, hs], fun h => by simp [overlap, shift, hs]⟩
  · obtain ⟨s, paths, h1, h2⟩ := expansion_nodup w hr hpos hm sd hsd
    have h0 := h1 w.params
    refine ⟨s * amplitudes w.params paths, s * dAmplitudes w.params paths j, ?_, ?_, fun h => ?_⟩
    · rw [overlap, if_neg hs, h0]; rfl
    · rw [dOverlap, if_neg hs, h0]; rfl
    · rw [shift, overlap, if_neg hs, h1]
      simp only [bind, Except.bind, pure, Except.pure]
      rw [amplitudes_shift _ _ h2]
      congr 1
      ring

/-- C62: the second derivative is the rate at which the first changes; the overlap has no higher powers of a parameter than the first -/
theorem C62_second_derivative [Nontrivial R] (w : Wfn R) (hr : w.ranks.Nodup) (hpos : ∀ r ∈ w.ranks, 0 < r) (hm : w.memo = true) (sd : ℕ)
    (hsd : (occSet sd).card = (occSet w.refwfn).card) (a b : ℕ) :
    ∃ d dd, dOverlap w sd a = .ok d ∧ ddOverlap w sd a b = .ok dd ∧ ddOverlap w sd b a = .ok dd ∧ (a = b → dd = 0) ∧
      ∀ h, dOverlap (shift w b h) sd a = .ok (d + h * dd) := by
  by_cases hs : sd = w.refwfn
  · exact ⟨0, 0, by simp [dOverlap, hs], by simp [ddOverlap, hs], by simp [ddOverlap, hs], fun _ => rfl, fun h => by simp [dOverlap, shift, hs]⟩
  · obtain ⟨s, paths, h1, h2⟩ := expansion_nodup w hr hpos hm sd hsd
    have h0 := h1 w.params
    refine ⟨s * dAmplitudes w.params paths a, s * ddAmplitudes w.params paths a b, ?_, ?_, ?_, ?_, fun h => ?_⟩
    · rw [dOverlap, if_neg hs, h0]; rfl
    · rw [ddOverlap, if_neg hs, h0]; rfl
    · rw [ddOverlap, if_neg hs, h0]
      simp only [bind, Except.bind, pure, Except.pure]
      congr 2
      unfold ddAmplitudes
      congr 1
      apply List.map_congr_left
      intro q hq
      by_cases hab : a = b
      · subst hab; rfl
      · have hba : ¬ b = a := fun e => hab e.symm
        simp [hab, hba, List.erase_comm, and_comm]
    · rintro rfl
      have : ddAmplitudes w.params paths a a = 0 := by
        unfold ddAmplitudes
        apply List.sum_eq_zero
        intro x hx
        obtain ⟨q, hq, rfl⟩ := List.mem_map.1 hx
        rw [if_neg]
        rintro ⟨-, -, hc⟩
        have := List.nodup_iff_count_le_one.1 (h2 q hq) a
        have := hc rfl
        omega
      rw [this, mul_zero]
    · rw [shift, dOverlap, if_neg hs, h1]
      simp only [bind, Except.bind, pure, Except.pure]
      rw [dAmplitudes_shift _ _ h2]
      congr 1
      ring

/-- the hypotheses can be met, and derivatives are not zero: two electrons in four spin orbitals -/
theorem cc_witness (t : ℕ → ℚ) : ∃ w : Wfn ℚ, standardCC 2 4 (.int 2) none t false = .ok w ∧ w.ranks.Nodup ∧ (∀ r ∈ w.ranks, 0 < r) ∧
    w.memo = true ∧ (occSet 0b1010).card = (occSet w.refwfn).card ∧ overlap w 0b1010 = .ok (t 0 * t 3 - t 1 * t 2 - t 4) ∧
    dOverlap w 0b1010 0 = .ok (t 3) ∧ dOverlap w 0b1010 1 = .ok (-t 2) ∧ dOverlap w 0b1010 4 = .ok (-1) ∧ ddOverlap w 0b1010 0 3 = .ok 1 ∧
    ddOverlap w 0b1010 1 2 = .ok (-1) ∧ ddOverlap w 0b1010 0 0 = .ok 0 := by
  have hg : ground 2 4 = .ok 0b0101 := by decide +kernel
  have hd : diffOrbs 0b1010 0b0101 = ([1, 3], [0, 2]) := by decide +kernel
  have hs : signExcite (some 0b0101) [0, 2] [1, 3] = .ok (-1) := by decide +kernel
  have hp : possibleExops [1, 2] [[0, 1], [0, 3], [2, 1], [2, 3], [0, 2, 1, 3]] [0, 2] [1, 3] = .ok [([0, 3], -1), ([1, 2], 1), ([4], 1)] := by
    have h : binSizeNum [2] = [(2, 1)] := by decide +kernel
    have h0 : intPartition [1, 2] 2 2 = some [[2], [1, 1]] := by
      unfold intPartition; simp; unfold intPartition; simp; unfold intPartition; simp; unfold intPartition; simp
    have h' : binSizeNum [1, 1] = [(1, 2)] := by decide +kernel
    simp only [possibleExops, List.length_cons, List.length_nil, zero_add, Nat.reduceAdd, h0, ofOption, bind, Except.bind, List.reverse_cons,
      List.reverse_nil, List.nil_append, List.singleton_append, List.mapM_cons, List.mapM_nil, h, h', pure, Except.pure]
    decide +kernel
  refine ⟨⟨[1, 2], 0b0101, [[0, 1], [0, 3], [2, 1], [2, 3], [0, 2, 1, 3]], t, true⟩, ?_, (by decide : [1, 2].Nodup), (by decide : ∀ r ∈ [1, 2], 0 < r), rfl,
    (by decide +kernel : (occSet 0b1010).card = (occSet 0b0101).card), ?_, ?_, ?_, ?_,
    ?_, ?_, ?_⟩
  · simp only [standardCC, hg, bind, Except.bind]
    rfl
  · simp [overlap, expansion, hd, hs, hp, bind, Except.bind, pure, Except.pure, amplitudes]
    ring
  all_goals simp [dOverlap, ddOverlap, expansion, hd, hs, hp, bind, Except.bind, pure, Except.pure, dAmplitudes, ddAmplitudes]

end Fanpy.Props
