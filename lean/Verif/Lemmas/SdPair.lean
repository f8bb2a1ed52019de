import Verif.Props.SlaterBits
import Verif.Props.Signs
import Verif.Lemmas.SlaterCondon

/-!
# Case analysis of a pair of determinants by the number of differing orbitals
-/

namespace Fanpy.Lemmas
open Finset Fanpy.Spec Fanpy.Slater Fanpy.Props

theorem phase_eq (s : Finset ℕ) (i : ℕ) : phase s i = 1 ∨ phase s i = -1 := neg_one_pow_eq_or ℤ _

theorem sharedOrbs_toFinset (sd1 sd2 : ℕ) : (sharedOrbs sd1 sd2).toFinset = occSet sd1 ∩ occSet sd2 := by
  ext i
  rw [List.mem_toFinset, (C04_diff_orbs sd1 sd2).1, Finset.mem_inter, mem_occSet, mem_occSet]

theorem sharedOrbs_sorted (sd1 sd2 : ℕ) : (sharedOrbs sd1 sd2).Pairwise (· < ·) := sorted_occIndices _

theorem sharedOrbs_nodup (sd1 sd2 : ℕ) : (sharedOrbs sd1 sd2).Nodup := nodup_occIndices _

theorem diffOrbs_fst_toFinset (sd1 sd2 : ℕ) : (diffOrbs sd1 sd2).1.toFinset = occSet sd1 \ occSet sd2 := by
  ext i
  rw [List.mem_toFinset, (C04_diff_orbs sd1 sd2).2.1, Finset.mem_sdiff, mem_occSet, mem_occSet]
  simp

theorem diffOrbs_snd_toFinset (sd1 sd2 : ℕ) : (diffOrbs sd1 sd2).2.toFinset = occSet sd2 \ occSet sd1 := by
  ext i
  rw [List.mem_toFinset, (C04_diff_orbs sd1 sd2).2.2.1, Finset.mem_sdiff, mem_occSet, mem_occSet]
  simp

theorem diffOrbs_fst_length (sd1 sd2 : ℕ) : (diffOrbs sd1 sd2).1.length = (occSet sd1 \ occSet sd2).card := by
  rw [← diffOrbs_fst_toFinset, List.toFinset_card_of_nodup]
  exact (C04_diff_orbs sd1 sd2).2.2.2.1.imp (fun h => Nat.ne_of_lt h)

theorem diffOrbs_snd_length (sd1 sd2 : ℕ) : (diffOrbs sd1 sd2).2.length = (occSet sd2 \ occSet sd1).card := by
  rw [← diffOrbs_snd_toFinset, List.toFinset_card_of_nodup]
  exact (C04_diff_orbs sd1 sd2).2.2.2.2.1.imp (fun h => Nat.ne_of_lt h)

theorem diff_lengths_iff (sd1 sd2 : ℕ) :
    (diffOrbs sd1 sd2).1.length = (diffOrbs sd1 sd2).2.length ↔ (occSet sd1).card = (occSet sd2).card := by
  rw [diffOrbs_fst_length, diffOrbs_snd_length]
  have h1 := Finset.card_sdiff_add_card_inter (occSet sd1) (occSet sd2)
  have h2 := Finset.card_sdiff_add_card_inter (occSet sd2) (occSet sd1)
  rw [Finset.inter_comm] at h2
  omega

/-- the four ways in which two determinants can differ -/
theorem sdPair_cases (sd1 sd2 : ℕ) :
    ((diffOrbs sd1 sd2).1.length ≠ (diffOrbs sd1 sd2).2.length ∧ (occSet sd1).card ≠ (occSet sd2).card) ∨
    ((diffOrbs sd1 sd2).1.length = (diffOrbs sd1 sd2).2.length ∧ (diffOrbs sd1 sd2).1.length > 2 ∧
      2 < (occSet sd1 \ occSet sd2).card) ∨
    (sd1 = sd2 ∧ diffOrbs sd1 sd2 = ([], []) ∧ signExcite (some sd1) [] [] = .ok 1) ∨
    (∃ a b, ∃ u : Finset ℕ, diffOrbs sd1 sd2 = ([a], [b]) ∧ (sharedOrbs sd1 sd2).toFinset = u ∧ a ∉ u ∧ b ∉ u ∧ a ≠ b ∧
      occSet sd1 = insert a u ∧ occSet sd2 = insert b u ∧
      signExcite (some sd1) [a] [b] = .ok (phase u a * phase u b)) ∨
    (∃ a b c d, ∃ u : Finset ℕ, diffOrbs sd1 sd2 = ([a, b], [c, d]) ∧ (sharedOrbs sd1 sd2).toFinset = u ∧
      a ∉ u ∧ b ∉ u ∧ c ∉ u ∧ d ∉ u ∧ a < b ∧ c < d ∧ a ≠ c ∧ a ≠ d ∧ b ≠ c ∧ b ≠ d ∧
      occSet sd1 = insert a (insert b u) ∧ occSet sd2 = insert c (insert d u) ∧
      signExcite (some sd1) [a, b] [d, c] =
        .ok (eps (insert a (insert b u)) a b * eps (insert c (insert d u)) c d)) := by
  by_cases hl : (diffOrbs sd1 sd2).1.length = (diffOrbs sd1 sd2).2.length
  swap
  · left; exact ⟨hl, fun h => hl ((diff_lengths_iff _ _).2 h)⟩
  right
  by_cases h2 : (diffOrbs sd1 sd2).1.length > 2
  · left; exact ⟨hl, h2, by rw [← diffOrbs_fst_length]; exact h2⟩
  right
  have f1 := diffOrbs_fst_toFinset sd1 sd2
  have f2 := diffOrbs_snd_toFinset sd1 sd2
  have f3 := sharedOrbs_toFinset sd1 sd2
  have p1 := (C04_diff_orbs sd1 sd2).2.2.2.1
  have p2 := (C04_diff_orbs sd1 sd2).2.2.2.2.1
  have e1 : occSet sd1 = (diffOrbs sd1 sd2).1.toFinset ∪ (sharedOrbs sd1 sd2).toFinset := by
    rw [f1, f3, Finset.sdiff_union_inter]
  have e2 : occSet sd2 = (diffOrbs sd1 sd2).2.toFinset ∪ (sharedOrbs sd1 sd2).toFinset := by
    rw [f2, f3, Finset.inter_comm, Finset.sdiff_union_inter]
  have n1 : ∀ x ∈ (diffOrbs sd1 sd2).1, x ∉ (sharedOrbs sd1 sd2).toFinset ∧ x ∉ (diffOrbs sd1 sd2).2 := by
    intro x hx
    have hx' : x ∈ occSet sd1 \ occSet sd2 := by rw [← f1]; exact List.mem_toFinset.2 hx
    rw [Finset.mem_sdiff] at hx'
    constructor
    · rw [f3, Finset.mem_inter]; tauto
    · rw [← List.mem_toFinset, f2, Finset.mem_sdiff]; tauto
  have n2 : ∀ x ∈ (diffOrbs sd1 sd2).2, x ∉ (sharedOrbs sd1 sd2).toFinset := by
    intro x hx
    have hx' : x ∈ occSet sd2 \ occSet sd1 := by rw [← f2]; exact List.mem_toFinset.2 hx
    rw [Finset.mem_sdiff] at hx'
    rw [f3, Finset.mem_inter]; tauto
  generalize hu : (sharedOrbs sd1 sd2).toFinset = u at *
  match hd : diffOrbs sd1 sd2, hl, h2 with
  | ([], []), _, _ =>
    left
    rw [hd] at e1 e2
    exact ⟨occSet_injective (e1.trans e2.symm), rfl, by rfl⟩
  | ([a], [b]), _, _ =>
    right; left
    rw [hd] at e1 e2 n1 n2
    simp only [List.toFinset_cons, List.toFinset_nil, insert_empty_eq, ← Finset.insert_eq, List.mem_singleton,
      forall_eq] at e1 e2 n1 n2
    refine ⟨a, b, u, rfl, rfl, n1.1, n2, n1.2, e1, e2, ?_⟩
    have key : creString [b] (annString [a] (ket (occSet sd1) : Fock ℤ)) =
        Finsupp.single (insert b u) (phase u a * phase u b) := by
      rw [e1]
      simp only [creString, annString, List.foldl_cons, List.foldl_nil]
      rw [ann_ket, if_pos (Finset.mem_insert_self _ _), Finset.erase_insert n1.1, creOp_single, if_neg n2, phase_insert,
        if_neg (by simp)]
      simp
    have hne : phase u a * phase u b ≠ 0 := by
      rcases phase_eq u a with h | h <;> rcases phase_eq u b with h' | h' <;> simp [h, h']
    rcases C10_sign_excite ℤ sd1 [a] [b] with ⟨s, sd', h1, -, -, h4⟩ | ⟨-, -, h⟩
    · rw [h1]
      congr 1
      rw [key, ket, Finsupp.smul_single, smul_eq_mul, mul_one] at h4
      have h5 := congrArg (fun f => f (insert b u)) h4
      simp only [Finsupp.single_eq_same, Int.cast_id] at h5
      rw [Finsupp.single_apply] at h5
      split_ifs at h5 with h6
      · exact h5.symm
      · exact absurd h5 hne
    · rw [key, Finsupp.single_eq_zero] at h
      exact absurd h hne
  | ([a, b], [c, d]), _, _ =>
    right; right
    rw [hd] at e1 e2 n1 n2 p1 p2
    simp only [List.toFinset_cons, List.toFinset_nil, insert_empty_eq, List.mem_cons, List.not_mem_nil, or_false,
      forall_eq_or_imp, forall_eq, not_or, List.pairwise_cons, List.Pairwise.nil, and_true, IsEmpty.forall_iff,
      implies_true] at e1 e2 n1 n2 p1 p2
    have e1 : occSet sd1 = insert a (insert b u) := by rw [e1]; ext; simp
    have e2 : occSet sd2 = insert c (insert d u) := by rw [e2]; ext; simp
    obtain ⟨⟨ha, hac, had⟩, hb, hbc, hbd⟩ := n1
    refine ⟨a, b, c, d, u, rfl, rfl, ha, hb, n2.1, n2.2, p1, p2, hac, had, hbc, hbd, e1, e2, ?_⟩
    have ec : c ∉ insert d u := by simp [n2.1, p2.ne]
    have ea : a ∉ insert b u := by simp [ha, p1.ne]
    have hce : eps (insert c (insert d u)) c d = phase u d * phase (insert d u) c := by
      rw [eps, Finset.erase_insert ec, phase_insert, if_neg (by simp), phase_insert u d, if_neg (by simp)]; ring
    have key : creString [d, c] (annString [a, b] (ket (occSet sd1) : Fock ℤ)) =
        Finsupp.single (insert c (insert d u)) (eps (insert a (insert b u)) a b * eps (insert c (insert d u)) c d) := by
      rw [e1]
      simp only [creString, annString, List.foldl_cons, List.foldl_nil]
      rw [ann2_ket, if_pos ⟨by simp, by simp, p1.ne⟩, Finset.erase_insert ea, Finset.erase_insert hb, creOp_single,
        if_neg n2.2, creOp_single, if_neg ec, hce]
      congr 1
      simp only [Int.cast_id]; ring
    have hne : eps (insert a (insert b u)) a b * eps (insert c (insert d u)) c d ≠ 0 := by
      intro h0
      have h1 := eps_sq (insert a (insert b u)) a b
      have h2 := eps_sq (insert c (insert d u)) c d
      rcases mul_eq_zero.1 h0 with h | h
      · rw [h] at h1; simp at h1
      · rw [h] at h2; simp at h2
    rcases C10_sign_excite ℤ sd1 [a, b] [d, c] with ⟨s, sd', h1, -, -, h4⟩ | ⟨-, -, h⟩
    · rw [h1]
      congr 1
      rw [key, ket, Finsupp.smul_single, smul_eq_mul, mul_one] at h4
      have h5 := congrArg (fun f => f (insert c (insert d u))) h4
      simp only [Finsupp.single_eq_same, Int.cast_id] at h5
      rw [Finsupp.single_apply] at h5
      split_ifs at h5 with h6
      · exact h5.symm
      · exact absurd h5 hne
    · rw [key, Finsupp.single_eq_zero] at h
      exact absurd h hne
  | (_ :: _ :: _ :: _, _), _, h => exact absurd (by simp) h
  | ([], _ :: _), h, _ => simp at h
  | ([_], []), h, _ => simp at h
  | ([_], _ :: _ :: _), h, _ => simp at h
  | ([_, _], []), h, _ => simp at h
  | ([_, _], [_]), h, _ => simp at h
  | ([_, _], _ :: _ :: _ :: _), h, _ => simp at h

end Fanpy.Lemmas
