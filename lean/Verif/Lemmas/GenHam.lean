import Verif.Lemmas.HamSums

/-!
# Closed forms of the generalized matrix elements in the four cases of `sdPair_cases`
-/

namespace Fanpy.Lemmas
open Finset Fanpy.Spec Fanpy.Slater Fanpy.Props Fanpy.Ham

variable {R : Type} [CommRing R]

theorem sharedOrbs_self (sd : ℕ) : sharedOrbs sd sd = occIndices (some sd) := by
  rw [sharedOrbs, Nat.and_self]

theorem occIndices_ne_nil {sd : ℕ} (h : sd ≠ 0) : occIndices (some sd) ≠ [] := by
  intro h0
  apply h
  apply occSet_injective
  rw [← toFinset_occIndices, h0]; rfl

theorem gen_far_card (H : GenHam R) {sd1 sd2 : ℕ}
    (hl : (diffOrbs sd1 sd2).1.length ≠ (diffOrbs sd1 sd2).2.length) : genDecomposed H sd1 sd2 = .ok (0, 0, 0) := by
  simp only [genDecomposed, if_pos hl]

theorem gen_far_order (H : GenHam R) {sd1 sd2 : ℕ}
    (hl : (diffOrbs sd1 sd2).1.length = (diffOrbs sd1 sd2).2.length) (h2 : (diffOrbs sd1 sd2).1.length > 2) :
    genDecomposed H sd1 sd2 = .ok (0, 0, 0) := by
  simp only [genDecomposed, hl, ne_eq, not_true_eq_false, if_false]
  rw [if_pos (by rw [← hl]; exact h2)]

theorem gen_same (H : GenHam R) {sd : ℕ} (hsd : ∀ i ∈ occSet sd, i < H.norb) (h0 : sd ≠ 0)
    (hd : diffOrbs sd sd = ([], [])) (hs : signExcite (some sd) [] [] = .ok 1) :
    genDecomposed H sd sd = .ok (((occIndices (some sd)).map (fun i => H.one i i)).sum,
      triuSum H.cIJIJ (occIndices (some sd)), -triuSum H.cIJJI (occIndices (some sd))) := by
  simp only [genDecomposed, hd, List.length_nil, List.reverse_nil, hs, ne_eq, not_true_eq_false, if_false, bind,
    Except.bind, sharedOrbs_self]
  rw [if_neg (by omega), if_pos ⟨by trivial, List.length_pos_iff.2 (occIndices_ne_nil h0)⟩]
  simp only [genZero, bind, Except.bind]
  rw [guardIdx_ok (fun i hi => hsd i (by rw [← toFinset_occIndices]; exact List.mem_toFinset.2 hi))]
  simp only [pure, Except.pure, signTimes, Int.cast_one, one_mul]

theorem gen_single (H : GenHam R) {sd1 sd2 a b : ℕ} {σ : ℤ} (h1 : ∀ i ∈ occSet sd1, i < H.norb)
    (h2 : ∀ i ∈ occSet sd2, i < H.norb) (hd : diffOrbs sd1 sd2 = ([a], [b]))
    (hs : signExcite (some sd1) [a] [b] = .ok σ) :
    genDecomposed H sd1 sd2 = .ok ((σ : R) * H.one a b,
      (σ : R) * ((sharedOrbs sd1 sd2).map (fun s => H.two s a s b)).sum,
      (σ : R) * -((sharedOrbs sd1 sd2).map (fun s => H.two s a b s)).sum) := by
  simp only [genDecomposed, hd, List.length_cons, List.length_nil, List.reverse_cons, List.reverse_nil,
    List.nil_append, hs, ne_eq, not_true_eq_false, if_false, bind, Except.bind, genOne]
  rw [if_neg (by omega), if_neg (by simp), if_pos (by simp)]
  rw [guardIdx_ok (l := a :: b :: sharedOrbs sd1 sd2) (by
    intro i hi
    simp only [List.mem_cons] at hi
    rcases hi with rfl | rfl | hi
    · exact h1 _ (mem_occSet.2 ((((C04_diff_orbs sd1 sd2).2.1 i).1 (by rw [hd]; simp)).1))
    · exact h2 _ (mem_occSet.2 ((((C04_diff_orbs sd1 sd2).2.2.1 i).1 (by rw [hd]; simp)).1))
    · exact h1 i (mem_occSet.2 (((C04_diff_orbs sd1 sd2).1 i).1 hi).1))]
  simp only [pure, Except.pure, signTimes]

theorem gen_double (H : GenHam R) {sd1 sd2 a b c d : ℕ} {σ : ℤ} (h1 : ∀ i ∈ occSet sd1, i < H.norb)
    (h2 : ∀ i ∈ occSet sd2, i < H.norb) (hd : diffOrbs sd1 sd2 = ([a, b], [c, d]))
    (hs : signExcite (some sd1) [a, b] [d, c] = .ok σ) :
    genDecomposed H sd1 sd2 = .ok (0, (σ : R) * H.two a b c d, (σ : R) * -H.two a b d c) := by
  simp only [genDecomposed, hd, List.length_cons, List.length_nil, List.reverse_cons, List.reverse_nil,
    List.nil_append, List.cons_append, hs, ne_eq, not_true_eq_false, if_false, bind, Except.bind, genTwo]
  rw [if_neg (by omega), if_neg (by simp), if_neg (by simp)]
  rw [guardIdx_ok (l := [a, b, c, d]) (by
    intro i hi
    simp only [List.mem_cons, List.not_mem_nil, or_false] at hi
    rcases hi with rfl | rfl | rfl | rfl
    · exact h1 _ (mem_occSet.2 ((((C04_diff_orbs sd1 sd2).2.1 i).1 (by rw [hd]; simp)).1))
    · exact h1 _ (mem_occSet.2 ((((C04_diff_orbs sd1 sd2).2.1 i).1 (by rw [hd]; simp)).1))
    · exact h2 _ (mem_occSet.2 ((((C04_diff_orbs sd1 sd2).2.2.1 i).1 (by rw [hd]; simp)).1))
    · exact h2 _ (mem_occSet.2 ((((C04_diff_orbs sd1 sd2).2.2.1 i).1 (by rw [hd]; simp)).1)))]
  simp only [pure, Except.pure, signTimes, mul_zero]

end Fanpy.Lemmas
