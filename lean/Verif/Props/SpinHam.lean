import Verif.Lemmas.SpinSplit
import Verif.Props.GeneralizedHam

/-!
# C23, C24: the unrestricted and restricted Hamiltonians agree with the generalized one
-/

namespace Fanpy.Props
open Finset Fanpy.Spec Fanpy.Slater Fanpy.Ham Fanpy.Lemmas

variable {R : Type} [CommRing R]

/-- C23. For all determinants of `2n` spin orbitals that are not both empty, the three components computed by the
unrestricted Hamiltonian are those computed by the generalized Hamiltonian from the spin-blocked integrals. -/
theorem C23_unrestricted_partial (n : ℕ) (hn : 0 < n) (hA hB : ℕ → ℕ → R) (gAA gAB gBB : ℕ → ℕ → ℕ → ℕ → R) (sd1 sd2 : ℕ)
    (h1 : sd1 < 2 ^ (2 * n)) (h2 : sd2 < 2 ^ (2 * n)) (hv : sd1 ≠ 0 ∨ sd2 ≠ 0) :
    unrDecomposed (UnrHam.ofInts n hA hB gAA gAB gBB) sd1 sd2 =
      genDecomposed (GenHam.ofInts (2 * n) (blockOne n hA hB) (blockTwo n gAA gAB gBB)) sd1 sd2 := by
  have hnorb : (UnrHam.ofInts n hA hB gAA gAB gBB).norb = n := rfl
  have hx : sharedSd sd1 sd2 < 2 ^ (2 * n) := lt_of_le_of_lt Nat.and_le_left h1
  rw [lt_two_pow_iff] at h1 h2
  have hsp : splitSpin (sharedSd sd1 sd2) (n : ℤ) =
      .ok (sharedSd sd1 sd2 % 2 ^ n, sharedSd sd1 sd2 / 2 ^ n) := splitSpin_ok hn
  have hdiv : sharedSd sd1 sd2 / 2 ^ n < 2 ^ n := by
    rw [Nat.div_lt_iff_lt_mul (Nat.two_pow_pos n), ← pow_add, ← two_mul]; exact hx
  have gA : ∀ i ∈ occIndices (some (sharedSd sd1 sd2 % 2 ^ n)), i < n := fun i hi =>
    (lt_two_pow_iff.1 (Nat.mod_lt _ (Nat.two_pow_pos n))) i (by rw [← toFinset_occIndices]; exact List.mem_toFinset.2 hi)
  have gB : ∀ i ∈ occIndices (some (sharedSd sd1 sd2 / 2 ^ n)), i < n := fun i hi =>
    (lt_two_pow_iff.1 hdiv) i (by rw [← toFinset_occIndices]; exact List.mem_toFinset.2 hi)
  have hsplit : sharedOrbs sd1 sd2 = _ := occIndices_split (sharedSd sd1 sd2) n
  rcases sdPair_cases sd1 sd2 with ⟨hl, hc⟩ | ⟨hl, hl2, hc⟩ | ⟨rfl, hd, hs⟩ |
    ⟨a, b, u, hd, hu, ha, hb, hab, e1, e2, hs⟩ |
    ⟨a, b, c, d, u, hd, hu, ha, hb, hc, hdu, hab, hcd, hac, had, hbc, hbd, e1, e2, hs⟩
  · rw [gen_far_card _ hl]
    simp only [unrDecomposed, hnorb, hsp, bind, Except.bind, if_pos hl]
  · rw [gen_far_order _ hl hl2]
    simp only [unrDecomposed, hnorb, hsp, bind, Except.bind, hl, ne_eq, not_true_eq_false, if_false]
    rw [if_pos (by rw [← hl]; exact hl2)]
  · rw [gen_same (GenHam.ofInts (2 * n) _ _) h1 (by tauto) hd hs, ← sharedOrbs_self]
    simp only [unrDecomposed, hnorb, hsp, bind, Except.bind, hd, List.length_nil, List.reverse_nil, hs, ne_eq,
      not_true_eq_false, if_false, if_true]
    rw [if_neg (by omega), hsplit]
    simp only [unrZero, hnorb, bind, Except.bind]
    rw [guardIdx_ok (n := n) gA,
      guardIdx_ok (n := n) gB]
    generalize occIndices (some (sharedSd sd1 sd1 % 2 ^ n)) = sa at *
    generalize occIndices (some (sharedSd sd1 sd1 / 2 ^ n)) = sb at *
    simp only [pure, Except.pure, signTimes, Int.cast_one, one_mul, UnrHam.ofInts, UnrHam.cacheTwoInts, GenHam.ofInts,
      GenHam.cacheTwoInts, List.map_append, List.sum_append, triuSum_append, triuSum_map, List.map_map,
      Function.comp_def]
    have o1 : ∀ i ∈ sa, blockOne n hA hB i i = hA i i := fun i hi => by simp [blockOne, gA i hi]
    have o2 : ∀ i ∈ sb, blockOne n hA hB (i + n) (i + n) = hB i i := fun i hi => by simp [blockOne]
    have c1 : ∀ i ∈ sa, ∀ j ∈ sa, blockTwo n gAA gAB gBB i j i j = gAA i j i j := fun i hi j hj => by
      simp [blockTwo, gA i hi, gA j hj]
    have c2 : ∀ i ∈ sb, ∀ j ∈ sb, blockTwo n gAA gAB gBB (i + n) (j + n) (i + n) (j + n) = gBB i j i j :=
      fun i hi j hj => by simp [blockTwo]
    have c3 : ∀ i ∈ sa, ∀ j ∈ sb, blockTwo n gAA gAB gBB i (j + n) i (j + n) = gAB i j i j :=
      fun i hi j hj => by simp [blockTwo, gA i hi]
    have x1 : ∀ i ∈ sa, ∀ j ∈ sa, blockTwo n gAA gAB gBB i j j i = gAA i j j i := fun i hi j hj => by
      simp [blockTwo, gA i hi, gA j hj]
    have x2 : ∀ i ∈ sb, ∀ j ∈ sb, blockTwo n gAA gAB gBB (i + n) (j + n) (j + n) (i + n) = gBB i j j i :=
      fun i hi j hj => by simp [blockTwo]
    have x3 : ∀ i ∈ sa, ∀ j ∈ sb, blockTwo n gAA gAB gBB i (j + n) (j + n) i = 0 :=
      fun i hi j hj => by simp [blockTwo, gA i hi]
    rw [List.map_congr_left o1, List.map_congr_left o2, triuSum_congr c1, triuSum_congr c2, triuSum_congr x1,
      triuSum_congr x2]
    have f1 : fullSum (fun i j => blockTwo n gAA gAB gBB i j i j) sa (sb.map (· + n)) =
        fullSum (fun i j => gAB i j i j) sa sb := by
      simp only [fullSum, List.map_map, Function.comp_def]
      congr 1
      exact List.map_congr_left fun i hi => by rw [List.map_congr_left (c3 i hi)]
    have f2 : fullSum (fun i j => blockTwo n gAA gAB gBB i j j i) sa (sb.map (· + n)) = 0 := by
      simp only [fullSum, List.map_map, Function.comp_def]
      rw [List.map_congr_left (g := fun _ => (0 : R)) fun i hi => by rw [List.map_congr_left (x3 i hi)]; simp]
      simp
    rw [f1, f2]
    simp only [Except.ok.injEq, Prod.mk.injEq, true_and]
    ring
  · have han : a < 2 * n := h1 a (by rw [e1]; exact Finset.mem_insert_self _ _)
    have hbn : b < 2 * n := h2 b (by rw [e2]; exact Finset.mem_insert_self _ _)
    rw [gen_single (GenHam.ofInts (2 * n) _ _) h1 h2 hd hs]
    simp only [unrDecomposed, hsp, bind, Except.bind, hd, List.length_cons, List.length_nil, List.reverse_cons,
      List.reverse_nil, List.nil_append, hs, ne_eq, not_true_eq_false, if_false, unrOne, hnorb]
    rw [if_neg (by omega), if_neg (by simp), if_pos (by simp), hsplit]
    have ia : isAlpha (a : ℤ) (n : ℤ) = _ := isAlpha_ok han
    have ib : isAlpha (b : ℤ) (n : ℤ) = _ := isAlpha_ok hbn
    have sa' : spatialIndex (a : ℤ) (n : ℤ) = _ := spatialIndex_ok han
    have sb' : spatialIndex (b : ℤ) (n : ℤ) = _ := spatialIndex_ok hbn
    rw [ia, ib, sa', sb']
    simp only [Int.toNat_natCast]
    generalize occIndices (some (sharedSd sd1 sd2 % 2 ^ n)) = sa at *
    generalize occIndices (some (sharedSd sd1 sd2 / 2 ^ n)) = sb at *
    have hpa : (if a < n then a else a - n) < n := by split_ifs <;> omega
    have hpb : (if b < n then b else b - n) < n := by split_ifs <;> omega
    have g1 := guardIdx_ok (n := n)
      (l := (if a < n then a else a - n) :: (if b < n then b else b - n) :: sa) (by
        intro i hi
        simp only [List.mem_cons] at hi
        rcases hi with rfl | rfl | hi
        · exact hpa
        · exact hpb
        · exact gA i hi)
    rw [g1, guardIdx_ok (n := n) gB]
    have nsb : ∀ m ∈ sb, ¬ (m + n < n) := fun m _ => by omega
    simp only [pure, Except.pure, UnrHam.ofInts, UnrHam.cacheTwoInts, GenHam.ofInts,
      GenHam.cacheTwoInts, List.map_append, List.sum_append, List.map_map, Function.comp_def]
    by_cases ca : a < n <;> by_cases cb : b < n <;>
      simp only [ca, cb, decide_true, decide_false, not_true_eq_false, if_false, if_true, Bool.true_eq_false,
        Bool.false_eq_true, not_false_eq_true, signTimes, mul_zero]
    · have o1 : blockOne n hA hB a b = hA a b := by simp [blockOne, ca, cb]
      have c1 : ∀ m ∈ sa, blockTwo n gAA gAB gBB m a m b = gAA m a m b := fun m hm => by
        simp [blockTwo, ca, cb, gA m hm]
      have c2 : ∀ m ∈ sb, blockTwo n gAA gAB gBB (m + n) a (m + n) b = gAB a m b m := fun m hm => by
        simp [blockTwo, ca, cb]
      have x1 : ∀ m ∈ sa, blockTwo n gAA gAB gBB m a b m = gAA m a b m := fun m hm => by
        simp [blockTwo, ca, cb, gA m hm]
      have x2 : ∀ m ∈ sb, blockTwo n gAA gAB gBB (m + n) a b (m + n) = 0 := fun m hm => by
        simp [blockTwo, ca, cb]
      rw [o1, List.map_congr_left c1, List.map_congr_left c2, List.map_congr_left x1, List.map_congr_left x2]
      simp
    · have o1 : blockOne n hA hB a b = 0 := by simp [blockOne, ca, cb]
      have c1 : ∀ m ∈ sa, blockTwo n gAA gAB gBB m a m b = 0 := fun m hm => by simp [blockTwo, ca, cb, gA m hm]
      have c2 : ∀ m ∈ sb, blockTwo n gAA gAB gBB (m + n) a (m + n) b = 0 := fun m hm => by simp [blockTwo, ca, cb]
      have x1 : ∀ m ∈ sa, blockTwo n gAA gAB gBB m a b m = 0 := fun m hm => by simp [blockTwo, ca, cb, gA m hm]
      have x2 : ∀ m ∈ sb, blockTwo n gAA gAB gBB (m + n) a b (m + n) = 0 := fun m hm => by simp [blockTwo, ca, cb]
      rw [o1, List.map_congr_left c1, List.map_congr_left c2, List.map_congr_left x1, List.map_congr_left x2]
      simp
    · have o1 : blockOne n hA hB a b = 0 := by simp [blockOne, ca, cb]
      have c1 : ∀ m ∈ sa, blockTwo n gAA gAB gBB m a m b = 0 := fun m hm => by simp [blockTwo, ca, cb, gA m hm]
      have c2 : ∀ m ∈ sb, blockTwo n gAA gAB gBB (m + n) a (m + n) b = 0 := fun m hm => by simp [blockTwo, ca, cb]
      have x1 : ∀ m ∈ sa, blockTwo n gAA gAB gBB m a b m = 0 := fun m hm => by simp [blockTwo, ca, cb, gA m hm]
      have x2 : ∀ m ∈ sb, blockTwo n gAA gAB gBB (m + n) a b (m + n) = 0 := fun m hm => by simp [blockTwo, ca, cb]
      rw [o1, List.map_congr_left c1, List.map_congr_left c2, List.map_congr_left x1, List.map_congr_left x2]
      simp
    · have o1 : blockOne n hA hB a b = hB (a - n) (b - n) := by simp [blockOne, ca, cb]
      have c1 : ∀ m ∈ sa, blockTwo n gAA gAB gBB m a m b = gAB m (a - n) m (b - n) := fun m hm => by
        simp [blockTwo, ca, cb, gA m hm]
      have c2 : ∀ m ∈ sb, blockTwo n gAA gAB gBB (m + n) a (m + n) b = gBB m (a - n) m (b - n) := fun m hm => by
        simp [blockTwo, ca, cb]
      have x1 : ∀ m ∈ sa, blockTwo n gAA gAB gBB m a b m = 0 := fun m hm => by
        simp [blockTwo, ca, cb, gA m hm]
      have x2 : ∀ m ∈ sb, blockTwo n gAA gAB gBB (m + n) a b (m + n) = gBB m (a - n) (b - n) m := fun m hm => by
        simp [blockTwo, ca, cb]
      rw [o1, List.map_congr_left c1, List.map_congr_left c2, List.map_congr_left x1, List.map_congr_left x2]
      simp
  · have han : a < 2 * n := h1 a (by rw [e1]; simp)
    have hbn : b < 2 * n := h1 b (by rw [e1]; simp)
    have hcn : c < 2 * n := h2 c (by rw [e2]; simp)
    have hdn : d < 2 * n := h2 d (by rw [e2]; simp)
    rw [gen_double (GenHam.ofInts (2 * n) _ _) h1 h2 hd hs]
    simp only [unrDecomposed, hsp, bind, Except.bind, hd, List.length_cons, List.length_nil, List.reverse_cons,
      List.reverse_nil, List.nil_append, List.cons_append, hs, ne_eq, not_true_eq_false, if_false, unrTwo, hnorb]
    rw [if_neg (by omega), if_neg (by simp), if_neg (by simp)]
    have ia : ∀ {i : ℕ}, i < 2 * n → isAlpha (i : ℤ) (n : ℤ) = _ :=
      fun h => isAlpha_ok h
    have si : ∀ {i : ℕ}, i < 2 * n → spatialIndex (i : ℤ) (n : ℤ) = _ :=
      fun h => spatialIndex_ok h
    have fa : a - n < n := by omega
    have fb : b - n < n := by omega
    have fc : c - n < n := by omega
    have fd : d - n < n := by omega
    have hba : ¬ a < n → ¬ b < n := by omega
    rw [ia han, ia hbn]
    simp only
    by_cases ca : a < n
    · by_cases cb : b < n <;> by_cases cc : c < n <;> by_cases cd : d < n <;>
        simp [ca, cb, cc, cd, fb, fc, fd, ia han, ia hbn, ia hcn, ia hdn, si han, si hbn, si hcn, si hdn, guardIdx,
          signTimes, UnrHam.ofInts, UnrHam.cacheTwoInts, GenHam.ofInts, GenHam.cacheTwoInts, pure, Except.pure, blockTwo]
    · have cb := hba ca
      by_cases cc : c < n <;> by_cases cd : d < n <;>
        simp [ca, cb, cc, cd, fa, fb, fc, fd, ia han, ia hbn, ia hcn, ia hdn, si han, si hbn, si hcn, si hdn, guardIdx,
          signTimes, UnrHam.ofInts, UnrHam.cacheTwoInts, GenHam.ofInts, GenHam.cacheTwoInts, pure, Except.pure, blockTwo]

/-- C23, corollary: the unrestricted matrix elements are those of second quantisation with the spin-blocked
integrals. -/
theorem C23_unrestricted_fock {F : Type} [Field F] [CharZero F] (n : ℕ) (hn : 0 < n) (hA hB : ℕ → ℕ → F)
    (gAA gAB gBB : ℕ → ℕ → ℕ → ℕ → F) (sAA : ∀ i j k l, gAA i j k l = gAA j i l k)
    (sBB : ∀ i j k l, gBB i j k l = gBB j i l k) (sd1 sd2 : ℕ) (h1 : sd1 < 2 ^ (2 * n)) (h2 : sd2 < 2 ^ (2 * n)) :
    unrSdSd (UnrHam.ofInts n hA hB gAA gAB gBB) sd1 sd2 =
      .ok (hamME (2 * n) (blockOne n hA hB) (blockTwo n gAA gAB gBB) (occSet sd1) (occSet sd2)) := by
  have hg : ∀ i j k l, blockTwo n gAA gAB gBB i j k l = blockTwo n gAA gAB gBB j i l k := by
    intro i j k l
    rw [blockTwo, blockTwo]
    by_cases e : (i < n ↔ k < n) ∧ (j < n ↔ l < n)
    · have e' : (j < n ↔ l < n) ∧ (i < n ↔ k < n) := ⟨e.2, e.1⟩
      simp only [if_pos e, if_pos e']
      split_ifs
      · exact sAA _ _ _ _
      · rfl
      · rfl
      · exact sBB _ _ _ _
    · have e' : ¬ ((j < n ↔ l < n) ∧ (i < n ↔ k < n)) := by tauto
      simp only [if_neg e, if_neg e']
  by_cases hv : sd1 ≠ 0 ∨ sd2 ≠ 0
  · have := C22_generalized (2 * n) (blockOne n hA hB) (blockTwo n gAA gAB gBB) hg sd1 sd2 h1 h2 hv
    rw [unrSdSd, C23_unrestricted_partial n hn hA hB gAA gAB gBB sd1 sd2 h1 h2 hv]
    exact this
  · obtain ⟨rfl, rfl⟩ : sd1 = 0 ∧ sd2 = 0 := by tauto
    rw [(C22_vacuum (GenHam.ofInts n hA gAA) (2 * n) _ _).2]
    have hsp : splitSpin (sharedSd 0 0) ((UnrHam.ofInts n hA hB gAA gAB gBB).norb : ℤ) =
        .ok (0 % 2 ^ n, 0 / 2 ^ n) := splitSpin_ok hn
    simp only [unrSdSd, unrDecomposed, hsp, bind, Except.bind, Nat.zero_mod, Nat.zero_div]
    have : occIndices (some 0) = [] := by decide
    have e : diffOrbs 0 0 = ([], []) := by decide
    have e' : signExcite (some 0) [] [] = .ok 1 := by decide
    simp [this, e, e', unrZero, guardIdx, signTimes, sumComp, triuSum, fullSum, bind, Except.bind, pure, Except.pure]

/-- alpha-beta double excitation, alpha single excitation with a beta spectator, and a spin flip, with three different
blocks -/
example :
    unrSdSd (UnrHam.ofInts 2 (fun i j => (i + j + 1 : ℤ)) (fun i j => 2 * i * j + 3) (fun i j k l => i * k + j * l)
      (fun i j k l => i + 2 * j + k + 2 * l + 7) (fun i j k l => i * j * k * l + 1)) 0b0101 0b1010 = .ok 10 ∧
    unrSdSd (UnrHam.ofInts 2 (fun i j => (i + j + 1 : ℤ)) (fun i j => 2 * i * j + 3) (fun i j k l => i * k + j * l)
      (fun i j k l => i + 2 * j + k + 2 * l + 7) (fun i j k l => i * j * k * l + 1)) 0b1001 0b1010 = .ok 14 ∧
    unrSdSd (UnrHam.ofInts 2 (fun i j => (i + j + 1 : ℤ)) (fun i j => 2 * i * j + 3) (fun i j k l => i * k + j * l)
      (fun i j k l => i + 2 * j + k + 2 * l + 7) (fun i j k l => i * j * k * l + 1)) 0b0001 0b0100 = .ok 0 := by
  decide

theorem alpha_cases (i n : ℕ) :
    (isAlpha i n = .error .valueError ∧ spatialIndex i n = .error .valueError) ∨
    (∃ (α : Bool) (p : ℤ), isAlpha i n = .ok α ∧ spatialIndex i n = .ok p) := by
  by_cases h : (n : ℤ) ≤ 0 ∨ (i : ℤ) < 0 ∨ (i : ℤ) > 2 * n
  · left; rw [isAlpha, spatialIndex, if_pos h, if_pos h]; exact ⟨rfl, rfl⟩
  · right; rw [isAlpha, spatialIndex, if_neg h, if_neg h, isAlpha, if_neg h]; exact ⟨_, _, rfl, rfl⟩

theorem resOne_eq_unrOne (n : ℕ) (h : ℕ → ℕ → R) (g : ℕ → ℕ → ℕ → ℕ → R) (hg : ∀ i j k l, g i j k l = g j i l k)
    (d1 d2 la lb : List ℕ) :
    resOne (GenHam.ofInts n h g) d1 d2 la lb = unrOne (UnrHam.ofInts n h h g g g) d1 d2 la lb := by
  have hn1 : (UnrHam.ofInts n h h g g g).norb = n := rfl
  have hn2 : (GenHam.ofInts n h g).norb = n := rfl
  match d1, d2 with
  | [a], [b] =>
    simp only [resOne, unrOne, hn1, hn2]
    rcases alpha_cases a n with ⟨i1, i2⟩ | ⟨αa, p, i1, i2⟩
    · simp only [i2, bind, Except.bind]
    rcases alpha_cases b n with ⟨j1, j2⟩ | ⟨αb, q, j1, j2⟩
    · simp only [i2, j2, bind, Except.bind]
    simp only [i1, i2, j1, j2, bind, Except.bind]
    have e : (lb.map fun s => g s p.toNat s q.toNat) = lb.map fun s => g p.toNat s q.toNat s :=
      List.map_congr_left fun s _ => hg _ _ _ _
    cases guardIdx n (p.toNat :: q.toNat :: la) <;> cases guardIdx n lb <;> cases αa <;> cases αb <;>
      simp [GenHam.ofInts, GenHam.cacheTwoInts, UnrHam.ofInts, UnrHam.cacheTwoInts, e]
  | [], _ => rfl
  | _ :: _ :: _, _ => rfl
  | [_], [] => rfl
  | [_], _ :: _ :: _ => rfl

theorem guardIdx_swap (n p q r s : ℕ) : guardIdx n [q, p, s, r] = guardIdx n [p, q, r, s] := by
  simp only [guardIdx, List.all_cons, List.all_nil, Bool.and_true]
  congr 2
  cases decide (p < n) <;> cases decide (q < n) <;> cases decide (r < n) <;> cases decide (s < n) <;> rfl

theorem resTwo_eq_unrTwo (n : ℕ) (h : ℕ → ℕ → R) (g : ℕ → ℕ → ℕ → ℕ → R) (hg : ∀ i j k l, g i j k l = g j i l k)
    (d1 d2 : List ℕ) :
    resTwo (GenHam.ofInts n h g) d1 d2 = unrTwo (UnrHam.ofInts n h h g g g) d1 d2 := by
  have hn1 : (UnrHam.ofInts n h h g g g).norb = n := rfl
  have hn2 : (GenHam.ofInts n h g).norb = n := rfl
  match d1, d2 with
  | [a, b], [c, d] =>
    simp only [resTwo, unrTwo, hn1, hn2]
    rcases alpha_cases a n with ⟨i1, i2⟩ | ⟨αa, p, i1, i2⟩
    · simp only [i1, i2, bind, Except.bind]
    rcases alpha_cases b n with ⟨j1, j2⟩ | ⟨αb, q, j1, j2⟩
    · simp only [i1, i2, j1, j2, bind, Except.bind]
    rcases alpha_cases c n with ⟨k1, k2⟩ | ⟨αc, r, k1, k2⟩
    · cases αa <;> cases αb <;> simp [i1, i2, j1, j2, k2, bind, Except.bind]
      rcases alpha_cases d n with ⟨l1, l2⟩ | ⟨αd, s, l1, l2⟩ <;> simp [l2]
    rcases alpha_cases d n with ⟨l1, l2⟩ | ⟨αd, s, l1, l2⟩
    · cases αa <;> cases αb <;> simp [i1, i2, j1, j2, k2, l2, bind, Except.bind]
    have e1 := guardIdx_swap n p.toNat q.toNat r.toNat s.toNat
    have e2 := guardIdx_swap n p.toNat q.toNat s.toNat r.toNat
    have g1 := hg p.toNat q.toNat r.toNat s.toNat
    have g2 := hg p.toNat q.toNat s.toNat r.toNat
    cases αa <;> cases αb <;> cases αc <;> cases αd <;>
      simp [i1, i2, j1, j2, k1, k2, l1, l2, bind, Except.bind, pure, Except.pure, GenHam.ofInts, GenHam.cacheTwoInts,
        UnrHam.ofInts, UnrHam.cacheTwoInts, e1, e2, g1, g2]
  | [], _ => rfl
  | [_], _ => rfl
  | _ :: _ :: _ :: _, _ => rfl
  | [_, _], [] => rfl
  | [_, _], [_] => rfl
  | [_, _], _ :: _ :: _ :: _ => rfl

/-- C24. The restricted Hamiltonian computes the same three components as the unrestricted one with equal blocks, for
all determinants, including the exceptions it raises. -/
theorem C24_restricted_partial (n : ℕ) (h : ℕ → ℕ → R) (g : ℕ → ℕ → ℕ → ℕ → R) (hg : ∀ i j k l, g i j k l = g j i l k)
    (sd1 sd2 : ℕ) :
    resDecomposed (GenHam.ofInts n h g) sd1 sd2 = unrDecomposed (UnrHam.ofInts n h h g g g) sd1 sd2 := by
  simp only [resDecomposed, unrDecomposed, resOne_eq_unrOne n h g hg, resTwo_eq_unrTwo n h g hg]
  rfl

example : resSdSd (GenHam.ofInts 2 (fun i j => (i + j + 1 : ℤ)) (fun i j k l => (i * k + 1) * (j * l + 1) + i + j))
    0b1001 0b1010 = .ok 5 ∧
    resDecomposed (GenHam.ofInts 0 (fun i j => (i + j + 1 : ℤ)) (fun i j k l => i + j + k + l)) 0 0 =
      .error .valueError := by
  decide

/-- C24 fails for two-electron integrals without the symmetry `⟨ij|kl⟩ = ⟨ji|lk⟩`: an alpha excitation with a beta electron
in the second orbital. -/
theorem C24_asymmetric : ∃ g : ℕ → ℕ → ℕ → ℕ → ℤ,
    resSdSd (GenHam.ofInts 2 (fun _ _ => 0) g) 0b1001 0b1010 = .ok 1 ∧
    unrSdSd (UnrHam.ofInts 2 (fun _ _ => 0) (fun _ _ => 0) g g g) 0b1001 0b1010 = .ok 0 :=
  ⟨fun i _ _ _ => i, by decide, by decide⟩

/-- C24, corollary: the restricted matrix elements are those of second quantisation with the spatial integrals repeated
in every spin block. -/
theorem C24_restricted_fock {F : Type} [Field F] [CharZero F] (n : ℕ) (hn : 0 < n) (h : ℕ → ℕ → F)
    (g : ℕ → ℕ → ℕ → ℕ → F) (hg : ∀ i j k l, g i j k l = g j i l k) (sd1 sd2 : ℕ) (h1 : sd1 < 2 ^ (2 * n))
    (h2 : sd2 < 2 ^ (2 * n)) :
    resSdSd (GenHam.ofInts n h g) sd1 sd2 =
      .ok (hamME (2 * n) (blockOne n h h) (blockTwo n g g g) (occSet sd1) (occSet sd2)) := by
  rw [resSdSd, C24_restricted_partial n h g hg, ← C23_unrestricted_fock n hn h h g g g hg hg sd1 sd2 h1 h2]
  rfl

end Fanpy.Props
