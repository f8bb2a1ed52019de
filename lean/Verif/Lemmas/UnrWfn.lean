import Verif.Lemmas.WfnSums

/-!
# Matrix elements of spin-blocked Hamiltonians with excited determinants
-/

namespace Fanpy.Lemmas
open Finset Fanpy.Spec Fanpy.Slater Fanpy.Props Fanpy.Ham Fanpy.It

variable {R : Type} [CommRing R]

/-! ### Alpha and beta parts of the index lists -/

theorem occ_filter_alpha (sd n : ℕ) :
    (occIndices (some sd)).filter (fun i => decide (i < n)) = occIndices (some (sd % 2 ^ n)) := by
  apply sorted_lt_ext ((sorted_occIndices sd).filter _) (sorted_occIndices _)
  intro i
  rw [List.mem_filter, mem_occIndices, mem_occIndices, Nat.testBit_mod_two_pow]
  simp; tauto

theorem occ_filter_beta (sd n : ℕ) :
    (occIndices (some sd)).filter (fun i => decide (n ≤ i)) = (occIndices (some (sd / 2 ^ n))).map (· + n) := by
  apply sorted_lt_ext ((sorted_occIndices sd).filter _)
  · rw [List.pairwise_map]
    exact (sorted_occIndices _).imp fun h => by omega
  · intro i
    simp only [List.mem_filter, List.mem_map, mem_occIndices, Nat.testBit_div_two_pow, decide_eq_true_eq]
    constructor
    · rintro ⟨h1, h2⟩
      exact ⟨i - n, by rw [show i - n + n = i by omega]; exact h1, by omega⟩
    · rintro ⟨k, h, rfl⟩
      exact ⟨h, by omega⟩

theorem vir_filter_alpha (sd n : ℕ) :
    (virIndices (some sd) (2 * n : ℕ)).filter (fun i => decide (i < n)) = virIndices (some (sd % 2 ^ n)) n := by
  apply sorted_lt_ext ((sorted_virIndices sd _).filter _) (sorted_virIndices _ _)
  intro i
  rw [List.mem_filter, mem_virIndices, mem_virIndices, Nat.testBit_mod_two_pow]
  simp only [decide_eq_true_eq, Nat.cast_lt]
  constructor
  · rintro ⟨⟨h1, h2⟩, h3⟩; exact ⟨h3, by simp [h2]⟩
  · rintro ⟨h1, h2⟩
    simp only [h1, decide_true, Bool.true_and] at h2
    exact ⟨⟨by omega, h2⟩, h1⟩

theorem vir_filter_beta (sd n : ℕ) :
    (virIndices (some sd) (2 * n : ℕ)).filter (fun i => decide (n ≤ i)) = (virIndices (some (sd / 2 ^ n)) n).map (· + n) := by
  apply sorted_lt_ext ((sorted_virIndices sd _).filter _)
  · rw [List.pairwise_map]
    exact (sorted_virIndices _ _).imp fun h => by omega
  · intro i
    simp only [List.mem_filter, List.mem_map, mem_virIndices, Nat.testBit_div_two_pow, decide_eq_true_eq, Nat.cast_lt]
    constructor
    · rintro ⟨⟨h1, h2⟩, h3⟩
      exact ⟨i - n, ⟨by omega, by rw [show i - n + n = i by omega]; exact h2⟩, by omega⟩
    · rintro ⟨k, ⟨h1, h2⟩, rfl⟩
      exact ⟨⟨by omega, h2⟩, by omega⟩

theorem map_add_sub (n : ℕ) (l : List ℕ) : (l.map (· + n)).map (· - n) = l := by
  rw [List.map_map]
  conv_rhs => rw [← List.map_id l]
  exact List.map_congr_left fun i _ => by simp

/-- facts about the alpha and beta index lists of a determinant -/
structure Blocks (n sd : ℕ) (oa ob va vb : List ℕ) : Prop where
  soa : oa.Pairwise (· < ·)
  sob : ob.Pairwise (· < ·)
  sva : va.Pairwise (· < ·)
  svb : vb.Pairwise (· < ·)
  hoa : ∀ i, i ∈ oa ↔ i < n ∧ sd.testBit i = true
  hob : ∀ i, i ∈ ob ↔ sd.testBit (i + n) = true
  hva : ∀ i, i ∈ va ↔ i < n ∧ sd.testBit i = false
  hvb : ∀ i, i ∈ vb ↔ i < n ∧ sd.testBit (i + n) = false
  lob : ∀ i ∈ ob, i < n
  eoa : oa = occIndices (some (sd % 2 ^ n))
  eob : ob = occIndices (some (sd / 2 ^ n))

theorem blocks (n sd : ℕ) (hsd : sd < 2 ^ (2 * n)) :
    Blocks n sd (occIndices (some (sd % 2 ^ n))) (occIndices (some (sd / 2 ^ n))) (virIndices (some (sd % 2 ^ n)) n)
      (virIndices (some (sd / 2 ^ n)) n) where
  soa := sorted_occIndices _
  sob := sorted_occIndices _
  sva := sorted_virIndices _ _
  svb := sorted_virIndices _ _
  hoa i := by rw [mem_occIndices, Nat.testBit_mod_two_pow]; simp
  hob i := by rw [mem_occIndices, Nat.testBit_div_two_pow]
  hva i := by
    rw [mem_virIndices, Nat.testBit_mod_two_pow, Nat.cast_lt]
    constructor
    · rintro ⟨h1, h2⟩; simp [h1] at h2; exact ⟨h1, h2⟩
    · rintro ⟨h1, h2⟩; exact ⟨h1, by simp [h2]⟩
  hvb i := by rw [mem_virIndices, Nat.testBit_div_two_pow, Nat.cast_lt]
  lob i hi := by
    rw [mem_occIndices, Nat.testBit_div_two_pow] at hi
    have := lt_two_pow_iff.1 hsd _ (mem_occSet.2 hi)
    omega
  eoa := rfl
  eob := rfl

variable {sd n : ℕ} {o v : List ℕ} {oa ob va vb : List ℕ}

theorem Exc.shared_alpha (h : Exc sd o v) (hB : Blocks n sd oa ob va vb) :
    occIndices (some (sharedSd sd (exc sd o v) % 2 ^ n)) = oa.filter (fun i => decide (i ∉ o)) := by
  apply sorted_lt_ext (sorted_occIndices _) (hB.soa.filter _)
  intro i
  have hi := Finset.ext_iff.1 h.inter i
  simp only [Finset.mem_inter, Finset.mem_sdiff, mem_occSet, List.mem_toFinset] at hi
  rw [mem_occIndices, Nat.testBit_mod_two_pow, sharedSd, Nat.testBit_and, List.mem_filter, hB.hoa]
  simp only [Bool.and_eq_true, decide_eq_true_eq]
  rw [hi]; tauto

theorem Exc.shared_beta (h : Exc sd o v) (hB : Blocks n sd oa ob va vb) :
    occIndices (some (sharedSd sd (exc sd o v) / 2 ^ n)) = ob.filter (fun i => decide (i + n ∉ o)) := by
  apply sorted_lt_ext (sorted_occIndices _) (hB.sob.filter _)
  intro i
  have hi := Finset.ext_iff.1 h.inter (i + n)
  simp only [Finset.mem_inter, Finset.mem_sdiff, mem_occSet, List.mem_toFinset] at hi
  rw [mem_occIndices, Nat.testBit_div_two_pow, sharedSd, Nat.testBit_and, List.mem_filter, hB.hob]
  simp only [Bool.and_eq_true, decide_eq_true_eq]
  rw [hi]

/-! ### Matrix elements -/

theorem filter_all {l : List ℕ} {p : ℕ → Bool} (h : ∀ i ∈ l, p i = true) : l.filter p = l := List.filter_eq_self.2 h

theorem unr_same (H : UnrHam R) (hn : 0 < H.norb) (hB : Blocks H.norb sd oa ob va vb) :
    unrDecomposed H sd sd = unrSdsZero H oa ob := by
  have hsp : splitSpin (sharedSd sd sd) (H.norb : ℤ) = _ := splitSpin_ok hn
  have hx : sharedSd sd sd = sd := Nat.and_self sd
  have hs : signExcite (some sd) [] [] = .ok 1 := rfl
  have g1 := guardIdx_ok (n := H.norb) (l := oa) (fun i hi => ((hB.hoa i).1 hi).1)
  have g2 := guardIdx_ok (n := H.norb) (l := ob) hB.lob
  have g3 := guardIdx_ok (n := H.norb) (l := oa ++ ob) (fun i hi => by
    rcases List.mem_append.1 hi with h | h
    · exact ((hB.hoa i).1 h).1
    · exact hB.lob i h)
  rw [hx] at hsp
  simp only [unrDecomposed, hx, hsp, bind, Except.bind, diff_self, List.length_nil, List.reverse_nil, hs, ne_eq,
    not_true_eq_false, if_false, if_true, ← hB.eoa, ← hB.eob, unrZero, g1, g2, unrSdsZero, g3]
  rw [if_neg (by omega)]
  simp only [pure, Except.pure, signTimes, Int.cast_one, one_mul]
  congr 3
  ring

theorem unr_singleA (H : UnrHam R) (hn : 0 < H.norb) (hB : Blocks H.norb sd oa ob va vb) {i a : ℕ} (hi : i ∈ oa)
    (ha : a ∈ va) {σ : ℤ} (hs : signExcite (some sd) [i] [a] = .ok σ) :
    unrDecomposed H sd (exc sd [i] [a]) = .ok (signTimes σ (H.oneA i a,
      ((oa.filter (fun j => decide (j ≠ i))).map (fun s => H.twoAA s i s a)).sum + (ob.map (fun s => H.twoAB i s a s)).sum,
      -((oa.filter (fun j => decide (j ≠ i))).map (fun s => H.twoAA s i a s)).sum)) := by
  obtain ⟨hin, hi'⟩ := (hB.hoa i).1 hi
  obtain ⟨han, ha'⟩ := (hB.hva a).1 ha
  have hX : Exc sd [i] [a] := ⟨by simp, by simp, by simpa using hi', by simpa using ha', rfl⟩
  have hsp : splitSpin (sharedSd sd (exc sd [i] [a])) (H.norb : ℤ) = _ := splitSpin_ok hn
  have ia : isAlpha (i : ℤ) (H.norb : ℤ) = _ := isAlpha_ok (show i < 2 * H.norb by omega)
  have ib : isAlpha (a : ℤ) (H.norb : ℤ) = _ := isAlpha_ok (show a < 2 * H.norb by omega)
  have sa' : spatialIndex (i : ℤ) (H.norb : ℤ) = _ := spatialIndex_ok (show i < 2 * H.norb by omega)
  have sb' : spatialIndex (a : ℤ) (H.norb : ℤ) = _ := spatialIndex_ok (show a < 2 * H.norb by omega)
  have hob : ob.filter (fun j => decide (j + H.norb ∉ [i])) = ob := filter_all fun j _ => by
    simp only [List.mem_singleton, decide_eq_true_eq]; omega
  have hoa : oa.filter (fun j => decide (j ∉ [i])) = oa.filter (fun j => decide (j ≠ i)) := by
    simp only [List.mem_singleton, ne_eq]
  have g1 := guardIdx_ok (n := H.norb) (l := i :: a :: oa.filter (fun j => decide (j ≠ i))) (by
    intro j hj
    simp only [List.mem_cons, List.mem_filter] at hj
    rcases hj with rfl | rfl | hj
    · exact hin
    · exact han
    · exact ((hB.hoa j).1 hj.1).1)
  have g2 := guardIdx_ok (n := H.norb) (l := ob) hB.lob
  simp only [unrDecomposed, hsp, bind, Except.bind, hX.diff, List.length_cons, List.length_nil, List.reverse_cons,
    List.reverse_nil, List.nil_append, hs, ne_eq, not_true_eq_false, if_false, unrOne, ia, ib, sa', sb', Int.toNat_natCast,
    if_pos hin, if_pos han, hX.shared_alpha hB, hX.shared_beta hB, hob]
  rw [if_neg (by omega), if_neg (by simp), if_pos (by simp)]
  simp only [hin, han, decide_true, not_true_eq_false, if_false, hoa, g1, g2, if_true, pure, Except.pure]

theorem unr_singleB (H : UnrHam R) (hn : 0 < H.norb) (hB : Blocks H.norb sd oa ob va vb) {i a : ℕ} (hi : i ∈ ob)
    (ha : a ∈ vb) {σ : ℤ} (hs : signExcite (some sd) [i + H.norb] [a + H.norb] = .ok σ) :
    unrDecomposed H sd (exc sd [i + H.norb] [a + H.norb]) = .ok (signTimes σ (H.oneB i a,
      ((ob.filter (fun j => decide (j ≠ i))).map (fun s => H.twoBB s i s a)).sum + (oa.map (fun s => H.twoAB s i s a)).sum,
      -((ob.filter (fun j => decide (j ≠ i))).map (fun s => H.twoBB s i a s)).sum)) := by
  have hi' := (hB.hob i).1 hi
  have hin := hB.lob i hi
  obtain ⟨han, ha'⟩ := (hB.hvb a).1 ha
  have hX : Exc sd [i + H.norb] [a + H.norb] := ⟨by simp, by simp, by simpa using hi', by simpa using ha', rfl⟩
  have hsp : splitSpin (sharedSd sd (exc sd [i + H.norb] [a + H.norb])) (H.norb : ℤ) = _ := splitSpin_ok hn
  have ia : isAlpha ((i + H.norb : ℕ) : ℤ) (H.norb : ℤ) = _ := isAlpha_ok (show i + H.norb < 2 * H.norb by omega)
  have ib : isAlpha ((a + H.norb : ℕ) : ℤ) (H.norb : ℤ) = _ := isAlpha_ok (show a + H.norb < 2 * H.norb by omega)
  have sa' : spatialIndex ((i + H.norb : ℕ) : ℤ) (H.norb : ℤ) = _ := spatialIndex_ok (show i + H.norb < 2 * H.norb by omega)
  have sb' : spatialIndex ((a + H.norb : ℕ) : ℤ) (H.norb : ℤ) = _ := spatialIndex_ok (show a + H.norb < 2 * H.norb by omega)
  have n1 : ¬ (i + H.norb < H.norb) := by omega
  have n2 : ¬ (a + H.norb < H.norb) := by omega
  have hoa : oa.filter (fun j => decide (j ∉ [i + H.norb])) = oa := filter_all fun j hj => by
    have := ((hB.hoa j).1 hj).1
    simp only [List.mem_singleton, decide_eq_true_eq]; omega
  have hob : ob.filter (fun j => decide (j + H.norb ∉ [i + H.norb])) = ob.filter (fun j => decide (j ≠ i)) := by
    simp only [List.mem_singleton, ne_eq, Nat.add_right_cancel_iff]
  have g1 := guardIdx_ok (n := H.norb) (l := i :: a :: oa) (by
    intro j hj
    simp only [List.mem_cons] at hj
    rcases hj with rfl | rfl | hj
    · exact hin
    · exact han
    · exact ((hB.hoa j).1 hj).1)
  have g2 := guardIdx_ok (n := H.norb) (l := ob.filter (fun j => decide (j ≠ i)))
    (fun j hj => hB.lob j (List.mem_filter.1 hj).1)
  simp only [unrDecomposed, hsp, bind, Except.bind, hX.diff, List.length_cons, List.length_nil, List.reverse_cons,
    List.reverse_nil, List.nil_append, hs, ne_eq, not_true_eq_false, if_false, unrOne, ia, ib, sa', sb', Int.toNat_natCast,
    if_neg n1, if_neg n2, hX.shared_alpha hB, hX.shared_beta hB, hoa, Nat.add_sub_cancel]
  rw [if_neg (by omega), if_neg (by simp), if_pos (by simp)]
  simp only [n1, n2, decide_false, not_true_eq_false, if_false, hob, g1, g2, Bool.false_eq_true, pure, Except.pure]
  rw [add_comm (List.sum (List.map (fun s => H.twoAB s i s a) oa))]

theorem unr_double (H : UnrHam R) (hn : 0 < H.norb) {m a b c d : ℕ} (hd : diffOrbs sd m = ([a, b], [c, d])) {σ : ℤ}
    (hs : signExcite (some sd) [a, b] [d, c] = .ok σ) :
    unrDecomposed H sd m = (unrTwo H [a, b] [c, d]).bind fun t => .ok (signTimes σ t) := by
  have hsp : splitSpin (sharedSd sd m) (H.norb : ℤ) = _ := splitSpin_ok hn
  simp only [unrDecomposed, hsp, bind, Except.bind, hd, List.length_cons, List.length_nil, List.reverse_cons,
      List.reverse_nil, List.nil_append, List.cons_append, hs, ne_eq, not_true_eq_false, if_false]
  rw [if_neg (by omega), if_neg (by simp), if_neg (by simp)]
  rfl

set_option linter.unusedSimpArgs false in
theorem unrTwo_eval (H : UnrHam R) {a b c d : ℕ} (ha : a < 2 * H.norb) (hb : b < 2 * H.norb) (hc : c < 2 * H.norb)
    (hd : d < 2 * H.norb) (hab : a < b) (hcd : c < d) :
    unrTwo H [a, b] [c, d] = .ok (0,
      (if b < H.norb ∧ d < H.norb then H.twoAA a b c d
        else if a < H.norb ∧ ¬ b < H.norb ∧ c < H.norb ∧ ¬ d < H.norb then H.twoAB a (b - H.norb) c (d - H.norb)
        else if ¬ a < H.norb ∧ ¬ c < H.norb then H.twoBB (a - H.norb) (b - H.norb) (c - H.norb) (d - H.norb) else 0),
      (if b < H.norb ∧ d < H.norb then -H.twoAA a b d c
        else if ¬ a < H.norb ∧ ¬ c < H.norb then -H.twoBB (a - H.norb) (b - H.norb) (d - H.norb) (c - H.norb) else 0)) := by
  have ia : ∀ {i : ℕ}, i < 2 * H.norb → isAlpha (i : ℤ) (H.norb : ℤ) = _ := fun h => isAlpha_ok h
  have si : ∀ {i : ℕ}, i < 2 * H.norb → spatialIndex (i : ℤ) (H.norb : ℤ) = _ := fun h => spatialIndex_ok h
  have fa : a - H.norb < H.norb := by omega
  have fb : b - H.norb < H.norb := by omega
  have fc : c - H.norb < H.norb := by omega
  have fd : d - H.norb < H.norb := by omega
  simp only [unrTwo, ia ha, ia hb, bind, Except.bind]
  by_cases cb : b < H.norb
  · have ca : a < H.norb := by omega
    by_cases cd : d < H.norb
    · have cc : c < H.norb := by omega
      simp [ca, cb, cc, cd, ia ha, ia hb, ia hc, ia hd, si ha, si hb, si hc, si hd, guardIdx, pure, Except.pure]
    · by_cases cc : c < H.norb <;>
      simp [ca, cb, cc, cd, fc, fd, ia ha, ia hb, ia hc, ia hd, si ha, si hb, si hc, si hd, guardIdx, pure, Except.pure]
  · by_cases ca : a < H.norb
    · by_cases cd : d < H.norb
      · have cc : c < H.norb := by omega
        simp [ca, cb, cc, cd, fb, ia ha, ia hb, ia hc, ia hd, si ha, si hb, si hc, si hd, guardIdx, pure, Except.pure]
      · by_cases cc : c < H.norb <;>
        simp [ca, cb, cc, cd, fb, fc, fd, ia ha, ia hb, ia hc, ia hd, si ha, si hb, si hc, si hd, guardIdx, pure, Except.pure]
    · by_cases cd : d < H.norb
      · have cc : c < H.norb := by omega
        simp [ca, cb, cc, cd, fa, fb, ia ha, ia hb, ia hc, ia hd, si ha, si hb, si hc, si hd, guardIdx, pure, Except.pure]
      · by_cases cc : c < H.norb <;>
        simp [ca, cb, cc, cd, fa, fb, fc, fd, ia ha, ia hb, ia hc, ia hd, si ha, si hb, si hc, si hd, guardIdx, pure,
          Except.pure]

end Fanpy.Lemmas
