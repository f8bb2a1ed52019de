import Verif.Lemmas.Interleave

/-!
# Properties C01–C07: determinants as bit strings

Statements only use the model functions and `Nat.testBit` / finite sets.
-/

namespace Fanpy.Props
open Fanpy.Slater Fanpy.Spec

/-- C01. `occ_indices`, `vir_indices` and `total_occ` describe the determinant exactly. -/
theorem C01_occ_vir_indices (sd norbs : ℕ) :
    (occIndices (some sd)).Pairwise (· < ·) ∧
    (∀ i, i ∈ occIndices (some sd) ↔ sd.testBit i = true) ∧
    (virIndices (some sd) norbs).Pairwise (· < ·) ∧
    (∀ i, i ∈ virIndices (some sd) norbs ↔ i < norbs ∧ sd.testBit i = false) ∧
    (∀ i, occ (some sd) i = sd.testBit i) ∧
    totalOcc (some sd) = (occIndices (some sd)).length ∧
    ((occIndices (some sd)).map (fun i => 2 ^ i)).sum = sd ∧
    (sd < 2 ^ norbs →
      (occIndices (some sd) ++ virIndices (some sd) norbs).Perm (List.range norbs)) := by
  refine ⟨sorted_occIndices sd, fun i => mem_occIndices, sorted_virIndices sd _, fun i => ?_,
    fun i => occ_some sd i, ?_, ?_, ?_⟩
  · rw [mem_virIndices]; simp
  · rw [totalOcc_eq, length_occIndices]
  · rw [← List.sum_toFinset _ (nodup_occIndices sd), toFinset_occIndices]
    exact sdOf_occSet sd
  · intro h
    have hv : (virIndices (some sd) norbs).Nodup := (sorted_virIndices sd _).imp (fun h => ne_of_lt h)
    rw [List.perm_ext_iff_of_nodup]
    · intro i
      rw [List.mem_append, mem_occIndices, mem_virIndices, List.mem_range]
      constructor
      · rintro (h1 | h1)
        · exact lt_two_pow_iff.1 h i (mem_occSet.2 h1)
        · exact_mod_cast h1.1
      · intro h1
        cases hb : sd.testBit i
        · exact Or.inr ⟨by exact_mod_cast h1, rfl⟩
        · exact Or.inl rfl
    · rw [List.nodup_append]
      refine ⟨nodup_occIndices sd, hv, ?_⟩
      intro a ha b hb hab
      subst hab
      rw [mem_occIndices] at ha
      rw [mem_virIndices] at hb
      rw [ha] at hb
      exact absurd hb.2 (by simp)
    · exact List.nodup_range

/-- C01, the `None` determinant and non-positive `norbs`. -/
theorem C01_none (norbs : ℤ) (sd : ℕ) :
    occIndices none = [] ∧ virIndices none norbs = [] ∧ totalOcc none = 0 ∧
    (norbs ≤ 0 → virIndices (some sd) norbs = []) := by
  refine ⟨rfl, rfl, rfl, fun h => ?_⟩
  simp [virIndices, h]

example : occIndices (some 0b1101) = [0, 2, 3] ∧ virIndices (some 0b1101) 6 = [1, 4, 5] ∧
    totalOcc (some 0b1101) = 3 := by decide

/-- C02. `annihilate` succeeds iff the indices are distinct and occupied, and then clears exactly those bits. -/
theorem C02_annihilate (sd sd' : ℕ) (l : List ℕ) :
    annihilate (some sd) l = some sd' ↔
      l.Nodup ∧ (∀ i ∈ l, sd.testBit i = true) ∧ ∀ j, sd'.testBit j = true ↔ sd.testBit j = true ∧ j ∉ l := by
  rw [annihilate_eq_some_iff]
  simp only [Finset.ext_iff, Finset.mem_sdiff, mem_occSet, List.mem_toFinset]

/-- C02. `create` succeeds iff the indices are distinct and unoccupied, and then sets exactly those bits. -/
theorem C02_create (sd sd' : ℕ) (l : List ℕ) :
    create (some sd) l = some sd' ↔
      l.Nodup ∧ (∀ i ∈ l, sd.testBit i = false) ∧ ∀ j, sd'.testBit j = true ↔ sd.testBit j = true ∨ j ∈ l := by
  rw [create_eq_some_iff]
  simp only [Finset.ext_iff, Finset.mem_union, mem_occSet, List.mem_toFinset]

/-- C02. `create` undoes `annihilate`. -/
theorem C02_create_annihilate (sd sd' : ℕ) (l : List ℕ) (h : annihilate (some sd) l = some sd') :
    create (some sd') l = some sd := by
  rw [annihilate_eq_some_iff] at h
  rw [create_eq_some_iff]
  refine ⟨h.1, fun i hi => ?_, ?_⟩
  · rw [Bool.eq_false_iff, ne_eq, ← mem_occSet, h.2.2]; simp [hi]
  · rw [h.2.2]; ext j; simp only [Finset.mem_union, Finset.mem_sdiff, List.mem_toFinset, mem_occSet]
    have := h.2.1 j
    tauto

/-- C02. `annihilate` undoes `create`. -/
theorem C02_annihilate_create (sd sd' : ℕ) (l : List ℕ) (h : create (some sd) l = some sd') :
    annihilate (some sd') l = some sd := by
  rw [create_eq_some_iff] at h
  rw [annihilate_eq_some_iff]
  refine ⟨h.1, fun i hi => ?_, ?_⟩
  · rw [← mem_occSet, h.2.2]; simp [hi]
  · rw [h.2.2]; ext j; simp only [Finset.mem_union, Finset.mem_sdiff, List.mem_toFinset, mem_occSet]
    have := h.2.1 j
    constructor
    · intro hj; refine ⟨Or.inl hj, fun hl => ?_⟩
      rw [this hl] at hj; cases hj
    · tauto

/-- C02. The order of the indices is irrelevant for the resulting determinant (or failure). -/
theorem C02_order_irrelevant (sd : ℕ) (l l' : List ℕ) (h : l.Perm l') :
    annihilate (some sd) l = annihilate (some sd) l' ∧ create (some sd) l = create (some sd) l' := by
  have ht : l.toFinset = l'.toFinset := List.toFinset_eq_of_perm _ _ h
  constructor
  · ext x
    show _ = some x ↔ _ = some x
    rw [annihilate_eq_some_iff, annihilate_eq_some_iff, h.nodup_iff, ht]
    simp only [h.mem_iff]
  · ext x
    show _ = some x ↔ _ = some x
    rw [create_eq_some_iff, create_eq_some_iff, h.nodup_iff, ht]
    simp only [h.mem_iff]

/-- C02. `excite` raises exactly for an odd number of indices; otherwise it removes the first half and adds the
second half, and a successful excitation keeps the number of electrons. -/
theorem C02_excite (sd : ℕ) (l : List ℕ) :
    (l.length % 2 = 1 → excite (some sd) l = .error .valueError) ∧
    (∀ a c : List ℕ, a.length = c.length → l = a ++ c →
      excite (some sd) l = .ok (create (annihilate (some sd) a) c) ∧
      ∀ sd', excite (some sd) l = .ok (some sd') →
        totalOcc (some sd') = totalOcc (some sd) ∧
        a.Nodup ∧ c.Nodup ∧ (∀ i ∈ a, sd.testBit i = true) ∧ (∀ i ∈ c, sd.testBit i = true → i ∈ a) ∧
        ∀ j, sd'.testBit j = true ↔ (sd.testBit j = true ∧ j ∉ a) ∨ j ∈ c) := by
  constructor
  · intro h; simp [excite, h]
  · rintro a c hac rfl
    have h0 : excite (some sd) (a ++ c) = .ok (create (annihilate (some sd) a) c) := by
      have h1 : (a ++ c).length / 2 = a.length := by simp; omega
      have h2 : ¬ ((a ++ c).length % 2 ≠ 0) := by simp; omega
      simp only [excite, if_neg h2, h1, List.take_left, List.drop_left]
    refine ⟨h0, ?_⟩
    intro sd' h
    rw [h0] at h
    injection h with h
    cases hm : annihilate (some sd) a with
    | none => rw [hm] at h; simp at h
    | some m =>
      rw [hm] at h
      have ha := annihilate_eq_some_iff.1 hm
      have hc := create_eq_some_iff.1 h
      have hmem : ∀ i ∈ c, sd.testBit i = true → i ∈ a := by
        intro i hi hs
        by_contra hna
        have h1 : i ∈ occSet m := by rw [ha.2.2]; simp [mem_occSet, hs, hna]
        rw [mem_occSet, hc.2.1 i hi] at h1; cases h1
      refine ⟨?_, ha.1, hc.1, ha.2.1, hmem, ?_⟩
      · rw [totalOcc_eq, totalOcc_eq, hc.2.2, Finset.card_union_of_disjoint, ha.2.2, Finset.card_sdiff_of_subset,
          List.toFinset_card_of_nodup ha.1, List.toFinset_card_of_nodup hc.1, hac, Nat.sub_add_cancel]
        · rw [← hac, ← List.toFinset_card_of_nodup ha.1]
          apply Finset.card_le_card
          intro i hi; exact mem_occSet.2 (ha.2.1 i (List.mem_toFinset.1 hi))
        · intro i hi; exact mem_occSet.2 (ha.2.1 i (List.mem_toFinset.1 hi))
        · rw [Finset.disjoint_left]
          intro i h1 h2
          rw [mem_occSet, hc.2.1 i (List.mem_toFinset.1 h2)] at h1; cases h1
      · intro j
        rw [← mem_occSet, hc.2.2, ha.2.2]
        simp [mem_occSet]

/-- C02, the `None` determinant stays `None`. -/
theorem C02_none (l : List ℕ) : annihilate none l = none ∧ create none l = none := by simp

example : excite (some 0b0101) [0, 2, 1, 3] = .ok (some 0b1010) ∧ annihilate (some 0b0101) [0, 0] = none ∧
    create (some 0b0101) [2] = none ∧ excite (some 0b0101) [0] = .error .valueError := by decide

/-- C03. `ground` raises exactly for `nocc > norbs`, odd `norbs`, or `nocc = 0`. -/
theorem C03_ground_error (nocc norbs : ℕ) :
    (∃ e, ground nocc norbs = .error e) ↔ nocc > norbs ∨ norbs % 2 = 1 ∨ nocc = 0 := by
  unfold ground
  split_ifs with h1 h2
  · simp [h1]
  · simp; omega
  · by_cases h0 : nocc = 0
    · subst h0; simp [intOfBits, bind, Except.bind]
    · rw [intOfBits_ok (by simp; omega), intOfBits_ok (by simp; omega)]
      simp only [bind, Except.bind, pure, Except.pure]
      constructor
      · rintro ⟨e, he⟩; cases he
      · omega

/-- C03. Whenever `ground` returns, it occupies exactly the lowest `⌈nocc/2⌉` alpha and `⌊nocc/2⌋` beta orbitals
and has `nocc` electrons. -/
theorem C03_ground (nocc norbs sd : ℕ) (h : ground nocc norbs = .ok sd) :
    (∀ i, sd.testBit i = true ↔ i < (nocc + 1) / 2 ∨ (norbs / 2 ≤ i ∧ i < norbs / 2 + nocc / 2)) ∧
    totalOcc (some sd) = nocc ∧ sd < 2 ^ norbs := by
  have hne : ¬ ∃ e, ground nocc norbs = .error e := by rw [h]; simp
  rw [C03_ground_error] at hne
  have h1 : ¬ (nocc > norbs) := by omega
  have h2 : ¬ (norbs % 2 ≠ 0) := by omega
  simp only [ground, if_neg h1, if_neg h2] at h
  rw [intOfBits_ok (by simp; omega), intOfBits_ok (by simp; omega)] at h
  simp only [bind, Except.bind, pure, Except.pure, List.reverse_append, List.reverse_replicate] at h
  injection h with h
  set A := Nat.ofDigits 2 (List.replicate (nocc / 2 + nocc % 2) 1) with hA
  set B := Nat.ofDigits 2 (List.replicate (norbs / 2) 0 ++ List.replicate (nocc / 2) 1) with hB
  have tA : ∀ i, A.testBit i = true ↔ i < (nocc + 1) / 2 := by
    intro i
    rw [hA, testBit_ofDigits (by intro d hd; simp at hd; omega)]
    have : nocc / 2 + nocc % 2 = (nocc + 1) / 2 := by omega
    rw [this]
    by_cases hi : i < (nocc + 1) / 2
    · simp [hi]
    · simp [hi]
  have tB : ∀ i, B.testBit i = true ↔ norbs / 2 ≤ i ∧ i < norbs / 2 + nocc / 2 := by
    intro i
    rw [hB, testBit_ofDigits (by intro d hd; simp at hd; omega)]
    by_cases hi : i < norbs / 2
    · rw [List.getD_append _ _ _ _ (by simpa using hi)]
      simp [hi]
    · rw [List.getD_append_right _ _ _ _ (by simp; omega)]
      simp only [List.length_replicate]
      by_cases hj : i - norbs / 2 < nocc / 2
      · simp [hj]; omega
      · simp [hj]; omega
  have hsd : sd = A ||| B := by
    rw [← h]
    have hAlt : A < 2 ^ (norbs / 2) := by
      rw [lt_two_pow_iff]
      intro i hi
      rw [mem_occSet, tA] at hi; omega
    obtain ⟨C, hC⟩ : ∃ C, B = 2 ^ (norbs / 2) * C := by
      refine ⟨B / 2 ^ (norbs / 2), ?_⟩
      apply Nat.eq_of_testBit_eq
      intro i
      rw [Nat.testBit_two_pow_mul, Nat.testBit_div_two_pow]
      have := tB i
      by_cases hi : norbs / 2 ≤ i
      · simp [hi]
      · cases hb : B.testBit i
        · simp [hi]
        · exact absurd (this.1 hb).1 hi
    rw [hC, Nat.add_comm, Nat.or_comm]
    exact Nat.two_pow_add_eq_or_of_lt hAlt C
  have key : ∀ i, sd.testBit i = true ↔ i < (nocc + 1) / 2 ∨ (norbs / 2 ≤ i ∧ i < norbs / 2 + nocc / 2) := by
    intro i
    rw [hsd, Nat.testBit_or, Bool.or_eq_true, tA, tB]
  refine ⟨key, ?_, ?_⟩
  · rw [totalOcc_eq]
    have : occSet sd = Finset.range ((nocc + 1) / 2) ∪ Finset.Ico (norbs / 2) (norbs / 2 + nocc / 2) := by
      ext i; rw [mem_occSet, key]; simp
    rw [this, Finset.card_union_of_disjoint]
    · simp; omega
    · rw [Finset.disjoint_left]; intro i; simp; omega
  · rw [lt_two_pow_iff]; intro i hi; rw [mem_occSet, key] at hi; omega

example : ground 3 8 = .ok 0b00010011 ∧ ground 0 8 = .error .valueError ∧ ground 3 7 = .error .valueError := by decide

/-- C04. `shared_orbs`, `diff_orbs` list exactly the common / exclusive orbitals and exciting along the difference
reproduces the second determinant. -/
theorem C04_diff_orbs (sd1 sd2 : ℕ) :
    (∀ i, i ∈ sharedOrbs sd1 sd2 ↔ sd1.testBit i = true ∧ sd2.testBit i = true) ∧
    (∀ i, i ∈ (diffOrbs sd1 sd2).1 ↔ sd1.testBit i = true ∧ sd2.testBit i = false) ∧
    (∀ i, i ∈ (diffOrbs sd1 sd2).2 ↔ sd2.testBit i = true ∧ sd1.testBit i = false) ∧
    (diffOrbs sd1 sd2).1.Pairwise (· < ·) ∧ (diffOrbs sd1 sd2).2.Pairwise (· < ·) ∧
    create (annihilate (some sd1) (diffOrbs sd1 sd2).1) (diffOrbs sd1 sd2).2 = some sd2 ∧
    annihilate (some sd1) (diffOrbs sd1 sd2).1 = some (sharedSd sd1 sd2) := by
  have m1 : ∀ i, i ∈ (diffOrbs sd1 sd2).1 ↔ sd1.testBit i = true ∧ sd2.testBit i = false := by
    intro i
    simp only [diffOrbs, mem_occIndices, Nat.testBit_and, Nat.testBit_xor]
    cases sd1.testBit i <;> cases sd2.testBit i <;> simp
  have m2 : ∀ i, i ∈ (diffOrbs sd1 sd2).2 ↔ sd2.testBit i = true ∧ sd1.testBit i = false := by
    intro i
    simp only [diffOrbs, mem_occIndices, Nat.testBit_and, Nat.testBit_xor]
    cases sd1.testBit i <;> cases sd2.testBit i <;> simp
  have hA : annihilate (some sd1) (diffOrbs sd1 sd2).1 = some (sharedSd sd1 sd2) := by
    rw [annihilate_eq_some_iff]
    refine ⟨nodup_occIndices _, fun i hi => ((m1 i).1 hi).1, ?_⟩
    ext i
    simp only [sharedSd, mem_occSet, Nat.testBit_and, Finset.mem_sdiff, List.mem_toFinset, m1]
    cases sd1.testBit i <;> cases sd2.testBit i <;> simp
  refine ⟨fun i => ?_, m1, m2, sorted_occIndices _, sorted_occIndices _, ?_, hA⟩
  · simp [sharedOrbs, mem_occIndices]
  · rw [hA, create_eq_some_iff]
    refine ⟨nodup_occIndices _, fun i hi => ?_, ?_⟩
    · have := (m2 i).1 hi
      simp [sharedSd, this.2]
    · ext i
      simp only [sharedSd, mem_occSet, Nat.testBit_and, Finset.mem_union, List.mem_toFinset, m2]
      cases sd1.testBit i <;> cases sd2.testBit i <;> simp

example : diffOrbs 0b0111 0b1101 = ([1], [3]) ∧ sharedOrbs 0b0111 0b1101 = [0, 2] := by decide

/-- C05. Splitting and recombining gives the determinant back; the alpha part fits in `nspatial` bits. -/
theorem C05_combine_split (sd n : ℕ) (hn : 0 < n) :
    ∃ a b, splitSpin sd n = .ok (a, b) ∧ a < 2 ^ n ∧ combineSpin a b n = .ok sd ∧
      (∀ i, a.testBit i = true ↔ i < n ∧ sd.testBit i = true) ∧ (∀ i, b.testBit i = sd.testBit (i + n)) := by
  refine ⟨sd % 2 ^ n, sd / 2 ^ n, splitSpin_ok hn, Nat.mod_lt _ (by positivity), ?_, ?_, ?_⟩
  · have h1 : ¬ ((n : ℤ) ≤ 0) := by omega
    simp only [combineSpin, if_neg h1, Int.toNat_natCast]
    congr 1
    apply Nat.eq_of_testBit_eq
    intro i
    rw [Nat.testBit_or, Nat.testBit_shiftLeft, Nat.testBit_mod_two_pow, Nat.testBit_div_two_pow]
    by_cases hi : i < n
    · simp [hi]
    · have : n ≤ i := by omega
      simp [hi, this]
  · intro i; rw [Nat.testBit_mod_two_pow]; simp
  · intro i; rw [Nat.testBit_div_two_pow]

/-- C05. Combining (an alpha part that fits) and splitting returns both parts. -/
theorem C05_split_combine (a b n : ℕ) (hn : 0 < n) (ha : a < 2 ^ n) :
    ∃ sd, combineSpin a b n = .ok sd ∧ splitSpin sd n = .ok (a, b) := by
  have h1 : ¬ ((n : ℤ) ≤ 0) := by omega
  refine ⟨a ||| (b <<< n), by simp only [combineSpin, if_neg h1, Int.toNat_natCast], ?_⟩
  rw [splitSpin_ok hn]
  have ht : ∀ i, n ≤ i → a.testBit i = false := fun i hi =>
    Nat.testBit_lt_two_pow (lt_of_lt_of_le ha (Nat.pow_le_pow_right (by norm_num) hi))
  congr 2
  · apply Nat.eq_of_testBit_eq; intro i
    rw [Nat.testBit_mod_two_pow, Nat.testBit_or, Nat.testBit_shiftLeft]
    by_cases hi : i < n
    · have : ¬ n ≤ i := by omega
      simp [hi, this]
    · simp [hi, ht i (by omega)]
  · apply Nat.eq_of_testBit_eq; intro i
    rw [Nat.testBit_div_two_pow, Nat.testBit_or, Nat.testBit_shiftLeft, ht _ (by omega)]
    simp

/-- C05. Both reject a non-positive number of spatial orbitals. -/
theorem C05_rejects (a b : ℕ) (n : ℤ) (hn : n ≤ 0) :
    combineSpin a b n = .error .valueError ∧ splitSpin a n = .error .valueError := by
  simp [combineSpin, splitSpin, hn]

example : splitSpin 0b110101 3 = .ok (0b101, 0b110) ∧ combineSpin 0b101 0b110 3 = .ok 0b110101 := by decide

/-- C06. The index maps are mutually inverse permutations of `range(2n)`; other indices are rejected. -/
theorem C06_index_maps (i n : ℤ) :
    (0 ≤ i ∧ i < 2 * n →
      (∃ j, interleaveIndex i n = .ok j ∧ 0 ≤ j ∧ j < 2 * n ∧ deinterleaveIndex j n = .ok i) ∧
      (∃ j, deinterleaveIndex i n = .ok j ∧ 0 ≤ j ∧ j < 2 * n ∧ interleaveIndex j n = .ok i)) ∧
    (¬ (0 ≤ i ∧ i < 2 * n) →
      interleaveIndex i n = .error .valueError ∧ deinterleaveIndex i n = .error .valueError) := by
  constructor
  · rintro ⟨h0, h1⟩
    constructor
    · by_cases h : i < n
      · refine ⟨2 * i, ?_, by omega, by omega, ?_⟩
        · simp only [interleaveIndex, if_neg (by omega : ¬ i < 0), if_neg (by omega : ¬ i ≥ 2 * n), if_pos h]
        · simp only [deinterleaveIndex, if_neg (by omega : ¬ 2 * i < 0), if_neg (by omega : ¬ 2 * i ≥ 2 * n),
            if_pos (by omega : 2 * i % 2 = 0)]
          congr 1; omega
      · refine ⟨2 * (i - n) + 1, ?_, by omega, by omega, ?_⟩
        · simp only [interleaveIndex, if_neg (by omega : ¬ i < 0), if_neg (by omega : ¬ i ≥ 2 * n), if_neg h]
        · simp only [deinterleaveIndex, if_neg (by omega : ¬ 2 * (i - n) + 1 < 0),
            if_neg (by omega : ¬ 2 * (i - n) + 1 ≥ 2 * n), if_neg (by omega : ¬ (2 * (i - n) + 1) % 2 = 0)]
          congr 1; omega
    · by_cases h : i % 2 = 0
      · refine ⟨i / 2, ?_, by omega, by omega, ?_⟩
        · simp only [deinterleaveIndex, if_neg (by omega : ¬ i < 0), if_neg (by omega : ¬ i ≥ 2 * n), if_pos h]
        · simp only [interleaveIndex, if_neg (by omega : ¬ i / 2 < 0), if_neg (by omega : ¬ i / 2 ≥ 2 * n),
            if_pos (by omega : i / 2 < n)]
          congr 1; omega
      · refine ⟨i / 2 + n, ?_, by omega, by omega, ?_⟩
        · simp only [deinterleaveIndex, if_neg (by omega : ¬ i < 0), if_neg (by omega : ¬ i ≥ 2 * n), if_neg h]
        · simp only [interleaveIndex, if_neg (by omega : ¬ i / 2 + n < 0), if_neg (by omega : ¬ i / 2 + n ≥ 2 * n),
            if_neg (by omega : ¬ i / 2 + n < n)]
          congr 1; omega
  · intro h
    by_cases h0 : i < 0
    · simp [interleaveIndex, deinterleaveIndex, h0]
    · have : 2 * n ≤ i := by omega
      simp [interleaveIndex, deinterleaveIndex, h0, this]

/-- C06. `interleave` moves the bit of orbital `i` to `interleave_index(i)`. -/
theorem C06_interleave_bits (sd n : ℕ) (hn : 0 < n) (h : sd < 2 ^ (2 * n)) :
    ∃ r, interleave sd n = .ok r ∧ r < 2 ^ (2 * n) ∧
      ∀ i j : ℕ, interleaveIndex i n = .ok (j : ℤ) → r.testBit j = sd.testBit i := by
  obtain ⟨r, hr, h1, h2, h3⟩ := interleave_spec hn h
  refine ⟨r, hr, h3, ?_⟩
  intro i j hij
  simp only [interleaveIndex] at hij
  split_ifs at hij with a b c
  · injection hij with hij
    rw [show j = 2 * i by omega]; exact h1 i (by omega)
  · injection hij with hij
    rw [show j = 2 * (i - n) + 1 by omega, h2 (i - n) (by omega)]
    congr 1; omega

/-- C06. `deinterleave` moves the bit of orbital `i` to `deinterleave_index(i)`. -/
theorem C06_deinterleave_bits (sd n : ℕ) (hn : 0 < n) (h : sd < 2 ^ (2 * n)) :
    ∃ r, deinterleave sd n = .ok r ∧ r < 2 ^ (2 * n) ∧
      ∀ i j : ℕ, deinterleaveIndex i n = .ok (j : ℤ) → r.testBit j = sd.testBit i := by
  obtain ⟨r, hr, h1, h2, h3⟩ := deinterleave_spec hn h
  refine ⟨r, hr, h3, ?_⟩
  intro i j hij
  simp only [deinterleaveIndex] at hij
  split_ifs at hij with a b c
  · injection hij with hij
    rw [show j = i / 2 by omega, h1 (i / 2) (by omega)]
    congr 1; omega
  · injection hij with hij
    rw [show j = i / 2 + n by omega, h2 (i / 2) (by omega)]
    congr 1; omega

theorem eq_of_bits_lt {a b m : ℕ} (ha : a < 2 ^ m) (hb : b < 2 ^ m)
    (h : ∀ i < m, a.testBit i = b.testBit i) : a = b := by
  apply Nat.eq_of_testBit_eq
  intro i
  by_cases hi : i < m
  · exact h i hi
  · rw [Nat.testBit_lt_two_pow (lt_of_lt_of_le ha (Nat.pow_le_pow_right (by norm_num) (by omega))),
      Nat.testBit_lt_two_pow (lt_of_lt_of_le hb (Nat.pow_le_pow_right (by norm_num) (by omega)))]

/-- C06. `interleave` and `deinterleave` are mutually inverse and preserve the number of electrons. -/
theorem C06_round_trip (sd n : ℕ) (hn : 0 < n) (h : sd < 2 ^ (2 * n)) :
    (∃ r, interleave sd n = .ok r ∧ deinterleave r n = .ok sd ∧ totalOcc (some r) = totalOcc (some sd)) ∧
    (∃ r, deinterleave sd n = .ok r ∧ interleave r n = .ok sd ∧ totalOcc (some r) = totalOcc (some sd)) := by
  have cardeq : ∀ (r s : ℕ) (f : ℕ → ℕ), r < 2 ^ (2 * n) → s < 2 ^ (2 * n) →
      Set.InjOn f (Finset.range (2 * n)) → (∀ i < 2 * n, f i < 2 * n) →
      (∀ i < 2 * n, r.testBit (f i) = s.testBit i) → totalOcc (some r) = totalOcc (some s) := by
    intro r s f hr hs hinj hf hb
    rw [totalOcc_eq, totalOcc_eq]
    symm
    apply Finset.card_bij (fun i _ => f i)
    · intro i hi
      have hlt := lt_two_pow_iff.1 hs i hi
      rw [mem_occSet] at hi ⊢
      rw [hb i hlt, hi]
    · intro i hi j hj hij
      exact hinj (by simpa using lt_two_pow_iff.1 hs i hi) (by simpa using lt_two_pow_iff.1 hs j hj) hij
    · intro j hj
      have hlt := lt_two_pow_iff.1 hr j hj
      have hsurj : (Finset.range (2 * n)).image f = Finset.range (2 * n) := by
        apply Finset.eq_of_subset_of_card_le
        · intro x hx
          obtain ⟨i, hi, rfl⟩ := Finset.mem_image.1 hx
          exact Finset.mem_range.2 (hf i (Finset.mem_range.1 hi))
        · rw [Finset.card_image_of_injOn hinj]
      have : j ∈ (Finset.range (2 * n)).image f := by rw [hsurj]; simpa using hlt
      obtain ⟨i, hi, rfl⟩ := Finset.mem_image.1 this
      refine ⟨i, ?_, rfl⟩
      rw [mem_occSet] at hj ⊢
      rw [← hb i (Finset.mem_range.1 hi), hj]
  constructor
  · obtain ⟨r, hr, h1, h2, h3⟩ := interleave_spec hn h
    obtain ⟨t, ht, k1, k2, k3⟩ := deinterleave_spec hn h3
    refine ⟨r, hr, ?_, ?_⟩
    · rw [ht]; congr 1
      apply eq_of_bits_lt k3 h
      intro i hi
      by_cases hin : i < n
      · rw [k1 i hin, h1 i hin]
      · have := k2 (i - n) (by omega)
        rw [Nat.sub_add_cancel (by omega)] at this
        rw [this, h2 (i - n) (by omega), Nat.sub_add_cancel (by omega)]
    · apply cardeq r sd (fun i => if i < n then 2 * i else 2 * (i - n) + 1) h3 h
      · intro i _ j _ hij
        simp only at hij; split_ifs at hij <;> omega
      · intro i hi; split_ifs <;> omega
      · intro i hi
        split_ifs with hin
        · exact h1 i hin
        · rw [h2 (i - n) (by omega), Nat.sub_add_cancel (by omega)]
  · obtain ⟨r, hr, h1, h2, h3⟩ := deinterleave_spec hn h
    obtain ⟨t, ht, k1, k2, k3⟩ := interleave_spec hn h3
    refine ⟨r, hr, ?_, ?_⟩
    · rw [ht]; congr 1
      apply eq_of_bits_lt k3 h
      intro i hi
      rcases Nat.even_or_odd' i with ⟨m, rfl | rfl⟩
      · rw [k1 m (by omega), h1 m (by omega)]
      · rw [k2 m (by omega), h2 m (by omega)]
    · apply cardeq r sd (fun i => if i % 2 = 0 then i / 2 else i / 2 + n) h3 h
      · intro i hi j hj hij
        simp only [Finset.coe_range, Set.mem_Iio] at hi hj
        simp only at hij; split_ifs at hij <;> omega
      · intro i hi; split_ifs <;> omega
      · intro i hi
        rcases Nat.even_or_odd' i with ⟨m, rfl | rfl⟩
        · rw [if_pos (by omega), show 2 * m / 2 = m by omega]; exact h1 m (by omega)
        · rw [if_neg (by omega), show (2 * m + 1) / 2 = m by omega]; exact h2 m (by omega)

/-- C06. A non-positive number of spatial orbitals is rejected. -/
theorem C06_rejects (sd : ℕ) (n : ℤ) (hn : n ≤ 0) :
    interleave sd n = .error .valueError ∧ deinterleave sd n = .error .valueError := by
  simp [interleave, deinterleave, hn]

example : interleave 0b110001 3 = .ok 0b101001 ∧ deinterleave 0b101001 3 = .ok 0b110001 := by decide

/-- number of spatial orbitals of the determinant holding an alpha electron / a beta electron / exactly one -/
def alphaSet (sd n : ℕ) : Finset ℕ := (occSet sd).filter (· < n)
def betaSet (sd n : ℕ) : Finset ℕ := ((occSet sd).filter (n ≤ ·)).image (· - n)

theorem mem_alphaSet {sd n i : ℕ} : i ∈ alphaSet sd n ↔ i < n ∧ sd.testBit i = true := by
  simp [alphaSet, mem_occSet, and_comm]

theorem mem_betaSet {sd n i : ℕ} : i ∈ betaSet sd n ↔ sd.testBit (i + n) = true := by
  simp only [betaSet, Finset.mem_image, Finset.mem_filter, mem_occSet]
  constructor
  · rintro ⟨j, ⟨h1, h2⟩, rfl⟩; rwa [Nat.sub_add_cancel h2]
  · intro h; exact ⟨i + n, ⟨h, by omega⟩, by omega⟩

/-- C07. Twice the spin is `N_alpha - N_beta`; the seniority is the number of spatial orbitals that hold exactly one
electron. -/
theorem C07_spin_seniority (sd n : ℕ) (hn : 0 < n) :
    getTwoSpin sd n = .ok (((alphaSet sd n).card : ℤ) - (betaSet sd n).card) ∧
    getSeniority sd n = .ok (symmDiff (alphaSet sd n) (betaSet sd n)).card := by
  have ha : occSet (sd % 2 ^ n) = alphaSet sd n := by
    ext i; rw [mem_occSet, mem_alphaSet, Nat.testBit_mod_two_pow]; simp
  have hb : occSet (sd / 2 ^ n) = betaSet sd n := by
    ext i; rw [mem_occSet, mem_betaSet, Nat.testBit_div_two_pow]
  constructor
  · simp only [getTwoSpin, splitSpin_ok hn, bind, Except.bind, pure, Except.pure, totalOcc_eq, ha, hb]
  · simp only [getSeniority, splitSpin_ok hn, bind, Except.bind, pure, Except.pure, totalOcc_eq, occSet_xor, ha, hb]

/-- C07. `|2 S| ≤ seniority ≤ N`, equal parity, and seniority zero iff every spatial orbital is empty or doubly
occupied. -/
theorem C07_constraints (sd n : ℕ) (hn : 0 < n) :
    ∃ (s : ℤ) (v : ℕ), getTwoSpin sd n = .ok s ∧ getSeniority sd n = .ok v ∧
      |s| ≤ v ∧ v ≤ totalOcc (some sd) ∧ v % 2 = totalOcc (some sd) % 2 ∧ s % 2 = (v : ℤ) % 2 ∧
      (v = 0 ↔ ∀ i, (i < n → sd.testBit i = sd.testBit (i + n)) ∧ (n ≤ i → sd.testBit (i + n) = false)) := by
  obtain ⟨h1, h2⟩ := C07_spin_seniority sd n hn
  refine ⟨_, _, h1, h2, ?_⟩
  set A := alphaSet sd n with hA
  set B := betaSet sd n with hB
  have hN : totalOcc (some sd) = A.card + B.card := by
    rw [totalOcc_eq]
    have hBc : B.card = ((occSet sd).filter (n ≤ ·)).card := by
      rw [hB, betaSet, Finset.card_image_of_injOn]
      intro i hi j hj hij
      simp only [Finset.coe_filter, Set.mem_ofPred_eq] at hi hj
      simp only at hij; omega
    rw [hBc, hA, alphaSet, ← Finset.card_filter_add_card_filter_not (s := occSet sd) (· < n)]
    simp
  have c1 : (symmDiff A B).card = (A \ B).card + (B \ A).card := by
    rw [symmDiff_def, Finset.sup_eq_union, Finset.card_union_of_disjoint]
    rw [Finset.disjoint_left]; intro x; simp; tauto
  have c2 : A.card = (A \ B).card + (A ∩ B).card := (Finset.card_sdiff_add_card_inter A B).symm
  have c3 : B.card = (B \ A).card + (A ∩ B).card := by
    rw [Finset.inter_comm]; exact (Finset.card_sdiff_add_card_inter B A).symm
  refine ⟨?_, ?_, ?_, ?_, ?_⟩
  · rw [abs_le]; constructor <;> omega
  · omega
  · omega
  · omega
  · rw [Finset.card_eq_zero, ← Finset.bot_eq_empty, symmDiff_eq_bot, Finset.ext_iff]
    apply forall_congr'
    intro i
    rw [hA, hB, mem_alphaSet, mem_betaSet]
    by_cases hi : i < n
    · simp only [hi, true_and, true_implies, Nat.not_le.2 hi, false_implies, and_true]
      cases sd.testBit i <;> cases sd.testBit (i + n) <;> simp
    · simp only [hi, false_and, false_implies, true_and, not_lt.1 hi, true_implies]
      cases sd.testBit (i + n) <;> simp

/-- C07. `is_alpha` / `spatial_index` / `spin_index` are consistent on valid indices. -/
theorem C07_index_functions (i n : ℤ) (hi : 0 ≤ i) (hin : i < n) :
    spinIndex i n true = .ok i ∧ spinIndex i n false = .ok (i + n) ∧
    isAlpha i n = .ok true ∧ isAlpha (i + n) n = .ok false ∧
    spatialIndex i n = .ok i ∧ spatialIndex (i + n) n = .ok i := by
  have e1 : ¬ (n ≤ 0 ∨ i < 0 ∨ i > 2 * n) := by omega
  have e2 : ¬ (n ≤ 0 ∨ i + n < 0 ∨ i + n > 2 * n) := by omega
  have e3 : ¬ (n ≤ 0) := by omega
  have e4 : ¬ ¬ (0 ≤ i ∧ i < n) := by omega
  refine ⟨?_, ?_, ?_, ?_, ?_, ?_⟩
  · simp only [spinIndex, if_neg e3, if_neg e4]; rfl
  · simp only [spinIndex, if_neg e3, if_neg e4]; rfl
  · simp only [isAlpha, if_neg e1]; simp [hin]
  · simp only [isAlpha, if_neg e2]; simp; exact hi
  · simp only [spatialIndex, isAlpha, if_neg e1, bind, Except.bind]; simp [hin, pure, Except.pure]
  · simp only [spatialIndex, isAlpha, if_neg e2, bind, Except.bind]
    have : ¬ (i + n < n) := by omega
    simp [this, pure, Except.pure]

/-- C07, disagreement: the guards accept the index `2 * nspatial`, one past the last spin orbital
(slater.py:209, 235 use `>` where `>=` is needed), and map it to a non-existent spatial orbital. -/
theorem C07_guard_accepts_out_of_range (n : ℤ) (hn : 0 < n) :
    isAlpha (2 * n) n = .ok false ∧ spatialIndex (2 * n) n = .ok n := by
  have e1 : ¬ (n ≤ 0 ∨ 2 * n < 0 ∨ 2 * n > 2 * n) := by omega
  have e2 : ¬ (2 * n < n) := by omega
  constructor
  · simp only [isAlpha, if_neg e1, e2]; rfl
  · simp only [spatialIndex, isAlpha, if_neg e1, bind, Except.bind, e2, pure, Except.pure]
    simp; omega

example : getTwoSpin 0b001011 3 = .ok 1 ∧ getSeniority 0b001011 3 = .ok 1 := by decide

end Fanpy.Props
