import Verif.Props.HamWfnSpin

/-!
# C27: integrals of a determinant with a wavefunction (seniority-zero Hamiltonian)
-/

namespace Fanpy.Props
open Finset Fanpy.Spec Fanpy.Slater Fanpy.Ham Fanpy.Lemmas Fanpy.It

variable {R : Type} [CommRing R]

/-- an orbital with both spins -/
def pairOf (n i : ℕ) : List ℕ := [i, i + n]

theorem exc_pair {sd n : ℕ} (e : sd / 2 ^ n = sd % 2 ^ n) :
    ∀ o ∈ (occIndices (some (sd % 2 ^ n))).map (pairOf n), ∀ v ∈ (virIndices (some (sd % 2 ^ n)) n).map (pairOf n), Exc sd o v := by
  have hbit : ∀ i, sd.testBit (i + n) = (decide (i < n) && sd.testBit i) := fun i => by
    rw [← Nat.testBit_div_two_pow, e, Nat.testBit_mod_two_pow]
  intro o ho v hv
  obtain ⟨i, hi, rfl⟩ := List.mem_map.1 ho
  obtain ⟨a, ha, rfl⟩ := List.mem_map.1 hv
  rw [mem_occIndices, Nat.testBit_mod_two_pow] at hi
  rw [mem_virIndices, Nat.testBit_mod_two_pow, Nat.cast_lt] at ha
  simp only [Bool.and_eq_true, decide_eq_true_eq] at hi
  have ha2 : sd.testBit a = false := by simpa [ha.1] using ha.2
  refine ⟨by simp [pairOf]; omega, by simp [pairOf]; omega, ?_, ?_, rfl⟩
  · simp [pairOf, hbit, hi.1, hi.2]
  · simp [pairOf, hbit, ha2]

theorem sz_other (H : GenHam R) (hn : 0 < H.norb) {sd m : ℕ}
    (hs : getSeniority sd H.norb ≠ .ok 0 ∨ getSeniority m H.norb ≠ .ok 0) : szDecomposed H sd m = .ok (0, 0, 0) := by
  rw [getSeniority_eq hn, getSeniority_eq hn] at hs
  simp only [szDecomposed, getSeniority_eq hn, bind, Except.bind]
  rw [if_pos]
  rintro ⟨h1, h2⟩
  rw [h1, h2] at hs
  simp at hs

/-- the matrix element is defined for all determinants, and zero except for the determinant itself and those with one pair
moved -/
theorem sz_total (H : GenHam R) (hn : 0 < H.norb) {sd : ℕ} (hs : getSeniority sd H.norb = .ok 0) (m : ℕ) :
    ∃ t, szDecomposed H sd m = .ok t ∧
      (m ∉ sd :: excL sd ((occIndices (some (sd % 2 ^ H.norb))).map (pairOf H.norb))
        ((virIndices (some (sd % 2 ^ H.norb)) H.norb).map (pairOf H.norb)) → t = 0) := by
  have hother := fun h => sz_other H hn (sd := sd) (m := m) (Or.inr h)
  generalize hnn : H.norb = n at *
  have e1 := (seniority_zero_iff hn).1 hs
  have hsp1 : splitSpin sd (n : ℤ) = _ := splitSpin_ok hn
  have hsp2 : splitSpin m (n : ℤ) = _ := splitSpin_ok hn
  by_cases hs2 : getSeniority m n = .ok 0
  swap
  · exact ⟨(0, 0, 0), hother hs2, fun _ => rfl⟩
  have e2 := (seniority_zero_iff hn).1 hs2
  have hD := diffOrbs_split e1 e2
  have hA1 : ∀ i ∈ occSet (sd % 2 ^ n), i < n := lt_two_pow_iff.1 (Nat.mod_lt _ (Nat.two_pow_pos n))
  have hA2 : ∀ i ∈ occSet (m % 2 ^ n), i < n := lt_two_pow_iff.1 (Nat.mod_lt _ (Nat.two_pow_pos n))
  simp only [szDecomposed, hnn, hs, hs2, hsp1, hsp2, bind, Except.bind, and_self, not_true_eq_false, if_false]
  rcases sdPair_cases (sd % 2 ^ n) (m % 2 ^ n) with ⟨hl, hc⟩ | ⟨hl, hl2', hc⟩ | ⟨heq, hd, -⟩ |
    ⟨a, b, u, hd, hu, ha, hb, hab, f1, f2, -⟩ |
    ⟨a, b, c, d, u, hd, hu, ha, hb, hc, hdu, hab, hcd, hac, had, hbc, hbd, f1, f2, -⟩
  · rw [if_pos hl]; exact ⟨_, rfl, fun _ => rfl⟩
  · rw [if_neg (by omega), if_pos (by omega)]; exact ⟨_, rfl, fun _ => rfl⟩
  · have hsd : m = sd := by
      rw [← Nat.div_add_mod sd (2 ^ n), ← Nat.div_add_mod m (2 ^ n), e1, e2, heq]
    have hg : guardIdx n (sharedOrbs (sd % 2 ^ n) (m % 2 ^ n)) = .ok () := guardIdx_ok fun i hi => by
      rw [← List.mem_toFinset, sharedOrbs_toFinset] at hi
      exact hA1 i (Finset.mem_inter.1 hi).1
    rw [hd]
    simp only [List.length_nil, ne_eq, not_true_eq_false, if_false, if_true, hg]
    rw [if_neg (by omega)]
    exact ⟨_, rfl, fun h => absurd (by simp [hsd]) h⟩
  · have hD' : diffOrbs sd m = ([a, a + n], [b, b + n]) := by rw [hD, hd]; rfl
    have han : a < n := hA1 a (by rw [f1]; simp)
    have hbn : b < n := hA2 b (by rw [f2]; simp)
    obtain ⟨-, m1, m2, -, -, -⟩ := C04_diff_orbs (sd % 2 ^ n) (m % 2 ^ n)
    rw [hd] at m1 m2
    have s1 : spatialIndex (a : ℤ) (n : ℤ) = _ := spatialIndex_ok (i := a) (n := n) (by omega)
    have s2 : spatialIndex (b : ℤ) (n : ℤ) = _ := spatialIndex_ok (i := b) (n := n) (by omega)
    have g1 : guardIdx n [a, b] = .ok () := guardIdx_ok (by simp [han, hbn])
    rw [if_pos han] at s1
    rw [if_pos hbn] at s2
    rw [hd]
    simp only [List.length_cons, List.length_nil, ne_eq, not_true_eq_false, if_false, s1, s2, Int.toNat_natCast, g1]
    rw [if_neg (by omega), if_neg (by omega)]
    refine ⟨_, rfl, fun h => absurd ?_ h⟩
    rw [List.mem_cons, mem_excL_diff (exc_pair e1), hD']
    right
    refine ⟨List.mem_map.2 ⟨a, mem_occIndices.2 ((m1 a).1 (by simp)).1, rfl⟩, List.mem_map.2 ⟨b, mem_virIndices.2 ⟨?_, ?_⟩, rfl⟩⟩
    · exact_mod_cast hbn
    · exact ((m2 b).1 (by simp)).2
  · rw [hd]
    simp only [List.length_cons, List.length_nil, ne_eq, not_true_eq_false, if_false]
    rw [if_pos (by omega)]
    exact ⟨_, rfl, fun _ => rfl⟩

/-- C27, seniority zero. `integrate_sd_wfn` is the sum over all determinants `m` of the overlap with `m` times the
decomposed matrix element of `sd` and `m`, for any number of orbitals; this is zero for determinants of other seniority. -/
theorem C27_seniority_zero (H : GenHam R) (hn : 0 < H.norb) (f : ℤ → R) (sd : ℕ) (hsd : sd < 2 ^ (2 * H.norb)) :
    ∃ D : ℕ → R × R × R, (∀ m < 2 ^ (2 * H.norb), szDecomposed H sd m = .ok (D m)) ∧
      szSdWfn H f sd = .ok (∑ m ∈ range (2 ^ (2 * H.norb)), scale (f m) (D m)) := by
  by_cases hs : getSeniority sd H.norb = .ok 0
  swap
  · refine ⟨fun _ => (0, 0, 0), fun m _ => ?_, ?_⟩
    · exact sz_other H hn (Or.inl hs)
    · rw [getSeniority_eq hn] at hs
      simp only [szSdWfn, getSeniority_eq hn, bind, Except.bind]
      rw [if_pos (fun h => hs (by rw [h]))]
      have : ∀ c : R, scale c (0, 0, 0) = 0 := fun c => scale_zero c
      simp only [this, Finset.sum_const_zero]
      rfl
  have hT := sz_total H hn hs
  choose D hD hS using hT
  refine ⟨D, fun m _ => hD m, ?_⟩
  have e1 := (seniority_zero_iff hn).1 hs
  have hE := exc_pair e1
  rw [sum_all_eq_list _ _ (sd :: excL sd ((occIndices (some (sd % 2 ^ H.norb))).map (pairOf H.norb))
        ((virIndices (some (sd % 2 ^ H.norb)) H.norb).map (pairOf H.norb)))]
  · have hsp1 : splitSpin sd (H.norb : ℤ) = _ := splitSpin_ok hn
    simp only [szSdWfn, hs, hsp1, hD, bind, Except.bind, ne_eq, not_true_eq_false, if_false]
    rw [foldlM_add _ (fun i => ((virIndices (some (sd % 2 ^ H.norb)) H.norb).map (fun a =>
      scale (f (exc sd (pairOf H.norb i) (pairOf H.norb a) : ℕ)) (D (exc sd (pairOf H.norb i) (pairOf H.norb a))))).sum)]
    · rw [List.map_cons, List.sum_cons, excL, List.map_flatMap]
      congr 2
      rw [List.flatMap_map]
      simp only [List.map_map, Function.comp_def]
      generalize occIndices (some (sd % 2 ^ H.norb)) = l
      induction l with
      | nil => rfl
      | cons x xs ih => simp [ih]
    · intro acc i hi
      rw [foldlM_add _ (fun a =>
        scale (f (exc sd (pairOf H.norb i) (pairOf H.norb a) : ℕ)) (D (exc sd (pairOf H.norb i) (pairOf H.norb a))))]
      intro acc a ha
      have hX := hE _ (List.mem_map_of_mem hi) _ (List.mem_map_of_mem ha)
      rw [mem_occIndices, Nat.testBit_mod_two_pow] at hi
      rw [mem_virIndices, Nat.cast_lt] at ha
      simp only [Bool.and_eq_true, decide_eq_true_eq] at hi
      have hin := hi.1
      have han := ha.1
      have j1 : ∀ b, spinIndex (i : ℤ) (H.norb : ℤ) b = .ok (if b then (i : ℤ) else i + H.norb) := fun b => by
        rw [spinIndex, if_neg (by omega), if_neg (by omega)]
      have j2 : ∀ b, spinIndex (a : ℤ) (H.norb : ℤ) b = .ok (if b then (a : ℤ) else a + H.norb) := fun b => by
        rw [spinIndex, if_neg (by omega), if_neg (by omega)]
      have hx : excite (some sd) ([i, i + H.norb] ++ [a + H.norb, a]) =
          .ok (some (exc sd (pairOf H.norb i) (pairOf H.norb a))) := by
        rw [excite_eq_of_length (a := [i, i + H.norb]) (c := [a + H.norb, a]) rfl,
          create_annihilate_sdOf (o := [i, i + H.norb]) (v := [a + H.norb, a]) hX.nodup_o (by simp; omega) hX.ho
          (fun k hk => hX.hv k (by simp [pairOf] at hk ⊢; tauto)), exc]
        congr 4
        ext k; simp [pairOf]; tauto
      have t1 : ((i : ℤ) + H.norb).toNat = i + H.norb := by omega
      have t2 : ((a : ℤ) + H.norb).toNat = a + H.norb := by omega
      simp only [j1, j2, if_true, Bool.false_eq_true, if_false, Int.toNat_natCast, t1, t2, baseTerm, hx, hD, bind, Except.bind,
        pure, Except.pure]
  · rw [List.nodup_cons]
    constructor
    · rw [mem_excL_diff hE, diff_self]
      rintro ⟨h, -⟩
      simp [pairOf] at h
    · refine nodup_excL (List.Nodup.map ?_ (nodup_occIndices _)) (List.Nodup.map ?_
        (nodup_of_sorted (sorted_virIndices _ _))) hE
      all_goals
        intro x y h
        simpa [pairOf] using h
  · intro m hm
    rcases List.mem_cons.1 hm with rfl | hm
    · exact hsd
    · obtain ⟨o, ho, v, hv, rfl⟩ := mem_excL.1 hm
      apply exc_lt hsd
      obtain ⟨a, ha, rfl⟩ := List.mem_map.1 hv
      rw [mem_virIndices, Nat.cast_lt] at ha
      have := ha.1
      intro k hk
      simp only [pairOf, List.mem_cons, List.not_mem_nil, or_false] at hk
      omega
  · intro m _ h
    rw [hS m h, scale_zero]

example : szSdWfn (GenHam.ofInts 3 (fun i j => (i + 3 * j : ℤ)) (fun i j k l => (i * k + 1) * (j * l + 1) + k)) (fun z => z + 1)
    0b011011 = .ok (224, 1091, -112) ∧
    szSdWfn (GenHam.ofInts 3 (fun i j => (i + 3 * j : ℤ)) (fun i j k l => (i * k + 1) * (j * l + 1) + k)) (fun z => z + 1)
      0b011010 = .ok (0, 0, 0) := by decide +kernel

end Fanpy.Props
