import Verif.Lemmas.HamWfnDerivSpin

/-!
# Arrays of derivatives of the spin-blocked Hamiltonians
-/

namespace Fanpy.Lemmas
open Finset Fanpy.Spec Fanpy.Slater Fanpy.Props Fanpy.Ham Fanpy.It

variable {R : Type} [CommRing R]
variable {sd n : ℕ} {oa ob va vb : List ℕ}

/-- sum over some determinants of the overlap times the derivative -/
def colSum (H : UnrHam R) (f : ℤ → R) (sd : ℕ) (dets : List ℕ) (s : ℕ) (xy : ℕ × ℕ) : R × R × R :=
  (dets.map fun (m : ℕ) => scale (f m) (unrEntry H sd m (s, xy))).sum

theorem cols_eq {α γ : Type} [AddCommMonoid α] (mul : ℤ → α → α) (smul : R → α → α) (ι : α →+ R × R × R)
    (hι : ∀ c x, ι (smul c x) = scale c (ι x)) (H : UnrHam R) (f : ℤ → R) (hn : 2 ≤ H.norb) (s : ℕ) (pairs : List γ)
    (signs : List ℤ) (g : γ → Except PyErr ℤ) (val : γ → ℕ × ℕ → α) (e : γ → ℕ)
    (h : signs.map (Except.ok (ε := PyErr)) = pairs.map g)
    (he : ∀ p ∈ pairs, ∃ σ, g p = .ok σ ∧ ∀ xy : ℕ × ℕ, xy.1 < xy.2 → xy.2 < H.norb →
      unrEntry H sd (e p) (s, xy) = ι (mul σ (val p xy))) :
    ∃ rows d, derivRows mul H.norb signs (fun xy => pairs.map fun p => val p xy) = .ok rows ∧
      dotRows smul rows (ovl f (pairs.map e)) = .ok d ∧
      d.map ι = (triuIndices H.norb).map (colSum H f sd (pairs.map e) s) := by
  have row : ∀ xy : ℕ × ℕ, ∃ L d, xy ∈ triuIndices H.norb → mulSigns mul signs (pairs.map fun p => val p xy) = .ok L ∧
      dotOverlaps smul L (ovl f (pairs.map e)) = .ok d ∧ ι d = colSum H f sd (pairs.map e) s xy := by
    rintro ⟨x, y⟩
    by_cases hxy : (x, y) ∈ triuIndices H.norb
    · have hxy' := mem_triuIndices.1 hxy
      obtain ⟨L, e1, e2⟩ := array_eq' mul ι pairs signs g (fun p => val p (x, y)) e
        (fun m => .ok (unrEntry H sd m (s, x, y))) h (by
          intro p hp
          obtain ⟨σ, h1, h2⟩ := he p hp
          exact ⟨σ, h1, by rw [h2 (x, y) hxy'.1 hxy'.2]⟩)
      have e3 := dets_ok ι (fun m => .ok (unrEntry H sd m (s, x, y))) (fun m => unrEntry H sd m (s, x, y)) (pairs.map e) L
        (fun m _ => rfl) e2
      obtain ⟨d, e4, e5⟩ := dot_embed smul ι hι (pairs.map e) f L _ e3
      exact ⟨L, d, fun _ => ⟨e1, e4, e5⟩⟩
    · exact ⟨[], 0, fun h => absurd h hxy⟩
  choose L d hLd using row
  refine ⟨(triuIndices H.norb).map L, (triuIndices H.norb).map d, ?_, ?_, ?_⟩
  · rw [derivRows, if_neg (by rw [triuIndices_eq_nil]; omega)]
    exact mapM_eq_ok _ fun xy hxy => (hLd xy hxy).1
  · rw [dotRows, List.mapM_map]
    exact mapM_eq_ok _ fun xy hxy => (hLd xy hxy).2.1
  · rw [List.map_map]
    exact List.map_congr_left fun xy hxy => (hLd xy hxy).2.2

theorem guard_blocks (hB : Blocks n sd oa ob va vb) : guardIdx n (oa ++ ob ++ va) = .ok () ∧
    guardIdx n (oa ++ ob ++ vb) = .ok () ∧ guardIdx n (oa ++ va) = .ok () ∧ guardIdx n (ob ++ vb) = .ok () ∧
    guardIdx n (oa ++ ob ++ va ++ vb) = .ok () := by
  refine ⟨guardIdx_ok ?_, guardIdx_ok ?_, guardIdx_ok ?_, guardIdx_ok ?_, guardIdx_ok ?_⟩ <;> intro i hi <;>
    simp only [List.mem_append] at hi
  · rcases hi with (h | h) | h
    exacts [hB.loa i h, hB.lob i h, hB.lva i h]
  · rcases hi with (h | h) | h
    exacts [hB.loa i h, hB.lob i h, hB.lvb i h]
  · rcases hi with h | h
    exacts [hB.loa i h, hB.lva i h]
  · rcases hi with h | h
    exacts [hB.lob i h, hB.lvb i h]
  · rcases hi with ((h | h) | h) | h
    exacts [hB.loa i h, hB.lob i h, hB.lva i h, hB.lvb i h]

theorem shA_self (hB : Blocks n sd oa ob va vb) : shA n sd sd = oa := by
  rw [shA, sharedSd, Nat.and_self, hB.eoa]
theorem shB_self (hB : Blocks n sd oa ob va vb) : shB n sd sd = ob := by
  rw [shB, sharedSd, Nat.and_self, hB.eob]

/-! ### The determinant itself -/

theorem cols_zeroA (H : UnrHam R) (hn : 2 ≤ H.norb) (hB : Blocks H.norb sd oa ob va vb) (hsd : sd < 2 ^ (2 * H.norb)) :
    unrDerivsZeroA H oa ob va = .ok ((triuIndices H.norb).map fun xy => unrEntry H sd sd (0, xy)) := by
  simp only [unrDerivsZeroA, (guard_blocks hB).1, bind, Except.bind, pure, Except.pure]
  congr 1
  apply List.map_congr_left
  rintro ⟨x, y⟩ hxy
  rw [mem_triuIndices] at hxy
  rw [unrEntry_eq (fun P hP => unrDeriv_same H (by omega) hsd P hP) (by simp) hxy.1 hxy.2,
    spinEntryZero_alpha H hB (by omega) hxy.2, shA_self hB, shB_self hB]
  simp [signTimes]

theorem cols_zeroB (H : UnrHam R) (hn : 2 ≤ H.norb) (hB : Blocks H.norb sd oa ob va vb) (hsd : sd < 2 ^ (2 * H.norb)) :
    unrDerivsZeroB H oa ob vb = .ok ((triuIndices H.norb).map fun xy => unrEntry H sd sd (1, xy)) := by
  simp only [unrDerivsZeroB, (guard_blocks hB).2.1, bind, Except.bind, pure, Except.pure]
  congr 1
  apply List.map_congr_left
  rintro ⟨x, y⟩ hxy
  rw [mem_triuIndices] at hxy
  rw [unrEntry_eq (fun P hP => unrDeriv_same H (by omega) hsd P hP) (by simp) hxy.1 hxy.2,
    spinEntryZero_beta H hB (by omega) hxy.2, shA_self hB, shB_self hB]
  simp [signTimes]

/-! ### Single excitations -/

section one
variable (H : UnrHam R) (f : ℤ → R)

theorem dets_oneA : excL sd (comb oa 1) (comb va 1) = (prod oa va).map fun p => exc sd [p.1] [p.2] := by
  simp only [prod, excL, comb_one, List.flatMap_map, List.map_flatMap, List.map_map, Function.comp_def]

theorem dets_oneB : excL sd (comb (ob.map (· + n)) 1) (comb (vb.map (· + n)) 1) =
    (prod ob vb).map fun p => exc sd [p.1 + n] [p.2 + n] := by
  simp only [prod, excL, comb_one, List.flatMap_map, List.map_flatMap, List.map_map, Function.comp_def]

theorem signs_oneA (hB : Blocks n sd oa ob va vb) : (signExciteOne oa va).map (Except.ok (ε := PyErr)) =
    (prod oa va).map fun p => signExcite (some sd) [p.1] [p.2] := by
  rw [C11_sign_excite_one sd _ _ hB.soa hB.sva hB.occA hB.virA hB.outA]
  simp only [prod, List.map_flatMap, List.map_map, Function.comp_def]

theorem signs_oneB (hB : Blocks n sd oa ob va vb) : (signExciteOne ob vb).map (Except.ok (ε := PyErr)) =
    (prod ob vb).map fun p => signExcite (some sd) [p.1 + n] [p.2 + n] := by
  have hS := C11_sign_excite_one sd _ _ (sorted_shift hB.sob _) (sorted_shift hB.svb _) hB.occB hB.virB hB.outB
  rw [signExciteOne_shift] at hS
  rw [hS]
  simp only [prod, List.map_flatMap, List.flatMap_map, List.map_map, Function.comp_def]

theorem entry_oneA {H : UnrHam R} (hn : 2 ≤ H.norb) (hB : Blocks H.norb sd oa ob va vb) (hsd : sd < 2 ^ (2 * H.norb)) {i a : ℕ}
    (hi : i ∈ oa) (ha : a ∈ va) : ∃ σ, signExcite (some sd) [i] [a] = .ok σ ∧ ∀ s < 2, ∀ xy : ℕ × ℕ, xy.1 < xy.2 →
      xy.2 < H.norb → unrEntry H sd (exc sd [i] [a]) (s, xy) =
        signTimes σ (unrDerivOne H i 0 a 0 s xy.1 xy.2 (oa.filter (fun j => decide (j ≠ i))) ob) := by
  have li := hB.loa i hi
  have la := hB.lva a ha
  have hX := hB.excA 1 [i] (by rw [comb_one]; simp [hi]) [a] (by rw [comb_one]; simp [ha])
  have hs := signExcite_one_one (hB.occA i hi) (hB.virA a ha)
  refine ⟨_, hs, fun s hs2 xy h1 h2 => ?_⟩
  rw [unrEntry_eq (fun P hP => unrDeriv_single H (by omega) hsd (by omega) (by omega) hX.diff hs P hP) hs2 h1 h2]
  have hob : ob.filter (fun j => decide (j + H.norb ∉ [i])) = ob := filter_all fun j _ => by
    simp only [List.mem_singleton, decide_eq_true_eq]; omega
  rw [shA, shB, hX.shared_alpha hB, hX.shared_beta hB, hob]
  simp only [spatSpin, li, la, if_true, List.mem_singleton, ne_eq]

theorem entry_oneB {H : UnrHam R} (hn : 2 ≤ H.norb) (hB : Blocks H.norb sd oa ob va vb) (hsd : sd < 2 ^ (2 * H.norb)) {i a : ℕ}
    (hi : i ∈ ob) (ha : a ∈ vb) : ∃ σ, signExcite (some sd) [i + H.norb] [a + H.norb] = .ok σ ∧ ∀ s < 2, ∀ xy : ℕ × ℕ,
      xy.1 < xy.2 → xy.2 < H.norb → unrEntry H sd (exc sd [i + H.norb] [a + H.norb]) (s, xy) =
        signTimes σ (unrDerivOne H i 1 a 1 s xy.1 xy.2 oa (ob.filter (fun j => decide (j ≠ i)))) := by
  have li := hB.lob i hi
  have la := hB.lvb a ha
  have hX := hB.excB 1 [i + H.norb] (by rw [comb_one]; simp [hi]) [a + H.norb] (by rw [comb_one]; simp [ha])
  have hs := signExcite_one_one (hB.occB (i + H.norb) (List.mem_map_of_mem hi)) (hB.virB (a + H.norb) (List.mem_map_of_mem ha))
  refine ⟨_, hs, fun s hs2 xy h1 h2 => ?_⟩
  rw [unrEntry_eq (fun P hP => unrDeriv_single H (by omega) hsd (by omega) (by omega) hX.diff hs P hP) hs2 h1 h2]
  have hoa : oa.filter (fun j => decide (j ∉ [i + H.norb])) = oa := filter_all fun j hj => by
    have := hB.loa j hj
    simp only [List.mem_singleton, decide_eq_true_eq]; omega
  rw [shA, shB, hX.shared_alpha hB, hX.shared_beta hB, hoa]
  simp only [spatSpin, show ¬ i + H.norb < H.norb by omega, show ¬ a + H.norb < H.norb by omega, if_false, List.mem_singleton, ne_eq,
    Nat.add_sub_cancel, Nat.add_right_cancel_iff]

theorem cols_oneAA (hn : 2 ≤ H.norb) (hB : Blocks H.norb sd oa ob va vb) (hsd : sd < 2 ^ (2 * H.norb)) :
    ∃ rows d, unrDerivsOneAA H oa ob va = .ok rows ∧
      dotRows scale rows (ovl f (excL sd (comb oa 1) (comb va 1))) = .ok d ∧
      d = (triuIndices H.norb).map (colSum H f sd (excL sd (comb oa 1) (comb va 1)) 0) := by
  simp only [unrDerivsOneAA, (guard_blocks hB).1, bind, Except.bind, sharedIndicesRemoveOne_zip (nodup_of_sorted hB.soa)]
  obtain ⟨rows, d, h1, h2, h3⟩ := cols_eq (sd := sd) (signTimes (R := R)) scale (AddMonoidHom.id _) (fun _ _ => rfl) H f hn 0
    (prod oa va) _ _ (fun p xy => spinEntryOne H.oneA H.twoAA H.twoAB p.1 p.2 (oa.filter (fun j => decide (j ≠ p.1))) ob xy.1 xy.2)
    (fun p => exc sd [p.1] [p.2]) (signs_oneA hB) (by
      rintro ⟨i, a⟩ hp
      have hp' : i ∈ oa ∧ a ∈ va := by simpa [prod] using hp
      obtain ⟨σ, h1, h2⟩ := entry_oneA hn hB hsd hp'.1 hp'.2
      refine ⟨σ, h1, fun xy k1 k2 => ?_⟩
      rw [h2 0 (by omega) xy k1 k2, spinEntryOne_aa H (by
        intro (hia : i = a)
        have h3 := hB.occA _ hp'.1
        have h4 := hB.virA _ hp'.2
        rw [hia, h4] at h3; cases h3) ob (by simp) (by
        intro hm
        have h3 := hB.occA _ (List.mem_of_mem_filter hm)
        have h4 := hB.virA _ hp'.2
        rw [h3] at h4; cases h4)]
      rfl)
  rw [dets_oneA]
  refine ⟨rows, d, ?_, h2, ?_⟩
  · rw [← h1]
    congr 1
    funext xy
    simp only [prod, List.map_flatMap, List.flatMap_map, List.map_map, Function.comp_def]
  · rw [← h3]; simp

theorem cols_oneBB (hn : 2 ≤ H.norb) (hB : Blocks H.norb sd oa ob va vb) (hsd : sd < 2 ^ (2 * H.norb)) :
    ∃ rows d, unrDerivsOneBB H oa ob vb = .ok rows ∧
      dotRows scale rows (ovl f (excL sd (comb (ob.map (· + H.norb)) 1) (comb (vb.map (· + H.norb)) 1))) = .ok d ∧
      d = (triuIndices H.norb).map (colSum H f sd (excL sd (comb (ob.map (· + H.norb)) 1) (comb (vb.map (· + H.norb)) 1)) 1) := by
  simp only [unrDerivsOneBB, (guard_blocks hB).2.1, bind, Except.bind, sharedIndicesRemoveOne_zip (nodup_of_sorted hB.sob)]
  obtain ⟨rows, d, h1, h2, h3⟩ := cols_eq (sd := sd) (signTimes (R := R)) scale (AddMonoidHom.id _) (fun _ _ => rfl) H f hn 1
    (prod ob vb) _ _ (fun p xy => spinEntryOne H.oneB H.twoBB (fun p s q t => H.twoAB s p t q) p.1 p.2
      (ob.filter (fun j => decide (j ≠ p.1))) oa xy.1 xy.2)
    (fun p => exc sd [p.1 + H.norb] [p.2 + H.norb]) (signs_oneB hB) (by
      rintro ⟨i, a⟩ hp
      have hp' : i ∈ ob ∧ a ∈ vb := by simpa [prod] using hp
      obtain ⟨σ, h1, h2⟩ := entry_oneB hn hB hsd hp'.1 hp'.2
      refine ⟨σ, h1, fun xy k1 k2 => ?_⟩
      rw [h2 1 (by omega) xy k1 k2, spinEntryOne_bb H (by
        intro (hia : i = a)
        have h3 := (hB.hob _).1 hp'.1
        have h4 := ((hB.hvb _).1 hp'.2).2
        rw [hia, h4] at h3; cases h3) oa (by simp) (by
        intro hm
        have h3 := (hB.hob _).1 (List.mem_of_mem_filter hm)
        have h4 := ((hB.hvb _).1 hp'.2).2
        rw [h3] at h4; cases h4)]
      rfl)
  rw [dets_oneB]
  refine ⟨rows, d, ?_, h2, ?_⟩
  · rw [← h1]
    congr 1
    funext xy
    simp only [prod, List.map_flatMap, List.flatMap_map, List.map_map, Function.comp_def]
  · rw [← h3]; simp

theorem emb1_smul (c x : R) : emb1 (c * x) = scale c (emb1 x) := by simp [emb1, scale]
theorem emb2_smul (c : R) (x : R × R) : emb2 (scale2 c x) = scale c (emb2 x) := by simp [emb2, scale, scale2]
theorem emb1_sign (s : ℤ) (x : R) : emb1 (signTimes1 s x) = signTimes s ((0 : R), x, (0 : R)) := by
  simp [emb1, signTimes, signTimes1]
theorem emb2_sign (s : ℤ) (x : R × R) : emb2 (signTimes2 s x) = signTimes s ((0 : R), x) := by
  simp [emb2, signTimes, signTimes2]
theorem asCoulomb_eq (l : List R) : asCoulomb l = l.map emb1 := List.map_congr_left fun _ _ => by simp [emb1]
theorem asTwo_eq (l : List (R × R)) : asTwo l = l.map emb2 := List.map_congr_left fun _ _ => by simp [emb2]

theorem cols_oneBA (hn : 2 ≤ H.norb) (hB : Blocks H.norb sd oa ob va vb) (hsd : sd < 2 ^ (2 * H.norb)) :
    ∃ rows d, unrDerivsOneBA H oa ob va = .ok rows ∧
      dotRows (· * ·) rows (ovl f (excL sd (comb oa 1) (comb va 1))) = .ok d ∧
      asCoulomb d = (triuIndices H.norb).map (colSum H f sd (excL sd (comb oa 1) (comb va 1)) 1) := by
  simp only [unrDerivsOneBA, (guard_blocks hB).1, bind, Except.bind]
  obtain ⟨rows, d, h1, h2, h3⟩ := cols_eq (sd := sd) (signTimes1 (R := R)) (· * ·) (emb1 (R := R)) emb1_smul H f hn 1
    (prod oa va) _ _ (fun p xy => spinEntryOther H.twoAB p.1 p.2 ob xy.1 xy.2)
    (fun p => exc sd [p.1] [p.2]) (signs_oneA hB) (by
      rintro ⟨i, a⟩ hp
      have hp' : i ∈ oa ∧ a ∈ va := by simpa [prod] using hp
      obtain ⟨σ, h1, h2⟩ := entry_oneA hn hB hsd hp'.1 hp'.2
      refine ⟨σ, h1, fun xy k1 k2 => ?_⟩
      rw [h2 1 (by omega) xy k1 k2, emb1_sign, ← spinEntryOther_ba])
  rw [dets_oneA]
  refine ⟨rows, d, ?_, h2, ?_⟩
  · rw [← h1]
    congr 1
    funext xy
    simp only [prod, List.map_flatMap, List.map_map, Function.comp_def]
  · rw [← h3, asCoulomb_eq]

theorem cols_oneAB (hn : 2 ≤ H.norb) (hB : Blocks H.norb sd oa ob va vb) (hsd : sd < 2 ^ (2 * H.norb)) :
    ∃ rows d, unrDerivsOneAB H oa ob vb = .ok rows ∧
      dotRows (· * ·) rows (ovl f (excL sd (comb (ob.map (· + H.norb)) 1) (comb (vb.map (· + H.norb)) 1))) = .ok d ∧
      asCoulomb d =
        (triuIndices H.norb).map (colSum H f sd (excL sd (comb (ob.map (· + H.norb)) 1) (comb (vb.map (· + H.norb)) 1)) 0) := by
  simp only [unrDerivsOneAB, (guard_blocks hB).2.1, bind, Except.bind]
  obtain ⟨rows, d, h1, h2, h3⟩ := cols_eq (sd := sd) (signTimes1 (R := R)) (· * ·) (emb1 (R := R)) emb1_smul H f hn 0
    (prod ob vb) _ _ (fun p xy => spinEntryOther (fun p s q t => H.twoAB s p t q) p.1 p.2 oa xy.1 xy.2)
    (fun p => exc sd [p.1 + H.norb] [p.2 + H.norb]) (signs_oneB hB) (by
      rintro ⟨i, a⟩ hp
      have hp' : i ∈ ob ∧ a ∈ vb := by simpa [prod] using hp
      obtain ⟨σ, h1, h2⟩ := entry_oneB hn hB hsd hp'.1 hp'.2
      refine ⟨σ, h1, fun xy k1 k2 => ?_⟩
      rw [h2 0 (by omega) xy k1 k2, emb1_sign, ← spinEntryOther_ab])
  rw [dets_oneB]
  refine ⟨rows, d, ?_, h2, ?_⟩
  · rw [← h1]
    congr 1
    funext xy
    simp only [prod, List.map_flatMap, List.map_map, Function.comp_def]
  · rw [← h3, asCoulomb_eq]

end one

/-! ### Double excitations -/

section two
variable (H : UnrHam R) (f : ℤ → R)

theorem cols_twoAAA (hsym : ∀ i j k l, H.twoAA i j k l = H.twoAA j i l k) (hn : 2 ≤ H.norb)
    (hB : Blocks H.norb sd oa ob va vb) (hsd : sd < 2 ^ (2 * H.norb)) (l1 : oa.length > 1) (l2 : va.length > 1) :
    ∃ rows d, unrDerivsTwoAAA H oa va = .ok rows ∧
      dotRows scale2 rows (ovl f (excL sd (comb oa 2) (comb va 2))) = .ok d ∧
      asTwo d = (triuIndices H.norb).map (colSum H f sd (excL sd (comb oa 2) (comb va 2)) 0) := by
  have hS := C11_sign_excite_two sd _ _ hB.soa hB.sva hB.occA hB.virA hB.outA
  have n1 : comb oa 2 ≠ [] := comb_two_ne_nil l1
  have n2 : comb va 2 ≠ [] := comb_two_ne_nil l2
  simp only [unrDerivsTwoAAA, pairColumns, if_neg n1, if_neg n2, (guard_blocks hB).2.2.1, bind, Except.bind]
  have hS' : (signExciteTwo oa va).map (Except.ok (ε := PyErr)) =
      (prod (comb oa 2) (comb va 2)).map fun p => signExcite (some sd) p.1 p.2.reverse := by
    rw [hS]; simp only [prod, List.map_flatMap, List.map_map, Function.comp_def]
  have hdets : excL sd (comb oa 2) (comb va 2) = (prod (comb oa 2) (comb va 2)).map fun p => exc sd p.1 p.2 := by
    simp only [prod, excL, List.map_flatMap, List.map_map, Function.comp_def]
  obtain ⟨rows, d, h1, h2, h3⟩ := cols_eq (sd := sd) (signTimes2 (R := R)) scale2 (emb2 (R := R)) emb2_smul H f hn 0
    (prod (comb oa 2) (comb va 2)) _ _ (fun p xy => spinEntryTwo H.twoAA (p.1.getD 0 0) (p.1.getD 1 0) (p.2.getD 0 0)
      (p.2.getD 1 0) xy.1 xy.2) (fun p => exc sd p.1 p.2) hS' (by
      rintro ⟨o, v⟩ hp
      have hp' : o ∈ comb oa 2 ∧ v ∈ comb va 2 := by simpa [prod] using hp
      have hX := hB.excA 2 o hp'.1 v hp'.2
      have lo := fun i hi => hB.loa i ((mem_comb.1 hp'.1).1.subset hi)
      have lv := fun i hi => hB.lva i ((mem_comb.1 hp'.2).1.subset hi)
      obtain ⟨a, b, ho⟩ := List.length_eq_two.1 (mem_comb.1 hp'.1).2
      obtain ⟨c, d, hv⟩ := List.length_eq_two.1 (mem_comb.1 hp'.2).2
      obtain ⟨hab, hcd, σ, hs⟩ := signTwo hX ho hv
      subst ho hv
      have hne : ∀ i ∈ [a, b], ∀ j ∈ [c, d], i ≠ j := by
        rintro i hi j hj rfl
        have h3 := hX.ho _ hi
        have h4 := hX.hv _ hj
        rw [h3] at h4; cases h4
      have la := lo a (by simp)
      have lb := lo b (by simp)
      have lc := lv c (by simp)
      have ld := lv d (by simp)
      refine ⟨σ, hs, fun xy k1 k2 => ?_⟩
      rw [unrEntry_eq (fun P hP => unrDeriv_double H (by omega) hsd (by omega) (by omega) (by omega) (by omega) hX.diff hs P hP)
        (by simp) k1 k2, emb2_sign]
      simp only [spatSpin, la, lb, lc, ld, if_true, List.getD_cons_zero, List.getD_cons_succ]
      rw [spinEntryTwo_aaa H hsym hab.ne (hne a (by simp) c (by simp)) (hne a (by simp) d (by simp))
            (hne b (by simp) c (by simp)) (hne b (by simp) d (by simp)) hcd.ne])
  rw [hdets]
  refine ⟨rows, d, ?_, h2, ?_⟩
  · rw [← h1]
    congr 1
    funext xy
    simp only [prod, List.map_flatMap, List.flatMap_map, List.map_map, Function.comp_def]
  · rw [← h3, asTwo_eq]

theorem cols_twoBBB (hsym : ∀ i j k l, H.twoBB i j k l = H.twoBB j i l k) (hn : 2 ≤ H.norb)
    (hB : Blocks H.norb sd oa ob va vb) (hsd : sd < 2 ^ (2 * H.norb)) (l1 : ob.length > 1) (l2 : vb.length > 1) :
    ∃ rows d, unrDerivsTwoBBB H ob vb = .ok rows ∧
      dotRows scale2 rows (ovl f (excL sd (comb (ob.map (· + H.norb)) 2) (comb (vb.map (· + H.norb)) 2))) = .ok d ∧
      asTwo d =
        (triuIndices H.norb).map (colSum H f sd (excL sd (comb (ob.map (· + H.norb)) 2) (comb (vb.map (· + H.norb)) 2)) 1) := by
  have hS := C11_sign_excite_two sd _ _ (sorted_shift hB.sob _) (sorted_shift hB.svb _) hB.occB hB.virB hB.outB
  rw [signExciteTwo_shift] at hS
  have n1 : comb ob 2 ≠ [] := comb_two_ne_nil l1
  have n2 : comb vb 2 ≠ [] := comb_two_ne_nil l2
  simp only [unrDerivsTwoBBB, pairColumns, if_neg n1, if_neg n2, (guard_blocks hB).2.2.2.1, bind, Except.bind]
  have hS' : (signExciteTwo ob vb).map (Except.ok (ε := PyErr)) =
      (prod (comb ob 2) (comb vb 2)).map fun p => signExcite (some sd) (p.1.map (· + H.norb)) (p.2.map (· + H.norb)).reverse := by
    rw [hS, comb_two_shift, comb_two_shift]
    simp only [prod, List.map_flatMap, List.flatMap_map, List.map_map, Function.comp_def]
  have hdets : excL sd (comb (ob.map (· + H.norb)) 2) (comb (vb.map (· + H.norb)) 2) =
      (prod (comb ob 2) (comb vb 2)).map fun p => exc sd (p.1.map (· + H.norb)) (p.2.map (· + H.norb)) := by
    rw [comb_two_shift, comb_two_shift]
    simp only [prod, excL, List.map_flatMap, List.flatMap_map, List.map_map, Function.comp_def]
  obtain ⟨rows, d, h1, h2, h3⟩ := cols_eq (sd := sd) (signTimes2 (R := R)) scale2 (emb2 (R := R)) emb2_smul H f hn 1
    (prod (comb ob 2) (comb vb 2)) _ _ (fun p xy => spinEntryTwo H.twoBB (p.1.getD 0 0) (p.1.getD 1 0) (p.2.getD 0 0)
      (p.2.getD 1 0) xy.1 xy.2) (fun p => exc sd (p.1.map (· + H.norb)) (p.2.map (· + H.norb))) hS' (by
      rintro ⟨o, v⟩ hp
      have hp' : o ∈ comb ob 2 ∧ v ∈ comb vb 2 := by simpa [prod] using hp
      have hX := hB.excB 2 (o.map (· + H.norb)) (by rw [comb_two_shift]; exact List.mem_map_of_mem hp'.1)
        (v.map (· + H.norb)) (by rw [comb_two_shift]; exact List.mem_map_of_mem hp'.2)
      have lo := fun i hi => hB.lob i ((mem_comb.1 hp'.1).1.subset hi)
      have lv := fun i hi => hB.lvb i ((mem_comb.1 hp'.2).1.subset hi)
      obtain ⟨a, b, rfl⟩ := List.length_eq_two.1 (mem_comb.1 hp'.1).2
      obtain ⟨c, d, rfl⟩ := List.length_eq_two.1 (mem_comb.1 hp'.2).2
      obtain ⟨hab, hcd, σ, hs⟩ := signTwo hX rfl rfl
      have hne : ∀ i ∈ [a, b], ∀ j ∈ [c, d], i ≠ j := by
        rintro i hi j hj rfl
        have h3 := hX.ho (i + H.norb) (List.mem_map_of_mem hi)
        have h4 := hX.hv (i + H.norb) (List.mem_map_of_mem hj)
        rw [h3] at h4; cases h4
      have la := lo a (by simp)
      have lb := lo b (by simp)
      have lc := lv c (by simp)
      have ld := lv d (by simp)
      refine ⟨σ, hs, fun xy k1 k2 => ?_⟩
      have hd := hX.diff
      simp only [List.map_cons, List.map_nil] at hd ⊢
      rw [unrEntry_eq (fun P hP => unrDeriv_double H (by omega) hsd (by omega) (by omega) (by omega) (by omega) hd hs P hP)
        (by simp) k1 k2, emb2_sign]
      simp only [spatSpin, show ¬ a + H.norb < H.norb by omega, show ¬ b + H.norb < H.norb by omega,
        show ¬ c + H.norb < H.norb by omega, show ¬ d + H.norb < H.norb by omega, if_false, List.getD_cons_zero,
        List.getD_cons_succ, Nat.add_sub_cancel]
      rw [spinEntryTwo_bbb H hsym (Nat.add_lt_add_iff_right.1 hab).ne (hne a (by simp) c (by simp)) (hne a (by simp) d (by simp))
            (hne b (by simp) c (by simp)) (hne b (by simp) d (by simp)) (Nat.add_lt_add_iff_right.1 hcd).ne])
  rw [hdets]
  refine ⟨rows, d, ?_, h2, ?_⟩
  · rw [← h1]
    congr 1
    funext xy
    simp only [prod, List.map_flatMap, List.flatMap_map, List.map_map, Function.comp_def]
  · rw [← h3, asTwo_eq]

theorem prod_ne_nil {l m : List ℕ} (h : l.length > 0) (h' : m.length > 0) : prod l m ≠ [] := by
  obtain ⟨x, l, rfl⟩ := List.exists_cons_of_length_pos h
  obtain ⟨y, m, rfl⟩ := List.exists_cons_of_length_pos h'
  simp [prod]

theorem signs_twoAB (hB : Blocks n sd oa ob va vb) : (signExciteTwoAb oa ob va vb).map (Except.ok (ε := PyErr)) =
    (prod (prod oa ob) (prod va vb)).map fun p => signExcite (some sd) [p.1.1, p.1.2 + n] [p.2.2 + n, p.2.1] := by
  have hS := C11_sign_excite_two_ab sd _ _ _ _ hB.soa (sorted_shift hB.sob n) hB.sva (sorted_shift hB.svb n)
    hB.occ_iff (fun i hi => by
      rcases List.mem_append.1 hi with h | h
      · exact hB.virA i h
      · exact hB.virB i h) hB.ltAB
  rw [signExciteTwoAb_shift] at hS
  rw [hS]
  simp only [prod, List.map_flatMap, List.flatMap_map, List.flatMap_assoc, List.map_map, Function.comp_def]

theorem dets_twoAB : excL sd (pairsAB oa (ob.map (· + n))) (pairsAB va (vb.map (· + n))) =
    (prod (prod oa ob) (prod va vb)).map fun p => exc sd [p.1.1, p.1.2 + n] [p.2.1, p.2.2 + n] := by
  simp only [pairsAB, prod, excL, List.map_flatMap, List.flatMap_map, List.flatMap_assoc, List.map_map, Function.comp_def]

theorem entry_twoAB {H : UnrHam R} (hn : 2 ≤ H.norb) (hB : Blocks H.norb sd oa ob va vb) (hsd : sd < 2 ^ (2 * H.norb))
    {a b c d : ℕ} (ha : a ∈ oa) (hb : b ∈ ob) (hc : c ∈ va) (hd : d ∈ vb) :
    (a ≠ c ∧ b ≠ d) ∧ ∃ σ, signExcite (some sd) [a, b + H.norb] [d + H.norb, c] = .ok σ ∧ ∀ s < 2, ∀ xy : ℕ × ℕ, xy.1 < xy.2 →
      xy.2 < H.norb → unrEntry H sd (exc sd [a, b + H.norb] [c, d + H.norb]) (s, xy) =
        signTimes σ (unrDerivTwo H a 0 b 1 c 0 d 1 s xy.1 xy.2) := by
  have hX := hB.excAB [a, b + H.norb] (mem_pairsAB.2 ⟨a, ha, _, List.mem_map_of_mem hb, rfl⟩) [c, d + H.norb]
    (mem_pairsAB.2 ⟨c, hc, _, List.mem_map_of_mem hd, rfl⟩)
  obtain ⟨hab, hcd, σ, hs⟩ := signTwo hX rfl rfl
  have la := hB.loa a ha
  have lb := hB.lob b hb
  have lc := hB.lva c hc
  have ld := hB.lvb d hd
  refine ⟨⟨?_, ?_⟩, σ, hs, fun s hs2 xy k1 k2 => ?_⟩
  · rintro rfl
    have h3 := hB.occA _ ha
    have h4 := hB.virA _ hc
    rw [h3] at h4; cases h4
  · rintro rfl
    have h3 := (hB.hob _).1 hb
    have h4 := ((hB.hvb _).1 hd).2
    rw [h3] at h4; cases h4
  · rw [unrEntry_eq (fun P hP => unrDeriv_double H (by omega) hsd (by omega) (by omega) (by omega) (by omega) hX.diff hs P hP)
      hs2 k1 k2]
    simp only [spatSpin, la, lc, show ¬ b + H.norb < H.norb by omega, show ¬ d + H.norb < H.norb by omega, if_true, if_false,
      Nat.add_sub_cancel]

theorem cols_twoAAB (hn : 2 ≤ H.norb) (hB : Blocks H.norb sd oa ob va vb) (hsd : sd < 2 ^ (2 * H.norb))
    (hl : oa.length > 0 ∧ ob.length > 0 ∧ va.length > 0 ∧ vb.length > 0) :
    ∃ rows d, unrDerivsTwoAAB H oa ob va vb = .ok rows ∧
      dotRows (· * ·) rows (ovl f (excL sd (pairsAB oa (ob.map (· + H.norb))) (pairsAB va (vb.map (· + H.norb))))) = .ok d ∧
      asCoulomb d = (triuIndices H.norb).map
        (colSum H f sd (excL sd (pairsAB oa (ob.map (· + H.norb))) (pairsAB va (vb.map (· + H.norb)))) 0) := by
  simp only [unrDerivsTwoAAB, prodColumns, if_neg (prod_ne_nil hl.1 hl.2.1), if_neg (prod_ne_nil hl.2.2.1 hl.2.2.2),
    (guard_blocks hB).2.2.2.2, bind, Except.bind]
  obtain ⟨rows, d, h1, h2, h3⟩ := cols_eq (sd := sd) (signTimes1 (R := R)) (· * ·) (emb1 (R := R)) emb1_smul H f hn 0
    (prod (prod oa ob) (prod va vb)) _ _ (fun p xy => spinEntryTwoA H.twoAB p.1.1 p.1.2 p.2.1 p.2.2 xy.1 xy.2)
    (fun p => exc sd [p.1.1, p.1.2 + H.norb] [p.2.1, p.2.2 + H.norb]) (signs_twoAB hB) (by
      rintro ⟨⟨a, b⟩, c, d⟩ hp
      have hp' : (a ∈ oa ∧ b ∈ ob) ∧ c ∈ va ∧ d ∈ vb := by simpa [prod] using hp
      obtain ⟨⟨ha, hb⟩, hc, hd⟩ := hp'
      obtain ⟨hne, σ, h1, h2⟩ := entry_twoAB hn hB hsd ha hb hc hd
      refine ⟨σ, h1, fun xy k1 k2 => ?_⟩
      rw [h2 0 (by omega) xy k1 k2, emb1_sign, ← spinEntryTwo_aab H hne.1])
  rw [dets_twoAB]
  refine ⟨rows, d, ?_, h2, ?_⟩
  · rw [← h1]
    congr 1
    funext xy
    simp only [prod, List.map_flatMap, List.map_map, Function.comp_def]
  · rw [← h3, asCoulomb_eq]

theorem cols_twoBAB (hn : 2 ≤ H.norb) (hB : Blocks H.norb sd oa ob va vb) (hsd : sd < 2 ^ (2 * H.norb))
    (hl : oa.length > 0 ∧ ob.length > 0 ∧ va.length > 0 ∧ vb.length > 0) :
    ∃ rows d, unrDerivsTwoBAB H oa ob va vb = .ok rows ∧
      dotRows (· * ·) rows (ovl f (excL sd (pairsAB oa (ob.map (· + H.norb))) (pairsAB va (vb.map (· + H.norb))))) = .ok d ∧
      asCoulomb d = (triuIndices H.norb).map
        (colSum H f sd (excL sd (pairsAB oa (ob.map (· + H.norb))) (pairsAB va (vb.map (· + H.norb)))) 1) := by
  simp only [unrDerivsTwoBAB, prodColumns, if_neg (prod_ne_nil hl.1 hl.2.1), if_neg (prod_ne_nil hl.2.2.1 hl.2.2.2),
    (guard_blocks hB).2.2.2.2, bind, Except.bind]
  obtain ⟨rows, d, h1, h2, h3⟩ := cols_eq (sd := sd) (signTimes1 (R := R)) (· * ·) (emb1 (R := R)) emb1_smul H f hn 1
    (prod (prod oa ob) (prod va vb)) _ _ (fun p xy => spinEntryTwoB H.twoAB p.1.1 p.1.2 p.2.1 p.2.2 xy.1 xy.2)
    (fun p => exc sd [p.1.1, p.1.2 + H.norb] [p.2.1, p.2.2 + H.norb]) (signs_twoAB hB) (by
      rintro ⟨⟨a, b⟩, c, d⟩ hp
      have hp' : (a ∈ oa ∧ b ∈ ob) ∧ c ∈ va ∧ d ∈ vb := by simpa [prod] using hp
      obtain ⟨⟨ha, hb⟩, hc, hd⟩ := hp'
      obtain ⟨hne, σ, h1, h2⟩ := entry_twoAB hn hB hsd ha hb hc hd
      refine ⟨σ, h1, fun xy k1 k2 => ?_⟩
      rw [h2 1 (by omega) xy k1 k2, emb1_sign, ← spinEntryTwo_bab H hne.2])
  rw [dets_twoAB]
  refine ⟨rows, d, ?_, h2, ?_⟩
  · rw [← h1]
    congr 1
    funext xy
    simp only [prod, List.map_flatMap, List.map_map, Function.comp_def]
  · rw [← h3, asCoulomb_eq]

/-- double excitations of one spin do not depend on the orbitals of the other one -/
theorem colSum_AA_beta (hn : 2 ≤ H.norb) (hB : Blocks H.norb sd oa ob va vb) (hsd : sd < 2 ^ (2 * H.norb)) {xy : ℕ × ℕ}
    (h1 : xy.1 < xy.2) (h2 : xy.2 < H.norb) : colSum H f sd (excL sd (comb oa 2) (comb va 2)) 1 xy = 0 := by
  rw [colSum]
  apply List.sum_eq_zero
  intro t ht
  obtain ⟨m, hm, rfl⟩ := List.mem_map.1 ht
  obtain ⟨o, ho', v, hv', rfl⟩ := mem_excL.1 hm
  have hX := hB.excA 2 o ho' v hv'
  have lo := fun i hi => hB.loa i ((mem_comb.1 ho').1.subset hi)
  have lv := fun i hi => hB.lva i ((mem_comb.1 hv').1.subset hi)
  obtain ⟨a, b, ho⟩ := List.length_eq_two.1 (mem_comb.1 ho').2
  obtain ⟨c, d, hv⟩ := List.length_eq_two.1 (mem_comb.1 hv').2
  obtain ⟨hab, hcd, σ, hs⟩ := signTwo hX ho hv
  subst ho hv
  have la := lo a (by simp)
  have lb := lo b (by simp)
  have lc := lv c (by simp)
  have ld := lv d (by simp)
  rw [unrEntry_eq (fun P hP => unrDeriv_double H (by omega) hsd (by omega) (by omega) (by omega) (by omega) hX.diff hs P hP)
        (by simp) h1 h2]
  simp only [spatSpin, la, lb, lc, ld, if_true]
  rw [unrDerivTwo_aa1, signTimes_zero, scale_zero]

theorem colSum_BB_alpha (hn : 2 ≤ H.norb) (hB : Blocks H.norb sd oa ob va vb) (hsd : sd < 2 ^ (2 * H.norb)) {xy : ℕ × ℕ}
    (h1 : xy.1 < xy.2) (h2 : xy.2 < H.norb) :
    colSum H f sd (excL sd (comb (ob.map (· + H.norb)) 2) (comb (vb.map (· + H.norb)) 2)) 0 xy = 0 := by
  rw [colSum]
  apply List.sum_eq_zero
  intro t ht
  obtain ⟨m, hm, rfl⟩ := List.mem_map.1 ht
  obtain ⟨o, ho', v, hv', rfl⟩ := mem_excL.1 hm
  have hX := hB.excB 2 o ho' v hv'
  have lo := fun i hi => hB.lob' i ((mem_comb.1 ho').1.subset hi)
  have lv := fun i hi => hB.lvb' i ((mem_comb.1 hv').1.subset hi)
  obtain ⟨a, b, ho⟩ := List.length_eq_two.1 (mem_comb.1 ho').2
  obtain ⟨c, d, hv⟩ := List.length_eq_two.1 (mem_comb.1 hv').2
  obtain ⟨hab, hcd, σ, hs⟩ := signTwo hX ho hv
  subst ho hv
  have la := lo a (by simp)
  have lb := lo b (by simp)
  have lc := lv c (by simp)
  have ld := lv d (by simp)
  rw [unrEntry_eq (fun P hP => unrDeriv_double H (by omega) hsd (by omega) (by omega) (by omega) (by omega) hX.diff hs P hP)
        (by simp) h1 h2]
  simp only [spatSpin, show ¬ a < H.norb by omega, show ¬ b < H.norb by omega, show ¬ c < H.norb by omega,
    show ¬ d < H.norb by omega, if_false]
  rw [unrDerivTwo_bb0, signTimes_zero, scale_zero]

end two

/-! ### Columns of the output -/

/-- the pair of orbitals at a position of the triangle -/
def triuAt (n : ℕ) (i : ℤ) : ℕ × ℕ := (triuIndices n).getD i.toNat (0, 0)

theorem triuAt_spec {n : ℕ} {i : ℤ} (h0 : 0 ≤ i) (h1 : i < (n * (n - 1) / 2 : ℕ)) :
    (triuAt n i).1 < (triuAt n i).2 ∧ (triuAt n i).2 < n ∧ triuPos n (triuAt n i).1 (triuAt n i).2 = i ∧
      (triuIndices n)[i.toNat]? = some (triuAt n i) := by
  obtain ⟨x, y, hxy, hy, hp⟩ := C30_position_surjective (n := n) h0 (by
    push_cast at h1
    rcases Nat.eq_zero_or_pos n with rfl | hn
    · simpa using h1
    · rw [Nat.cast_sub hn] at h1; exact_mod_cast h1)
  have hmem : (x, y) ∈ triuIndices n := mem_triuIndices.2 ⟨hxy, hy⟩
  have hi : i.toNat = (triuIndices n).idxOf (x, y) := by
    have := C57_triu_position hxy hy
    omega
  have hg : (triuIndices n)[i.toNat]? = some (x, y) := by rw [hi, List.getElem?_idxOf hmem]
  have ht : triuAt n i = (x, y) := by rw [triuAt, List.getD_eq_getElem?_getD, hg]; rfl
  rw [ht]
  exact ⟨hxy, hy, hp, hg⟩

theorem takeCols_at {α : Type} (n : ℕ) (c : ℕ × ℕ → α) (cols : List ℤ) (h : ∀ i ∈ cols, 0 ≤ i ∧ i < (n * (n - 1) / 2 : ℕ)) :
    takeCols ((triuIndices n).map c) cols = .ok (cols.map fun i => c (triuAt n i)) := by
  rw [takeCols]
  apply mapM_eq_ok
  intro i hi
  rw [List.getElem?_map, (triuAt_spec (h i hi).1 (h i hi).2).2.2.2]
  rfl

theorem foldl_set {M : Type} (v : ℤ → M) (len : ℕ) : ∀ (cols : List ℤ) (F : ℕ → M), (∀ i ∈ cols, 0 ≤ i ∧ i < len) →
    (cols.map fun i => (i, v i)).foldl (fun out p => out.set p.1.toNat p.2) ((List.range len).map F) =
      (List.range len).map fun (k : ℕ) => if (k : ℤ) ∈ cols then v k else F k := by
  intro cols
  induction cols with
  | nil => simp
  | cons i is ih =>
    intro F h
    obtain ⟨h0, h1⟩ := h i (by simp)
    have e : ((List.range len).map F).set i.toNat (v i) =
        (List.range len).map fun (k : ℕ) => if (k : ℤ) = i then v k else F k := by
      apply List.ext_getElem (by simp)
      intro k hk1 hk2
      rw [List.getElem_set]
      simp only [List.getElem_map, List.getElem_range]
      by_cases hk : i.toNat = k
      · rw [if_pos hk, if_pos (by omega), show (k : ℤ) = i by omega]
      · rw [if_neg hk, if_neg (by omega)]
    rw [List.map_cons, List.foldl_cons, e, ih _ (fun j hj => h j (by simp [hj]))]
    apply List.map_congr_left
    intro k _
    by_cases hk : (k : ℤ) = i
    · simp [hk]
    · by_cases hk' : (k : ℤ) ∈ is <;> simp [hk, hk']

/-- `output[:, cols] += values`, the value depending on the column -/
theorem addCols_table {M : Type} [Add M] (v : ℤ → M) (len : ℕ) (cols : List ℤ) (F : ℕ → M) (h : ∀ i ∈ cols, 0 ≤ i ∧ i < len) :
    addCols ((List.range len).map F) cols (cols.map v) =
      .ok ((List.range len).map fun (k : ℕ) => if (k : ℤ) ∈ cols then F k + v k else F k) := by
  have h1 : takeCols ((List.range len).map F) cols = .ok (cols.map fun i => F i.toNat) := by
    rw [takeCols]
    apply mapM_eq_ok
    intro i hi
    obtain ⟨h0, h1⟩ := h i hi
    rw [List.getElem?_map, List.getElem?_range (by omega)]
    rfl
  rw [addCols, h1]
  simp only [bind, Except.bind, pure, Except.pure]
  congr 1
  rw [List.zipWith_map, List.zipWith_self, ← List.map_id cols, List.map_map, List.zip_map', ]
  have := foldl_set (fun i => F i.toNat + v i) len cols F h
  simp only [List.map_id, Function.comp_def, id] at this ⊢
  rw [this]
  apply List.map_congr_left
  intro k _
  simp

theorem mapM_indexError {α β : Type} (g : α → Except PyErr β) : ∀ (l : List α), (∀ x ∈ l, (∃ b, g x = .ok b) ∨ g x = .error .indexError) →
    (∃ x ∈ l, g x = .error .indexError) → l.mapM g = .error .indexError := by
  intro l
  induction l with
  | nil => rintro - ⟨x, hx, -⟩; cases hx
  | cons a as ih =>
    rintro h ⟨x, hx, hx'⟩
    rw [List.mapM_cons]
    rcases h a (by simp) with ⟨b, hb⟩ | hb
    · rw [hb]
      rcases List.mem_cons.1 hx with rfl | hx
      · rw [hb] at hx'; cases hx'
      · rw [show ∀ k : β → Except PyErr (List β), (Except.ok b >>= k) = k b from fun _ => rfl,
          ih (fun y hy => h y (by simp [hy])) ⟨x, hx, hx'⟩]
        rfl
    · rw [hb]; rfl

theorem addCols_error {M : Type} [Add M] (values output : List M) (cols : List ℤ) (i : ℤ) (hi : i ∈ cols)
    (h : (output.length : ℤ) ≤ i) : addCols output cols values = .error .indexError := by
  have : takeCols output cols = .error .indexError := by
    rw [takeCols]
    apply mapM_indexError
    · intro j hj
      cases hj' : output[j.toNat]? <;> simp
    · refine ⟨i, hi, ?_⟩
      rw [List.getElem?_eq_none (by omega)]
  rw [addCols, this]
  rfl

end Fanpy.Lemmas
