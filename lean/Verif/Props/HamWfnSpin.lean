import Verif.Lemmas.UnrCore
import Verif.Lemmas.SenZero
import Verif.Props.SpinHam
import Verif.Props.SeniorityHam

/-!
# C27 and C28: integrals of a determinant with a wavefunction (unrestricted, restricted and seniority-zero Hamiltonians)
-/

namespace Fanpy.Props
open Finset Fanpy.Spec Fanpy.Slater Fanpy.Ham Fanpy.Lemmas Fanpy.It

variable {R : Type} [CommRing R]

theorem bulk_spin {sd n : ℕ} {oa ob va vb : List ℕ} (hB : Blocks n sd oa ob va vb) (hsd : sd < 2 ^ (2 * n))
    (h63 : 2 * n ≤ 63) :
    (∀ k, exciteBulk sd oa va k = .ok ((excL sd (comb oa k) (comb va k)).map (fun (x : ℕ) => (x : ℤ)))) ∧
    (∀ k, exciteBulk sd (ob.map (· + n)) (vb.map (· + n)) k =
      .ok ((excL sd (comb (ob.map (· + n)) k) (comb (vb.map (· + n)) k)).map (fun (x : ℕ) => (x : ℤ)))) ∧
    exciteBulkTwoAb sd oa (ob.map (· + n)) va (vb.map (· + n)) =
      .ok ((excL sd (pairsAB oa (ob.map (· + n))) (pairsAB va (vb.map (· + n)))).map (fun (x : ℕ) => (x : ℤ))) := by
  have hs : sd < 2 ^ 63 := lt_of_lt_of_le hsd (Nat.pow_le_pow_right (by norm_num) h63)
  have h1 : ∀ i ∈ va, i < 63 := fun i hi => by have := hB.lva i hi; omega
  have h2 : ∀ i ∈ vb.map (· + n), i < 63 := fun i hi => by have := hB.lvb' i hi; omega
  exact ⟨fun k => exciteBulk_eq hB.soa hB.sva hB.occA hB.virA k hs h1,
    fun k => exciteBulk_eq (sorted_shift hB.sob n) (sorted_shift hB.svb n) hB.occB hB.virB k hs h2,
    exciteBulkTwoAb_eq hB.occA hB.occB hB.virA hB.virB
      (fun a ha b hb => hB.ltAB a (List.mem_append_left _ ha) b (List.mem_append_left _ hb))
      (fun a ha b hb => hB.ltAB a (List.mem_append_right _ ha) b (List.mem_append_right _ hb)) hs h1 h2⟩

/-- C28, unrestricted orbitals. `oa`, `ob` (`va`, `vb`) are the occupied (virtual) spatial orbitals of each spin of `sd`.
The arrays for single excitations of either spin and for the three kinds of double excitations contain, position by
position, the decomposed matrix elements of `sd` with the determinants `excite_bulk` and `excite_bulk_two_ab` produce (the
double excitations have no one-electron part, those of opposite spins no exchange part, and the arrays leave these out). -/
theorem C28_unrestricted_partial (H : UnrHam R) (hn : 0 < H.norb) (h63 : 2 * H.norb ≤ 63) (sd : ℕ) (hsd : sd < 2 ^ (2 * H.norb)) :
    let oa := occIndices (some (sd % 2 ^ H.norb))
    let ob := occIndices (some (sd / 2 ^ H.norb))
    let va := virIndices (some (sd % 2 ^ H.norb)) H.norb
    let vb := virIndices (some (sd / 2 ^ H.norb)) H.norb
    let ob' := ob.map (· + H.norb)
    let vb' := vb.map (· + H.norb)
    (∃ (dets : List ℕ) (L : List (R × R × R)), exciteBulk sd oa va 1 = .ok (dets.map (fun (x : ℕ) => (x : ℤ))) ∧
      unrSdsOneA H oa ob va = .ok L ∧ L.map Except.ok = dets.map (unrDecomposed H sd)) ∧
    (∃ (dets : List ℕ) (L : List (R × R × R)), exciteBulk sd ob' vb' 1 = .ok (dets.map (fun (x : ℕ) => (x : ℤ))) ∧
      unrSdsOneB H oa ob vb = .ok L ∧ L.map Except.ok = dets.map (unrDecomposed H sd)) ∧
    (oa.length > 1 → va.length > 1 → ∃ (dets : List ℕ) (L : List (R × R)),
      exciteBulk sd oa va 2 = .ok (dets.map (fun (x : ℕ) => (x : ℤ))) ∧
      unrSdsTwoAA H oa va = .ok L ∧ L.map (fun t => Except.ok ((0 : R), t.1, t.2)) = dets.map (unrDecomposed H sd)) ∧
    (ob.length > 1 → vb.length > 1 → ∃ (dets : List ℕ) (L : List (R × R)),
      exciteBulk sd ob' vb' 2 = .ok (dets.map (fun (x : ℕ) => (x : ℤ))) ∧
      unrSdsTwoBB H ob vb = .ok L ∧ L.map (fun t => Except.ok ((0 : R), t.1, t.2)) = dets.map (unrDecomposed H sd)) ∧
    (oa.length > 0 → ob.length > 0 → va.length > 0 → vb.length > 0 → ∃ (dets : List ℕ) (L : List R),
      exciteBulkTwoAb sd oa ob' va vb' = .ok (dets.map (fun (x : ℕ) => (x : ℤ))) ∧
      unrSdsTwoAB H oa ob va vb = .ok L ∧ L.map (fun t => Except.ok ((0 : R), t, (0 : R))) = dets.map (unrDecomposed H sd)) := by
  intro oa ob va vb ob' vb'
  have hB : Blocks H.norb sd oa ob va vb := blocks H.norb sd hsd
  obtain ⟨b1, b2, b3⟩ := bulk_spin hB hsd h63
  obtain ⟨LA, hA⟩ := unr_arrOneA H hn hB
  obtain ⟨LB, hB'⟩ := unr_arrOneB H hn hB
  refine ⟨⟨_, LA, b1 1, hA⟩, ⟨_, LB, b2 1, hB'⟩, fun h1 h2 => ?_, fun h1 h2 => ?_, fun h1 h2 h3 h4 => ?_⟩
  · obtain ⟨L, h⟩ := unr_arrTwoAA H hn hB h1 h2
    exact ⟨_, L, b1 2, h⟩
  · obtain ⟨L, h⟩ := unr_arrTwoBB H hn hB h1 h2
    exact ⟨_, L, b2 2, h⟩
  · obtain ⟨L, h⟩ := unr_arrTwoAB H hn hB h1 h2 h3 h4
    exact ⟨_, L, b3, h⟩

/-- C27, unrestricted orbitals. With at most 63 spin orbitals `integrate_sd_wfn` is the sum over all determinants `m` of the
overlap with `m` times the decomposed matrix element of `sd` and `m`. -/
theorem C27_unrestricted (H : UnrHam R) (hn : 0 < H.norb) (h63 : 2 * H.norb ≤ 63) (f : ℤ → R) (sd : ℕ)
    (hsd : sd < 2 ^ (2 * H.norb)) :
    ∃ D : ℕ → R × R × R, (∀ m < 2 ^ (2 * H.norb), unrDecomposed H sd m = .ok (D m)) ∧
      unrSdWfn H f sd = .ok (∑ m ∈ range (2 ^ (2 * H.norb)), scale (f m) (D m)) := by
  have hB := blocks H.norb sd hsd
  obtain ⟨b1, b2, b3⟩ := bulk_spin hB hsd h63
  obtain ⟨D, hD, -, hsum⟩ := spinCore_eq H f hn hB hsd
  refine ⟨D, hD, ?_⟩
  rw [← hsum]
  simp only [unrSdWfn, spinCore, occ_filter_alpha, occ_filter_beta, vir_filter_alpha, vir_filter_beta, map_add_sub, b1, b2, b3,
    bind, Except.bind, ovl]

/-- three electrons in three spatial orbitals: 9 determinants contribute besides the diagonal -/
example : unrSdWfn (UnrHam.ofInts 3 (fun i j => (i + 3 * j : ℤ)) (fun i j => i * j + 1)
    (fun i j k l => (i * k + 1) * (j * l + 1)) (fun i j k l => 2 * i + j + 3 * k + l) (fun i j k l => i + j + k * l))
    (fun z => z + 1) 0b010101 = .ok (517, 2414, -111) := by decide +kernel

/-- the arrays of the restricted Hamiltonian are those of the unrestricted one with equal blocks -/
theorem res_arrays (n : ℕ) (h : ℕ → ℕ → R) (g : ℕ → ℕ → ℕ → ℕ → R) (oa ob va vb : List ℕ) :
    let H := GenHam.ofInts n h g
    let U := UnrHam.ofInts n h h g g g
    resSdsZero H oa ob = unrSdsZero U oa ob ∧ resSdsOneA H oa ob va = unrSdsOneA U oa ob va ∧
      resSdsOneB H oa ob vb = unrSdsOneB U oa ob vb ∧ resSdsTwoSame H oa va = unrSdsTwoAA U oa va ∧
      resSdsTwoSame H ob vb = unrSdsTwoBB U ob vb ∧ resSdsTwoAB H oa ob va vb = unrSdsTwoAB U oa ob va vb :=
  ⟨rfl, rfl, rfl, rfl, rfl, rfl⟩

/-- C28, restricted orbitals: as `C28_unrestricted_partial`. -/
theorem C28_restricted_partial (n : ℕ) (hn : 0 < n) (h63 : 2 * n ≤ 63) (h : ℕ → ℕ → R) (g : ℕ → ℕ → ℕ → ℕ → R)
    (hg : ∀ i j k l, g i j k l = g j i l k) (sd : ℕ) (hsd : sd < 2 ^ (2 * n)) :
    let H := GenHam.ofInts n h g
    let oa := occIndices (some (sd % 2 ^ n))
    let ob := occIndices (some (sd / 2 ^ n))
    let va := virIndices (some (sd % 2 ^ n)) n
    let vb := virIndices (some (sd / 2 ^ n)) n
    let ob' := ob.map (· + n)
    let vb' := vb.map (· + n)
    (∃ (dets : List ℕ) (L : List (R × R × R)), exciteBulk sd oa va 1 = .ok (dets.map (fun (x : ℕ) => (x : ℤ))) ∧
      resSdsOneA H oa ob va = .ok L ∧ L.map Except.ok = dets.map (resDecomposed H sd)) ∧
    (∃ (dets : List ℕ) (L : List (R × R × R)), exciteBulk sd ob' vb' 1 = .ok (dets.map (fun (x : ℕ) => (x : ℤ))) ∧
      resSdsOneB H oa ob vb = .ok L ∧ L.map Except.ok = dets.map (resDecomposed H sd)) ∧
    (oa.length > 1 → va.length > 1 → ∃ (dets : List ℕ) (L : List (R × R)),
      exciteBulk sd oa va 2 = .ok (dets.map (fun (x : ℕ) => (x : ℤ))) ∧
      resSdsTwoSame H oa va = .ok L ∧ L.map (fun t => Except.ok ((0 : R), t.1, t.2)) = dets.map (resDecomposed H sd)) ∧
    (ob.length > 1 → vb.length > 1 → ∃ (dets : List ℕ) (L : List (R × R)),
      exciteBulk sd ob' vb' 2 = .ok (dets.map (fun (x : ℕ) => (x : ℤ))) ∧
      resSdsTwoSame H ob vb = .ok L ∧ L.map (fun t => Except.ok ((0 : R), t.1, t.2)) = dets.map (resDecomposed H sd)) ∧
    (oa.length > 0 → ob.length > 0 → va.length > 0 → vb.length > 0 → ∃ (dets : List ℕ) (L : List R),
      exciteBulkTwoAb sd oa ob' va vb' = .ok (dets.map (fun (x : ℕ) => (x : ℤ))) ∧
      resSdsTwoAB H oa ob va vb = .ok L ∧ L.map (fun t => Except.ok ((0 : R), t, (0 : R))) = dets.map (resDecomposed H sd)) := by
  have hU := C28_unrestricted_partial (UnrHam.ofInts n h h g g g) hn h63 sd hsd
  have e : resDecomposed (GenHam.ofInts n h g) sd = unrDecomposed (UnrHam.ofInts n h h g g g) sd :=
    funext fun m => C24_restricted_partial n h g hg sd m
  rw [← e] at hU
  exact hU

theorem mapM_ok {α β γ : Type} (g : β → Except PyErr γ) (e : α → β) (h : α → γ) (l : List α)
    (H : ∀ x ∈ l, g (e x) = .ok (h x)) : (l.map e).mapM g = .ok (l.map h) := by
  induction l with
  | nil => rfl
  | cons x xs ih =>
    rw [List.map_cons, List.mapM_cons, H x (by simp), ih fun y hy => H y (by simp [hy])]
    rfl

omit [CommRing R] in
/-- the overlaps computed with `slater.excite` -/
theorem resOverlaps_excite {n : ℕ} (hn : ¬ n ≤ 64) (f : ℤ → R) (sd : ℕ) (bulk : Except PyErr (List ℤ)) {os vs : List (List ℕ)}
    (h : ∀ o ∈ os, ∀ v ∈ vs, Exc sd o v) :
    resOverlaps n f sd bulk (os.flatMap fun o => vs.map fun v => o ++ v) = .ok (ovl f (excL sd os vs)) := by
  have e1 : (os.flatMap fun o => vs.map fun v => o ++ v) = (prod os vs).map fun p => p.1 ++ p.2 := by
    simp only [prod, List.map_flatMap, List.map_map, Function.comp_def]
  have e2 : ovl f (excL sd os vs) = (prod os vs).map fun p => f (exc sd p.1 p.2 : ℕ) := by
    simp only [ovl, excL, prod, List.map_flatMap, List.map_map, Function.comp_def]
  rw [resOverlaps, if_neg hn, e1, e2]
  apply mapM_ok
  rintro ⟨o, v⟩ hp
  have hp' : o ∈ os ∧ v ∈ vs := by simpa [prod] using hp
  simp only [(h o hp'.1 v hp'.2).excite, bind, Except.bind, pure, Except.pure]

omit [CommRing R] in
/-- the overlaps computed with 64-bit words -/
theorem resOverlaps_bulk {n : ℕ} (hn : n ≤ 64) (f : ℤ → R) (sd : ℕ) (l : List ℕ) (excs : List (List ℕ)) :
    resOverlaps n f sd (.ok (l.map (fun (x : ℕ) => (x : ℤ)))) excs = .ok (ovl f l) := by
  rw [resOverlaps, if_pos hn]; rfl

/-- C27, restricted orbitals. `integrate_sd_wfn` is the sum over all determinants `m` of the overlap with `m` times the
decomposed matrix element of `sd` and `m`, for all numbers of spatial orbitals except 32. What is missing for the full
statement is false: see `C27_word_64`. -/
theorem C27_restricted_partial (n : ℕ) (hn : 0 < n) (h32 : n ≠ 32) (h : ℕ → ℕ → R) (g : ℕ → ℕ → ℕ → ℕ → R)
    (hg : ∀ i j k l, g i j k l = g j i l k) (f : ℤ → R) (sd : ℕ) (hsd : sd < 2 ^ (2 * n)) :
    ∃ D : ℕ → R × R × R, (∀ m < 2 ^ (2 * n), resDecomposed (GenHam.ofInts n h g) sd m = .ok (D m)) ∧
      resSdWfn (GenHam.ofInts n h g) f sd = .ok (∑ m ∈ range (2 ^ (2 * n)), scale (f m) (D m)) := by
  have hB := blocks n sd hsd
  have hnorb : (GenHam.ofInts n h g).norb = n := rfl
  have hnorb' : (UnrHam.ofInts n h h g g g).norb = n := rfl
  obtain ⟨D, hD, -, hsum⟩ := spinCore_eq (UnrHam.ofInts n h h g g g) f hn hB hsd
  refine ⟨D, fun m hm => by rw [C24_restricted_partial n h g hg]; exact hD m hm, ?_⟩
  rw [hnorb'] at hsum
  rw [← hsum]
  obtain ⟨r1, r2, r3, r4, r5, r6⟩ := res_arrays n h g (occIndices (some (sd % 2 ^ n))) (occIndices (some (sd / 2 ^ n)))
    (virIndices (some (sd % 2 ^ n)) n) (virIndices (some (sd / 2 ^ n)) n)
  simp only [resSdWfn, spinCore, hnorb, hnorb', occ_filter_alpha, occ_filter_beta, vir_filter_alpha, vir_filter_beta,
    map_add_sub, r1, r2, r3, r4, r5, r6]
  generalize occIndices (some (sd % 2 ^ n)) = oa at *
  generalize occIndices (some (sd / 2 ^ n)) = ob at *
  generalize virIndices (some (sd % 2 ^ n)) n = va at *
  generalize virIndices (some (sd / 2 ^ n)) n = vb at *
  have oA : ∀ k, resOverlaps (2 * n) f sd (exciteBulk sd oa va k)
      ((comb oa k).flatMap fun o => (comb va k).map fun v => o ++ v) = .ok (ovl f (excL sd (comb oa k) (comb va k))) := by
    intro k
    by_cases h64 : 2 * n ≤ 64
    · rw [(bulk_spin hB hsd (by omega)).1, resOverlaps_bulk h64]
    · exact resOverlaps_excite h64 f sd _ (hB.excA k)
  have oB : ∀ k, resOverlaps (2 * n) f sd (exciteBulk sd (ob.map (· + n)) (vb.map (· + n)) k)
      ((comb (ob.map (· + n)) k).flatMap fun o => (comb (vb.map (· + n)) k).map fun v => o ++ v) =
        .ok (ovl f (excL sd (comb (ob.map (· + n)) k) (comb (vb.map (· + n)) k))) := by
    intro k
    by_cases h64 : 2 * n ≤ 64
    · rw [(bulk_spin hB hsd (by omega)).2.1, resOverlaps_bulk h64]
    · exact resOverlaps_excite h64 f sd _ (hB.excB k)
  have oAB : resOverlaps (2 * n) f sd (exciteBulkTwoAb sd oa (ob.map (· + n)) va (vb.map (· + n)))
      ((prod oa (ob.map (· + n))).flatMap fun o => (prod va (vb.map (· + n))).map fun v => [o.1, o.2, v.1, v.2]) =
        .ok (ovl f (excL sd (pairsAB oa (ob.map (· + n))) (pairsAB va (vb.map (· + n))))) := by
    by_cases h64 : 2 * n ≤ 64
    · rw [(bulk_spin hB hsd (by omega)).2.2, resOverlaps_bulk h64]
    · have e : ((prod oa (ob.map (· + n))).flatMap fun o => (prod va (vb.map (· + n))).map fun v => [o.1, o.2, v.1, v.2]) =
          (pairsAB oa (ob.map (· + n))).flatMap fun o => (pairsAB va (vb.map (· + n))).map fun v => o ++ v := by
        simp only [pairsAB, List.flatMap_map, List.map_map, Function.comp_def, List.cons_append, List.nil_append]
      rw [e]
      exact resOverlaps_excite h64 f sd _ hB.excAB
  simp only [oA, oB, oAB, bind, Except.bind]

example : resSdWfn (GenHam.ofInts 3 (fun i j => (i + 3 * j : ℤ)) (fun i j k l => (i * k + 1) * (j * l + 1)))
    (fun z => z + 1) 0b010101 = .ok (713, 1975, -111) := by decide +kernel

/-- C27 fails with 64 spin orbitals: `nspin <= 64` selects signed 64-bit words, in which the determinants with the last
orbital occupied are negative. The overlap function here is zero on all determinants and one on the negative numbers; the
restricted Hamiltonian, and likewise the unrestricted and the generalized one, returns a value that is not zero. -/
theorem C27_word_64 :
    let f : ℤ → ℤ := fun z => if z < 0 then 1 else 0
    (∀ m : ℕ, f m = 0) ∧
      resSdWfn (GenHam.ofInts 32 (fun _ _ => (1 : ℤ)) (fun _ _ _ _ => 0)) f (2 ^ 32) = .ok (1, 0, 0) ∧
      unrSdWfn (UnrHam.ofInts 32 (fun _ _ => (1 : ℤ)) (fun _ _ => 1) (fun _ _ _ _ => 0) (fun _ _ _ _ => 0)
        (fun _ _ _ _ => 0)) f (2 ^ 32) = .ok (1, 0, 0) ∧
      genSdWfn (GenHam.ofInts 64 (fun _ _ => (1 : ℤ)) (fun _ _ _ _ => 0)) f 1 = .ok (1, 0, 0) := by
  refine ⟨fun m => ?_, ?_, ?_, ?_⟩
  · exact if_neg (by omega)
  all_goals decide +kernel

end Fanpy.Props
