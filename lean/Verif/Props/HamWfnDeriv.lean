import Verif.Lemmas.HamWfnDeriv

/-!
# C87: `integrate_sd_wfn` with `ham_deriv` (generalized orbitals)

The vectorised derivative of `⟨sd|H|Ψ⟩` with respect to the orbital rotations is the sum over all determinants of the overlap
times the derivative of the matrix element that `integrate_sd_sd_decomposed(sd, m, deriv)` returns (C31), and it is the
derivative of `integrate_sd_wfn` of the rotated Hamiltonian.
-/

namespace Fanpy.Props
open Finset Fanpy.Spec Fanpy.Slater Fanpy.Ham Fanpy.Lemmas Fanpy.It

section
variable {R : Type} [CommRing R]

theorem gen_derivTable (H : GenHam R) {sd : ℕ} (hsd : sd < 2 ^ H.norb) {m : ℕ} (hm : m < 2 ^ H.norb) :
    ∃ T : ℕ × ℕ → R × R × R,
      (∀ P : List (ℕ × ℕ), (∀ p ∈ P, p.1 < p.2 ∧ p.2 < H.norb) →
        genDeriv H sd m (P.map fun p => triuPos H.norb p.1 p.2) = .ok (P.map T)) ∧
      (¬ ((diffOrbs sd m).1.length = (diffOrbs sd m).2.length ∧ (diffOrbs sd m).1.length ≤ 2) → T = 0) := by
  have h1' := lt_two_pow_iff.1 hsd
  have h2' := lt_two_pow_iff.1 hm
  rcases sdPair_cases sd m with ⟨hl, hc⟩ | ⟨hl, hl2, hc⟩ | ⟨rfl, hd, hs⟩ |
    ⟨a, b, u, hd, hu, ha, hb, hab, e1, e2, hs⟩ |
    ⟨a, b, c, d, u, hd, hu, ha, hb, hc, hdu, hab, hcd, hac, had, hbc, hbd, e1, e2, hs⟩
  · exact ⟨_, fun P _ => genDeriv_far H (fun h => hl h.1) P, fun _ => rfl⟩
  · exact ⟨_, fun P _ => genDeriv_far H (fun h => by omega) P, fun _ => rfl⟩
  · exact ⟨_, fun P hP => genDeriv_same H hsd P hP, fun h => absurd (by rw [hd]; simp) h⟩
  · exact ⟨_, fun P hP => genDeriv_single H hsd (h1' a (by rw [e1]; simp)) (h2' b (by rw [e2]; simp)) hd hs P hP,
      fun h => absurd (by rw [hd]; simp) h⟩
  · exact ⟨_, fun P hP => genDeriv_double H hsd (h1' a (by rw [e1]; simp)) (h1' b (by rw [e1]; simp))
      (h2' c (by rw [e2]; simp)) (h2' d (by rw [e2]; simp)) hd hs P hP, fun h => absurd (by rw [hd]; simp) h⟩

/-- the derivative of the matrix element of `sd` and `m` with respect to the rotation of the orbitals `p` -/
def derivEntry (H : GenHam R) (sd m : ℕ) (p : ℕ × ℕ) : R × R × R :=
  match genDeriv H sd m [triuPos H.norb p.1 p.2] with
  | .ok [t] => t
  | _ => 0

theorem derivEntry_eq {H : GenHam R} {sd m : ℕ} {T : ℕ × ℕ → R × R × R}
    (h : ∀ P : List (ℕ × ℕ), (∀ p ∈ P, p.1 < p.2 ∧ p.2 < H.norb) →
        genDeriv H sd m (P.map fun p => triuPos H.norb p.1 p.2) = .ok (P.map T)) {p : ℕ × ℕ} (h1 : p.1 < p.2)
    (h2 : p.2 < H.norb) : derivEntry H sd m p = T p := by
  have := h [p] (by simpa using ⟨h1, h2⟩)
  simp only [List.map_cons, List.map_nil] at this
  rw [derivEntry, this]

theorem derivArray_eq {n : ℕ} (hn : 2 ≤ n) {γ : Type} (pairs : List γ) (signs : List ℤ) (g : γ → Except PyErr ℤ)
    (val : γ → ℕ × ℕ → R × R × R) (e : γ → ℕ) (D : ℕ → ℕ × ℕ → R × R × R)
    (h : signs.map (Except.ok (ε := PyErr)) = pairs.map g)
    (he : ∀ p ∈ pairs, ∃ s, g p = .ok s ∧ ∀ xy : ℕ × ℕ, xy.1 < xy.2 → xy.2 < n → D (e p) xy = signTimes s (val p xy)) :
    derivArray n signs (fun xy => pairs.map fun p => val p xy) =
      .ok ((triuIndices n).map fun xy => (pairs.map e).map fun m => D m xy) := by
  rw [derivArray, if_neg (by rw [triuIndices_eq_nil]; omega)]
  apply mapM_eq_ok
  rintro ⟨x, y⟩ hxy
  rw [mem_triuIndices] at hxy
  obtain ⟨L, e1, e2⟩ := array_eq (signTimes (R := R)) pairs signs g (fun p => val p (x, y)) e
    (fun m => .ok (D m (x, y))) h (by
      intro p hp
      obtain ⟨s, h1, h2⟩ := he p hp
      exact ⟨s, h1, by rw [h2 (x, y) hxy.1 hxy.2]⟩)
  rw [e1]
  congr 1
  have e3 : ((pairs.map e).map fun m => D m (x, y)).map (Except.ok (ε := PyErr)) =
      (pairs.map e).map fun m => Except.ok (D m (x, y)) := by rw [List.map_map]; rfl
  rw [← e3] at e2
  exact List.map_injective_iff.2 (fun a b h => by simpa using h) e2

/-- C87, arrays. Row by row of the parameters, `_integrate_sd_sds_deriv_zero`, `_one` and `_two` contain the derivatives that
`integrate_sd_sd_decomposed(sd, m, deriv)` returns for the determinants `m` of the excitations, in the order in which
`excite` produces them; with fewer than two occupied or two virtual orbitals `_two` raises `IndexError`. -/
theorem C87_arrays (H : GenHam R) (hn : 2 ≤ H.norb) (sd : ℕ) (hsd : sd < 2 ^ H.norb) :
    ∃ (dets1 dets2 : List ℕ) (D : ℕ → ℕ × ℕ → R × R × R),
      dets1.map (fun x => Except.ok (some x)) = (occIndices (some sd)).flatMap (fun i =>
        (virIndices (some sd) H.norb).map fun a => excite (some sd) [i, a]) ∧
      dets2.map (fun x => Except.ok (some x)) = (comb (occIndices (some sd)) 2).flatMap (fun o =>
        (comb (virIndices (some sd) H.norb) 2).map fun v => excite (some sd) (o ++ v)) ∧
      (∀ m < 2 ^ H.norb, ∀ P : List (ℕ × ℕ), (∀ p ∈ P, p.1 < p.2 ∧ p.2 < H.norb) →
        genDeriv H sd m (P.map fun p => triuPos H.norb p.1 p.2) = .ok (P.map (D m))) ∧
      genSdsDerivZero H (occIndices (some sd)) (virIndices (some sd) H.norb) = .ok ((triuIndices H.norb).map (D sd)) ∧
      genSdsDerivOne H (occIndices (some sd)) (virIndices (some sd) H.norb) =
        .ok ((triuIndices H.norb).map fun xy => dets1.map fun m => D m xy) ∧
      (if (occIndices (some sd)).length > 1 ∧ (virIndices (some sd) H.norb).length > 1 then
        genSdsDerivTwo H (occIndices (some sd)) (virIndices (some sd) H.norb) =
          .ok ((triuIndices H.norb).map fun xy => dets2.map fun m => D m xy)
      else genSdsDerivTwo H (occIndices (some sd)) (virIndices (some sd) H.norb) = .error .indexError ∧ dets2 = []) := by
  have so := sorted_occIndices sd
  have sv := sorted_virIndices sd H.norb
  have ho : ∀ i ∈ occIndices (some sd), sd.testBit i = true := fun i hi => mem_occIndices.1 hi
  have hv : ∀ i ∈ virIndices (some sd) H.norb, sd.testBit i = false := fun i hi => (mem_virIndices.1 hi).2
  have hlo : ∀ i ∈ occIndices (some sd), i < H.norb := fun i hi =>
    lt_two_pow_iff.1 hsd i (mem_occSet.2 (ho i hi))
  have hlv : ∀ i ∈ virIndices (some sd) H.norb, i < H.norb := fun i hi => by
    have := (mem_virIndices.1 hi).1; omega
  have hE := fun k => exc_comb so sv ho hv k
  have hout : OthersOutside sd (occIndices (some sd)) (virIndices (some sd) H.norb) := fun k hk hk' =>
    absurd (mem_occIndices.2 hk) hk'
  have hS1 := C11_sign_excite_one sd _ _ so sv ho hv hout
  have hS2 := C11_sign_excite_two sd _ _ so sv ho hv hout
  have hguard := guardIdx_ok (n := H.norb) (l := occIndices (some sd) ++ virIndices (some sd) H.norb) (by
    intro i hi
    rcases List.mem_append.1 hi with h | h
    · exact hlo i h
    · exact hlv i h)
  have hzero : ∀ xy : ℕ × ℕ, xy.1 < xy.2 → xy.2 < H.norb → derivEntry H sd sd xy =
      genDerivEntryZero H (occIndices (some sd)) (virIndices (some sd) H.norb) xy.1 xy.2 := by
    intro xy h1 h2
    rw [derivEntry_eq (fun P hP => genDeriv_same H hsd P hP) h1 h2, genDerivEntryZero_eq H (by omega) h2]
    simp [signTimes]
  refine ⟨excL sd (comb (occIndices (some sd)) 1) (comb (virIndices (some sd) H.norb) 1),
    excL sd (comb (occIndices (some sd)) 2) (comb (virIndices (some sd) H.norb) 2), derivEntry H sd, ?_, excL_excite (hE 2),
    ?_, ?_, ?_, ?_⟩
  · rw [excL_excite (hE 1), comb_one, comb_one, List.flatMap_map]
    simp only [List.map_map, Function.comp_def, List.cons_append, List.nil_append]
  · intro m hm P hP
    obtain ⟨T, hT, -⟩ := gen_derivTable H hsd hm
    rw [hT P hP]
    congr 1
    apply List.map_congr_left
    intro p hp
    exact (derivEntry_eq hT (hP p hp).1 (hP p hp).2).symm
  · simp only [genSdsDerivZero, hguard, bind, Except.bind, pure, Except.pure]
    congr 1
    apply List.map_congr_left
    rintro ⟨x, y⟩ hxy
    rw [mem_triuIndices] at hxy
    exact (hzero (x, y) hxy.1 hxy.2).symm
  · simp only [genSdsDerivOne, hguard, bind, Except.bind, sharedIndicesRemoveOne_zip (nodup_occIndices sd)]
    let pairs : List (ℕ × ℕ) := prod (occIndices (some sd)) (virIndices (some sd) H.norb)
    let val : ℕ × ℕ → ℕ × ℕ → R × R × R := fun p xy => genDerivEntryOne H p.1 p.2
      ((occIndices (some sd)).filter (fun j => decide (j ≠ p.1))) xy.1 xy.2
    have hS' : (signExciteOne (occIndices (some sd)) (virIndices (some sd) H.norb)).map (Except.ok (ε := PyErr)) =
        pairs.map fun p => signExcite (some sd) [p.1] [p.2] := by
      rw [hS1]; simp only [pairs, prod, List.map_flatMap, List.map_map, Function.comp_def]
    have hdets : excL sd (comb (occIndices (some sd)) 1) (comb (virIndices (some sd) H.norb) 1) =
        pairs.map fun p => exc sd [p.1] [p.2] := by
      simp only [pairs, prod, excL, comb_one, List.flatMap_map, List.map_flatMap, List.map_map, Function.comp_def]
    have := derivArray_eq hn pairs _ _ val (fun p => exc sd [p.1] [p.2]) (derivEntry H sd) hS' (by
      rintro ⟨i, a⟩ hp
      have hp' : i ∈ occIndices (some sd) ∧ a ∈ virIndices (some sd) H.norb := by
        simpa [pairs, prod] using hp
      have hX := hE 1 [i] (by rw [comb_one]; simp [hp'.1]) [a] (by rw [comb_one]; simp [hp'.2])
      have hs := signExcite_one_one (ho i hp'.1) (hv a hp'.2)
      refine ⟨_, hs, fun xy h1 h2 => ?_⟩
      rw [derivEntry_eq (fun P hP => genDeriv_single H hsd (hlo i hp'.1) (hlv a hp'.2) hX.diff hs P hP) h1 h2, hX.shared]
      simp only [val, List.mem_singleton]
      rw [genDerivEntryOne_eq H]
      · rintro rfl
        have h3 := ho _ hp'.1
        have h4 := hv _ hp'.2
        rw [h3] at h4; cases h4
      · simp
      · intro hm
        have h3 := ho _ (List.mem_of_mem_filter hm)
        have h4 := hv _ hp'.2
        rw [h3] at h4; cases h4)
    rw [hdets, ← this]
    congr 1
    funext xy
    simp only [pairs, prod, List.map_flatMap, List.flatMap_map, List.map_map, Function.comp_def, val]
  · have hdets : excL sd (comb (occIndices (some sd)) 2) (comb (virIndices (some sd) H.norb) 2) =
        (prod (comb (occIndices (some sd)) 2) (comb (virIndices (some sd) H.norb) 2)).map fun p => exc sd p.1 p.2 := by
      simp only [prod, excL, List.map_flatMap, List.map_map, Function.comp_def]
    have hS' : (signExciteTwo (occIndices (some sd)) (virIndices (some sd) H.norb)).map (Except.ok (ε := PyErr)) =
        (prod (comb (occIndices (some sd)) 2) (comb (virIndices (some sd) H.norb) 2)).map
          fun p => signExcite (some sd) p.1 p.2.reverse := by
      rw [hS2]; simp only [prod, List.map_flatMap, List.map_map, Function.comp_def]
    have hE2 := hE 2
    generalize occIndices (some sd) = occIdx at *
    generalize virIndices (some sd) (H.norb : ℤ) = virIdx at *
    split_ifs with hlen
    · have n1 : comb occIdx 2 ≠ [] := comb_two_ne_nil hlen.1
      have n2 : comb virIdx 2 ≠ [] := comb_two_ne_nil hlen.2
      simp only [genSdsDerivTwo, pairColumns, if_neg n1, if_neg n2, hguard, bind, Except.bind]
      let val : List ℕ × List ℕ → ℕ × ℕ → R × R × R := fun p xy => genDerivEntryTwo H
        (p.1.getD 0 0) (p.1.getD 1 0) (p.2.getD 0 0) (p.2.getD 1 0) xy.1 xy.2
      have := derivArray_eq hn (prod (comb occIdx 2) (comb virIdx 2)) _ _ val (fun p => exc sd p.1 p.2)
        (derivEntry H sd) hS' (by
          rintro ⟨o, v⟩ hp
          have hp' : o ∈ comb occIdx 2 ∧ v ∈ comb virIdx 2 := by simpa [prod] using hp
          have hX := hE2 o hp'.1 v hp'.2
          have hlo' : ∀ i ∈ o, i < H.norb := fun i hi => hlo i ((mem_comb.1 hp'.1).1.subset hi)
          have hlv' : ∀ i ∈ v, i < H.norb := fun i hi => hlv i ((mem_comb.1 hp'.2).1.subset hi)
          obtain ⟨a, b, rfl⟩ := List.length_eq_two.1 (mem_comb.1 hp'.1).2
          obtain ⟨c, d, rfl⟩ := List.length_eq_two.1 (mem_comb.1 hp'.2).2
          have hab : a ≠ b := by have := hX.nodup_o; simpa using this
          have hcd : c ≠ d := by have := hX.nodup_v; simpa using this
          have hne : ∀ i ∈ [a, b], ∀ j ∈ [c, d], i ≠ j := by
            rintro i hi j hj rfl
            have h3 := hX.ho _ hi
            have h4 := hX.hv _ hj
            rw [h3] at h4; cases h4
          have hs := signExcite_two_two (hX.ho a (by simp)) (hX.ho b (by simp)) hab (hX.hv c (by simp))
            (hX.hv d (by simp)) hcd
          refine ⟨_, hs, fun xy h1 h2 => ?_⟩
          rw [derivEntry_eq (fun P hP => genDeriv_double H hsd (hlo' a (by simp)) (hlo' b (by simp)) (hlv' c (by simp))
            (hlv' d (by simp)) hX.diff hs P hP) h1 h2]
          simp only [val, List.getD_cons_zero, List.getD_cons_succ]
          rw [genDerivEntryTwo_eq H hab (hne a (by simp) c (by simp)) (hne a (by simp) d (by simp))
            (hne b (by simp) c (by simp)) (hne b (by simp) d (by simp)) hcd])
      rw [hdets, ← this]
      congr 1
      funext xy
      simp only [prod, List.map_flatMap, List.flatMap_map, List.map_map, Function.comp_def, val]
    · rw [not_and_or] at hlen
      constructor
      · rcases hlen with h | h
        · simp only [genSdsDerivTwo, pairColumns, if_pos (comb_two_nil h), bind, Except.bind]
        · by_cases n1 : comb occIdx 2 = []
          · simp only [genSdsDerivTwo, pairColumns, if_pos n1, bind, Except.bind]
          · simp only [genSdsDerivTwo, pairColumns, if_neg n1, if_pos (comb_two_nil h), bind, Except.bind]
      · rcases hlen with h | h <;> simp [excL, comb_two_nil h]

/-- C87. With at least two and at most 63 spin orbitals, `integrate_sd_wfn(sd, wfn, ham_deriv)` returns for each parameter the sum
over all determinants `m` of the overlap of the wavefunction with `m` times the derivative of the matrix element of `sd` and
`m` that `integrate_sd_sd_decomposed(sd, m, deriv)` returns. -/
theorem C87_sum (H : GenHam R) (hn : 2 ≤ H.norb) (h63 : H.norb ≤ 63) (f : ℤ → R) (sd : ℕ) (hsd : sd < 2 ^ H.norb) :
    ∃ D : ℕ → ℕ × ℕ → R × R × R,
      (∀ m < 2 ^ H.norb, ∀ P : List (ℕ × ℕ), (∀ p ∈ P, p.1 < p.2 ∧ p.2 < H.norb) →
        genDeriv H sd m (P.map fun p => triuPos H.norb p.1 p.2) = .ok (P.map (D m))) ∧
      ∀ P : List (ℕ × ℕ), (∀ p ∈ P, p.1 < p.2 ∧ p.2 < H.norb) →
        genSdWfnDeriv H f sd (P.map fun p => triuPos H.norb p.1 p.2) =
          .ok (P.map fun p => ∑ m ∈ range (2 ^ H.norb), scale (f m) (D m p)) := by
  obtain ⟨dets1, dets2, D, hd1, hd2, hD, hz, h1, h2⟩ := C87_arrays H hn sd hsd
  refine ⟨D, hD, fun P hP => ?_⟩
  have hE := fun k => exc_comb (sd := sd) (sorted_occIndices sd) (sorted_virIndices sd H.norb)
    (fun _ hi => mem_occIndices.1 hi) (fun _ hi => (mem_virIndices.1 hi).2) k
  have hx1 : dets1 = excL sd (comb (occIndices (some sd)) 1) (comb (virIndices (some sd) H.norb) 1) := by
    apply map_ok_some_injective
    rw [hd1, excL_excite (hE 1), comb_one, comb_one, List.flatMap_map]
    simp only [List.map_map, Function.comp_def, List.cons_append, List.nil_append]
  have hx2 : dets2 = excL sd (comb (occIndices (some sd)) 2) (comb (virIndices (some sd) H.norb) 2) := by
    apply map_ok_some_injective
    rw [hd2, excL_excite (hE 2)]
  have hB := fun k => exciteBulk_eq (sorted_occIndices sd) (sorted_virIndices sd H.norb)
    (fun _ hi => mem_occIndices.1 hi) (fun _ hi => (mem_virIndices.1 hi).2) k
    (lt_of_lt_of_le hsd (Nat.pow_le_pow_right (by norm_num) h63))
    (fun i hi => by have := (mem_virIndices.1 hi).1; omega)
  have hB1 : exciteBulk sd (occIndices (some sd)) (virIndices (some sd) H.norb) 1 =
    .ok (dets1.map (fun (x : ℕ) => (x : ℤ))) := by rw [hx1]; exact hB 1
  have hB2 : exciteBulk sd (occIndices (some sd)) (virIndices (some sd) H.norb) 2 =
    .ok (dets2.map (fun (x : ℕ) => (x : ℤ))) := by rw [hx2]; exact hB 2
  have hfar : ∀ m < 2 ^ H.norb, ¬ ((diffOrbs sd m).1.length = (diffOrbs sd m).2.length ∧
      (diffOrbs sd m).1.length ≤ 2) → ∀ p ∈ P, D m p = 0 := by
    intro m hm hf p hp
    have e1 := hD m hm [p] (by simpa using hP p hp)
    have e2 := genDeriv_far H hf [p]
    rw [e1] at e2
    simpa using e2
  have hrow : ∀ (dets : List ℕ), (((triuIndices H.norb).map fun xy => dets.map fun m => D m xy).mapM fun row =>
      dotOverlaps scale row ((dets.map (fun (x : ℕ) => (x : ℤ))).map f)) =
        .ok ((triuIndices H.norb).map fun xy => (dets.map (fun (m : ℕ) => scale (f m) (D m xy))).sum) := by
    intro dets
    rw [List.mapM_map]
    apply mapM_eq_ok
    intro xy _
    exact dotOverlaps_eq scale dets f _ (fun m => D m xy) rfl
  simp only [genSdWfnDeriv]
  rw [if_neg (not_not.2 (inRange hP))]
  have hz2 : takeCols (((triuIndices H.norb).map (D sd)).map (scale (f sd))) (P.map fun p => triuPos H.norb p.1 p.2) =
      .ok (P.map fun p => scale (f sd) (D sd p)) := by
    rw [List.map_map]
    exact takeCols_eq H.norb _ P hP
  have hz3 : ∀ dets : List ℕ, takeCols ((triuIndices H.norb).map fun xy =>
      (dets.map (fun (m : ℕ) => scale (f m) (D m xy))).sum) (P.map fun p => triuPos H.norb p.1 p.2) =
        .ok (P.map fun p => (dets.map (fun (m : ℕ) => scale (f m) (D m p))).sum) := fun dets =>
    takeCols_eq H.norb _ P hP
  have hzip : ∀ {α β : Type} [Add β] (l : List α) (u v : α → β),
      List.zipWith (· + ·) (l.map u) (l.map v) = l.map fun x => u x + v x := by
    intro α β _ l u v
    rw [List.zipWith_map, List.zipWith_self]
  have hsum : ∀ p ∈ P, ∑ m ∈ range (2 ^ H.norb), scale (f m) (D m p) =
      scale (f sd) (D sd p) + (dets1.map (fun (m : ℕ) => scale (f m) (D m p))).sum +
        (dets2.map (fun (m : ℕ) => scale (f m) (D m p))).sum := by
    intro p hp
    rw [sum_up_to_double hsd (fun m => scale (f m) (D m p)) (fun m hm hf => by
      rw [hfar m hm hf p hp, scale_zero]), hx1, hx2]
  simp only [hz, hB1, h1, hB2, hrow, bind, Except.bind, hz2, hz3]
  split_ifs at h2 ⊢ with hc
  · simp only [h2, hrow, hz3, pure, Except.pure]
    congr 1
    rw [hzip, hzip]
    exact List.map_congr_left fun p hp => (hsum p hp).symm
  · simp only [pure, Except.pure]
    congr 1
    rw [hzip]
    refine List.map_congr_left fun p hp => ?_
    rw [hsum p hp, h2.2]
    simp

/-- C87, checks. An index that is negative or not smaller than the number of parameters raises `ValueError`. -/
theorem C87_range (H : GenHam R) (f : ℤ → R) (sd : ℕ) (deriv : List ℤ) (i : ℤ) (hi : i ∈ deriv)
    (h : i < 0 ∨ (H.norb * (H.norb - 1) / 2 : ℕ) ≤ i) : genSdWfnDeriv H f sd deriv = .error .valueError := by
  rw [genSdWfnDeriv, if_pos]
  intro hall
  have := hall i hi
  omega

/-- C87, one spin orbital: there is no parameter, and `ham_deriv` without any index raises `ValueError` (`reshape(0, -1)`)
instead of returning an empty array. -/
theorem C87_one_orbital (H : GenHam R) (hn : H.norb = 1) (f : ℤ → R) (sd : ℕ) (hsd : sd < 2) :
    genSdWfnDeriv H f sd [] = .error .valueError := by
  have hg : ∀ l : List ℕ, (∀ i ∈ l, i < 1) → guardIdx 1 l = .ok () := fun l hl => guardIdx_ok hl
  have : sd = 0 ∨ sd = 1 := by omega
  have hnil : triuIndices 1 = [] := rfl
  rcases this with rfl | rfl
  · have e1 : occIndices (some 0) = [] := rfl
    have e2 : virIndices (some 0) ((1 : ℕ) : ℤ) = [0] := by decide
    simp only [genSdWfnDeriv, hn, e1, e2, genSdsDerivZero, genSdsDerivOne, derivArray, hnil, bind, Except.bind]
    simp [hg, takeCols, exciteBulk, toInt64, comb, combineBits, bind, Except.bind, pure, Except.pure]
  · have e1 : occIndices (some 1) = [0] := by decide
    have e2 : virIndices (some 1) ((1 : ℕ) : ℤ) = [] := by decide
    simp only [genSdWfnDeriv, hn, e1, e2, genSdsDerivZero, genSdsDerivOne, derivArray, hnil, bind, Except.bind]
    simp [hg, takeCols, exciteBulk, toInt64, comb, combineBits, bind, Except.bind, pure, Except.pure]

end

/-- C87, meaning. For real integrals with the usual symmetries, the array that `integrate_sd_wfn` returns for `ham_deriv` contains
the derivatives, at angle zero, of what `integrate_sd_wfn` returns after `orb_rotate_jacobi` of the two orbitals of the parameter
(wavefunction fixed), for every determinant. -/
theorem C87_rotation_partial (n : ℕ) (hn : 2 ≤ n) (h63 : n ≤ 63) (h : ℕ → ℕ → ℝ) (g : ℕ → ℕ → ℕ → ℕ → ℝ)
    (hh : ∀ i j, h i j = h j i) (hg : ∀ i j k l, g i j k l = g j i l k) (hr : ∀ i j k l, g i j k l = g k l i j)
    (f : ℤ → ℝ) (sd : ℕ) (hsd : sd < 2 ^ n) :
    ∃ T : ℕ × ℕ → ℝ × ℝ × ℝ,
      (∀ P : List (ℕ × ℕ), (∀ p ∈ P, p.1 < p.2 ∧ p.2 < n) →
        genSdWfnDeriv (GenHam.ofInts n h g) f sd (P.map fun p => triuPos n p.1 p.2) = .ok (P.map T)) ∧
      ∀ x y, x < y → y < n → ∃ F : ℝ → ℝ × ℝ × ℝ,
        (∀ θ, ∃ K, (GenHam.ofInts n h g).rotateJacobi x y (Real.cos θ) (Real.sin θ) = .ok K ∧
          genSdWfn K.cacheTwoInts f sd = .ok (F θ)) ∧
        HasDerivAt F (T (x, y)) 0 := by
  obtain ⟨D, hD, hS⟩ := C87_sum (GenHam.ofInts n h g) hn h63 f sd hsd
  refine ⟨_, hS, fun x y hxy hy => ?_⟩
  have hrot : ∀ θ, (GenHam.ofInts n h g).rotateJacobi x y (Real.cos θ) (Real.sin θ) =
      .ok { GenHam.ofInts n h g with
        one := jacobiOne (Real.cos θ) (Real.sin θ) x y h, two := jacobiTwo (Real.cos θ) (Real.sin θ) x y g } := by
    intro θ
    have := rotateJacobi_ok (GenHam.ofInts n h g) (p := x) (q := y) (show x < n by omega) hy (by omega)
      (Real.cos θ) (Real.sin θ)
    rw [min_eq_left hxy.le, max_eq_right hxy.le] at this
    exact this
  by_cases h0 : sd = 0
  · subst h0
    have hz : ∀ m < 2 ^ n, D m (x, y) = 0 := by
      intro m hm
      have e1 := hD m hm [(x, y)] (by simpa using ⟨hxy, hy⟩)
      by_cases hm0 : m = 0
      · subst hm0
        have e2 := genDeriv_same (GenHam.ofInts n h g) hsd [(x, y)] (by simpa using ⟨hxy, hy⟩)
        rw [e1] at e2
        have e3 : occIndices (some 0) = [] := rfl
        have e4 : D 0 (x, y) = ((0 : ℝ), 0, 0) := by simpa [genDerivZero, signTimes, e3] using e2
        exact e4
      · have e2 := genDeriv_far (GenHam.ofInts n h g) (sd1 := 0) (sd2 := m) (by
          rintro ⟨e, -⟩
          rw [diffOrbs_fst_length, diffOrbs_snd_length] at e
          have : occSet 0 = ∅ := by ext i; simp
          rw [this] at e
          simp only [Finset.empty_sdiff, Finset.card_empty, Finset.sdiff_empty] at e
          apply hm0
          have he : occSet m = ∅ := Finset.card_eq_zero.1 e.symm
          apply Nat.eq_of_testBit_eq
          intro i
          rw [Nat.zero_testBit]
          by_contra hc
          have : i ∈ occSet m := mem_occSet.2 (by simpa using hc)
          rw [he] at this
          simp at this) [(x, y)]
        rw [e1] at e2
        simpa using e2
    refine ⟨fun _ => 0, fun θ => ⟨_, hrot θ, C27_generalized_vacuum _ f⟩, ?_⟩
    rw [Finset.sum_eq_zero (fun m hm => by rw [hz m (Finset.mem_range.1 hm), scale_zero])]
    exact hasDerivAt_const _ _
  · have hex : ∀ m : ℕ, ∃ F : ℝ → ℝ × ℝ × ℝ, m < 2 ^ n →
        (∀ θ, ∃ K, (GenHam.ofInts n h g).rotateJacobi x y (Real.cos θ) (Real.sin θ) = .ok K ∧
          genDecomposed K.cacheTwoInts sd m = .ok (F θ)) ∧ HasDerivAt F (D m (x, y)) 0 := by
      intro m
      by_cases hm : m < 2 ^ n
      · obtain ⟨T, hT, hF⟩ := C31_generalized_partial n h g hh hg hr sd m hsd hm
        obtain ⟨F, hF1, hF2⟩ := hF x y hxy hy (Or.inl h0)
        refine ⟨F, fun _ => ⟨hF1, ?_⟩⟩
        have e1 := hD m hm [(x, y)] (by simpa using ⟨hxy, hy⟩)
        have e2 := hT [(x, y)] (by simpa using ⟨hxy, hy⟩)
        have e3 : D m (x, y) = T x y := by
          have := e1.symm.trans e2
          simpa using this
        rw [e3]
        exact hF2
      · exact ⟨fun _ => 0, fun h => absurd h hm⟩
    choose F hF using hex
    refine ⟨fun θ => ∑ m ∈ range (2 ^ n), scale (f m) (F m θ), fun θ => ⟨_, hrot θ, ?_⟩, ?_⟩
    · obtain ⟨E, hE, -, hW⟩ := C27_generalized (GenHam.cacheTwoInts { GenHam.ofInts n h g with
        one := jacobiOne (Real.cos θ) (Real.sin θ) x y h, two := jacobiTwo (Real.cos θ) (Real.sin θ) x y g }) f sd hsd h0
      rw [hW h63]
      congr 1
      apply Finset.sum_congr rfl
      intro m hm
      have hm' : m < 2 ^ n := Finset.mem_range.1 hm
      obtain ⟨K, hK1, hK2⟩ := (hF m hm').1 θ
      rw [hrot θ] at hK1
      injection hK1 with hK1
      subst hK1
      have := (hE m hm').symm.trans hK2
      injection this with this
      rw [this]
    · apply HasDerivAt.fun_sum
      intro m hm
      exact ((hF m (Finset.mem_range.1 hm)).2).const_smul (f m)

/-- four spin orbitals, two electrons, the rotations of orbitals 1, 3 and of orbitals 0, 2 -/
example : genSdWfnDeriv (GenHam.ofInts 4 (fun i j => (i + j : ℤ)) (fun i j k l => (i * k + 1) * (j * l + 1) + i + j + k + l))
    (fun z => z * z + 1) 0b0101 [4, 1] = .ok [(-60, -2330, 2218), (870, -826, 1478)] := by decide +kernel

end Fanpy.Props
