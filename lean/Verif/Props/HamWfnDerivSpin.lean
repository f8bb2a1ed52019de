import Verif.Lemmas.HamWfnDerivCols

/-!
# C88: `integrate_sd_wfn` with `ham_deriv` (restricted and unrestricted orbitals)

For restricted orbitals the vectorised derivative of `⟨sd|H|Ψ⟩` with respect to the orbital rotations is the sum over all
determinants of the overlap times the derivative of the matrix element (C31). For unrestricted orbitals this holds for the
complete list of parameters; for a selection of parameters the values are written to wrong columns.
-/

namespace Fanpy.Props
open Finset Fanpy.Spec Fanpy.Slater Fanpy.Ham Fanpy.Lemmas Fanpy.It

section
variable {R : Type} [CommRing R]
variable {sd n : ℕ} {oa ob va vb : List ℕ}

theorem zipWith_add_map {α β : Type} [Add β] (l : List α) (u v : α → β) :
    List.zipWith (· + ·) (l.map u) (l.map v) = l.map fun x => u x + v x := by
  rw [List.zipWith_map, List.zipWith_self]

theorem colSum_nil (H : UnrHam R) (f : ℤ → R) (s : ℕ) : colSum H f sd [] s = fun _ => 0 := by
  funext xy; simp [colSum]

theorem nil_AA (hc : ¬ (oa.length > 1 ∧ va.length > 1)) : excL sd (comb oa 2) (comb va 2) = [] := by
  rcases not_and_or.1 hc with h | h <;> simp [excL, comb_two_nil h]

theorem nil_BB (hc : ¬ (ob.length > 1 ∧ vb.length > 1)) :
    excL sd (comb (ob.map (· + n)) 2) (comb (vb.map (· + n)) 2) = [] := by
  rcases not_and_or.1 hc with h | h
  · rw [comb_two_nil (l := ob.map _) (by simpa using h)]; simp [excL]
  · rw [comb_two_nil (l := vb.map _) (by simpa using h)]; simp [excL]

theorem nil_AB (hc : ¬ (oa.length > 0 ∧ ob.length > 0 ∧ va.length > 0 ∧ vb.length > 0)) :
    excL sd (pairsAB oa (ob.map (· + n))) (pairsAB va (vb.map (· + n))) = [] := by
  rw [List.eq_nil_iff_forall_not_mem]
  intro m hm
  obtain ⟨o, ho, v, hv, -⟩ := mem_excL.1 hm
  obtain ⟨a, ha, b, hb, -⟩ := mem_pairsAB.1 ho
  obtain ⟨c, hc', d, hd, -⟩ := mem_pairsAB.1 hv
  obtain ⟨b, hb, -⟩ := List.mem_map.1 hb
  obtain ⟨d, hd, -⟩ := List.mem_map.1 hd
  exact hc ⟨List.length_pos_of_mem ha, List.length_pos_of_mem hb, List.length_pos_of_mem hc', List.length_pos_of_mem hd⟩

/-- all determinants in terms of the excitations -/
theorem colSum_all (H : UnrHam R) (f : ℤ → R) (hn : 2 ≤ H.norb) (hB : Blocks H.norb sd oa ob va vb)
    (hsd : sd < 2 ^ (2 * H.norb)) (s : ℕ) (hs : s < 2) (xy : ℕ × ℕ) (h1 : xy.1 < xy.2) (h2 : xy.2 < H.norb) :
    ∑ m ∈ range (2 ^ (2 * H.norb)), scale (f m) (unrEntry H sd m (s, xy)) =
      scale (f sd) (unrEntry H sd sd (s, xy)) + colSum H f sd (excL sd (comb oa 1) (comb va 1)) s xy +
      colSum H f sd (excL sd (comb (ob.map (· + H.norb)) 1) (comb (vb.map (· + H.norb)) 1)) s xy +
      colSum H f sd (excL sd (comb oa 2) (comb va 2)) s xy +
      colSum H f sd (excL sd (pairsAB oa (ob.map (· + H.norb))) (pairsAB va (vb.map (· + H.norb)))) s xy +
      colSum H f sd (excL sd (comb (ob.map (· + H.norb)) 2) (comb (vb.map (· + H.norb)) 2)) s xy := by
  have hlt := spinExcL_lt hB hsd
  rw [sum_all_eq_list _ _ _ (nodup_spinExcL hB) hlt (fun m hm h => by
    obtain ⟨T, hT, h0⟩ := unr_derivTable H (by omega) hB hsd hm
    rw [unrEntry_eq hT hs h1 h2, h0 h]
    exact scale_zero _)]
  simp only [spinExcL, List.map_cons, List.map_append, List.sum_cons, List.sum_append, colSum]
  abel

/-! ### Unrestricted orbitals -/

/-- spin and pair of orbitals of a parameter -/
def unrAt (n : ℕ) (i : ℤ) : ℕ × ℕ × ℕ :=
  if i < ((n * (n - 1) : ℕ) : ℤ) / 2 then (0, triuAt n i) else (1, triuAt n (i - ((n * (n - 1) : ℕ) : ℤ) / 2))

theorem half_spec (n : ℕ) : ((n * (n - 1) : ℕ) : ℤ) / 2 = ((n * (n - 1) / 2 : ℕ) : ℤ) ∧
    2 * ((n * (n - 1) / 2 : ℕ) : ℤ) = ((n * (n - 1) : ℕ) : ℤ) := by
  have := Nat.even_mul_pred_self n
  obtain ⟨k, hk⟩ := this
  rw [hk]
  omega

theorem unrAt_spec {n : ℕ} {i : ℤ} (h0 : 0 ≤ i) (h1 : i < (n * (n - 1) : ℕ)) :
    (unrAt n i).1 < 2 ∧ (unrAt n i).2.1 < (unrAt n i).2.2 ∧ (unrAt n i).2.2 < n ∧
      unrPos n (unrAt n i).1 (unrAt n i).2.1 (unrAt n i).2.2 = i := by
  obtain ⟨e1, e2⟩ := half_spec n
  have e3 : (n : ℤ) * (n - 1) / 2 = ((n * (n - 1) : ℕ) : ℤ) / 2 := by
    rcases Nat.eq_zero_or_pos n with rfl | hn
    · simp
    · push_cast [Nat.cast_sub hn]; rfl
  rw [unrAt]
  split_ifs with h
  · obtain ⟨a1, a2, a3, -⟩ := triuAt_spec (n := n) (i := i) h0 (by omega)
    exact ⟨by simp, a1, a2, by simp only [unrPos, a3]; simp⟩
  · obtain ⟨a1, a2, a3, -⟩ := triuAt_spec (n := n) (i := i - ((n * (n - 1) : ℕ) : ℤ) / 2) (by omega) (by omega)
    exact ⟨by simp, a1, a2, by simp only [unrPos, a3, e3]; simp⟩

theorem ok_bind {α β : Type} (a : α) (k : α → Except PyErr β) : (Except.ok a >>= k) = k a := rfl
theorem error_bind {α β : Type} (e : PyErr) (k : α → Except PyErr β) : (Except.error e >>= k) = .error e := rfl

/-- C88, unrestricted orbitals. Let `n ≥ 2` spatial orbitals, at most 63 spin orbitals, and let the parameters `ham_deriv` be in the
range `0 … n (n-1) - 1`. If each of them is smaller than the *number* of parameters asked for, then column `k` of the result is
the derivative with respect to the parameter `k` if `k` is one of them (wherever it is in `ham_deriv`), and zero if it is not;
otherwise `IndexError` is raised. -/
theorem C88_unrestricted (H : UnrHam R) (hn : 2 ≤ H.norb) (h63 : 2 * H.norb ≤ 63)
    (sAA : ∀ i j k l, H.twoAA i j k l = H.twoAA j i l k) (sBB : ∀ i j k l, H.twoBB i j k l = H.twoBB j i l k)
    (f : ℤ → R) (sd : ℕ) (hsd : sd < 2 ^ (2 * H.norb)) :
    ∃ D : ℕ → ℤ → R × R × R,
      (∀ m < 2 ^ (2 * H.norb), ∀ deriv : List ℤ, (∀ i ∈ deriv, 0 ≤ i ∧ i < (H.norb * (H.norb - 1) : ℕ)) →
        unrDeriv H sd m deriv = .ok (deriv.map (D m))) ∧
      ∀ deriv : List ℤ, (∀ i ∈ deriv, 0 ≤ i ∧ i < (H.norb * (H.norb - 1) : ℕ)) →
        unrSdWfnDeriv H f sd deriv =
          if ∀ i ∈ deriv, i < deriv.length then
            .ok ((List.range deriv.length).map fun (k : ℕ) =>
              if (k : ℤ) ∈ deriv then ∑ m ∈ range (2 ^ (2 * H.norb)), scale (f m) (D m k) else 0)
          else .error .indexError := by
  have hB := blocks H.norb sd hsd
  obtain ⟨b1, b2, b3⟩ := bulk_spin hB hsd h63
  refine ⟨fun m i => unrEntry H sd m (unrAt H.norb i), fun m hm deriv hd => ?_, fun deriv hd => ?_⟩
  · obtain ⟨T, hT, -⟩ := unr_derivTable H (by omega) hB hsd hm
    have e : deriv = (deriv.map (unrAt H.norb)).map fun p => unrPos H.norb p.1 p.2.1 p.2.2 := by
      rw [List.map_map]
      conv_lhs => rw [← List.map_id deriv]
      apply List.map_congr_left
      intro i hi
      exact (unrAt_spec (hd i hi).1 (hd i hi).2).2.2.2.symm
    have hg : ∀ p ∈ deriv.map (unrAt H.norb), p.1 < 2 ∧ p.2.1 < p.2.2 ∧ p.2.2 < H.norb := by
      intro p hp
      obtain ⟨i, hi, rfl⟩ := List.mem_map.1 hp
      obtain ⟨a1, a2, a3, -⟩ := unrAt_spec (hd i hi).1 (hd i hi).2
      exact ⟨a1, a2, a3⟩
    conv_lhs => rw [e]
    rw [hT _ hg, List.map_map]
    congr 1
    apply List.map_congr_left
    intro i hi
    obtain ⟨a1, a2, a3, -⟩ := unrAt_spec (hd i hi).1 (hd i hi).2
    exact (unrEntry_eq hT a1 a2 a3).symm
  · obtain ⟨e1, e2⟩ := half_spec H.norb
    simp only [unrSdWfnDeriv]
    rw [if_neg (not_not.2 hd)]
    simp only [occ_filter_alpha, occ_filter_beta, vir_filter_alpha, vir_filter_beta, map_add_sub]
    generalize occIndices (some (sd % 2 ^ H.norb)) = oa at *
    generalize occIndices (some (sd / 2 ^ H.norb)) = ob at *
    generalize virIndices (some (sd % 2 ^ H.norb)) (H.norb : ℤ) = va at *
    generalize virIndices (some (sd / 2 ^ H.norb)) (H.norb : ℤ) = vb at *
    generalize hcA : deriv.filter (fun i => decide (i < ((H.norb * (H.norb - 1) : ℕ) : ℤ) / 2)) = colA
    generalize hcB : deriv.filter (fun i => decide (((H.norb * (H.norb - 1) : ℕ) : ℤ) / 2 ≤ i)) = colB
    have mA : ∀ i, i ∈ colA ↔ i ∈ deriv ∧ i < ((H.norb * (H.norb - 1) : ℕ) : ℤ) / 2 := by intro i; rw [← hcA]; simp
    have mB : ∀ i, i ∈ colB ↔ i ∈ deriv ∧ ((H.norb * (H.norb - 1) : ℕ) : ℤ) / 2 ≤ i := by intro i; rw [← hcB]; simp
    have tA : ∀ c : ℕ × ℕ → R × R × R, takeCols ((triuIndices H.norb).map c) colA =
        .ok (colA.map fun i => c (unrAt H.norb i).2) := by
      intro c
      rw [takeCols_at _ _ _ (fun i hi => ⟨(hd i ((mA i).1 hi).1).1, by have := ((mA i).1 hi).2; omega⟩)]
      congr 1
      apply List.map_congr_left
      intro i hi
      rw [unrAt, if_pos ((mA i).1 hi).2]
    have tB : ∀ c : ℕ × ℕ → R × R × R, takeCols ((triuIndices H.norb).map c)
        (colB.map (· - ((H.norb * (H.norb - 1) : ℕ) : ℤ) / 2)) = .ok (colB.map fun i => c (unrAt H.norb i).2) := by
      intro c
      rw [takeCols_at _ _ _ (fun i hi => by
        obtain ⟨j, hj, rfl⟩ := List.mem_map.1 hi
        have h1 := ((mB j).1 hj).2
        have h2 := (hd j ((mB j).1 hj).1).2
        constructor <;> omega), List.map_map]
      congr 1
      apply List.map_congr_left
      intro i hi
      rw [unrAt, if_neg (by have := ((mB i).1 hi).2; omega)]
      rfl
    have hz : (deriv.map fun _ => (0 : R × R × R)) = (List.range deriv.length).map fun _ => 0 := by simp
    have zA := cols_zeroA H hn hB hsd
    have zB := cols_zeroB H hn hB hsd
    rw [zA, zB, hz]
    simp only [ok_bind, List.map_map, tA, tB]
    by_cases hall : ∀ i ∈ deriv, i < deriv.length
    · rw [if_pos hall]
      have gA : ∀ i ∈ colA, 0 ≤ i ∧ i < deriv.length := fun i hi => ⟨(hd i ((mA i).1 hi).1).1, hall i ((mA i).1 hi).1⟩
      have gB : ∀ i ∈ colB, 0 ≤ i ∧ i < deriv.length := fun i hi => ⟨(hd i ((mB i).1 hi).1).1, hall i ((mB i).1 hi).1⟩
      have uA := fun (v : ℤ → R × R × R) F => addCols_table v deriv.length colA F gA
      have uB := fun (v : ℤ → R × R × R) F => addCols_table v deriv.length colB F gB
      obtain ⟨r1, d1, p1, p2, p3⟩ := cols_oneAA H f hn hB hsd
      obtain ⟨r2, d2, q1, q2, q3⟩ := cols_oneBA H f hn hB hsd
      obtain ⟨r3, d3, s1, s2, s3⟩ := cols_oneBB H f hn hB hsd
      obtain ⟨r4, d4, t1, t2, t3⟩ := cols_oneAB H f hn hB hsd
      have hAA : ∀ (F : ℕ → R × R × R) (K : List (R × R × R) → Except PyErr (List (R × R × R))),
          (if oa.length > 1 ∧ va.length > 1 then do
            let d ← dotRows scale2 (← unrDerivsTwoAAA H oa va)
              (((excL sd (comb oa 2) (comb va 2)).map (fun (x : ℕ) => (x : ℤ))).map f)
            let output ← addCols ((List.range deriv.length).map F) colA (← takeCols (asTwo d) colA)
            K output
          else pure ((List.range deriv.length).map F) >>= K) = K ((List.range deriv.length).map fun (k : ℕ) =>
            if (k : ℤ) ∈ colA then F k + colSum H f sd (excL sd (comb oa 2) (comb va 2)) 0 (unrAt H.norb k).2 else F k) := by
        intro F K
        split_ifs with hc
        · obtain ⟨r5, d5, u1, u2, u3⟩ := cols_twoAAA H f sAA hn hB hsd hc.1 hc.2
          rw [ovl] at u2
          rw [u1, ok_bind, u2, ok_bind, u3, tA, ok_bind, uA, ok_bind]
        · rw [nil_AA hc, colSum_nil]
          simp only [add_zero, ite_self]
          rfl
      have hBB : ∀ F : ℕ → R × R × R, (if ob.length > 1 ∧ vb.length > 1 then do
            let d ← dotRows scale2 (← unrDerivsTwoBBB H ob vb)
              (((excL sd (comb (ob.map (· + H.norb)) 2) (comb (vb.map (· + H.norb)) 2)).map (fun (x : ℕ) => (x : ℤ))).map f)
            addCols ((List.range deriv.length).map F) colB
              (← takeCols (asTwo d) (colB.map (· - ((H.norb * (H.norb - 1) : ℕ) : ℤ) / 2)))
          else pure ((List.range deriv.length).map F)) = Except.ok ((List.range deriv.length).map fun (k : ℕ) =>
            if (k : ℤ) ∈ colB then F k + colSum H f sd (excL sd (comb (ob.map (· + H.norb)) 2) (comb (vb.map (· + H.norb)) 2)) 1
              (unrAt H.norb k).2 else F k) := by
        intro F
        split_ifs with hc
        · obtain ⟨r5, d5, u1, u2, u3⟩ := cols_twoBBB H f sBB hn hB hsd hc.1 hc.2
          rw [ovl] at u2
          rw [u1, ok_bind, u2, ok_bind, u3, tB, ok_bind, uB]
        · rw [nil_BB hc, colSum_nil]
          simp [pure, Except.pure]
      have hAB : ∀ (F : ℕ → R × R × R) (K : List (R × R × R) → Except PyErr (List (R × R × R))),
          (if oa.length > 0 ∧ ob.length > 0 ∧ va.length > 0 ∧ vb.length > 0 then do
            let d ← dotRows (· * ·) (← unrDerivsTwoAAB H oa ob va vb)
              (((excL sd (pairsAB oa (ob.map (· + H.norb))) (pairsAB va (vb.map (· + H.norb)))).map
                (fun (x : ℕ) => (x : ℤ))).map f)
            let output ← addCols ((List.range deriv.length).map F) colA (← takeCols (asCoulomb d) colA)
            let d ← dotRows (· * ·) (← unrDerivsTwoBAB H oa ob va vb)
              (((excL sd (pairsAB oa (ob.map (· + H.norb))) (pairsAB va (vb.map (· + H.norb)))).map
                (fun (x : ℕ) => (x : ℤ))).map f)
            let output ← addCols output colB (← takeCols (asCoulomb d) (colB.map (· - ((H.norb * (H.norb - 1) : ℕ) : ℤ) / 2)))
            K output
          else pure ((List.range deriv.length).map F) >>= K) = K ((List.range deriv.length).map fun (k : ℕ) =>
            (if (k : ℤ) ∈ colB then
              (if (k : ℤ) ∈ colA then F k + colSum H f sd (excL sd (pairsAB oa (ob.map (· + H.norb))) (pairsAB va (vb.map
              (· + H.norb)))) 0 (unrAt H.norb k).2 else F k) + colSum H f sd (excL sd (pairsAB oa (ob.map (· + H.norb)))
              (pairsAB va (vb.map (· + H.norb)))) 1 (unrAt H.norb k).2
            else
              (if (k : ℤ) ∈ colA then F k + colSum H f sd (excL sd (pairsAB oa (ob.map (· + H.norb))) (pairsAB va (vb.map
              (· + H.norb)))) 0 (unrAt H.norb k).2 else F k))) := by
        intro F K
        split_ifs with hc
        · obtain ⟨r5, d5, u1, u2, u3⟩ := cols_twoAAB H f hn hB hsd hc
          obtain ⟨r6, d6, v1, v2, v3⟩ := cols_twoBAB H f hn hB hsd hc
          rw [ovl] at u2 v2
          rw [u1, ok_bind, u2, ok_bind, u3, tA, ok_bind, uA, ok_bind, v1, ok_bind, v2, ok_bind, v3, tB, ok_bind, uB, ok_bind]
        · rw [nil_AB hc, colSum_nil, colSum_nil]
          simp only [add_zero, ite_self]
          rfl
      rw [ovl] at p2 q2 s2 t2
      rw [uA, ok_bind, uB, ok_bind, b1, ok_bind, p1, ok_bind, p2, ok_bind, p3, tA, ok_bind, uA, ok_bind, q1, ok_bind, q2,
        ok_bind, q3, tB, ok_bind, uB, ok_bind, b2, ok_bind, s1, ok_bind, s2, ok_bind, s3, tB, ok_bind, uB, ok_bind, t1,
        ok_bind, t2, ok_bind, t3, tA, ok_bind, uA, ok_bind, b1, ok_bind, hAA, b3, ok_bind, hAB, b2, ok_bind, hBB]
      congr 1
      apply List.map_congr_left
      intro k hk
      have hk' : k < deriv.length := List.mem_range.1 hk
      by_cases hkd : (k : ℤ) ∈ deriv
      · obtain ⟨g1, g2, g3, -⟩ := unrAt_spec (hd _ hkd).1 (hd _ hkd).2
        have hsum := colSum_all H f hn hB hsd (unrAt H.norb k).1 g1 (unrAt H.norb k).2 g2 g3
        rw [if_pos hkd]
        by_cases hh : (k : ℤ) < ((H.norb * (H.norb - 1) : ℕ) : ℤ) / 2
        · have kA : (k : ℤ) ∈ colA := (mA _).2 ⟨hkd, hh⟩
          have kB : (k : ℤ) ∉ colB := fun h => by have := ((mB _).1 h).2; omega
          have e0 : (unrAt H.norb k).1 = 0 := by rw [unrAt, if_pos hh]
          have e4 : unrAt H.norb k = (0, (unrAt H.norb k).2) := by rw [← e0]
          rw [e0, colSum_BB_alpha H f hn hB hsd g2 g3] at hsum
          simp only [if_pos kA, if_neg kB, Function.comp_apply]
          rw [e4, hsum]
          abel
        · have kB : (k : ℤ) ∈ colB := (mB _).2 ⟨hkd, by omega⟩
          have kA : (k : ℤ) ∉ colA := fun h => by have := ((mA _).1 h).2; omega
          have e0 : (unrAt H.norb k).1 = 1 := by rw [unrAt, if_neg hh]
          have e4 : unrAt H.norb k = (1, (unrAt H.norb k).2) := by rw [← e0]
          rw [e0, colSum_AA_beta H f hn hB hsd g2 g3] at hsum
          simp only [if_neg kA, if_pos kB, Function.comp_apply]
          rw [e4, hsum]
          abel
      · have kA : (k : ℤ) ∉ colA := fun h => hkd ((mA _).1 h).1
        have kB : (k : ℤ) ∉ colB := fun h => hkd ((mB _).1 h).1
        simp only [if_neg kA, if_neg kB, if_neg hkd]
    · rw [if_neg hall]
      push Not at hall
      obtain ⟨i, hi, hlen⟩ := hall
      by_cases hA : ∀ i ∈ colA, i < deriv.length
      · rw [addCols_table _ _ _ _ (fun j hj => ⟨(hd j ((mA j).1 hj).1).1, hA j hj⟩), ok_bind,
          addCols_error _ _ colB i ((mB i).2 ⟨hi, by
            by_contra hc
            have := hA i ((mA i).2 ⟨hi, by omega⟩)
            omega⟩) (by simpa using hlen)]
        rfl
      · push Not at hA
        obtain ⟨j, hj, hlen'⟩ := hA
        rw [addCols_error _ _ colA j hj (by simpa using hlen')]
        rfl

/-- C88, unrestricted orbitals, all parameters: for `ham_deriv = arange(nparams)` column `k` is the derivative with respect to
parameter `k`. -/
theorem C88_unrestricted_all (H : UnrHam R) (hn : 2 ≤ H.norb) (h63 : 2 * H.norb ≤ 63)
    (sAA : ∀ i j k l, H.twoAA i j k l = H.twoAA j i l k) (sBB : ∀ i j k l, H.twoBB i j k l = H.twoBB j i l k)
    (f : ℤ → R) (sd : ℕ) (hsd : sd < 2 ^ (2 * H.norb)) :
    ∃ D : ℕ → ℤ → R × R × R,
      (∀ m < 2 ^ (2 * H.norb), ∀ deriv : List ℤ, (∀ i ∈ deriv, 0 ≤ i ∧ i < (H.norb * (H.norb - 1) : ℕ)) →
        unrDeriv H sd m deriv = .ok (deriv.map (D m))) ∧
      unrSdWfnDeriv H f sd ((List.range (H.norb * (H.norb - 1))).map fun (k : ℕ) => (k : ℤ)) =
        .ok ((List.range (H.norb * (H.norb - 1))).map fun (k : ℕ) =>
          ∑ m ∈ range (2 ^ (2 * H.norb)), scale (f m) (D m k)) := by
  obtain ⟨D, hD, h⟩ := C88_unrestricted H hn h63 sAA sBB f sd hsd
  refine ⟨D, hD, ?_⟩
  rw [h _ (by
    intro i hi
    obtain ⟨k, hk, rfl⟩ := List.mem_map.1 hi
    have := List.mem_range.1 hk
    exact ⟨by omega, by exact_mod_cast this⟩), if_pos (by
    intro i hi
    obtain ⟨k, hk, rfl⟩ := List.mem_map.1 hi
    have := List.mem_range.1 hk
    rw [List.length_map, List.length_range]
    exact_mod_cast this)]
  congr 1
  rw [List.length_map, List.length_range]
  apply List.map_congr_left
  intro k hk
  rw [if_pos (List.mem_map_of_mem hk)]

/-- C88 fails for a selection of the parameters: asking for a single parameter other than the first one raises `IndexError`,
for every Hamiltonian, wavefunction and determinant. -/
theorem C88_unrestricted_single (H : UnrHam R) (hn : 2 ≤ H.norb) (h63 : 2 * H.norb ≤ 63)
    (sAA : ∀ i j k l, H.twoAA i j k l = H.twoAA j i l k) (sBB : ∀ i j k l, H.twoBB i j k l = H.twoBB j i l k)
    (f : ℤ → R) (sd : ℕ) (hsd : sd < 2 ^ (2 * H.norb)) (i : ℤ) (h1 : 1 ≤ i) (h2 : i < (H.norb * (H.norb - 1) : ℕ)) :
    unrSdWfnDeriv H f sd [i] = .error .indexError := by
  obtain ⟨D, hD, h⟩ := C88_unrestricted H hn h63 sAA sBB f sd hsd
  rw [h [i] (by intro j hj; rw [List.mem_singleton] at hj; subst hj; exact ⟨by omega, h2⟩), if_neg (by simp; omega)]

/-- C88 fails for parameters in another order: the two derivatives, which differ, come back in the order of the parameters
whichever the order of `ham_deriv`. -/
theorem C88_unrestricted_order :
    let H := UnrHam.ofInts 2 (fun i j => (i + j : ℤ)) (fun i j => i * j + 1) (fun i j k l => (i * k + 1) * (j * l + 1))
      (fun i j k l => i + j + k + l) (fun i j k l => i + j + k + l)
    unrSdWfnDeriv H (fun z => z + 1) 0b0101 [0, 1] = .ok [(-26, -88, 0), (-22, -82, 0)] ∧
      unrSdWfnDeriv H (fun z => z + 1) 0b0101 [1, 0] = .ok [(-26, -88, 0), (-22, -82, 0)] := by
  decide +kernel

/-- C88, checks. -/
theorem C88_unrestricted_range (H : UnrHam R) (f : ℤ → R) (sd : ℕ) (deriv : List ℤ) (i : ℤ) (hi : i ∈ deriv)
    (h : i < 0 ∨ (H.norb * (H.norb - 1) : ℕ) ≤ i) : unrSdWfnDeriv H f sd deriv = .error .valueError := by
  rw [unrSdWfnDeriv, if_pos]
  intro hall
  have := hall i hi
  omega

theorem C88_restricted_range (H : GenHam R) (f : ℤ → R) (sd : ℕ) (deriv : List ℤ) (i : ℤ) (hi : i ∈ deriv)
    (h : i < 0 ∨ (H.norb * (H.norb - 1) / 2 : ℕ) ≤ i) : resSdWfnDeriv H f sd deriv = .error .valueError := by
  rw [resSdWfnDeriv, if_pos]
  intro hall
  have := hall i hi
  omega

/-! ### Restricted orbitals -/

/-- C88, restricted orbitals. With at least two spatial orbitals, and not 32 of them (C27_word_64), `integrate_sd_wfn(sd, wfn,
ham_deriv)` returns for each parameter the sum over all determinants `m` of the overlap of the wavefunction with `m` times the
derivative of the matrix element of `sd` and `m` that `integrate_sd_sd_decomposed(sd, m, deriv)` returns. -/
theorem C88_restricted_partial (H : GenHam R) (hn : 2 ≤ H.norb) (h32 : H.norb ≠ 32)
    (hg : ∀ i j k l, H.two i j k l = H.two j i l k) (f : ℤ → R) (sd : ℕ) (hsd : sd < 2 ^ (2 * H.norb)) :
    ∃ D : ℕ → ℕ × ℕ → R × R × R,
      (∀ m < 2 ^ (2 * H.norb), ∀ P : List (ℕ × ℕ), (∀ p ∈ P, p.1 < p.2 ∧ p.2 < H.norb) →
        resDeriv H sd m (P.map fun p => triuPos H.norb p.1 p.2) = .ok (P.map (D m))) ∧
      ∀ P : List (ℕ × ℕ), (∀ p ∈ P, p.1 < p.2 ∧ p.2 < H.norb) →
        resSdWfnDeriv H f sd (P.map fun p => triuPos H.norb p.1 p.2) =
          .ok (P.map fun p => ∑ m ∈ range (2 ^ (2 * H.norb)), scale (f m) (D m p)) := by
  refine ⟨fun m p => unrEntry (dup H) sd m (0, p) + unrEntry (dup H) sd m (1, p),
    fun m hm P hP => res_derivTable H (by omega) hsd hm P hP, fun P hP => ?_⟩
  have hB := blocks H.norb sd hsd
  simp only [resSdWfnDeriv]
  rw [if_neg (not_not.2 (inRange hP))]
  simp only [occ_filter_alpha, occ_filter_beta, vir_filter_alpha, vir_filter_beta, map_add_sub]
  generalize occIndices (some (sd % 2 ^ H.norb)) = oa at *
  generalize occIndices (some (sd / 2 ^ H.norb)) = ob at *
  generalize virIndices (some (sd % 2 ^ H.norb)) (H.norb : ℤ) = va at *
  generalize virIndices (some (sd / 2 ^ H.norb)) (H.norb : ℤ) = vb at *
  have oA : ∀ k, resOverlaps (2 * H.norb) f sd (exciteBulk sd oa va k)
      ((comb oa k).flatMap fun o => (comb va k).map fun v => o ++ v) = .ok (ovl f (excL sd (comb oa k) (comb va k))) := by
    intro k
    by_cases h64 : 2 * H.norb ≤ 64
    · rw [(bulk_spin hB hsd (by omega)).1, resOverlaps_bulk h64]
    · exact resOverlaps_excite h64 f sd _ (hB.excA k)
  have oB : ∀ k, resOverlaps (2 * H.norb) f sd (exciteBulk sd (ob.map (· + H.norb)) (vb.map (· + H.norb)) k)
      ((comb (ob.map (· + H.norb)) k).flatMap fun o => (comb (vb.map (· + H.norb)) k).map fun v => o ++ v) =
        .ok (ovl f (excL sd (comb (ob.map (· + H.norb)) k) (comb (vb.map (· + H.norb)) k))) := by
    intro k
    by_cases h64 : 2 * H.norb ≤ 64
    · rw [(bulk_spin hB hsd (by omega)).2.1, resOverlaps_bulk h64]
    · exact resOverlaps_excite h64 f sd _ (hB.excB k)
  have oAB : resOverlaps (2 * H.norb) f sd (exciteBulkTwoAb sd oa (ob.map (· + H.norb)) va (vb.map (· + H.norb)))
      ((prod oa (ob.map (· + H.norb))).flatMap fun o => (prod va (vb.map (· + H.norb))).map fun v => [o.1, o.2, v.1, v.2]) =
        .ok (ovl f (excL sd (pairsAB oa (ob.map (· + H.norb))) (pairsAB va (vb.map (· + H.norb))))) := by
    by_cases h64 : 2 * H.norb ≤ 64
    · rw [(bulk_spin hB hsd (by omega)).2.2, resOverlaps_bulk h64]
    · have e : ((prod oa (ob.map (· + H.norb))).flatMap fun o => (prod va (vb.map (· + H.norb))).map fun v =>
          [o.1, o.2, v.1, v.2]) =
          (pairsAB oa (ob.map (· + H.norb))).flatMap fun o => (pairsAB va (vb.map (· + H.norb))).map fun v => o ++ v := by
        simp only [pairsAB, List.flatMap_map, List.map_map, Function.comp_def, List.cons_append, List.nil_append]
      rw [e]
      exact resOverlaps_excite h64 f sd _ hB.excAB
  have hU : H.blocks = dup H := rfl
  rw [hU]
  have hz : ((P.map fun p => triuPos H.norb p.1 p.2).map fun _ => (0 : R × R × R)) = P.map fun _ => 0 := by
    rw [List.map_map]; rfl
  have tk : ∀ c : ℕ × ℕ → R × R × R, takeCols ((triuIndices H.norb).map c) (P.map fun p => triuPos H.norb p.1 p.2) =
      .ok (P.map c) := fun c => takeCols_eq H.norb c P hP
  have zA : unrDerivsZeroA (dup H) oa ob va = .ok ((triuIndices H.norb).map fun xy => unrEntry (dup H) sd sd (0, xy)) :=
    cols_zeroA (dup H) hn hB hsd
  have zB : unrDerivsZeroB (dup H) oa ob vb = .ok ((triuIndices H.norb).map fun xy => unrEntry (dup H) sd sd (1, xy)) :=
    cols_zeroB (dup H) hn hB hsd
  obtain ⟨r1, d1, p1, p2, p3⟩ := cols_oneAA (dup H) f hn hB hsd
  obtain ⟨r2, d2, q1, q2, q3⟩ := cols_oneBA (dup H) f hn hB hsd
  obtain ⟨r3, d3, s1, s2, s3⟩ := cols_oneBB (dup H) f hn hB hsd
  obtain ⟨r4, d4, t1, t2, t3⟩ := cols_oneAB (dup H) f hn hB hsd
  have hnorb : (dup H).norb = H.norb := rfl
  rw [hnorb] at p3 q3 s2 s3 t2 t3
  have hAA : ∀ (F : ℕ × ℕ → R × R × R) (K : List (R × R × R) → Except PyErr (List (R × R × R))),
      (if oa.length > 1 ∧ va.length > 1 then do
        let d ← dotRows scale2 (← unrDerivsTwoAAA (dup H) oa va) (ovl f (excL sd (comb oa 2) (comb va 2)))
        let output ← pure (List.zipWith (· + ·) (P.map F) (← takeCols (asTwo d) (P.map fun p => triuPos H.norb p.1 p.2)))
        K output
      else pure (P.map F) >>= K) = K (P.map fun p => F p + colSum (dup H) f sd (excL sd (comb oa 2) (comb va 2)) 0 p) := by
    intro F K
    split_ifs with hc
    · obtain ⟨r5, d5, u1, u2, u3⟩ := cols_twoAAA (dup H) f hg hn hB hsd hc.1 hc.2
      rw [hnorb] at u3
      rw [u1, ok_bind, u2, ok_bind, u3, tk, ok_bind, zipWith_add_map]
      rfl
    · rw [nil_AA hc, colSum_nil]
      simp only [add_zero]
      rfl
  have hBB : ∀ (F : ℕ × ℕ → R × R × R),
      (if ob.length > 1 ∧ vb.length > 1 then do
        let d ← dotRows scale2 (← unrDerivsTwoBBB (dup H) ob vb)
          (ovl f (excL sd (comb (ob.map (· + H.norb)) 2) (comb (vb.map (· + H.norb)) 2)))
        pure (List.zipWith (· + ·) (P.map F) (← takeCols (asTwo d) (P.map fun p => triuPos H.norb p.1 p.2)))
      else pure (P.map F)) = Except.ok (P.map fun p => F p +
        colSum (dup H) f sd (excL sd (comb (ob.map (· + H.norb)) 2) (comb (vb.map (· + H.norb)) 2)) 1 p) := by
    intro F
    split_ifs with hc
    · obtain ⟨r5, d5, u1, u2, u3⟩ := cols_twoBBB (dup H) f hg hn hB hsd hc.1 hc.2
      rw [hnorb] at u2 u3
      rw [u1, ok_bind, u2, ok_bind, u3, tk, ok_bind, zipWith_add_map]
      rfl
    · rw [nil_BB hc, colSum_nil]
      simp only [add_zero]
      rfl
  have hAB : ∀ (F : ℕ × ℕ → R × R × R) (K : List (R × R × R) → Except PyErr (List (R × R × R))),
      (if oa.length > 0 ∧ ob.length > 0 ∧ va.length > 0 ∧ vb.length > 0 then do
        let d ← dotRows (· * ·) (← unrDerivsTwoAAB (dup H) oa ob va vb)
          (ovl f (excL sd (pairsAB oa (ob.map (· + H.norb))) (pairsAB va (vb.map (· + H.norb)))))
        let v ← takeCols (asCoulomb d) (P.map fun p => triuPos H.norb p.1 p.2)
        let d ← dotRows (· * ·) (← unrDerivsTwoBAB (dup H) oa ob va vb)
          (ovl f (excL sd (pairsAB oa (ob.map (· + H.norb))) (pairsAB va (vb.map (· + H.norb)))))
        let output ← pure (List.zipWith (· + ·) (List.zipWith (· + ·) (P.map F) v)
          (← takeCols (asCoulomb d) (P.map fun p => triuPos H.norb p.1 p.2)))
        K output
      else pure (P.map F) >>= K) = K (P.map fun p => F p +
        colSum (dup H) f sd (excL sd (pairsAB oa (ob.map (· + H.norb))) (pairsAB va (vb.map (· + H.norb)))) 0 p +
        colSum (dup H) f sd (excL sd (pairsAB oa (ob.map (· + H.norb))) (pairsAB va (vb.map (· + H.norb)))) 1 p) := by
    intro F K
    split_ifs with hc
    · obtain ⟨r5, d5, u1, u2, u3⟩ := cols_twoAAB (dup H) f hn hB hsd hc
      obtain ⟨r6, d6, v1, v2, v3⟩ := cols_twoBAB (dup H) f hn hB hsd hc
      rw [hnorb] at u2 u3 v2 v3
      rw [u1, ok_bind, u2, ok_bind, u3, tk, ok_bind, v1, ok_bind, v2, ok_bind, v3, tk, ok_bind, zipWith_add_map,
        zipWith_add_map]
      rfl
    · rw [nil_AB hc, colSum_nil, colSum_nil]
      simp only [add_zero]
      rfl
  rw [oA, ok_bind, oB, ok_bind, oA, ok_bind, oAB, ok_bind, oB, ok_bind, zA, ok_bind, zB, ok_bind, hz, zipWith_add_map,
    List.map_map, tk, ok_bind, zipWith_add_map, p1, ok_bind, p2, ok_bind, p3, tk, ok_bind, zipWith_add_map, q1, ok_bind, q2,
    ok_bind, q3, tk, ok_bind, zipWith_add_map, s1, ok_bind, s2, ok_bind, s3, tk, ok_bind, zipWith_add_map, t1, ok_bind, t2,
    ok_bind, t3, tk, ok_bind, zipWith_add_map, hAA, hAB, hBB]
  congr 1
  apply List.map_congr_left
  intro p hp
  obtain ⟨k1, k2⟩ := hP p hp
  have c0 := colSum_all (dup H) f hn hB hsd 0 (by omega) p k1 k2
  have c1 := colSum_all (dup H) f hn hB hsd 1 (by omega) p k1 k2
  rw [colSum_BB_alpha (dup H) f hn hB hsd k1 k2] at c0
  rw [colSum_AA_beta (dup H) f hn hB hsd k1 k2] at c1
  have hadd : ∀ (c : R) (a b : R × R × R), scale c (a + b) = scale c a + scale c b := fun c a b => by
    simp [scale, mul_add]
  simp only [hadd, Finset.sum_add_distrib, Function.comp_apply]
  rw [hnorb] at c0 c1
  rw [c0, c1]
  abel

/-- C88, one spatial orbital: there is no parameter, and `ham_deriv` without any index raises `ValueError` (`reshape(0, -1)`)
instead of returning an empty array. -/
theorem C88_one_orbital (f : ℤ → R) (sd : ℕ) (hsd : sd < 4) :
    (∀ H : UnrHam R, H.norb = 1 → unrSdWfnDeriv H f sd [] = .error .valueError) ∧
      ∀ H : GenHam R, H.norb = 1 → resSdWfnDeriv H f sd [] = .error .valueError := by
  have hB := blocks 1 sd hsd
  obtain ⟨b1, b2, b3⟩ := bulk_spin hB hsd (by norm_num)
  obtain ⟨g1, g2, g3, g4, g5⟩ := guard_blocks hB
  have hnil : triuIndices 1 = [] := rfl
  have hrow : ∀ {α : Type} (mul : ℤ → α → α) signs entries, derivRows mul 1 signs entries = .error .valueError := by
    intros; rw [derivRows, if_pos hnil]
  constructor
  · intro H hn
    simp only [unrSdWfnDeriv, hn]
    rw [if_neg (by simp)]
    simp only [occ_filter_alpha, occ_filter_beta, vir_filter_alpha, vir_filter_beta, map_add_sub, unrDerivsZeroA,
      unrDerivsZeroB, unrDerivsOneAA, hn, g1, g2, b1, hnil, hrow, ok_bind, List.map_nil, List.filter_nil]
    rfl
  · intro H hn
    have hn' : H.blocks.norb = 1 := hn
    have h64 : 2 * 1 ≤ 64 := by norm_num
    simp only [resSdWfnDeriv, hn]
    rw [if_neg (by simp)]
    simp only [occ_filter_alpha, occ_filter_beta, vir_filter_alpha, vir_filter_beta, map_add_sub, unrDerivsZeroA,
      unrDerivsZeroB, unrDerivsOneAA, hn', g1, g2, b1, b2, b3, resOverlaps_bulk h64, hnil, hrow, ok_bind, List.map_nil]
    rfl

end

theorem unr_rotateJacobi_norb {R : Type} [CommRing R] {H K : UnrHam R} {p q : ℤ} {c s : R}
    (h : H.rotateJacobi p q c s = .ok K) : K.norb = H.norb := by
  simp only [UnrHam.rotateJacobi] at h
  by_cases h1 : p = q
  · rw [if_pos h1] at h; cases h
  rw [if_neg h1] at h
  by_cases h2 : ¬(0 ≤ p ∧ p < 2 * (H.norb : ℤ) ∧ 0 ≤ q ∧ q < 2 * (H.norb : ℤ))
  · rw [if_pos h2] at h; cases h
  rw [if_neg h2] at h
  by_cases h3 : p.toNat / H.norb ≠ q.toNat / H.norb
  · rw [if_pos h3] at h; cases h
  rw [if_neg h3] at h
  by_cases h4 : (if p > q then (q.toNat, p.toNat) else (p.toNat, q.toNat)).1 / H.norb = 0
  · rw [if_pos h4] at h; injection h with h; subst h; rfl
  · rw [if_neg h4] at h; injection h with h; subst h; rfl

/-- C88, meaning, unrestricted orbitals. For real integrals with the usual symmetries, entry `unrPos n s x y` of the array that
`integrate_sd_wfn` returns for all parameters is the derivative, at angle zero, of what `integrate_sd_wfn` returns after
`orb_rotate_jacobi` of the orbitals `x` and `y` of spin `s` (wavefunction fixed). -/
theorem C88_unrestricted_rotation {n : ℕ} (hn : 2 ≤ n) (h63 : 2 * n ≤ 63) (hA hB : ℕ → ℕ → ℝ)
    (gAA gAB gBB : ℕ → ℕ → ℕ → ℕ → ℝ) (hA' : ∀ i j, hA i j = hA j i) (hB' : ∀ i j, hB i j = hB j i)
    (sAA : ∀ i j k l, gAA i j k l = gAA j i l k) (sBB : ∀ i j k l, gBB i j k l = gBB j i l k)
    (rAA : ∀ i j k l, gAA i j k l = gAA k l i j) (rAB : ∀ i j k l, gAB i j k l = gAB k l i j)
    (rBB : ∀ i j k l, gBB i j k l = gBB k l i j) (f : ℤ → ℝ) (sd : ℕ) (hsd : sd < 2 ^ (2 * n)) :
    ∃ T : ℤ → ℝ × ℝ × ℝ,
      unrSdWfnDeriv (UnrHam.ofInts n hA hB gAA gAB gBB) f sd ((List.range (n * (n - 1))).map fun (k : ℕ) => (k : ℤ)) =
        .ok ((List.range (n * (n - 1))).map fun (k : ℕ) => T k) ∧
      ∀ s x y, s < 2 → x < y → y < n → ∃ F : ℝ → ℝ × ℝ × ℝ,
        (∀ θ, ∃ K, (UnrHam.ofInts n hA hB gAA gAB gBB).rotateJacobi ((x + s * n : ℕ) : ℤ) ((y + s * n : ℕ) : ℤ)
            (Real.cos θ) (Real.sin θ) = .ok K ∧
          unrSdWfn K.cacheTwoInts f sd = .ok (F θ)) ∧
        HasDerivAt F (T (unrPos n s x y)) 0 := by
  obtain ⟨D, hD, hS⟩ := C88_unrestricted_all (UnrHam.ofInts n hA hB gAA gAB gBB) hn h63 sAA sBB f sd hsd
  have hnorb : (UnrHam.ofInts n hA hB gAA gAB gBB).norb = n := rfl
  rw [hnorb] at hD hS
  refine ⟨fun k => ∑ m ∈ range (2 ^ (2 * n)), scale (f m) (D m k), hS, fun s x y hs hxy hy => ?_⟩
  have hex : ∀ m : ℕ, ∃ F : ℝ → ℝ × ℝ × ℝ, m < 2 ^ (2 * n) →
      (∀ θ, ∃ K, (UnrHam.ofInts n hA hB gAA gAB gBB).rotateJacobi ((x + s * n : ℕ) : ℤ) ((y + s * n : ℕ) : ℤ)
          (Real.cos θ) (Real.sin θ) = .ok K ∧
        unrDecomposed K.cacheTwoInts sd m = .ok (F θ)) ∧ HasDerivAt F (D m (unrPos n s x y)) 0 := by
    intro m
    by_cases hm : m < 2 ^ (2 * n)
    · obtain ⟨T, hT, hF⟩ := C31_unrestricted (by omega) hA hB gAA gAB gBB hA' hB' sAA sBB rAA rAB rBB sd m hsd hm
      obtain ⟨F, hF1, hF2⟩ := hF s x y hs hxy hy
      refine ⟨F, fun _ => ⟨hF1, ?_⟩⟩
      have hg : ∀ p ∈ [(s, x, y)], p.1 < 2 ∧ p.2.1 < p.2.2 ∧ p.2.2 < n := by
        intro q hq; rw [List.mem_singleton] at hq; subst hq; exact ⟨hs, hxy, hy⟩
      have hr := unrInRange (n := n) hg
      have e1 := hD m hm _ hr
      have e2 := hT [(s, x, y)] hg
      have e3 : D m (unrPos n s x y) = T s x y := by
        have := e1.symm.trans e2
        simpa using this
      rw [e3]
      exact hF2
    · exact ⟨fun _ => 0, fun h => absurd h hm⟩
  choose F hF using hex
  refine ⟨fun θ => ∑ m ∈ range (2 ^ (2 * n)), scale (f m) (F m θ), fun θ => ?_, ?_⟩
  · obtain ⟨K, hK, -⟩ := (hF 0 (by positivity)).1 θ
    refine ⟨K, hK, ?_⟩
    have hKn : K.cacheTwoInts.norb = n := unr_rotateJacobi_norb hK
    obtain ⟨E, hE, hW⟩ := C27_unrestricted K.cacheTwoInts (by omega) (by omega) f sd (by rw [hKn]; exact hsd)
    rw [hW, hKn]
    rw [hKn] at hE
    congr 1
    apply Finset.sum_congr rfl
    intro m hm
    have hm' : m < 2 ^ (2 * n) := Finset.mem_range.1 hm
    obtain ⟨K', hK1, hK2⟩ := (hF m hm').1 θ
    rw [hK] at hK1
    injection hK1 with hK1
    subst hK1
    have := (hE m hm').symm.trans hK2
    injection this with this
    rw [this]
  · apply HasDerivAt.fun_sum
    intro m hm
    exact ((hF m (Finset.mem_range.1 hm)).2).const_smul (f m)

/-- C88, meaning, restricted orbitals. For real integrals with the usual symmetries, the array that `integrate_sd_wfn` returns
for `ham_deriv` contains the derivatives, at angle zero, of what `integrate_sd_wfn` returns after `orb_rotate_jacobi` of the two
spatial orbitals of the parameter (wavefunction fixed), for any number of spatial orbitals except 32. -/
theorem C88_restricted_rotation_partial {n : ℕ} (hn : 2 ≤ n) (h32 : n ≠ 32) (h : ℕ → ℕ → ℝ) (g : ℕ → ℕ → ℕ → ℕ → ℝ)
    (hh : ∀ i j, h i j = h j i) (hg : ∀ i j k l, g i j k l = g j i l k) (hr : ∀ i j k l, g i j k l = g k l i j)
    (f : ℤ → ℝ) (sd : ℕ) (hsd : sd < 2 ^ (2 * n)) :
    ∃ T : ℕ × ℕ → ℝ × ℝ × ℝ,
      (∀ P : List (ℕ × ℕ), (∀ p ∈ P, p.1 < p.2 ∧ p.2 < n) →
        resSdWfnDeriv (GenHam.ofInts n h g) f sd (P.map fun p => triuPos n p.1 p.2) = .ok (P.map T)) ∧
      ∀ x y, x < y → y < n → ∃ F : ℝ → ℝ × ℝ × ℝ,
        (∀ θ, ∃ K, (GenHam.ofInts n h g).rotateJacobi x y (Real.cos θ) (Real.sin θ) = .ok K ∧
          resSdWfn K.cacheTwoInts f sd = .ok (F θ)) ∧
        HasDerivAt F (T (x, y)) 0 := by
  obtain ⟨D, hD, hS⟩ := C88_restricted_partial (GenHam.ofInts n h g) hn h32 hg f sd hsd
  have hnorb : (GenHam.ofInts n h g).norb = n := rfl
  rw [hnorb] at hD hS
  refine ⟨_, hS, fun x y hxy hy => ?_⟩
  have hrot : ∀ θ, (GenHam.ofInts n h g).rotateJacobi x y (Real.cos θ) (Real.sin θ) =
      .ok { GenHam.ofInts n h g with
        one := jacobiOne (Real.cos θ) (Real.sin θ) x y h, two := jacobiTwo (Real.cos θ) (Real.sin θ) x y g } := by
    intro θ
    have := rotateJacobi_ok (GenHam.ofInts n h g) (p := x) (q := y) (show x < n by omega) hy (by omega)
      (Real.cos θ) (Real.sin θ)
    rw [min_eq_left hxy.le, max_eq_right hxy.le] at this
    exact this
  have hex : ∀ m : ℕ, ∃ F : ℝ → ℝ × ℝ × ℝ, m < 2 ^ (2 * n) →
      (∀ θ, ∃ K, (GenHam.ofInts n h g).rotateJacobi x y (Real.cos θ) (Real.sin θ) = .ok K ∧
        resDecomposed K.cacheTwoInts sd m = .ok (F θ)) ∧ HasDerivAt F (D m (x, y)) 0 := by
    intro m
    by_cases hm : m < 2 ^ (2 * n)
    · obtain ⟨T, hT, hF⟩ := C31_restricted (by omega) h g hh hg hr sd m hsd hm
      obtain ⟨F, hF1, hF2⟩ := hF x y hxy hy
      refine ⟨F, fun _ => ⟨hF1, ?_⟩⟩
      have e1 := hD m hm [(x, y)] (by simpa using ⟨hxy, hy⟩)
      have e2 := hT [(x, y)] (by simpa using ⟨hxy, hy⟩)
      have e3 : D m (x, y) = T x y := by
        have := e1.symm.trans e2
        simpa using this
      rw [e3]
      exact hF2
    · exact ⟨fun _ => 0, fun h => absurd h hm⟩
  choose F hF using hex
  refine ⟨fun θ => ∑ m ∈ range (2 ^ (2 * n)), scale (f m) (F m θ), fun θ => ⟨_, hrot θ, ?_⟩, ?_⟩
  · obtain ⟨E, hE, hW⟩ := C27_restricted_partial n (by omega) h32 (jacobiOne (Real.cos θ) (Real.sin θ) x y h)
      (jacobiTwo (Real.cos θ) (Real.sin θ) x y g) (jacobiTwo_swap _ _ x y hg) f sd hsd
    refine Eq.trans hW ?_
    congr 1
    apply Finset.sum_congr rfl
    intro m hm
    have hm' : m < 2 ^ (2 * n) := Finset.mem_range.1 hm
    obtain ⟨K, hK1, hK2⟩ := (hF m hm').1 θ
    rw [hrot θ] at hK1
    injection hK1 with hK1
    subst hK1
    have := (hE m hm').symm.trans hK2
    injection this with this
    rw [this]
  · apply HasDerivAt.fun_sum
    intro m hm
    exact ((hF m (Finset.mem_range.1 hm)).2).const_smul (f m)

/-- three spatial orbitals and three electrons: the rotations of orbitals 1, 2 and of orbitals 0, 1 -/
example : resSdWfnDeriv (GenHam.ofInts 3 (fun i j => (i + j : ℤ))
    (fun i j k l => (i * k + 1) * (j * l + 1) + i + j + k + l)) (fun z => z * z + 1) 0b010101 [2, 0] =
      .ok [(-4774, -71494, -3782), (2154, 12328, 15542)] := by decide +kernel

/-- all six rotations, and the same six in another order -/
example : unrSdWfnDeriv (UnrHam.ofInts 3 (fun i j => (i + j : ℤ)) (fun i j => i * j + 1)
    (fun i j k l => (i * k + 1) * (j * l + 1) + i + j + k + l) (fun i j k l => (i * k + 1) * (j * l + 2))
    (fun i j k l => (i * k + 1) * (j * l + 1))) (fun z => z * z + 1) 0b010101 [5, 0, 1, 2, 3, 4] =
      .ok [(-1130, -31904, 15542), (-1093, -35583, 18684), (958, 21494, -3782), (2084, 41995, 0), (860, 20354, 0),
        (-6932, -76979, 0)] := by decide +kernel

end Fanpy.Props
