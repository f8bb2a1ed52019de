import Verif.Model.Nonorth
import Verif.Lemmas.Transform
import Verif.Lemmas.Excite
import Verif.Lemmas.WfnSums
import Verif.Props.Jacobi

/-! # C44: wavefunctions with transformed orbitals -/

namespace Fanpy.Props
open Fanpy.Slater Fanpy.Spec Fanpy.Linalg Fanpy.Nonorth Fanpy.It Finset Fanpy.Lemmas
open Fanpy.Jacobi (OrbType Target)

variable {R : Type} [CommRing R]

/-! ## Set-up -/

theorem sum_comb {M : Type} [AddCommMonoid M] {l : List ℕ} (hl : l.Pairwise (· < ·)) (k : ℕ) (g : List ℕ → M) :
    ((comb l k).map g).sum = ∑ T ∈ powersetCard k l.toFinset, g (T.sort (· ≤ ·)) := by
  rw [← List.sum_toFinset _ (comb_nodup k (hl.imp (fun h => Nat.ne_of_lt h)))]
  have hs : ∀ c ∈ comb l k, c.toFinset.sort (· ≤ ·) = c := by
    intro c hc
    rw [List.toFinset_sort]
    · exact (hl.sublist (mem_comb.1 hc).1).imp fun h => h.le
    · exact (hl.sublist (mem_comb.1 hc).1).imp (fun h => Nat.ne_of_lt h)
  refine sum_bij' (fun c _ => c.toFinset) (fun T _ => T.sort (· ≤ ·)) ?_ ?_ ?_ ?_ ?_
  · intro c hc
    have hc' := mem_comb.1 (List.mem_toFinset.1 hc)
    rw [mem_powersetCard, List.toFinset_card_of_nodup ((hl.sublist hc'.1).imp (fun h => Nat.ne_of_lt h))]
    exact ⟨fun i hi => List.mem_toFinset.2 (hc'.1.subset (List.mem_toFinset.1 hi)), hc'.2⟩
  · intro T hT
    rw [mem_powersetCard] at hT
    rw [List.mem_toFinset]
    have := mem_comb_sorted hl (sort_lt T) (fun i hi => List.mem_toFinset.1 (hT.1 ((mem_sort _).1 hi)))
    rwa [length_sort, hT.2] at this
  · intro c hc; exact hs c (List.mem_toFinset.1 hc)
  · intro T _; exact sort_toFinset _ _
  · intro c hc
    rw [hs c (List.mem_toFinset.1 hc)]

theorem occIndices_sort (sd : ℕ) : occIndices (some sd) = (occSet sd).sort (· ≤ ·) := by
  apply List.Perm.eq_of_pairwise' (r := (· ≤ ·))
  · exact (sorted_occIndices sd).imp fun h => h.le
  · exact pairwise_sort _ _
  · rw [List.perm_ext_iff_of_nodup ((sorted_occIndices sd).imp (fun h => Nat.ne_of_lt h)) (sort_nodup _ _)]
    intro a
    rw [mem_sort, mem_occIndices, mem_occSet]

theorem create_zero {l : List ℕ} (hl : l.Nodup) : create (some 0) l = some (sdOf l.toFinset) := by
  rw [create_of hl (by simp), occSet_zero, empty_union]

theorem minor_ok (m : Mat R) {S T : Finset ℕ} (hS : ∀ i ∈ S, i < m.nrow) (hT : ∀ j ∈ T, j < m.ncol) (h : #T = #S) :
    m.minor (S.sort (· ≤ ·)) (T.sort (· ≤ ·)) = .ok (Spec.minor m.entry S T) := by
  rw [Mat.minor, if_neg, if_neg, npDet, if_pos (by simp [h]), minor_eq_detL _ h]
  · simpa using hT
  · simpa using hS

theorem minorOrOne_ok {w : Nonorth.Wfn R} {i : ℕ} {m : Mat R} (hm : w.param i = .ok m) {S T : Finset ℕ} (hS : ∀ i ∈ S, i < m.nrow)
    (hT : ∀ j ∈ T, j < m.ncol) (h : #T = #S) :
    w.minorOrOne i (S.sort (· ≤ ·)) (T.sort (· ≤ ·)) = .ok (Spec.minor m.entry S T) := by
  rw [Wfn.minorOrOne]
  split_ifs with h0
  · rw [length_sort] at h0
    have hS0 : S = ∅ := by rw [← card_eq_zero, ← h, h0]
    have hT0 : T = ∅ := by rw [← card_eq_zero, h0]
    subst hS0 hT0
    have : IsEmpty (Fin #(∅ : Finset ℕ)) := by rw [card_empty]; infer_instance
    rw [Spec.minor, dif_pos h, Matrix.det_isEmpty]
  · simp only [hm, bind, Except.bind]
    exact minor_ok m hS hT h

/-! ## The constructor -/

/-- the shapes of the matrices of the three types of orbitals -/
def ShapesOk (nspin cspin : ℕ) (p : List (Mat R)) : Prop :=
  (∃ A, p = [A] ∧ A.nrow = nspin / 2 ∧ A.ncol = cspin / 2) ∨ (∃ A, p = [A] ∧ A.nrow = nspin ∧ A.ncol = cspin) ∨
    ∃ A B, p = [A, B] ∧ (A.nrow = nspin / 2 ∧ A.ncol = cspin / 2) ∧ B.nrow = nspin / 2 ∧ B.ncol = cspin / 2

theorem assignParams_iff (nspin : ℕ) (comp : Comp R) (p : List (Mat R)) (v : List (Mat R)) :
    assignParams nspin comp (some p) = .ok v ↔ v = p ∧ ShapesOk nspin comp.nspin p := by
  rcases p with _ | ⟨A, _ | ⟨B, _ | ⟨C, p⟩⟩⟩
  · simp [assignParams, ShapesOk]
  · have e : assignParams nspin comp (some [A]) =
        if (A.nrow = nspin / 2 ∧ A.ncol = comp.nspin / 2) ∨ (A.nrow = nspin ∧ A.ncol = comp.nspin) then .ok [A]
        else .error .valueError := rfl
    by_cases h : (A.nrow = nspin / 2 ∧ A.ncol = comp.nspin / 2) ∨ (A.nrow = nspin ∧ A.ncol = comp.nspin)
    · rw [e, if_pos h, Except.ok.injEq]
      constructor
      · rintro rfl
        exact ⟨rfl, h.elim (fun h => Or.inl ⟨A, rfl, h⟩) fun h => Or.inr (Or.inl ⟨A, rfl, h⟩)⟩
      · intro hv; exact hv.1.symm
    · rw [e, if_neg h]
      simp only [reduceCtorEq, false_iff]
      rintro ⟨-, ⟨A', h', h4⟩ | ⟨A', h', h4⟩ | ⟨A', B', h', -⟩⟩
      · simp only [List.cons.injEq, and_true] at h'; subst h'; exact h (Or.inl h4)
      · simp only [List.cons.injEq, and_true] at h'; subst h'; exact h (Or.inr h4)
      · simp at h'
  · have e : assignParams nspin comp (some [A, B]) =
        if ¬ (A.nrow = nspin / 2 ∧ A.ncol = comp.nspin / 2) then .error .valueError
        else if ¬ (B.nrow = nspin / 2 ∧ B.ncol = comp.nspin / 2) then .error .valueError else .ok [A, B] := rfl
    by_cases h : A.nrow = nspin / 2 ∧ A.ncol = comp.nspin / 2
    · by_cases h' : B.nrow = nspin / 2 ∧ B.ncol = comp.nspin / 2
      · rw [e, if_neg (not_not.2 h), if_neg (not_not.2 h'), Except.ok.injEq]
        constructor
        · rintro rfl
          exact ⟨rfl, Or.inr (Or.inr ⟨A, B, rfl, h, h'⟩)⟩
        · intro hv; exact hv.1.symm
      · rw [e, if_neg (not_not.2 h), if_pos h']
        simp only [reduceCtorEq, false_iff]
        rintro ⟨-, ⟨A', h1, -⟩ | ⟨A', h1, -⟩ | ⟨A', B', h1, h2, h3⟩⟩
        · simp at h1
        · simp at h1
        · simp only [List.cons.injEq, and_true] at h1; obtain ⟨rfl, rfl⟩ := h1; exact h' h3
    · rw [e, if_pos h]
      simp only [reduceCtorEq, false_iff]
      rintro ⟨-, ⟨A', h1, -⟩ | ⟨A', h1, -⟩ | ⟨A', B', h1, h2, h3⟩⟩
      · simp at h1
      · simp at h1
      · simp only [List.cons.injEq, and_true] at h1; obtain ⟨rfl, rfl⟩ := h1; exact h h2
  · simp [assignParams, ShapesOk]

/-- The constructor accepts one or two matrices of the shapes of the three types of orbitals, and nothing else; without a matrix
the orbitals are those of the component. -/
theorem C44_init (nelec nspin : ℕ) (comp : Comp R) (p : Option (List (Mat R))) (w : Nonorth.Wfn R) :
    Nonorth.init nelec nspin comp p = .ok w ↔
      0 < nelec ∧ 0 < nspin ∧ nspin % 2 = 0 ∧ comp.nelec = nelec ∧
      ((∃ v, p = some v ∧ ShapesOk nspin comp.nspin v ∧ w = ⟨nelec, nspin, comp, v⟩) ∨
        (p = none ∧ w = ⟨nelec, nspin, comp, [eye (nspin / 2) (comp.nspin / 2)]⟩)) := by
  simp only [Nonorth.init, CI.checkNelec, CI.checkNspin, bind, Except.bind, pure, Except.pure, throw, throwThe,
    MonadExceptOf.throw]
  by_cases h1 : nelec = 0
  · simp [h1]
  by_cases h2 : nspin = 0 ∨ nspin % 2 = 1
  · simp only [h1, h2, if_true, if_false, reduceCtorEq, false_iff]; omega
  by_cases h3 : comp.nelec = nelec
  · have e1 : 0 < nelec := by omega
    have e2 : 0 < nspin ∧ nspin % 2 = 0 := by omega
    simp only [h1, h2, h3, if_false, ne_eq, not_true_eq_false, e1, true_and]
    rw [← and_assoc, and_iff_right e2]
    rcases p with _ | p
    · simp only [assignParams, Comp.nspatial, Except.ok.injEq, reduceCtorEq, false_and, exists_const, false_or, true_and, eq_comm]
    · cases h : assignParams nspin comp (some p) with
      | error e =>
        simp only [reduceCtorEq, false_iff]
        rintro (⟨v, hv, hs, -⟩ | ⟨hv, -⟩)
        · have := (assignParams_iff nspin comp p p).2 ⟨rfl, by simpa using (Option.some.inj hv) ▸ hs⟩
          rw [h] at this; cases this
        · cases hv
      | ok v =>
        obtain ⟨rfl, hs⟩ := (assignParams_iff nspin comp p v).1 h
        simp only [Except.ok.injEq, Option.some.injEq, reduceCtorEq, false_and, or_false]
        constructor
        · intro hw; exact ⟨_, rfl, hs, hw.symm⟩
        · rintro ⟨_, rfl, -, rfl⟩; rfl
  · simp [h1, h2, h3]

omit [CommRing R] in
/-- The type of the orbitals is told from the shapes. -/
theorem C44_orbtype (nelec nspin : ℕ) (comp : Comp R) (hn : 0 < nspin) (A B : Mat R) :
    (A.nrow = nspin / 2 → (⟨nelec, nspin, comp, [A]⟩ : Nonorth.Wfn R).orbtype = some .restricted) ∧
    (A.nrow = nspin → (⟨nelec, nspin, comp, [A]⟩ : Nonorth.Wfn R).orbtype = some .generalized) ∧
    (A.nrow = nspin / 2 → B.nrow = nspin / 2 → (⟨nelec, nspin, comp, [A, B]⟩ : Nonorth.Wfn R).orbtype = some .unrestricted) := by
  refine ⟨fun h => ?_, fun h => ?_, fun h h' => ?_⟩
  · simp [Wfn.orbtype, Wfn.nspatial, h]
  · simp only [Wfn.orbtype, Wfn.nspatial, h, if_true]
    rw [if_neg (by omega)]
  · simp [Wfn.orbtype, Wfn.nspatial, h, h']

/-! ## Overlaps -/

/-- The overlap of generalized orbitals is the sum of the minors of the matrix times the overlaps of the component. -/
theorem C44_overlap_generalized (nelec nspin : ℕ) (comp : Comp R) (A : Mat R) (hn : 0 < nspin) (h1 : A.nrow = nspin)
    (h2 : A.ncol = comp.nspin) (f : Finset ℕ → R)
    (hf : ∀ T ⊆ range comp.nspin, #T = nelec → comp.overlap (some (sdOf T)) = .ok (f T)) (sd : ℕ) (hsd : sd < 2 ^ nspin) (hc : #(occSet sd) = nelec) :
    (⟨nelec, nspin, comp, [A]⟩ : Nonorth.Wfn R).overlap sd = .ok (transform A.entry comp.nspin f (occSet sd)) := by
  have ht := (C44_orbtype nelec nspin comp hn A A).2.1 h1
  have hS : ∀ i ∈ occSet sd, i < A.nrow := by rw [h1]; exact lt_two_pow_iff.1 hsd
  rw [Wfn.overlap, if_pos ht]
  set g : List ℕ → R := fun cols => f cols.toFinset * Spec.minor A.entry (occSet sd) cols.toFinset with hg
  rw [foldlM_add _ g]
  · rw [sum_comb List.pairwise_lt_range, zero_add, transform, hc, List.toFinset_range]
    congr 1
    apply sum_congr rfl
    intro T _
    rw [hg]
    simp only [sort_toFinset, mul_comm]
  · intro acc cols hcols
    rw [mem_comb] at hcols
    have hlt : cols.Pairwise (· < ·) := List.pairwise_lt_range.sublist hcols.1
    have hnd : cols.Nodup := hlt.imp (fun h => Nat.ne_of_lt h)
    have hcol : cols = cols.toFinset.sort (· ≤ ·) := (List.toFinset_sort _ hnd |>.2 (hlt.imp fun h => h.le)).symm
    have hsub : cols.toFinset ⊆ range comp.nspin := fun i hi => by
      simpa using hcols.1.subset (List.mem_toFinset.1 hi)
    have hcard : #cols.toFinset = #(occSet sd) := by rw [List.toFinset_card_of_nodup hnd, hcols.2, hc]
    have hmin := minor_ok A hS (fun j hj => by rw [h2]; exact mem_range.1 (hsub hj)) hcard
    rw [← hcol, ← occIndices_sort] at hmin
    simp [Wfn.olpGenStep, create_zero hnd, hf _ hsub (by rw [List.toFinset_card_of_nodup hnd, hcols.2]), Wfn.param, hmin, bind, Except.bind, pure, Except.pure, hg]

/-- with a determinant of another number of electrons than the wavefunction, generalized orbitals raise a `ValueError` (`LinAlgError`)
as soon as there is a determinant of the component -/
theorem C44_generalized_electrons (nelec nspin : ℕ) (comp : Comp R) (A : Mat R) (hn : 0 < nspin) (h1 : A.nrow = nspin)
    (h2 : A.ncol = comp.nspin) (f : Finset ℕ → R)
    (hf : ∀ T ⊆ range comp.nspin, #T = nelec → comp.overlap (some (sdOf T)) = .ok (f T)) (sd : ℕ) (hsd : sd < 2 ^ nspin) (hc : #(occSet sd) ≠ nelec) (hle : nelec ≤ comp.nspin) :
    (⟨nelec, nspin, comp, [A]⟩ : Nonorth.Wfn R).overlap sd = .error .valueError := by
  have ht := (C44_orbtype nelec nspin comp hn A A).2.1 h1
  have hS : ∀ i ∈ occSet sd, i < A.nrow := by rw [h1]; exact lt_two_pow_iff.1 hsd
  rw [Wfn.overlap, if_pos ht]
  have hstep : ∀ acc, ∀ cols ∈ comb (List.range comp.nspin) nelec,
      (⟨nelec, nspin, comp, [A]⟩ : Nonorth.Wfn R).olpGenStep (occIndices (some sd)) acc cols = .error .valueError := by
    intro acc cols hcols
    rw [mem_comb] at hcols
    have hnd : cols.Nodup := List.nodup_range.sublist hcols.1
    have hsub : cols.toFinset ⊆ range comp.nspin := fun i hi => by
      simpa using hcols.1.subset (List.mem_toFinset.1 hi)
    have hmin : A.minor (occIndices (some sd)) cols = .error .valueError := by
      rw [Mat.minor, if_neg, if_neg, npDet, if_neg]
      · rw [length_occIndices, hcols.2]; exact hc
      · rw [List.any_eq_true]
        rintro ⟨j, hj, hj'⟩
        have := mem_range.1 (hsub (List.mem_toFinset.2 hj))
        simp at hj'; omega
      · rw [List.any_eq_true]
        rintro ⟨j, hj, hj'⟩
        have := hS j (mem_occSet.2 (mem_occIndices.1 hj))
        simp at hj'; omega
    simp [Wfn.olpGenStep, create_zero hnd, hf _ hsub (by rw [List.toFinset_card_of_nodup hnd, hcols.2]), Wfn.param, hmin, bind, Except.bind]
  have hne : List.range nelec ∈ comb (List.range comp.nspin) nelec := by
    rw [mem_comb, List.length_range]
    exact ⟨List.range_sublist.2 hle, rfl⟩
  simp only
  cases hl : comb (List.range comp.nspin) nelec with
  | nil => rw [hl] at hne; simp at hne
  | cons c cs =>
    rw [List.foldlM_cons, hstep _ c (by rw [hl]; simp)]
    rfl

theorem spinSet_toFinset {n : ℕ} (a b : List ℕ) : (a ++ b.map (· + n)).toFinset = spinSet n a.toFinset b.toFinset := by
  ext k; simp [spinSet]

theorem overlap_spin {w : Nonorth.Wfn R} {A B : Mat R} (ht : w.orbtype ≠ some .generalized) (hA : w.param 0 = .ok A)
    (hB : w.param (if w.orbtype = some .restricted then 0 else 1) = .ok B) {m : ℕ} (hm : 0 < m) (hm1 : w.nspatial = m)
    (hm2 : w.comp.nspatial = m) (hAr : A.nrow = m) (hAc : A.ncol = m) (hBr : B.nrow = m) (hBc : B.ncol = m) {f : Finset ℕ → R}
    (hf : ∀ T ⊆ range (m + m), w.comp.overlap (some (sdOf T)) = .ok (f T)) {sd : ℕ} (hsd : sd < 2 ^ (m + m)) :
    w.overlap sd = .ok (transform (blockDiag m m A.entry B.entry) (m + m) f (occSet sd)) := by
  have ha : ∀ k ∈ occSet (sd % 2 ^ m), k < m := lt_two_pow_iff.1 (Nat.mod_lt _ (by positivity))
  have hb : ∀ k ∈ occSet (sd / 2 ^ m), k < m := lt_two_pow_iff.1 (Nat.div_lt_of_lt_mul (by rwa [← pow_add]))
  rw [Wfn.overlap, if_neg ht, hm1, splitSpin_ok hm, occSet_spinSet sd m, spinSet, transform_blockDiag _ _ _ _ _ ha]
  simp only [bind, Except.bind, hm2, occIndices_sort, length_sort]
  generalize occSet (sd % 2 ^ m) = Sa at *
  generalize occSet (sd / 2 ^ m) = Sb at *
  set G : List ℕ → List ℕ → R := fun ca cb =>
    f (spinSet m ca.toFinset cb.toFinset) * Spec.minor A.entry Sa ca.toFinset * Spec.minor B.entry Sb cb.toFinset with hG
  have hcomb : ∀ {k : ℕ} {c : List ℕ}, c ∈ comb (List.range m) k → c = c.toFinset.sort (· ≤ ·) ∧ c.toFinset ⊆ range m ∧
      #c.toFinset = k ∧ c.Nodup := by
    intro k c hc
    rw [mem_comb] at hc
    have hlt : c.Pairwise (· < ·) := List.pairwise_lt_range.sublist hc.1
    have hnd : c.Nodup := hlt.imp (fun h => Nat.ne_of_lt h)
    exact ⟨((List.toFinset_sort _ hnd).2 (hlt.imp fun h => h.le)).symm,
      fun i hi => by simpa using hc.1.subset (List.mem_toFinset.1 hi), by rw [List.toFinset_card_of_nodup hnd, hc.2], hnd⟩
  rw [foldlM_add _ fun ca => ((comb (List.range m) #Sb).map (G ca)).sum]
  · rw [zero_add, sum_comb List.pairwise_lt_range, transform, List.toFinset_range]
    congr 1
    apply sum_congr rfl
    intro Ta _
    rw [sum_comb List.pairwise_lt_range, transform, List.toFinset_range, mul_sum]
    apply sum_congr rfl
    intro Tb _
    simp only [hG, sort_toFinset, spinSet]
    ring
  · intro acc ca hca
    obtain ⟨c1, c2, c3, c4⟩ := hcomb hca
    have hmin := minorOrOne_ok hA (fun i hi => by rw [hAr]; exact ha i hi) (fun j hj => by rw [hAc]; exact mem_range.1 (c2 hj)) c3
    rw [← c1] at hmin
    simp only [Wfn.olpAlphaStep, hmin, bind, Except.bind, hm2, length_sort]
    rw [foldlM_add _ (G ca)]
    intro acc cb hcb
    obtain ⟨d1, d2, d3, d4⟩ := hcomb hcb
    have hmin' := minorOrOne_ok hB (fun i hi => by rw [hBr]; exact hb i hi) (fun j hj => by rw [hBc]; exact mem_range.1 (d2 hj)) d3
    rw [← d1] at hmin'
    have hnd : (ca ++ cb.map (· + m)).Nodup := by
      rw [List.nodup_append]
      refine ⟨c4, d4.map (add_left_injective m), ?_⟩
      rintro x hx y hy rfl
      obtain ⟨z, _, rfl⟩ := List.mem_map.1 hy
      have := mem_range.1 (c2 (List.mem_toFinset.2 hx)); omega
    have hsub : spinSet m ca.toFinset cb.toFinset ⊆ range (m + m) := by
      intro k hk
      rw [spinSet, mem_union, mem_map] at hk
      rw [mem_range]
      rcases hk with hk | ⟨z, hz, rfl⟩
      · have := mem_range.1 (c2 hk); omega
      · have := mem_range.1 (d2 hz); simp; omega
    simp [Wfn.olpBetaStep, hm1, create_zero hnd, spinSet_toFinset, hf _ hsub, hmin', bind, Except.bind, pure, Except.pure, hG,
      -List.toFinset_append]

/-- The overlap of restricted orbitals is the sum of the minors of the matrix that transforms the alpha and the beta orbitals in the
same way, times the overlaps of the component — if the component has as many orbitals as the wavefunction. -/
theorem C44_overlap_restricted_partial (nelec m : ℕ) (comp : Comp R) (A : Mat R) (hm : 0 < m) (hc : comp.nspin = m + m) (h1 : A.nrow = m)
    (h2 : A.ncol = m) (f : Finset ℕ → R) (hf : ∀ T ⊆ range (m + m), comp.overlap (some (sdOf T)) = .ok (f T)) (sd : ℕ)
    (hsd : sd < 2 ^ (m + m)) :
    (⟨nelec, m + m, comp, [A]⟩ : Nonorth.Wfn R).overlap sd =
      .ok (transform (blockDiag m m A.entry A.entry) (m + m) f (occSet sd)) := by
  have ht := (C44_orbtype nelec (m + m) comp (by omega) A A).1 (by omega)
  refine overlap_spin (by rw [ht]; decide) rfl (by rw [ht]; rfl) hm ?_ ?_ h1 h2 h1 h2 hf hsd
  · show (m + m) / 2 = m; omega
  · show comp.nspin / 2 = m; omega

/-- The overlap of unrestricted orbitals is the sum of the minors of the matrix that transforms the alpha and the beta orbitals
separately, times the overlaps of the component — if the component has as many orbitals as the wavefunction. -/
theorem C44_overlap_unrestricted_partial (nelec m : ℕ) (comp : Comp R) (A B : Mat R) (hm : 0 < m) (hc : comp.nspin = m + m)
    (h1 : A.nrow = m) (h2 : A.ncol = m) (h3 : B.nrow = m) (h4 : B.ncol = m) (f : Finset ℕ → R)
    (hf : ∀ T ⊆ range (m + m), comp.overlap (some (sdOf T)) = .ok (f T)) (sd : ℕ) (hsd : sd < 2 ^ (m + m)) :
    (⟨nelec, m + m, comp, [A, B]⟩ : Nonorth.Wfn R).overlap sd =
      .ok (transform (blockDiag m m A.entry B.entry) (m + m) f (occSet sd)) := by
  have ht := (C44_orbtype nelec (m + m) comp (by omega) A B).2.2 (by omega) (by omega)
  refine overlap_spin (by rw [ht]; decide) rfl (by rw [ht]; rfl) hm ?_ ?_ h1 h2 h3 h4 hf hsd
  · show (m + m) / 2 = m; omega
  · show comp.nspin / 2 = m; omega

/-! ## Composition -/

/-- the product of two matrices -/
def Mat.mul (A B : Mat R) : Mat R := ⟨A.nrow, B.ncol, matMul A.ncol A.entry B.entry⟩

/-- the wavefunction as a component of another one -/
def asComp (w : Nonorth.Wfn R) : Comp R := ⟨w.nelec, w.nspin, fun d => match d with | some sd => w.overlap sd | none => .error .typeError⟩

/-- Transforming generalized orbitals twice is transforming them with the product of the matrices. -/
theorem C44_compose_generalized (nelec n1 n2 : ℕ) (comp : Comp R) (A B : Mat R) (hn1 : 0 < n1) (hn2 : 0 < n2) (hA1 : A.nrow = n2)
    (hA2 : A.ncol = n1) (hB1 : B.nrow = n1) (hB2 : B.ncol = comp.nspin) (f : Finset ℕ → R)
    (hf : ∀ T ⊆ range comp.nspin, #T = nelec → comp.overlap (some (sdOf T)) = .ok (f T)) (sd : ℕ) (hsd : sd < 2 ^ n2)
    (hc : #(occSet sd) = nelec) :
    (⟨nelec, n2, asComp ⟨nelec, n1, comp, [B]⟩, [A]⟩ : Nonorth.Wfn R).overlap sd =
      (⟨nelec, n2, comp, [Mat.mul A B]⟩ : Nonorth.Wfn R).overlap sd := by
  rw [C44_overlap_generalized nelec n2 (asComp ⟨nelec, n1, comp, [B]⟩) A hn2 hA1 hA2 (transform B.entry comp.nspin f) ?_ sd hsd hc,
    C44_overlap_generalized nelec n2 comp (Mat.mul A B) hn2 hA1 hB2 f hf sd hsd hc]
  · rw [Mat.mul, hA2]
    exact congrArg _ (transform_transform ..)
  · intro T hT hT'
    have h := C44_overlap_generalized nelec n1 comp B hn1 hB1 hB2 f hf (sdOf T) (by
      rw [lt_two_pow_iff, occSet_sdOf]; exact fun i hi => mem_range.1 (hT hi)) (by rw [occSet_sdOf, hT'])
    rw [occSet_sdOf] at h
    exact h

theorem matMul_blockDiag (m : ℕ) (A B A' B' : ℕ → ℕ → R) (i j : ℕ) :
    matMul (m + m) (blockDiag m m A B) (blockDiag m m A' B') i j = blockDiag m m (matMul m A A') (matMul m B B') i j := by
  rw [matMul, sum_range_add]
  by_cases h1 : i < m <;> by_cases h2 : j < m <;> simp only [blockDiag, matMul, h1, h2, if_true, if_false] <;>
    [skip; skip; skip; skip]
  · rw [sum_congr rfl (g := fun k => A i k * A' k j) fun k hk => by simp [mem_range.1 hk]]; simp
  · rw [sum_congr rfl (g := fun _ => 0) fun k hk => by simp [mem_range.1 hk]]; simp
  · rw [sum_congr rfl (g := fun _ => 0) fun k hk => by simp [mem_range.1 hk]]; simp
  · rw [sum_congr rfl (g := fun _ => 0) fun k hk => by simp [mem_range.1 hk]]; simp

/-- Transforming unrestricted orbitals twice is transforming them with the products of the matrices. -/
theorem C44_compose_unrestricted_partial (nelec m : ℕ) (comp : Comp R) (A B A' B' : Mat R) (hm : 0 < m) (hc : comp.nspin = m + m)
    (h1 : A.nrow = m ∧ A.ncol = m) (h2 : B.nrow = m ∧ B.ncol = m) (h3 : A'.nrow = m ∧ A'.ncol = m) (h4 : B'.nrow = m ∧ B'.ncol = m)
    (f : Finset ℕ → R) (hf : ∀ T ⊆ range (m + m), comp.overlap (some (sdOf T)) = .ok (f T)) (sd : ℕ) (hsd : sd < 2 ^ (m + m)) :
    (⟨nelec, m + m, asComp ⟨nelec, m + m, comp, [A', B']⟩, [A, B]⟩ : Nonorth.Wfn R).overlap sd =
      (⟨nelec, m + m, comp, [Mat.mul A A', Mat.mul B B']⟩ : Nonorth.Wfn R).overlap sd := by
  rw [C44_overlap_unrestricted_partial nelec m (asComp ⟨nelec, m + m, comp, [A', B']⟩) A B hm rfl h1.1 h1.2 h2.1 h2.2
      (transform (blockDiag m m A'.entry B'.entry) (m + m) f) ?_ sd hsd,
    C44_overlap_unrestricted_partial nelec m comp (Mat.mul A A') (Mat.mul B B') hm hc h1.1 h3.2 h2.1 h4.2 f hf sd hsd,
    transform_transform]
  · congr 2
    funext i j
    rw [matMul_blockDiag, Mat.mul, Mat.mul, h1.2, h2.2]
  · intro T hT
    have h := C44_overlap_unrestricted_partial nelec m comp A' B' hm hc h3.1 h3.2 h4.1 h4.2 f hf (sdOf T) (by
      rw [lt_two_pow_iff, occSet_sdOf]; exact fun i hi => mem_range.1 (hT hi))
    rw [occSet_sdOf] at h
    exact h

/-- Transforming restricted orbitals twice is transforming them with the product of the matrices. -/
theorem C44_compose_restricted_partial (nelec m : ℕ) (comp : Comp R) (A A' : Mat R) (hm : 0 < m) (hc : comp.nspin = m + m)
    (h1 : A.nrow = m ∧ A.ncol = m) (h3 : A'.nrow = m ∧ A'.ncol = m)
    (f : Finset ℕ → R) (hf : ∀ T ⊆ range (m + m), comp.overlap (some (sdOf T)) = .ok (f T)) (sd : ℕ) (hsd : sd < 2 ^ (m + m)) :
    (⟨nelec, m + m, asComp ⟨nelec, m + m, comp, [A']⟩, [A]⟩ : Nonorth.Wfn R).overlap sd =
      (⟨nelec, m + m, comp, [Mat.mul A A']⟩ : Nonorth.Wfn R).overlap sd := by
  rw [C44_overlap_restricted_partial nelec m (asComp ⟨nelec, m + m, comp, [A']⟩) A hm rfl h1.1 h1.2
      (transform (blockDiag m m A'.entry A'.entry) (m + m) f) ?_ sd hsd,
    C44_overlap_restricted_partial nelec m comp (Mat.mul A A') hm hc h1.1 h3.2 f hf sd hsd,
    transform_transform]
  · congr 2
    funext i j
    rw [matMul_blockDiag, Mat.mul, h1.2]
  · intro T hT
    have h := C44_overlap_restricted_partial nelec m comp A' hm hc h3.1 h3.2 f hf (sdOf T) (by
      rw [lt_two_pow_iff, occSet_sdOf]; exact fun i hi => mem_range.1 (hT hi))
    rw [occSet_sdOf] at h
    exact h

/-! ## Derivatives -/

/-- the matrix with one entry shifted by `h` -/
def shiftMat (A : Mat R) (r c : ℕ) (h : R) : Mat R :=
  { A with entry := fun a b => if a = r ∧ b = c then A.entry a b + h else A.entry a b }

theorem sort_idxOf {S : Finset ℕ} {r : ℕ} (hr : r ∈ S) : (S.sort (· ≤ ·)).idxOf r = #{k ∈ S | k < r} := by
  have h : r ∈ S.sort (· ≤ ·) := (mem_sort _).2 hr
  have hk : (S.sort (· ≤ ·)).idxOf r < #S := by
    have := List.idxOf_lt_length_of_mem h
    rwa [length_sort] at this
  have := sort_rank S hk
  rw [getD_idxOf h] at this
  exact this.symm

theorem sort_filter_ne (S : Finset ℕ) (r : ℕ) : (S.sort (· ≤ ·)).filter (· ≠ r) = (S.erase r).sort (· ≤ ·) := by
  apply List.Perm.eq_of_pairwise' (r := (· ≤ ·))
  · exact (pairwise_sort _ _).filter _
  · exact pairwise_sort _ _
  · rw [List.perm_ext_iff_of_nodup ((sort_nodup _ _).filter _) (sort_nodup _ _)]
    intro a
    simp [and_comm]

theorem minor_shift (A : Mat R) {S T : Finset ℕ} (hST : #T = #S) (r c : ℕ) (h : R) :
    Spec.minor (shiftMat A r c h).entry S T = Spec.minor A.entry S T + if r ∈ S ∧ c ∈ T then
      h * (((phase S r : ℤ) : R) * ((phase T c : ℤ) : R) * Spec.minor A.entry (S.erase r) (T.erase c)) else 0 := by
  rw [minor_eq_detL _ hST, minor_eq_detL _ hST]
  split_ifs with hrc
  · rw [shiftMat, detL_shift A.entry (by simp [hST]) (sort_nodup _ _) (sort_nodup _ _) ((mem_sort _).2 hrc.1) ((mem_sort _).2 hrc.2),
      sort_idxOf hrc.1, sort_idxOf hrc.2, sort_filter_ne, sort_filter_ne,
      minor_eq_detL _ (by rw [card_erase_of_mem hrc.1, card_erase_of_mem hrc.2, hST]), phase, phase]
    simp
  · rw [add_zero]
    apply detL_congr (by simp [hST])
    intro a ha b hb
    rw [shiftMat]
    simp only
    rw [if_neg]
    rintro ⟨rfl, rfl⟩
    exact hrc ⟨(mem_sort _).1 ha, (mem_sort _).1 hb⟩

/-- the coefficient of a change of the entry -/
noncomputable def slope (A : Mat R) (n : ℕ) (f : Finset ℕ → R) (S : Finset ℕ) (r c : ℕ) : R :=
  ∑ T ∈ powersetCard (#(S.erase r)) ((range n).erase c), ((phase (S.erase r) r : ℤ) : R) * ((phase T c : ℤ) : R) *
    Spec.minor A.entry (S.erase r) T * f (insert c T)

theorem phase_erase (S : Finset ℕ) (r : ℕ) : phase (S.erase r) r = phase S r := by
  rw [phase, phase]
  congr 2
  ext k; simp only [mem_filter, mem_erase]; constructor
  · rintro ⟨⟨_, h⟩, h'⟩; exact ⟨h, h'⟩
  · rintro ⟨h, h'⟩; exact ⟨⟨by omega, h⟩, h'⟩

theorem transform_shift (A : Mat R) (n : ℕ) (f : Finset ℕ → R) (S : Finset ℕ) {r c : ℕ} (hc : c < n) (h : R) :
    transform (shiftMat A r c h).entry n f S = transform A.entry n f S + if r ∈ S then h * slope A n f S r c else 0 := by
  rw [transform, transform]
  have e : ∀ T ∈ powersetCard #S (range n), Spec.minor (shiftMat A r c h).entry S T * f T = Spec.minor A.entry S T * f T +
      if r ∈ S ∧ c ∈ T then
      h * (((phase S r : ℤ) : R) * ((phase T c : ℤ) : R) * Spec.minor A.entry (S.erase r) (T.erase c)) * f T else 0 := by
    intro T hT
    rw [minor_shift A (mem_powersetCard.1 hT).2]
    split_ifs <;> ring
  rw [sum_congr rfl e, sum_add_distrib]
  congr 1
  split_ifs with hr
  · simp only [hr, true_and]
    rw [← sum_filter, slope, mul_sum]
    refine sum_bij' (fun T _ => T.erase c) (fun T _ => insert c T) ?_ ?_ ?_ ?_ ?_
    · intro T hT
      rw [mem_filter, mem_powersetCard] at hT
      rw [mem_powersetCard, card_erase_of_mem hr, card_erase_of_mem hT.2, hT.1.2]
      exact ⟨erase_subset_erase _ hT.1.1, rfl⟩
    · intro T hT
      rw [mem_powersetCard] at hT
      have hcT : c ∉ T := fun hh => by simpa using hT.1 hh
      rw [mem_filter, mem_powersetCard, card_insert_of_notMem hcT, hT.2, card_erase_of_mem hr]
      have : 0 < #S := card_pos.2 ⟨r, hr⟩
      refine ⟨⟨?_, by omega⟩, mem_insert_self _ _⟩
      intro k hk
      rcases mem_insert.1 hk with rfl | hk
      · simpa using hc
      · exact (mem_erase.1 (hT.1 hk)).2
    · intro T hT
      exact insert_erase (mem_filter.1 hT).2
    · intro T hT
      rw [mem_powersetCard] at hT
      exact erase_insert fun hh => by simpa using hT.1 hh
    · intro T hT
      rw [phase_erase, phase_erase, insert_erase (mem_filter.1 hT).2]
      ring
  · simp [hr]

theorem belowSign_sort (S : Finset ℕ) (r : ℕ) : (belowSign (S.sort (· ≤ ·)) r : R) = ((phase S r : ℤ) : R) := by
  rw [belowSign, filter_sort_length, phase]; simp

theorem occIndices_annihilate {sd row : ℕ} (h : row ∈ occSet sd) :
    occIndices (annihilate (some sd) [row]) = ((occSet sd).erase row).sort (· ≤ ·) := by
  rw [annihilate_of (by simp) (by simpa using mem_occSet.1 h), occIndices_sort, occSet_sdOf]
  congr 1
  ext k; simp [and_comm]

omit [CommRing R] in
/-- writing to positions of an array -/
theorem foldlM_set {n : ℕ} {p : ℕ → Prop} [DecidablePred p] {d : ℕ → R} {step : List R → ℕ → Except PyErr (List R)} (l : List ℕ)
    (hl : ∀ i ∈ l, i < n)
    (hstep : ∀ out : List R, out.length = n → ∀ i ∈ l, step out i = .ok (if p i then out.set i (d i) else out)) (g : ℕ → R) :
    l.foldlM step ((List.range n).map g) = .ok ((List.range n).map fun i => if i ∈ l ∧ p i then d i else g i) := by
  induction l generalizing g with
  | nil => simp [pure, Except.pure]
  | cons i l ih =>
    rw [List.foldlM_cons, hstep _ (by simp) i (by simp)]
    have e : (if p i then ((List.range n).map g).set i (d i) else (List.range n).map g) =
        (List.range n).map fun k => if k = i ∧ p k then d k else g k := by
      split_ifs with hp
      · apply List.ext_getElem
        · simp
        · intro k h1 h2
          rw [List.getElem_set]
          by_cases hk : i = k
          · subst hk; simp [hp]
          · simp [hk, Ne.symm hk]
      · apply List.map_congr_left
        intro k _
        rw [if_neg]
        rintro ⟨rfl, h⟩; exact hp h
    rw [e]
    simp only [bind, Except.bind]
    rw [ih (fun i hi => hl i (by simp [hi])) (fun out ho j hj => hstep out ho j (by simp [hj]))]
    congr 1
    apply List.map_congr_left
    intro k _
    by_cases h1 : k ∈ l <;> by_cases h2 : p k <;> by_cases h3 : k = i <;> simp [h1, h2, h3]
    all_goals (subst h3; simp [h2])

theorem derivGen_eq {nelec nspin : ℕ} {comp : Comp R} {A : Mat R} (h1 : A.nrow = nspin)
    (h2 : A.ncol = comp.nspin) {f : Finset ℕ → R}
    (hf : ∀ T ⊆ range comp.nspin, #T = nelec → comp.overlap (some (sdOf T)) = .ok (f T)) {sd : ℕ} (hsd : sd < 2 ^ nspin)
    (hc : #(occSet sd) = nelec) {row col : ℕ} (hrow : row ∈ occSet sd) (hcol : col < comp.nspin) :
    (⟨nelec, nspin, comp, [A]⟩ : Nonorth.Wfn R).derivGen sd row col = .ok (slope A comp.nspin f (occSet sd) row col) := by
  have hS : ∀ i ∈ (occSet sd).erase row, i < A.nrow := by rw [h1]; exact fun i hi => lt_two_pow_iff.1 hsd i (mem_erase.1 hi).2
  rw [Wfn.derivGen, occIndices_annihilate hrow]
  simp only
  have hl : ((List.range comp.nspin).filter (· ≠ col)).Pairwise (· < ·) := List.pairwise_lt_range.filter _
  have hl' : ((List.range comp.nspin).filter (· ≠ col)).toFinset = (range comp.nspin).erase col := by ext k; simp [and_comm]
  have h0 : 0 < #(occSet sd) := card_pos.2 ⟨row, hrow⟩
  set g : List ℕ → R := fun cols => ((phase ((occSet sd).erase row) row : ℤ) : R) * ((phase cols.toFinset col : ℤ) : R) *
    Spec.minor A.entry ((occSet sd).erase row) cols.toFinset * f (insert col cols.toFinset) with hg
  rw [foldlM_add _ g]
  · rw [sum_comb hl, zero_add, slope, hl', length_sort]
    congr 1
    apply sum_congr rfl
    intro T _
    rw [hg]
    simp only [sort_toFinset]
  · intro acc cols hcols
    rw [mem_comb] at hcols
    have hlt : cols.Pairwise (· < ·) := hl.sublist hcols.1
    have hnd : cols.Nodup := hlt.imp (fun h => Nat.ne_of_lt h)
    have hcs : cols = cols.toFinset.sort (· ≤ ·) := (List.toFinset_sort _ hnd |>.2 (hlt.imp fun h => h.le)).symm
    have hsub : cols.toFinset ⊆ (range comp.nspin).erase col := fun i hi => by
      rw [← hl']; exact List.mem_toFinset.2 (hcols.1.subset (List.mem_toFinset.1 hi))
    have hno : col ∉ cols := fun h => by simpa using hsub (List.mem_toFinset.2 h)
    have hcard : #cols.toFinset = #((occSet sd).erase row) := by rw [List.toFinset_card_of_nodup hnd, hcols.2, length_sort]
    have hmin := minor_ok A hS (fun j hj => by rw [h2]; exact mem_range.1 (mem_erase.1 (hsub hj)).2) hcard
    have hb : (belowSign cols col : R) = ((phase cols.toFinset col : ℤ) : R) := by
      conv_lhs => rw [hcs]
      exact belowSign_sort _ _
    rw [← hcs] at hmin
    have hf' := hf (insert col cols.toFinset) (by
      intro k hk
      rcases mem_insert.1 hk with rfl | hk
      · simpa using hcol
      · exact (mem_erase.1 (hsub hk)).2) (by
      rw [card_insert_of_notMem (by simpa using hno), hcard, card_erase_of_mem hrow]; omega)
    simp only [Wfn.derivGenStep, create_zero (List.nodup_cons.2 ⟨hno, hnd⟩), List.toFinset_cons, hf', Wfn.param, hmin, bind, Except.bind,
      pure, Except.pure, hg, List.getElem?_cons_zero, belowSign_sort, hb]
    congr 1
    ring

/-- The gradient of generalized orbitals with respect to all entries of the matrix: shifting an entry by `h` shifts the overlap by `h`
times the derivative. -/
theorem C44_deriv_generalized_partial (nelec nspin : ℕ) (comp : Comp R) (A : Mat R) (hn : 0 < nspin) (h1 : A.nrow = nspin)
    (h2 : A.ncol = comp.nspin) (f : Finset ℕ → R)
    (hf : ∀ T ⊆ range comp.nspin, #T = nelec → comp.overlap (some (sdOf T)) = .ok (f T)) (sd : ℕ) (hsd : sd < 2 ^ nspin)
    (hc : #(occSet sd) = nelec) :
    ∃ v g, (⟨nelec, nspin, comp, [A]⟩ : Nonorth.Wfn R).overlap sd = .ok v ∧
      (⟨nelec, nspin, comp, [A]⟩ : Nonorth.Wfn R).overlapDeriv sd .self ((List.range (nspin * comp.nspin)).map fun i : ℕ => (i : ℤ)) = .ok g ∧
      g.length = nspin * comp.nspin ∧ ∀ r < nspin, ∀ c < comp.nspin, ∀ h,
        (⟨nelec, nspin, comp, [shiftMat A r c h]⟩ : Nonorth.Wfn R).overlap sd = .ok (v + h * g.getD (r * comp.nspin + c) 0) := by
  set w : Nonorth.Wfn R := ⟨nelec, nspin, comp, [A]⟩ with hw
  have ht : w.orbtype = some .generalized := (C44_orbtype nelec nspin comp hn A A).2.1 h1
  have hnp : w.nparams = nspin * comp.nspin := by simp [hw, Wfn.nparams, h1, h2]
  have hp0 : w.param 0 = .ok A := rfl
  obtain ⟨k, hk⟩ : ∃ k, comp.nspin = k := ⟨_, rfl⟩
  rw [hk] at h2 hf hnp ⊢
  refine ⟨_, (List.range (nspin * k)).map fun i => if i / k ∈ occSet sd then slope A k f (occSet sd) (i / k) (i % k) else 0,
    hk ▸ C44_overlap_generalized nelec nspin comp A hn h1 (h2.trans hk.symm) f (hk ▸ hf) sd hsd hc, ?_, by simp, ?_⟩
  · simp only [Wfn.overlapDeriv]
    rw [if_neg]
    · have e0 : List.replicate (((List.range (nspin * k)).map fun i : ℕ => (i : ℤ)).length) (0 : R) =
          (List.range (nspin * k)).map fun _ => (0 : R) := by simp [List.map_const']
      have e1 : ((List.range (nspin * k)).map fun i : ℕ => (i : ℤ)).map Int.toNat = List.range (nspin * k) := by
        rw [List.map_map]; simp [Function.comp_def]
      rw [e0, e1, foldlM_set (p := fun i => i / k ∈ occSet sd) (d := fun i => slope A k f (occSet sd) (i / k) (i % k)) _ (by simp)]
      · congr 1
        apply List.map_congr_left
        intro i hi
        simp [List.mem_range.1 hi]
      · intro out hout i hi
        rw [List.mem_range] at hi
        have hk0 : 0 < k := by rcases Nat.eq_zero_or_pos k with h | h; · simp [h] at hi
                               · exact h
        have hd : i / (nspin * k) = 0 := Nat.div_eq_of_lt hi
        have hm : i % (nspin * k) = i := Nat.mod_eq_of_lt hi
        have hr : i / k < nspin := Nat.div_lt_of_lt_mul (by rwa [mul_comm])
        by_cases hocc : i / k ∈ occSet sd
        · have hocc' : occ (some sd) (i / k) = true := by rw [occ_some]; exact mem_occSet.1 hocc
          have hg := derivGen_eq (nelec := nelec) h1 (h2.trans hk.symm) (hk ▸ hf) hsd hc hocc (hk ▸ Nat.mod_lt i hk0)
          rw [← hw, hk] at hg
          simp only [Wfn.derivStep, hp0, h1, h2, hd, hm, bind, Except.bind, pure, Except.pure, ht, hocc', Wfn.olpDeriv, hg, hout, hi,
            if_pos hocc]
          simp
        · have hocc' : occ (some sd) (i / k) = false := by
            rw [mem_occSet] at hocc; rw [occ_some]; exact Bool.eq_false_iff.2 hocc
          simp only [Wfn.derivStep, hp0, h1, h2, hd, hm, bind, Except.bind, pure, Except.pure, ht, hocc', if_neg hocc]
          simp
    · rw [hnp]
      simp
      omega
  · intro r hr c hcc h
    have hlt : r * k + c < nspin * k := by nlinarith
    have hd : (r * k + c) / k = r := by
      rw [mul_comm, Nat.mul_add_div (by omega), Nat.div_eq_of_lt hcc]; rfl
    have hm : (r * k + c) % k = c := by rw [mul_comm, Nat.mul_add_mod, Nat.mod_eq_of_lt hcc]
    rw [C44_overlap_generalized nelec nspin comp (shiftMat A r c h) hn h1 (h2.trans hk.symm) f (hk ▸ hf) sd hsd hc, hk, transform_shift _ _ _ _ hcc,
      List.getD_eq_getElem _ _ (by simpa using hlt), List.getElem_map, List.getElem_range, hd, hm]
    split_ifs <;> simp

theorem foldlM_state {σ α : Type} {step : R × σ → α → Except PyErr (R × σ)} {G : α → R} (P : σ → Prop) (l : List α)
    (h : ∀ o s, P s → ∀ x ∈ l, ∃ s', P s' ∧ step (o, s) x = .ok (o + G x, s')) (o : R) (s : σ) (hs : P s) :
    ∃ s', P s' ∧ l.foldlM step (o, s) = .ok (o + (l.map G).sum, s') := by
  induction l generalizing o s with
  | nil => exact ⟨s, hs, by simp [pure, Except.pure]⟩
  | cons x l ih =>
    obtain ⟨s', hs', e⟩ := h o s hs x (by simp)
    obtain ⟨s'', hs'', e'⟩ := ih (fun o s hs y hy => h o s hs y (by simp [hy])) (o + G x) s' hs'
    refine ⟨s'', hs'', ?_⟩
    rw [List.foldlM_cons, e]
    simp only [bind, Except.bind]
    rw [e']
    simp [add_assoc]

theorem comb_facts {m k : ℕ} {p : ℕ → Bool} {c : List ℕ} (hc : c ∈ comb ((List.range m).filter p) k) :
    c = c.toFinset.sort (· ≤ ·) ∧ (∀ i ∈ c, i < m ∧ p i = true) ∧ #c.toFinset = k ∧ c.Nodup := by
  rw [mem_comb] at hc
  have hlt : c.Pairwise (· < ·) := (List.pairwise_lt_range.filter _).sublist hc.1
  have hnd : c.Nodup := hlt.imp (fun h => Nat.ne_of_lt h)
  exact ⟨((List.toFinset_sort _ hnd).2 (hlt.imp fun h => h.le)).symm,
    fun i hi => by simpa using hc.1.subset hi, by rw [List.toFinset_card_of_nodup hnd, hc.2], hnd⟩

theorem comb_facts' {m k : ℕ} {c : List ℕ} (hc : c ∈ comb (List.range m) k) :
    c = c.toFinset.sort (· ≤ ·) ∧ (∀ i ∈ c, i < m) ∧ #c.toFinset = k ∧ c.Nodup := by
  have h := comb_facts (p := fun _ => true) (m := m) (k := k) (c := c) (by simpa using hc)
  exact ⟨h.1, fun i hi => (h.2.1 i hi).1, h.2.2⟩

theorem nodup_spin {m : ℕ} {a b : List ℕ} (ha : ∀ i ∈ a, i < m) (h1 : a.Nodup) (h2 : b.Nodup) : (a ++ b.map (· + m)).Nodup := by
  rw [List.nodup_append]
  refine ⟨h1, h2.map (add_left_injective m), ?_⟩
  rintro x hx y hy rfl
  obtain ⟨z, _, rfl⟩ := List.mem_map.1 hy
  have := ha _ hx; omega

theorem spinSet_sub {m : ℕ} {a b : Finset ℕ} (ha : ∀ i ∈ a, i < m) (hb : ∀ i ∈ b, i < m) : spinSet m a b ⊆ range (m + m) := by
  intro k hk
  rw [spinSet, mem_union, mem_map] at hk
  rw [mem_range]
  rcases hk with hk | ⟨z, hz, rfl⟩
  · have := ha _ hk; omega
  · have := hb _ hz; simp; omega

/-- creation of an orbital on top of the alpha and beta columns -/
theorem create_spin {m col : ℕ} {a b : List ℕ} (ha : ∀ i ∈ a, i < m) (h1 : a.Nodup) (h2 : b.Nodup) (hcol : col < m)
    (hno : col ∉ a) : create (create (some 0) (a ++ b.map (· + m))) [col] = some (sdOf (spinSet m (insert col a.toFinset) b.toFinset)) := by
  rw [create_zero (nodup_spin ha h1 h2), create_of (by simp), occSet_sdOf, spinSet_toFinset]
  · congr 2
    ext k; simp [spinSet]
  · intro i hi
    rw [List.mem_singleton] at hi
    subst hi
    rw [Bool.eq_false_iff, ne_eq, ← mem_occSet, occSet_sdOf, spinSet_toFinset, spinSet, mem_union, mem_map]
    rintro (h | ⟨z, _, h⟩)
    · exact hno (List.mem_toFinset.1 h)
    · simp at h; omega

/-- the derivative with respect to an entry of the alpha matrix -/
theorem derivSpin_alpha {w : Nonorth.Wfn R} {A B : Mat R} (hA : w.param 0 = .ok A)
    (hB : w.param (if w.orbtype = some .restricted then 0 else 1) = .ok B) {m : ℕ} (hm1 : w.nspatial = m)
    (hm2 : w.comp.nspatial = m) (hAr : A.nrow = m) (hAc : A.ncol = m) (hBr : B.nrow = m) (hBc : B.ncol = m) {f : Finset ℕ → R}
    (hf : ∀ T ⊆ range (m + m), w.comp.overlap (some (sdOf T)) = .ok (f T)) {a b : ℕ} (ha : a < 2 ^ m) (hb : b < 2 ^ m)
    {row col : ℕ} (hrow : row ∈ occSet a) (hcol : col < m) :
    w.derivSpin true a b 0 row col =
      .ok (slope A m (fun Ta => transform B.entry m (fun Tb => f (spinSet m Ta Tb)) (occSet b)) (occSet a) row col) := by
  have hSa : ∀ i ∈ (occSet a).erase row, i < A.nrow := by rw [hAr]; exact fun i hi => lt_two_pow_iff.1 ha i (mem_erase.1 hi).2
  have hSb : ∀ i ∈ occSet b, i < B.nrow := by rw [hBr]; exact lt_two_pow_iff.1 hb
  rw [Wfn.derivSpin]
  simp only [if_true, hm2, occIndices_annihilate hrow, occIndices_sort b]
  generalize occSet b = Sb at *
  generalize hSe : (occSet a).erase row = Se at *
  set G : List ℕ → List ℕ → R := fun ca cb => ((phase Se row : ℤ) : R) * ((phase ca.toFinset col : ℤ) : R) *
    Spec.minor A.entry Se ca.toFinset * (Spec.minor B.entry Sb cb.toFinset * f (spinSet m (insert col ca.toFinset) cb.toFinset)) with hG
  have hfold := foldlM_state (R := R) (σ := Bool) (step := w.derivAlphaStep 0 col true
      (if w.orbtype = some OrbType.restricted then 0 else 1) (Se.sort (· ≤ ·)) (Sb.sort (· ≤ ·)) (belowSign (Se.sort (· ≤ ·)) row))
    (G := fun ca => ((comb (List.range m) #Sb).map (G ca)).sum) (fun _ => True)
    (comb ((List.range m).filter (· ≠ col)) (Se.sort (· ≤ ·)).length) ?_ 0 false trivial
  · obtain ⟨s', -, e⟩ := hfold
    simp only [e, bind, Except.bind, pure, Except.pure, zero_add]
    have hl' : ((List.range m).filter (· ≠ col)).toFinset = (range m).erase col := by ext k; simp [and_comm]
    rw [sum_comb (List.pairwise_lt_range.filter _), slope, hl', length_sort, hSe]
    congr 1
    apply sum_congr rfl
    intro Ta _
    rw [sum_comb List.pairwise_lt_range, transform, List.toFinset_range, mul_sum]
    apply sum_congr rfl
    intro Tb _
    simp only [hG, sort_toFinset]
  · intro o s _ ca hca
    obtain ⟨c1, c2, c3, c4⟩ := comb_facts hca
    rw [length_sort] at c3
    have hmin := minorOrOne_ok hA hSa (T := ca.toFinset)
      (fun j hj => by rw [hAc]; exact (c2 _ (List.mem_toFinset.1 hj)).1) c3
    rw [← c1] at hmin
    have hno : col ∉ ca := fun h => by simpa using (c2 _ h).2
    have hbs : (belowSign ca col : R) = ((phase ca.toFinset col : ℤ) : R) := by
      conv_lhs => rw [c1]
      exact belowSign_sort _ _
    refine ⟨true, trivial, ?_⟩
    simp only [Wfn.derivAlphaStep, if_true, hmin, bind, Except.bind, hm2, length_sort, hbs, belowSign_sort]
    have hfold := foldlM_state (R := R) (σ := R) (step := w.derivBetaStep 0 col true
        (if w.orbtype = some OrbType.restricted then 0 else 1) (Sb.sort (· ≤ ·)) ca ((phase Se row : ℤ) : R)
        (Spec.minor A.entry Se ca.toFinset))
      (G := G ca) (fun s => s = ((phase ca.toFinset col : ℤ) : R)) (comb (List.range m) #Sb) ?_ o _ rfl
    · obtain ⟨s', -, e⟩ := hfold
      rw [e]
      rfl
    · rintro o _ rfl cb hcb
      obtain ⟨d1, d2, d3, d4⟩ := comb_facts' hcb
      have hmin' := minorOrOne_ok hB hSb (T := cb.toFinset) (fun j hj => by rw [hBc]; exact d2 _ (List.mem_toFinset.1 hj)) d3
      rw [← d1] at hmin'
      refine ⟨_, rfl, ?_⟩
      have hsub : spinSet m (insert col ca.toFinset) cb.toFinset ⊆ range (m + m) := by
        apply spinSet_sub
        · intro i hi
          rcases mem_insert.1 hi with rfl | hi
          · exact hcol
          · exact (c2 _ (List.mem_toFinset.1 hi)).1
        · intro i hi; exact d2 _ (List.mem_toFinset.1 hi)
      simp only [Wfn.derivBetaStep, if_true, hm1, create_spin (fun i hi => (c2 i hi).1) c4 d4 hcol hno, hf _ hsub, hmin', bind, Except.bind,
        pure, Except.pure, hG, show ¬ (0 = 1) by decide, if_false]
      congr 2
      ring

theorem alpha_bit {sd m r : ℕ} (hr : r < m) : r ∈ occSet (sd % 2 ^ m) ↔ sd.testBit r = true := by
  rw [mem_occSet, Nat.testBit_mod_two_pow]; simp [hr]

theorem beta_bit {sd m r : ℕ} : r ∈ occSet (sd / 2 ^ m) ↔ sd.testBit (r + m) = true := by
  rw [mem_occSet, Nat.testBit_div_two_pow]

theorem flat_index {m r c : ℕ} (hr : r < m) (hc : c < m) :
    r * m + c < m * m ∧ (r * m + c) / m = r ∧ (r * m + c) % m = c := by
  refine ⟨by nlinarith, ?_, ?_⟩
  · rw [mul_comm, Nat.mul_add_div (by omega), Nat.div_eq_of_lt hc]; rfl
  · rw [mul_comm, Nat.mul_add_mod, Nat.mod_eq_of_lt hc]

theorem slope_congr {A : Mat R} {n : ℕ} {f g : Finset ℕ → R} {S : Finset ℕ} {r c : ℕ} (h : ∀ T, f T = g T) :
    slope A n f S r c = slope A n g S r c := by
  rw [funext h]

/-- The derivative with respect to an entry of the alpha matrix of unrestricted orbitals: what the loop writes to the position of the
entry is the coefficient with which the overlap changes. -/
theorem C44_deriv_unrestricted_alpha_partial (nelec m : ℕ) (comp : Comp R) (A B : Mat R) (hm : 0 < m) (hc : comp.nspin = m + m)
    (h1 : A.nrow = m ∧ A.ncol = m) (h2 : B.nrow = m ∧ B.ncol = m) (f : Finset ℕ → R)
    (hf : ∀ T ⊆ range (m + m), comp.overlap (some (sdOf T)) = .ok (f T)) (sd : ℕ) (hsd : sd < 2 ^ (m + m))
    (r c : ℕ) (hr : r < m) (hcc : c < m) :
    ∃ v d, (⟨nelec, m + m, comp, [A, B]⟩ : Nonorth.Wfn R).overlap sd = .ok v ∧
      (∀ out : List R, r * m + c < out.length → (⟨nelec, m + m, comp, [A, B]⟩ : Nonorth.Wfn R).derivStep sd out (r * m + c) =
        .ok (if sd.testBit r then out.set (r * m + c) d else out)) ∧ (sd.testBit r = false → d = 0) ∧
      ∀ h, (⟨nelec, m + m, comp, [shiftMat A r c h, B]⟩ : Nonorth.Wfn R).overlap sd = .ok (v + h * d) := by
  obtain ⟨e1, e2, e3⟩ := flat_index hr hcc
  have ht := (C44_orbtype nelec (m + m) comp (by omega) A B).2.2 (by omega) (by omega)
  have ha : sd % 2 ^ m < 2 ^ m := Nat.mod_lt _ (by positivity)
  have hb : sd / 2 ^ m < 2 ^ m := Nat.div_lt_of_lt_mul (by rwa [← pow_add])
  have hov : ∀ A' : Mat R, A'.nrow = m → A'.ncol = m → (⟨nelec, m + m, comp, [A', B]⟩ : Nonorth.Wfn R).overlap sd = .ok
      (transform A'.entry m (fun Ta => transform B.entry m (fun Tb => f (spinSet m Ta Tb)) (occSet (sd / 2 ^ m))) (occSet (sd % 2 ^ m))) := by
    intro A' h1 h1'
    rw [C44_overlap_unrestricted_partial nelec m comp A' B hm hc h1 h1' h2.1 h2.2 f hf sd hsd, occSet_spinSet sd m, spinSet,
      transform_blockDiag _ _ _ _ _ (lt_two_pow_iff.1 ha)]
    rfl
  set w : Nonorth.Wfn R := ⟨nelec, m + m, comp, [A, B]⟩ with hw
  have hp0 : w.param 0 = .ok A := rfl
  have hns : w.nspatial = m := by show (m + m) / 2 = m; omega
  have hcs : w.comp.nspatial = m := by show comp.nspin / 2 = m; omega
  have hd : (r * m + c) / (m * m) = 0 := Nat.div_eq_of_lt e1
  have hmm : (r * m + c) % (m * m) = r * m + c := Nat.mod_eq_of_lt e1
  refine ⟨_, if sd.testBit r then slope A m (fun Ta => transform B.entry m (fun Tb => f (spinSet m Ta Tb)) (occSet (sd / 2 ^ m)))
    (occSet (sd % 2 ^ m)) r c else 0, hov A h1.1 h1.2, ?_, by intro h; simp [h], ?_⟩
  · intro out hout
    by_cases hocc : sd.testBit r = true
    · have hd' := derivSpin_alpha (w := w) (A := A) (B := B) hp0 (by rw [ht]; rfl) hns hcs h1.1 h1.2 h2.1 h2.2 hf ha hb
        ((alpha_bit hr).2 hocc) hcc
      have hin : w.inAlpha (sd % 2 ^ m) 0 r = true := by simp [Wfn.inAlpha, ht]
      have ho : occ (some (sd % 2 ^ m)) r = true := by rw [occ_some]; exact mem_occSet.1 ((alpha_bit hr).2 hocc)
      simp [Wfn.derivStep, Wfn.olpDeriv, hp0, h1, hd, hmm, e2, e3, bind, Except.bind, pure, Except.pure, ht, hocc, splitSpin_ok hm, hns, ho,
        hin, hd', hout, -occ_some]
      simp [hocc]
    · simp [Wfn.derivStep, hp0, h1, hd, hmm, e2, bind, Except.bind, pure, Except.pure, ht, hocc]
  · intro h
    rw [hov (shiftMat A r c h) h1.1 h1.2, transform_shift _ _ _ _ hcc]
    by_cases hocc : sd.testBit r = true
    · rw [if_pos ((alpha_bit hr).2 hocc), if_pos hocc]
    · rw [if_neg (fun h => hocc ((alpha_bit hr).1 h)), if_neg hocc, mul_zero]

/-- The derivative of restricted orbitals with respect to an entry of a row that is not an occupied beta orbital: what the loop writes
to the position of the entry is the coefficient with which the overlap changes. -/
theorem C44_deriv_restricted_partial (nelec m : ℕ) (comp : Comp R) (A : Mat R) (hm : 0 < m) (hc : comp.nspin = m + m)
    (h1 : A.nrow = m ∧ A.ncol = m) (f : Finset ℕ → R)
    (hf : ∀ T ⊆ range (m + m), comp.overlap (some (sdOf T)) = .ok (f T)) (sd : ℕ) (hsd : sd < 2 ^ (m + m))
    (r c : ℕ) (hr : r < m) (hcc : c < m) (hbeta : sd.testBit (r + m) = false) :
    ∃ v d, (⟨nelec, m + m, comp, [A]⟩ : Nonorth.Wfn R).overlap sd = .ok v ∧
      (∀ out : List R, r * m + c < out.length → (⟨nelec, m + m, comp, [A]⟩ : Nonorth.Wfn R).derivStep sd out (r * m + c) =
        .ok (if sd.testBit r then out.set (r * m + c) d else out)) ∧ (sd.testBit r = false → d = 0) ∧
      ∀ h, (⟨nelec, m + m, comp, [shiftMat A r c h]⟩ : Nonorth.Wfn R).overlap sd = .ok (v + h * d) := by
  obtain ⟨e1, e2, e3⟩ := flat_index hr hcc
  have ht := (C44_orbtype nelec (m + m) comp (by omega) A A).1 (by omega)
  have ha : sd % 2 ^ m < 2 ^ m := Nat.mod_lt _ (by positivity)
  have hb : sd / 2 ^ m < 2 ^ m := Nat.div_lt_of_lt_mul (by rwa [← pow_add])
  have hov : ∀ A' : Mat R, A'.nrow = m → A'.ncol = m → (⟨nelec, m + m, comp, [A']⟩ : Nonorth.Wfn R).overlap sd = .ok
      (transform A'.entry m (fun Ta => transform A'.entry m (fun Tb => f (spinSet m Ta Tb)) (occSet (sd / 2 ^ m))) (occSet (sd % 2 ^ m))) := by
    intro A' h1 h1'
    rw [C44_overlap_restricted_partial nelec m comp A' hm hc h1 h1' f hf sd hsd, occSet_spinSet sd m, spinSet,
      transform_blockDiag _ _ _ _ _ (lt_two_pow_iff.1 ha)]
    rfl
  set w : Nonorth.Wfn R := ⟨nelec, m + m, comp, [A]⟩ with hw
  have hp0 : w.param 0 = .ok A := rfl
  have hns : w.nspatial = m := by show (m + m) / 2 = m; omega
  have hcs : w.comp.nspatial = m := by show comp.nspin / 2 = m; omega
  have hd : (r * m + c) / (m * m) = 0 := Nat.div_eq_of_lt e1
  have hmm : (r * m + c) % (m * m) = r * m + c := Nat.mod_eq_of_lt e1
  have hb' : r ∉ occSet (sd / 2 ^ m) := by rw [beta_bit, hbeta]; simp
  refine ⟨_, if sd.testBit r then slope A m (fun Ta => transform A.entry m (fun Tb => f (spinSet m Ta Tb)) (occSet (sd / 2 ^ m)))
    (occSet (sd % 2 ^ m)) r c else 0, hov A h1.1 h1.2, ?_, by intro h; simp [h], ?_⟩
  · intro out hout
    by_cases hocc : sd.testBit r = true
    · have hd' := derivSpin_alpha (w := w) (A := A) (B := A) hp0 (by rw [ht]; rfl) hns hcs h1.1 h1.2 h1.1 h1.2 hf ha hb
        ((alpha_bit hr).2 hocc) hcc
      have ho : occ (some (sd % 2 ^ m)) r = true := by rw [occ_some]; exact mem_occSet.1 ((alpha_bit hr).2 hocc)
      have ho' : occ (some (sd / 2 ^ m)) r = false := by
        rw [occ_some, Bool.eq_false_iff]; exact fun h => hb' (mem_occSet.2 h)
      have hin : w.inAlpha (sd % 2 ^ m) 0 r = true := by simp [Wfn.inAlpha, ht, ho, -occ_some]
      simp [Wfn.derivStep, Wfn.olpDeriv, hp0, h1, hd, hmm, e2, e3, bind, Except.bind, pure, Except.pure, ht, hocc, splitSpin_ok hm, hns, ho,
        hin, hd', hout, ho', -occ_some]
      simp [hocc]
    · simp [Wfn.derivStep, hp0, h1, hd, hmm, e2, bind, Except.bind, pure, Except.pure, ht, hocc, hns, hbeta]
  · intro h
    rw [hov (shiftMat A r c h) h1.1 h1.2, transform_shift _ _ _ _ hcc]
    have e : (fun Ta => transform (shiftMat A r c h).entry m (fun Tb => f (spinSet m Ta Tb)) (occSet (sd / 2 ^ m))) =
        fun Ta => transform A.entry m (fun Tb => f (spinSet m Ta Tb)) (occSet (sd / 2 ^ m)) := by
      funext Ta
      rw [transform_shift _ _ _ _ hcc, if_neg hb', add_zero]
    rw [e]
    by_cases hocc : sd.testBit r = true
    · rw [if_pos ((alpha_bit hr).2 hocc), if_pos hocc]
    · rw [if_neg (fun h => hocc ((alpha_bit hr).1 h)), if_neg hocc, mul_zero]

/-- Derivatives of other wavefunctions raise a `ValueError`, derivatives of the component a `NotImplementedError`, indices that are not
indices of parameters a `ValueError`. -/
theorem C44_deriv_error (w : Nonorth.Wfn R) (sd : ℕ) (inds : List ℤ) :
    w.overlapDeriv sd .other inds = .error .valueError ∧ w.overlapDeriv sd .comp inds = .error .notImplemented ∧
    ((∃ i ∈ inds, i < 0 ∨ (w.nparams : ℤ) ≤ i) → w.overlapDeriv sd .self inds = .error .valueError) := by
  refine ⟨rfl, rfl, ?_⟩
  rintro ⟨i, hi, h⟩
  simp only [Wfn.overlapDeriv]
  rw [if_pos]
  rw [Bool.or_eq_true, List.any_eq_true, List.any_eq_true]
  exact h.elim (fun h => Or.inl ⟨i, hi, by simpa using h⟩) fun h => Or.inr ⟨i, hi, by simpa using h⟩

/-! ## Witnesses -/

/-- a component with one determinant -/
def oneDet (nelec nspin sd : ℕ) : Comp ℤ := ⟨nelec, nspin, fun d => .ok (if d = some sd then 1 else 0)⟩

/-- the matrix with entries 2, 3, 5, 7, … in rows -/
def primes (m n : ℕ) : Mat ℤ := ⟨m, n, fun i j => [2, 3, 5, 7, 11, 13, 17, 19, 23].getD (i * n + j) 0⟩

/-- If the component has more orbitals than the wavefunction, the beta orbitals of the component are taken to begin at the number of
spatial orbitals of the wavefunction: the overlap of restricted orbitals is not the sum of the minors. -/
theorem C44_more_orbitals : (⟨2, 2, oneDet 2 4 5, [primes 1 2]⟩ : Nonorth.Wfn ℤ).overlap 3 = .ok 6 ∧
    transform (blockDiag 1 2 (primes 1 2).entry (primes 1 2).entry) 4 (fun T => if T = {0, 2} then 1 else 0) {0, 1} = 4 := by
  constructor
  · decide +kernel
  · rw [transform, sum_eq_single_of_mem {0, 2} (by decide) (fun T _ h => by simp [h]), minor_eq_detL _ (by decide),
      show (({0, 2} : Finset ℕ).sort (· ≤ ·)) = [0, 2] from (List.toFinset_sort (l := [0, 2]) _ (by decide)).2 (by decide),
      show (({0, 1} : Finset ℕ).sort (· ≤ ·)) = [0, 1] from (List.toFinset_sort (l := [0, 1]) _ (by decide)).2 (by decide)]
    decide +kernel

/-- Derivatives are written to the position of the parameter, not of its index in the given indices: the derivatives of the parameters 3
and 2 of four parameters do not fit into an array of length two, and those of the parameters 1 and 0 come in the wrong order. -/
theorem C44_deriv_order : (⟨1, 2, oneDet 1 2 2, [primes 2 2]⟩ : Nonorth.Wfn ℤ).overlapDeriv 2 .self [3, 2] = .error .indexError ∧
    (⟨1, 2, oneDet 1 2 2, [primes 2 2]⟩ : Nonorth.Wfn ℤ).overlapDeriv 1 .self [1, 0] = .ok [0, 1] ∧
    (⟨1, 2, oneDet 1 2 2, [primes 2 2]⟩ : Nonorth.Wfn ℤ).overlap 1 = .ok 3 ∧
    (⟨1, 2, oneDet 1 2 2, [shiftMat (primes 2 2) 0 1 1]⟩ : Nonorth.Wfn ℤ).overlap 1 = .ok 4 ∧
    (⟨1, 2, oneDet 1 2 2, [shiftMat (primes 2 2) 0 0 1]⟩ : Nonorth.Wfn ℤ).overlap 1 = .ok 3 := by
  refine ⟨?_, ?_, ?_, ?_, ?_⟩ <;> decide +kernel

/-- The sign of the derivative of the beta orbitals is not reset between the columns: the derivative of unrestricted orbitals with
respect to the entry (0, 1) of the beta matrix has the wrong sign. -/
theorem C44_deriv_beta_sign :
    (⟨2, 6, oneDet 2 6 48, [primes 3 3, primes 3 3]⟩ : Nonorth.Wfn ℤ).olpDeriv 24 10 = .ok (-13) ∧
    (⟨2, 6, oneDet 2 6 48, [primes 3 3, primes 3 3]⟩ : Nonorth.Wfn ℤ).overlap 24 = .ok (3 * 13 - 5 * 11) ∧
    (⟨2, 6, oneDet 2 6 48, [primes 3 3, shiftMat (primes 3 3) 0 1 1]⟩ : Nonorth.Wfn ℤ).overlap 24 = .ok (3 * 13 - 5 * 11 + 13) := by
  refine ⟨?_, ?_, ?_⟩ <;> decide +kernel

/-- The columns of the beta orbitals are a generator that is empty after the first columns of the alpha orbitals: the derivative of
unrestricted orbitals with respect to the entry (0, 0) of the beta matrix lacks terms. -/
theorem C44_deriv_beta_generator :
    (⟨3, 4, oneDet 3 4 14, [primes 2 2, primes 2 2]⟩ : Nonorth.Wfn ℤ).olpDeriv 13 4 = .ok 0 ∧
    (⟨3, 4, oneDet 3 4 14, [primes 2 2, primes 2 2]⟩ : Nonorth.Wfn ℤ).overlap 13 = .ok (3 * (2 * 7 - 3 * 5)) ∧
    (⟨3, 4, oneDet 3 4 14, [primes 2 2, shiftMat (primes 2 2) 0 0 1]⟩ : Nonorth.Wfn ℤ).overlap 13 = .ok (3 * (2 * 7 - 3 * 5) + 3 * 7) := by
  refine ⟨?_, ?_, ?_⟩ <;> decide +kernel

/-- The derivative of restricted orbitals with respect to an entry of a row that is only an occupied beta orbital uses the sign of the
alpha columns. -/
theorem C44_deriv_restricted_beta :
    (⟨2, 4, oneDet 2 4 12, [primes 2 2]⟩ : Nonorth.Wfn ℤ).olpDeriv 12 1 = .ok 5 ∧
    (⟨2, 4, oneDet 2 4 12, [primes 2 2]⟩ : Nonorth.Wfn ℤ).overlap 12 = .ok (2 * 7 - 3 * 5) ∧
    (⟨2, 4, oneDet 2 4 12, [shiftMat (primes 2 2) 0 1 1]⟩ : Nonorth.Wfn ℤ).overlap 12 = .ok (2 * 7 - 3 * 5 - 5) := by
  refine ⟨?_, ?_, ?_⟩ <;> decide +kernel

/-- The derivative of restricted orbitals with respect to an entry of the row of a doubly occupied orbital lacks the signs. -/
theorem C44_deriv_double :
    (⟨3, 4, oneDet 3 4 7, [primes 2 2]⟩ : Nonorth.Wfn ℤ).olpDeriv 7 1 = .ok (5 * 2) ∧
    (⟨3, 4, oneDet 3 4 7, [primes 2 2]⟩ : Nonorth.Wfn ℤ).overlap 7 = .ok ((2 * 7 - 3 * 5) * 2) ∧
    (⟨3, 4, oneDet 3 4 7, [shiftMat (primes 2 2) 0 1 1]⟩ : Nonorth.Wfn ℤ).overlap 7 = .ok ((2 * 7 - 3 * 5) * 2 - 5 * 2) := by
  refine ⟨?_, ?_, ?_⟩ <;> decide +kernel

example : (⟨2, 4, oneDet 2 4 5, [primes 2 2, primes 2 2]⟩ : Nonorth.Wfn ℤ).overlap 9 = .ok (2 * 5) ∧
    ∀ T ⊆ range (2 + 2), (oneDet 2 4 5).overlap (some (sdOf T)) = .ok (if sdOf T = 5 then 1 else 0) :=
  ⟨by decide +kernel, fun T _ => by simp [oneDet]⟩

example : (⟨2, 4, oneDet 2 4 5, [primes 4 4]⟩ : Nonorth.Wfn ℤ).overlapDeriv 3 .self ((List.range 16).map fun i : ℕ => (i : ℤ)) =
    .ok [17, 0, -11, 0, -5, 0, 2, 0, 0, 0, 0, 0, 0, 0, 0, 0] := by decide +kernel

end Fanpy.Props
