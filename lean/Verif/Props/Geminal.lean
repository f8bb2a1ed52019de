import Verif.Lemmas.GeminalCovers
import Verif.Props.Permanent

/-! # C34: overlaps of geminal wavefunctions are coefficients of the product of the geminals -/

namespace Fanpy.Props
open Fanpy.Slater Fanpy.Graphs Fanpy.Geminal Fanpy.Spec Fanpy.MathTools

set_option linter.unusedSectionVars false

variable {R : Type} [Field R]

/-- the pair of orbitals of every column of the coefficient matrix -/
def columns (kind : Kind) (nspin : ℕ) : List (ℕ × ℕ) :=
  match kind with
  | .apg => pairsAll nspin
  | .apsetg => pairsSets nspin
  | .apig pairs => pairs

theorem colInd_ok (w : Geminal.Wfn R) (he : w.nspin % 2 = 0) {p : ℕ × ℕ} (hp : p ∈ columns w.kind w.nspin) :
    w.colInd p = .ok ((columns w.kind w.nspin).idxOf p) := by
  obtain ⟨i, j⟩ := p
  rw [Geminal.Wfn.colInd]
  cases hk : w.kind with
  | apg =>
    rw [hk] at hp
    obtain ⟨h1, h2⟩ := mem_pairsAll.1 hp
    simp only [(C37_apg_col w.nspin i j h1 h2).1]
    rfl
  | apsetg =>
    rw [hk] at hp
    obtain ⟨h1, h2, h3⟩ := mem_pairsSets.1 hp
    simp only [C37_apsetg_col w.nspin i j he h1 h2 h3]
    rfl
  | apig pairs =>
    rw [hk] at hp
    simp only [dictColInd]
    rw [if_pos (show (i, j) ∈ pairs from hp)]; rfl

theorem permanentOf_eq [CharZero R] (few : Bool) (A : Arr2 R) (hr : A.nrow ≠ 0) (hc : A.ncol ≠ 0) :
    permanentOf few A = .ok (perSpec A.nrow A.ncol A.entry) := by
  rw [permanentOf]
  cases few
  · simp only [Bool.false_eq_true, if_false, C20_combinatoric A hr hc]
  · simp only [if_true, C20_ryser A hr hc]

theorem foldlM_olpStep [CharZero R] (w : Geminal.Wfn R) (he : w.nspin % 2 = 0) (hg : w.ngem ≠ 0) {k : ℕ} (hk : k ≠ 0) :
    ∀ (l : List (Scheme × ℤ)) (acc : R × ℕ), (∀ o ∈ l, (∀ p ∈ o.1, p ∈ columns w.kind w.nspin) ∧ o.1.length = k) →
      l.foldlM w.olpStep acc = .ok (acc.1 + (l.map fun o => (o.2 : R) * perSpec w.ngem k fun i j =>
        w.params i ((columns w.kind w.nspin).idxOf (o.1.getD j (0, 0)))).sum, acc.2 + l.length) := by
  intro l
  induction l with
  | nil => intro acc _; simp [pure, Except.pure]
  | cons o l ih =>
    intro acc h
    obtain ⟨h1, h2⟩ := h o (List.mem_cons_self ..)
    have hstep : w.olpStep acc o = .ok (acc.1 + (o.2 : R) * perSpec w.ngem k (fun i j =>
        w.params i ((columns w.kind w.nspin).idxOf (o.1.getD j (0, 0)))), acc.2 + 1) := by
      rw [Geminal.Wfn.olpStep, if_neg (by omega), mapM_eq_ok o.1 (fun p hp => colInd_ok w he (h1 p hp))]
      simp only [bind, Except.bind, pure, Except.pure, permanent]
      rw [permanentOf_eq _ _ (by simpa [subMatrix] using hg) (by simpa [subMatrix, List.length_eq_zero_iff] using fun h => hk (by rw [← h2, h]; rfl))]
      simp only [subMatrix, List.length_range, List.length_map, h2]
      congr 4
      apply perSpec_congr
      intro i j hi hj
      rw [List.getD_eq_getElem _ _ (by simpa using hi), List.getD_eq_getElem _ _ (by simpa [h2] using hj),
        List.getElem_range, List.getElem_map, List.getD_eq_getElem _ _ (by omega)]
    rw [List.foldlM_cons, hstep]
    simp only [bind, Except.bind]
    rw [ih _ (fun o ho => h o (List.mem_cons_of_mem _ ho))]
    simp only [List.map_cons, List.sum_cons, List.length_cons]
    congr 2
    · ring
    · omega

/-- the overlap, once the pairing schemes are known -/
theorem overlap_of_covers [CharZero R] (w : Geminal.Wfn R) (he : w.nspin % 2 = 0) {sd k : ℕ} (hk : k ≠ 0)
    (hkn : k ≤ w.ngem) {s : Finset ℕ} {out gen : List (Scheme × ℤ)} {c : ℤ}
    (hp : (columns w.kind w.nspin).Nodup) (hcov : Covers (columns w.kind w.nspin) s k out)
    (hgen : w.orbpairs (occIndices (some sd)) = .ok gen)
    (h : gen = out.map (fun o => (o.1, c * o.2)) ∨ gen = [([], 1)] ∧ out = []) :
    w.overlap sd = .ok (c * gemState (columns w.kind w.nspin) w.params w.ngem k s) := by
  rw [Geminal.Wfn.overlap, hgen, gemState_coeff hp _ hcov]
  rcases h with rfl | ⟨rfl, rfl⟩
  · simp only [bind, Except.bind]
    rw [foldlM_olpStep w he (by omega) hk _ _ (by
      intro o ho
      obtain ⟨o', ho', rfl⟩ := List.mem_map.1 ho
      exact ⟨hcov.sub o' ho', hcov.len o' ho'⟩)]
    simp only [pure, Except.pure, zero_add, List.length_map, List.map_map]
    have hper : ∀ o : Scheme × ℤ, perSpec w.ngem k (fun i j => w.params i ((columns w.kind w.nspin).idxOf
        (o.1.getD j (0, 0)))) = ∑ e : Fin k ↪ Fin w.ngem, ∏ j, w.params (e j) ((columns w.kind w.nspin).idxOf
        (o.1.getD j (0, 0))) := by
      intro o
      rw [← perSpec_transpose, perSpec, if_pos hkn]
    congr 1
    rw [← List.sum_map_mul_left]
    rcases out with - | ⟨o, out⟩
    · simp
    · rw [if_neg (by simp)]
      congr 1
      apply List.map_congr_left
      intro o _
      simp only [Function.comp, hper]
      push_cast
      ring
  · simp [bind, Except.bind, pure, Except.pure, Geminal.Wfn.olpStep]

theorem apg_overlap [CharZero R] (w : Geminal.Wfn R) (hw : w.kind = .apg) (he : w.nspin % 2 = 0) {sd k : ℕ}
    (hk : k ≠ 0) (hkn : k ≤ w.ngem) (hsd : sd < 2 ^ w.nspin) (hc : (occSet sd).card = 2 * k) :
    w.overlap sd = .ok (gemState (pairsAll w.nspin) w.params w.ngem k (occSet sd)) := by
  obtain ⟨out, h1, h2⟩ := covers_all (l := occIndices (some sd)) (nspin := w.nspin) (k := k)
    (by rw [length_occIndices, hc]) (sorted_occIndices sd) (fun x hx => by
      rw [lt_two_pow_iff] at hsd
      exact hsd x (mem_occSet.2 (mem_occIndices.1 hx)))
  have hcol : columns w.kind w.nspin = pairsAll w.nspin := by rw [hw]; rfl
  rw [toFinset_occIndices] at h2
  have := overlap_of_covers w he hk hkn (c := 1) (by rw [hcol]; exact nodup_pairsAll _) (hcol ▸ h2) (sd := sd)
    (gen := out) (by
      rw [Geminal.Wfn.orbpairs, hw]
      simp only [h1]
      rw [mapM_eq_ok (g := fun p => (p.1.getD [], p.2))]
      · rw [List.map_map]
        congr 1
        simp [Function.comp_def]
      · intro p hp
        obtain ⟨o, -, rfl⟩ := List.mem_map.1 hp
        rfl) (Or.inl (by simp))
  rw [this, hcol]
  simp

theorem apsetg_overlap [CharZero R] (w : Geminal.Wfn R) (hw : w.kind = .apsetg) (he : w.nspin % 2 = 0) {sd k : ℕ}
    (hk : k ≠ 0) (hkn : k ≤ w.ngem) (hsd : sd < 2 ^ w.nspin) (hc : (occSet sd).card = 2 * k) :
    w.overlap sd = .ok (gemState (pairsSets w.nspin) w.params w.ngem k (occSet sd)) := by
  have hcol : columns w.kind w.nspin = pairsSets w.nspin := by rw [hw]; rfl
  have hb : ∀ x ∈ occIndices (some sd), x < w.nspin := fun x hx => by
    rw [lt_two_pow_iff] at hsd
    exact hsd x (mem_occSet.2 (mem_occIndices.1 hx))
  have hlen : ((occIndices (some sd)).filter (· < w.nspin / 2)).length +
      ((occIndices (some sd)).filter fun i => ¬ i < w.nspin / 2).length = 2 * k := by
    rw [← hc, ← length_occIndices, ← List.length_append]
    have := List.filter_append_perm (fun i => decide (i < w.nspin / 2)) (occIndices (some sd))
    simp only [← decide_not] at this
    exact this.length_eq
  by_cases hab : ((occIndices (some sd)).filter (· < w.nspin / 2)).length =
      ((occIndices (some sd)).filter fun i => ¬ i < w.nspin / 2).length
  · obtain ⟨out, h1, h2⟩ := covers_sets (k := k) (by omega) (sorted_occIndices sd) hb (by omega) (by omega)
    rw [toFinset_occIndices] at h2
    have := overlap_of_covers w he hk hkn (c := 1) (by rw [hcol]; exact nodup_pairsSets _) (hcol ▸ h2) (sd := sd)
      (gen := out) (by
        rw [Geminal.Wfn.orbpairs, hw]
        simp only [h1, bind, Except.bind]) (Or.inl (by simp))
    rw [this, hcol]
    simp
  · obtain ⟨h1, h2⟩ := covers_sets_ne (k := k) (sorted_occIndices sd) hab
    rw [toFinset_occIndices] at h2
    have := overlap_of_covers w he hk hkn (c := 1) (by rw [hcol]; exact nodup_pairsSets _) (hcol ▸ h2) (sd := sd)
      (gen := [([], 1)]) (by
        rw [Geminal.Wfn.orbpairs, hw]
        simp only [h1, bind, Except.bind]) (Or.inr ⟨rfl, rfl⟩)
    rw [this, hcol]
    simp

theorem neg_one_pow_pairs (k : ℕ) : (-1 : ℤ) ^ (2 * k * (2 * k - 1) / 2) = (-1) ^ k := by
  rw [mul_assoc, Nat.mul_div_cancel_left _ (by norm_num)]
  rcases k with - | k
  · rfl
  · rw [show 2 * (k + 1) - 1 = 2 * k + 1 by omega, pow_mul, pow_add, pow_mul, pow_one]
    rcases neg_one_pow_eq_or ℤ (k + 1) with h | h <;> rw [h] <;> simp

theorem apig_overlap [CharZero R] (w : Geminal.Wfn R) {pairs : List (ℕ × ℕ)} (hw : w.kind = .apig pairs)
    (hpairs : (flatPairs pairs).Nodup) (he : w.nspin % 2 = 0) {sd k : ℕ}
    (hk : k ≠ 0) (hkn : k ≤ w.ngem) (hn : w.nelec = 2 * k) (hc : (occSet sd).card = w.nelec) :
    w.overlap sd = .ok ((-1) ^ k * gemState pairs w.params w.ngem k (occSet sd)) := by
  have hcol : columns w.kind w.nspin = pairs := by rw [hw]; rfl
  have hcov := covers_apig hpairs (nodup_occIndices sd) (k := k) (by rw [length_occIndices]; omega)
  have hlen : (occIndices (some sd)).length = w.nelec := by rw [length_occIndices]; omega
  rw [toFinset_occIndices] at hcov
  have hsub : apigSelect pairs (occIndices (some sd)) ⊆ pairs := fun p hp => ((mem_apigSelect hpairs).1 hp).1
  have hnf := flatPairs_nodup_sub hpairs (nodup_apigSelect (nodup_occIndices sd)) hsub
  have horb : w.orbpairs (occIndices (some sd)) =
      if occSet sd ≠ (flatPairs (apigSelect pairs (occIndices (some sd)))).toFinset then .ok [([], 1)]
      else .ok [(apigSelect pairs (occIndices (some sd)),
        listSign (flatPairs (apigSelect pairs (occIndices (some sd)))).reverse)] := by
    rw [Geminal.Wfn.orbpairs, hw]
    simp only [ne_eq, hlen, not_true_eq_false, if_false, signPerm_true _ hnf, bind, Except.bind, pure, Except.pure,
      toFinset_occIndices]
  have hp : pairs.Nodup := nodup_of_flatPairs hpairs
  split_ifs at hcov horb with hcase
  · have := overlap_of_covers w he hk hkn (c := (-1) ^ k) (hcol ▸ hp) (hcol ▸ hcov) (sd := sd) horb
      (Or.inr ⟨rfl, rfl⟩)
    rw [this, hcol]
    push_cast; rfl
  · have := overlap_of_covers w he hk hkn (c := (-1) ^ k) (hcol ▸ hp) (hcol ▸ hcov) (sd := sd) horb
      (Or.inl (by
        have hl : (flatPairs (apigSelect pairs (occIndices (some sd)))).length = 2 * k := by
          rw [flatPairs_length_even, hcov.len _ (List.mem_singleton_self _)]
        rw [List.map_cons, List.map_nil, listSign_reverse hnf, hl, neg_one_pow_pairs]
        simp only [hcol]))
    rw [this, hcol]
    push_cast; rfl

/-! ## The constructors -/

theorem geminal_init_ok (kind : Kind) (nelec nspin : ℕ) (ngem : Option ℕ) (op : Option (List (ℕ × ℕ)))
    (params : ℕ → ℕ → R) (w : Geminal.Wfn R) :
    Geminal.Wfn.init kind nelec nspin ngem op params = .ok w ↔
      (nelec ≠ 0 ∧ nelec % 2 = 0 ∧ nspin ≠ 0 ∧ nspin % 2 = 0 ∧ nelec / 2 ≤ ngem.getD (nelec / 2)) ∧
      ∃ kind', assignOrbpairs kind nspin op = .ok kind' ∧ w = ⟨kind', nelec, nspin, ngem.getD (nelec / 2), params⟩ := by
  rw [Geminal.Wfn.init, Geminal.checkNelec, CI.checkNelec, CI.checkNspin, assignNgem]
  by_cases h1 : nelec = 0
  · simp [h1, bind, Except.bind]
  by_cases h2 : nelec % 2 = 0
  swap
  · simp [h1, h2, bind, Except.bind]
  by_cases h3 : nspin = 0 ∨ nspin % 2 = 1
  · simp only [h1, h2, h3, bind, Except.bind, if_true, if_false, pure, Except.pure, ne_eq, not_true_eq_false,
      reduceCtorEq, false_iff]
    rintro ⟨⟨-, -, a, b, -⟩, -⟩
    omega
  by_cases h4 : ngem.getD (nelec / 2) < nelec / 2
  · simp only [h1, h2, h3, h4, bind, Except.bind, if_true, if_false, pure, Except.pure, ne_eq, not_true_eq_false,
      reduceCtorEq, false_iff]
    rintro ⟨⟨-, -, -, -, a⟩, -⟩
    omega
  simp only [h1, h2, h3, h4, bind, Except.bind, if_false, pure, Except.pure, ne_eq, not_true_eq_false]
  have hside : (True ∧ True ∧ ¬ nspin = 0 ∧ nspin % 2 = 0 ∧ nelec / 2 ≤ ngem.getD (nelec / 2)) :=
    ⟨trivial, trivial, by omega, by omega, by omega⟩
  rcases ha : assignOrbpairs kind nspin op with e | kind'
  · simp
  · constructor
    · intro h
      have : (⟨kind', nelec, nspin, ngem.getD (nelec / 2), params⟩ : Geminal.Wfn R) = w := by injection h
      exact ⟨by simpa using hside, kind', rfl, this.symm⟩
    · rintro ⟨-, k, hk, rfl⟩
      obtain rfl : kind' = k := by injection hk
      rfl

theorem foldlM_addOrbpair : ∀ (l acc pairs : List (ℕ × ℕ)), (∀ p ∈ acc, p.1 < p.2) →
    l.foldlM addOrbpair acc = .ok pairs → ∀ p ∈ pairs, p.1 < p.2 := by
  intro l
  induction l with
  | nil =>
    intro acc pairs h he
    have : acc = pairs := by injection he
    rwa [← this]
  | cons q l ih =>
    intro acc pairs h he
    rw [List.foldlM_cons, addOrbpair] at he
    by_cases hq : q.1 = q.2
    · rw [if_pos hq] at he; cases he
    · rw [if_neg hq] at he
      simp only at he
      split_ifs at he with h1 h2 h2
      · cases he
      · refine ih _ pairs ?_ he
        intro p hp
        rcases List.mem_append.1 hp with hp | hp
        · exact h p hp
        · rw [List.mem_singleton] at hp; subst hp; simp only; omega
      · cases he
      · refine ih _ pairs ?_ he
        intro p hp
        rcases List.mem_append.1 hp with hp | hp
        · exact h p hp
        · rw [List.mem_singleton] at hp; subst hp; omega

/-- The pairs of an `APIG` are ordered, disjoint, and as many as needed. -/
theorem apigOrbpairs_ok {nspin : ℕ} {op : Option (List (ℕ × ℕ))} {pairs : List (ℕ × ℕ)}
    (h : apigOrbpairs nspin op = .ok pairs) :
    (∀ p ∈ pairs, p.1 < p.2) ∧ (flatPairs pairs).Nodup ∧ 2 * pairs.length = nspin := by
  rw [apigOrbpairs] at h
  rcases hb : baseOrbpairs (op.getD ((List.range (nspin / 2)).map fun i => (i, i + nspin / 2))) with e | q
  · rw [hb] at h; cases h
  · rw [hb] at h
    simp only [bind, Except.bind, pure, Except.pure] at h
    split_ifs at h with h1 h2
    · obtain rfl : q = pairs := by injection h
      refine ⟨foldlM_addOrbpair _ [] q (by simp) hb, ?_, ?_⟩
      · rw [ne_eq, not_not] at h1
        rw [← List.dedup_eq_self]
        exact ((List.dedup_sublist _).eq_of_length h1.symm)
      · rw [ne_eq, not_not, flatPairs_length_even] at h2; omega

/-! ## The property -/

/-- C34. The overlap of an `APG` wavefunction with a determinant of its electrons is the coefficient of the determinant
in the product of the geminals (in the sum of the products of `npair` geminals, if there are more geminals than
pairs). -/
theorem C34_apg_partial [CharZero R] (nelec nspin : ℕ) (ngem : Option ℕ) (params : ℕ → ℕ → R) (w : Geminal.Wfn R)
    (hw : Geminal.Wfn.init .apg nelec nspin ngem none params = .ok w) (sd : ℕ) (hsd : sd < 2 ^ nspin)
    (hc : (occSet sd).card = nelec) :
    w.overlap sd = .ok (gemState (pairsAll nspin) params (ngem.getD (nelec / 2)) (nelec / 2) (occSet sd)) := by
  obtain ⟨⟨h1, h2, -, h4, h5⟩, kind', hk, rfl⟩ := (geminal_init_ok ..).1 hw
  obtain rfl : Kind.apg = kind' := by injection hk
  exact apg_overlap _ rfl h4 (by omega) h5 hsd (by omega)

example : Geminal.Wfn.init .apg 4 6 (some 3) none (fun i j => (i + 2 * j : ℚ)) =
    .ok ⟨.apg, 4, 6, 3, fun i j => i + 2 * j⟩ ∧ 45 < 2 ^ 6 ∧ (occSet 45).card = 4 :=
  ⟨rfl, by norm_num, by decide +kernel⟩

/-- C34. The same for `BasicAPsetG`; the geminals are made of one orbital of the first half and one of the second. -/
theorem C34_apsetg_partial [CharZero R] (nelec nspin : ℕ) (ngem : Option ℕ) (params : ℕ → ℕ → R) (w : Geminal.Wfn R)
    (hw : Geminal.Wfn.init .apsetg nelec nspin ngem none params = .ok w) (sd : ℕ) (hsd : sd < 2 ^ nspin)
    (hc : (occSet sd).card = nelec) :
    w.overlap sd = .ok (gemState (pairsSets nspin) params (ngem.getD (nelec / 2)) (nelec / 2) (occSet sd)) := by
  obtain ⟨⟨h1, h2, -, h4, h5⟩, kind', hk, rfl⟩ := (geminal_init_ok ..).1 hw
  obtain rfl : Kind.apsetg = kind' := by injection hk
  exact apsetg_overlap _ rfl h4 (by omega) h5 hsd (by omega)

example : Geminal.Wfn.init .apsetg 4 6 none none (fun i j => (i + 2 * j : ℚ)) =
    .ok ⟨.apsetg, 4, 6, 2, fun i j => i + 2 * j⟩ ∧ 27 < 2 ^ 6 ∧ (occSet 27).card = 4 :=
  ⟨rfl, by norm_num, by decide +kernel⟩

/-- C34. For an `APIG` wavefunction the overlap has in addition the sign `(-1) ** npair`: the signature of the pairs is
taken with respect to the decreasing order. -/
theorem C34_apig_partial [CharZero R] (nelec nspin : ℕ) (ngem : Option ℕ) (op : Option (List (ℕ × ℕ))) (old : List (ℕ × ℕ))
    (params : ℕ → ℕ → R) (w : Geminal.Wfn R) (pairs : List (ℕ × ℕ)) (hp : apigOrbpairs nspin op = .ok pairs)
    (hw : Geminal.Wfn.init (.apig old) nelec nspin ngem op params = .ok w) (sd : ℕ)
    (hc : (occSet sd).card = nelec) :
    w.overlap sd = .ok ((-1) ^ (nelec / 2) *
      gemState pairs params (ngem.getD (nelec / 2)) (nelec / 2) (occSet sd)) := by
  obtain ⟨⟨h1, h2, -, h4, h5⟩, kind', hk, rfl⟩ := (geminal_init_ok ..).1 hw
  simp only [assignOrbpairs, hp, bind, Except.bind, pure, Except.pure] at hk
  obtain rfl : Kind.apig pairs = kind' := by injection hk
  exact apig_overlap _ rfl (apigOrbpairs_ok hp).2.1 h4 (by omega) h5 (by simp only; omega) hc

example : apigOrbpairs 6 none = .ok [(0, 3), (1, 4), (2, 5)] ∧ (occSet 27).card = 4 ∧
    apigOrbpairs 4 (some [(3, 0), (1, 2)]) = .ok [(0, 3), (1, 2)] ∧
    Geminal.Wfn.init (.apig []) 4 6 (some 3) none (fun i j => (i + 2 * j : ℚ)) =
      .ok ⟨.apig [(0, 3), (1, 4), (2, 5)], 4, 6, 3, fun i j => i + 2 * j⟩ :=
  ⟨rfl, by decide +kernel, rfl, rfl⟩

/-- C34. `APIG` raises a `ValueError` for a determinant with another number of electrons. -/
theorem C34_apig_raises (w : Geminal.Wfn R) (pairs : List (ℕ × ℕ)) (hw : w.kind = .apig pairs) (sd : ℕ)
    (hc : (occSet sd).card ≠ w.nelec) : w.overlap sd = .error .valueError := by
  rw [Geminal.Wfn.overlap, Geminal.Wfn.orbpairs, hw]
  simp only
  rw [if_pos (by rw [length_occIndices]; exact hc)]
  rfl

theorem overlap_nil (w : Geminal.Wfn R) {sd : ℕ} (h : w.orbpairs (occIndices (some sd)) = .ok [([], 1)]) :
    w.overlap sd = .ok 0 := by
  rw [Geminal.Wfn.overlap, h]
  simp [Geminal.Wfn.olpStep, bind, Except.bind, pure, Except.pure]

/-- C34. `APG` gives zero to the vacuum and to every determinant with an odd number of electrons. -/
theorem C34_apg_odd (w : Geminal.Wfn R) (hw : w.kind = .apg) (sd : ℕ)
    (hc : (occSet sd).card = 0 ∨ (occSet sd).card % 2 = 1) : w.overlap sd = .ok 0 := by
  apply overlap_nil
  have hl := length_occIndices sd
  rw [Geminal.Wfn.orbpairs, hw]
  simp only [C15_degenerate _ _ (show (occIndices (some sd)).length % 2 = 1 ∨ (occIndices (some sd)).length < 2 by omega)]
  rfl

/-- C34. `BasicAPsetG` gives zero to every determinant whose electrons are not evenly divided between the two sets. -/
theorem C34_apsetg_uneven (w : Geminal.Wfn R) (hw : w.kind = .apsetg) (sd : ℕ)
    (hc : ((occSet sd).filter (· < w.nspin / 2)).card ≠ ((occSet sd).filter fun i => ¬ i < w.nspin / 2).card) :
    w.overlap sd = .ok 0 := by
  apply overlap_nil
  obtain ⟨h1, -⟩ := covers_sets_ne (k := 0) (nspin := w.nspin) (sorted_occIndices sd) (by
    intro h
    apply hc
    rw [← toFinset_occIndices]
    have e1 := List.toFinset_card_of_nodup ((nodup_occIndices sd).filter (fun i => decide (i < w.nspin / 2)))
    have e2 := List.toFinset_card_of_nodup ((nodup_occIndices sd).filter (fun i => decide (¬ i < w.nspin / 2)))
    rw [List.toFinset_filter] at e1 e2
    simp only [decide_eq_true_eq] at e1 e2
    rw [e1, e2, h])
  rw [Geminal.Wfn.orbpairs, hw]
  simp only [h1, bind, Except.bind]

/-- C34 fails for determinants with more electrons than the wavefunction: `APG(2, 4)` gives a non-zero overlap to a
determinant with four electrons. -/
theorem C34_apg_excess : ∃ w : Geminal.Wfn ℚ,
    Geminal.Wfn.init .apg 2 4 none none (fun _ _ => (1 : ℚ)) = .ok w ∧ w.overlap 15 = .ok 2 ∧
      ∀ k ≤ 1, gemState (pairsAll 4) w.params w.ngem k (occSet 15) = 0 := by
  refine ⟨⟨.apg, 2, 4, 1, fun _ _ => 1⟩, rfl, ?_, ?_⟩
  · have hocc : occIndices (some 15) = [0, 1, 2, 3] := by decide +kernel
    rw [Geminal.Wfn.overlap, hocc]
    have ho : (⟨.apg, 2, 4, 1, fun _ _ => 1⟩ : Geminal.Wfn ℚ).orbpairs [0, 1, 2, 3] =
        .ok [([(0, 1), (2, 3)], 1), ([(0, 2), (1, 3)], -1), ([(0, 3), (1, 2)], 1)] := by
      rw [Geminal.Wfn.orbpairs]
      simp only [show [0, 1, 2, 3] = ([] ++ [0, 1] : List ℕ) ++ [2, 3] from rfl]
      rw [completePmatch_pair _ _ _ _ (by rfl), completePmatch_pair _ _ _ _ (by rfl), completePmatch_nil]
      rfl
    rw [ho]
    simp only [bind, Except.bind]
    rw [foldlM_olpStep _ rfl (by decide) (k := 2) (by decide) _ _ (by decide)]
    simp [pure, Except.pure, perSpec]
  · intro k hk
    apply gemState_card
    rw [show (occSet 15).card = 4 by decide +kernel]
    omega

end Fanpy.Props
