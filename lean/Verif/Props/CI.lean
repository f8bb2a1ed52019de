import Verif.Lemmas.CI
import Verif.Props.HamDeriv

/-!
# C33: overlaps of the CI wavefunctions

The overlap with a determinant is the parameter at its position in the list of determinants, zero for other determinants;
derivatives are one-hot vectors.  This survives any sequence of assignments of parameters, but not `assign_sds`: the lookup
table made by the constructor is never refreshed.
-/

namespace Fanpy.Props
open Fanpy.CI Fanpy.Slater Fanpy.SdList Fanpy.Spec Fanpy.Lemmas

/-- the conditions on the determinants of a CI wavefunction: number of electrons, spin, seniority -/
def SdFits (nelec nspin : ℕ) (twoSpin seniority : Option ℤ) (sd : ℕ) : Prop :=
  (occSet sd).card = nelec ∧
  (∀ t ∈ twoSpin, ((alphaSet sd (nspin / 2)).card : ℤ) - (betaSet sd (nspin / 2)).card = t) ∧
  ∀ k ∈ seniority, ((symmDiff (alphaSet sd (nspin / 2)) (betaSet sd (nspin / 2))).card : ℤ) = k

instance (nelec nspin : ℕ) (t s : Option ℤ) (sd : ℕ) : Decidable (SdFits nelec nspin t s sd) :=
  inferInstanceAs (Decidable (_ ∧ _ ∧ _))

theorem checkSd_eq {nspin : ℕ} (hn : 0 < nspin / 2) (nelec : ℕ) (t s : Option ℤ) (sd : ℕ) :
    checkSd nelec nspin t s sd = if SdFits nelec nspin t s sd then .ok () else .error .valueError := by
  have h := C07_spin_seniority sd (nspin / 2) hn
  unfold checkSd
  rw [totalOcc_eq]
  simp only [h.1, h.2]
  by_cases h0 : (occSet sd).card = nelec
  · cases t <;> cases s <;>
      simp only [SdFits, h0, ne_eq, not_true, if_false, Option.mem_def, reduceCtorEq, false_imp_iff, implies_true,
        Option.some.injEq, forall_eq', true_and, and_true, if_true, bind, Except.bind, pure, Except.pure, ite_not]
    all_goals (split_ifs <;> simp_all)
  · simp [SdFits, h0]

theorem assignSds_eq {nspin : ℕ} (hn : 0 < nspin / 2) (nelec : ℕ) (t s : Option ℤ) (l : List ℕ) :
    assignSds nelec nspin t s l =
      if l ≠ [] ∧ ∀ sd ∈ l, SdFits nelec nspin t s sd then .ok l else .error .valueError := by
  have h1 : l.forM (checkSd nelec nspin t s) =
      if ∀ sd ∈ l, SdFits nelec nspin t s sd then .ok () else .error .valueError := by
    induction l with
    | nil => simp; rfl
    | cons a l ih =>
      have e : (a :: l).forM (checkSd nelec nspin t s) =
          (do checkSd nelec nspin t s a; l.forM (checkSd nelec nspin t s)) := rfl
      rw [e, checkSd_eq hn, ih]
      by_cases ha : SdFits nelec nspin t s a
      · simp [ha, bind, Except.bind]
      · simp [ha, bind, Except.bind]
  unfold assignSds
  rw [h1]
  by_cases h2 : ∀ sd ∈ l, SdFits nelec nspin t s sd
  · by_cases h3 : l = []
    · simp [h3, bind, Except.bind]
    · rw [if_pos h2, if_neg h3]
      have : l ≠ [] ∧ ∀ sd ∈ l, SdFits nelec nspin t s sd := ⟨h3, h2⟩
      rw [if_pos this]; rfl
  · have : ¬ (l ≠ [] ∧ ∀ sd ∈ l, SdFits nelec nspin t s sd) := fun h => h2 h.2
    rw [if_neg h2, if_neg this]; rfl

/-- C33: a list of determinants is accepted exactly if it is not empty and all determinants have the right number of
electrons, spin and seniority; everything else raises `ValueError`. -/
theorem C33_construct {R : Type} [Zero R] [One R] (nelec nspin : ℕ) (params : Option (List R)) (l : List ℕ) (t s : Option ℤ) :
    ciInit nelec nspin params (some l) t s =
      if nelec ≠ 0 ∧ nspin ≠ 0 ∧ nspin % 2 = 0 ∧ (∀ a ∈ t, 0 ≤ a) ∧ (∀ k ∈ s, 0 ≤ k) ∧ l ≠ [] ∧
        ∀ sd ∈ l, SdFits nelec nspin t s sd
      then .ok ⟨nelec, nspin, t, s, l, dictOf l, params.getD ((List.replicate l.length 0).set 0 1)⟩
      else .error .valueError := by
  have hc : ∀ o : Option ℤ, checkNonneg o = if ∀ a ∈ o, 0 ≤ a then .ok () else .error .valueError := by
    intro o
    cases o with
    | none => simp [checkNonneg]
    | some k => by_cases h : 0 ≤ k <;> simp [checkNonneg, h, not_lt.2, lt_of_not_ge]
  unfold ciInit init
  simp only [hc]
  by_cases h1 : nelec = 0
  · simp [checkNelec, h1, bind, Except.bind]
  by_cases h2 : nspin = 0
  · simp [checkNelec, checkNspin, h1, h2, bind, Except.bind]
  by_cases h3 : nspin % 2 = 0
  swap
  · have : nspin % 2 = 1 := by omega
    simp [checkNelec, checkNspin, h1, this, bind, Except.bind]
  by_cases h4 : ∀ a ∈ t, 0 ≤ a
  swap
  · rw [if_neg h4]; symm; rw [if_neg fun h => h4 h.2.2.2.1]; simp [checkNelec, checkNspin, h1, h2, h3, bind, Except.bind]
  by_cases h5 : ∀ a ∈ s, 0 ≤ a
  swap
  · rw [if_pos h4, if_neg h5]; symm; rw [if_neg fun h => h5 h.2.2.2.2.1]; simp [checkNelec, checkNspin, h1, h2, h3, bind, Except.bind]
  rw [if_pos h4, if_pos h5, assignSds_eq (by omega)]
  by_cases h6 : l ≠ [] ∧ ∀ sd ∈ l, SdFits nelec nspin t s sd
  · rw [if_pos h6, if_pos ⟨h1, h2, h3, h4, h5, h6⟩]
    simp [checkNelec, checkNspin, h1, h2, h3, bind, Except.bind, pure, Except.pure, defaultParams]
  · rw [if_neg h6, if_neg fun h => h6 h.2.2.2.2.2]
    simp [checkNelec, checkNspin, h1, h2, h3, bind, Except.bind]

-- two electrons in four spin orbitals, spin zero, three determinants
example : ciInit 2 4 (some [1, 2, 3]) (some [0b0101, 0b1010, 0b1001]) (some 0) none =
    .ok ⟨2, 4, some 0, none, [0b0101, 0b1010, 0b1001], dictOf [0b0101, 0b1010, 0b1001], ([1, 2, 3] : List ℤ)⟩ := by
  rw [C33_construct, if_pos (by decide +kernel)]; rfl

/-- the overlap is the parameter at the position of the determinant in the list, zero for other determinants -/
def Coherent {R : Type} [Zero R] [One R] (w : Wfn R) : Prop :=
  (∀ (k sd : ℕ) (x : R), w.sds[k]? = some sd → w.params[k]? = some x → w.overlap sd = .ok x) ∧ ∀ sd ∉ w.sds, w.overlap sd = .ok 0

theorem coherent_of_dict {R : Type} [Zero R] [One R] {w : Wfn R} (hn : w.sds.Nodup) (hd : w.dict = dictOf w.sds) :
    Coherent w := by
  refine ⟨fun k sd x h1 h2 => ?_, fun sd h => ?_⟩
  · rw [Wfn.overlap, hd, (dictOf_nodup hn sd k).2 h1]
    simp only [pick, h2]
  · rw [Wfn.overlap, hd, (dictOf_none _ _).2 h]

theorem init_ok {R : Type} [Zero R] [One R] {nelec nspin : ℕ} {t s : Option ℤ} {sds : Except PyErr (List ℕ)}
    {params : Option (List R)} {w : Wfn R} (h : init nelec nspin t s sds params = .ok w) :
    sds = .ok w.sds ∧ w.dict = dictOf w.sds ∧ w.params = params.getD (defaultParams w.sds.length) := by
  unfold init at h
  simp only [bind, Except.bind] at h
  split at h
  · simp at h
  split at h
  · simp at h
  split at h
  · simp at h
  split at h
  · simp at h
  split at h
  · simp at h
  rename_i l _
  simp only [pure, Except.pure, Except.ok.injEq] at h
  subst h
  exact ⟨rfl, rfl, rfl⟩

/-- C33: after the construction (of any of the classes, see C55) the overlaps are right, if no determinant is repeated. -/
theorem C33_lookup_partial {R : Type} [Zero R] [One R] {nelec nspin : ℕ} {t s : Option ℤ} {sds : Except PyErr (List ℕ)}
    {params : Option (List R)} {w : Wfn R} (h : init nelec nspin t s sds params = .ok w) (hn : w.sds.Nodup) : Coherent w :=
  coherent_of_dict hn (init_ok h).2.1

/-- C33: the derivative with respect to a list of parameters is one at the position of the determinant, zero elsewhere. -/
theorem C33_deriv_partial {R : Type} [Zero R] [One R] {nelec nspin : ℕ} {t s : Option ℤ} {sds : Except PyErr (List ℕ)}
    {params : Option (List R)} {w : Wfn R} (h : init nelec nspin t s sds params = .ok w) (hn : w.sds.Nodup)
    (hl : w.params.length = w.sds.length) (sd : ℕ) (idx : List ℕ) (hi : ∀ j ∈ idx, j < w.params.length) :
    w.overlapDeriv sd idx = .ok (idx.map fun j => if w.sds[j]? = some sd then 1 else 0) := by
  obtain ⟨-, hd, -⟩ := init_ok h
  have key : ∃ out : List R, w.oneHot sd = .ok out ∧
      ∀ j < w.params.length, out[j]? = some (if w.sds[j]? = some sd then 1 else 0) := by
    unfold Wfn.oneHot
    rw [hd]
    cases hs : dictOf w.sds sd with
    | none =>
      rw [dictOf_none] at hs
      refine ⟨_, rfl, fun j hj => ?_⟩
      rw [List.getElem?_replicate, if_pos hj, if_neg]
      intro hc
      exact hs (List.mem_of_getElem? hc)
    | some i =>
      rw [dictOf_nodup hn] at hs
      have hlt : i < w.sds.length := by
        by_contra hc
        rw [List.getElem?_eq_none (by omega)] at hs
        simp at hs
      simp only
      rw [if_pos (by omega)]
      refine ⟨_, rfl, fun j hj => ?_⟩
      rw [List.getElem?_set, List.length_replicate, List.getElem?_replicate, if_pos hj]
      by_cases hij : i = j
      · subst hij
        rw [if_pos rfl, if_pos hj, if_pos hs]
      · rw [if_neg hij, if_neg]
        intro hc
        exact hij ((List.getElem?_inj hlt hn).1 (hs.trans hc.symm))
  obtain ⟨out, h1, h2⟩ := key
  unfold Wfn.overlapDeriv
  rw [h1]
  refine mapM_eq_ok idx fun j hj => ?_
  simp only [pick, h2 j (hi j hj)]

/-- C33: the derivative is the change of the overlap with the parameter: changing parameter `j` by `x` changes the overlap by
`x` times the derivative. -/
theorem C33_deriv_linear {R : Type} [CommRing R] {nelec nspin : ℕ} {t s : Option ℤ} {sds : Except PyErr (List ℕ)}
    {params : Option (List R)} {w : Wfn R} (h : init nelec nspin t s sds params = .ok w) (hn : w.sds.Nodup)
    (hl : w.params.length = w.sds.length) (sd j : ℕ) (hj : j < w.params.length) (x : R) :
    ∃ a d, w.overlap sd = .ok a ∧ w.overlapDeriv sd [j] = .ok [d] ∧
      ({ w with params := w.params.set j (w.params[j] + x) } : Wfn R).overlap sd = .ok (a + x * d) := by
  have hd := C33_deriv_partial h hn hl sd [j] (by simpa using hj)
  obtain ⟨-, hdict, -⟩ := init_ok h
  rw [List.map_cons, List.map_nil] at hd
  have hc := coherent_of_dict hn hdict
  have hc' : Coherent ({ w with params := w.params.set j (w.params[j] + x) } : Wfn R) := coherent_of_dict hn hdict
  by_cases hm : sd ∈ w.sds
  · obtain ⟨k, hk⟩ := List.mem_iff_getElem?.1 hm
    have hkl : k < w.sds.length := by
      by_contra hcc
      rw [List.getElem?_eq_none (by omega)] at hk
      simp at hk
    have hp : w.params[k]? = some w.params[k] := List.getElem?_eq_getElem _
    refine ⟨w.params[k], _, hc.1 k sd _ hk hp, hd, ?_⟩
    by_cases hjk : j = k
    · subst hjk
      rw [hc'.1 j sd (w.params[j] + x) hk (by simp [hj]), if_pos hk, mul_one]
    · rw [hc'.1 k sd w.params[k] hk (by rw [List.getElem?_set_ne hjk]; exact hp), if_neg, mul_zero, add_zero]
      intro hcc
      exact hjk ((List.getElem?_inj (by omega) hn).1 (hcc.trans hk.symm))
  · refine ⟨0, _, hc.2 sd hm, hd, ?_⟩
    rw [hc'.2 sd hm, if_neg, mul_zero, add_zero]
    intro hcc
    exact hm (List.mem_of_getElem? hcc)

theorem steps_dict {R : Type} {w w' : Wfn R} (ops : List (Op R)) (h : ops.foldlM Wfn.step w = .ok w') : w'.dict = w.dict := by
  induction ops generalizing w with
  | nil => rw [List.foldlM_nil] at h; cases h; rfl
  | cons o ops ih =>
    rw [List.foldlM_cons] at h
    cases hs : w.step o with
    | error e => rw [hs] at h; cases h
    | ok w1 =>
      rw [hs] at h
      rw [ih h]
      cases o with
      | sds l =>
        simp only [Wfn.step, bind, Except.bind] at hs
        split at hs
        · cases hs
        · cases hs; rfl
      | params p => cases hs; rfl

theorem steps_params {R : Type} {w w' : Wfn R} (ps : List (List R)) (h : (ps.map Op.params).foldlM Wfn.step w = .ok w') :
    w'.sds = w.sds := by
  induction ps generalizing w with
  | nil => rw [List.map_nil, List.foldlM_nil] at h; cases h; rfl
  | cons p ps ih =>
    rw [List.map_cons, List.foldlM_cons] at h
    exact ih (w := { w with params := p }) h

/-- C33: the overlaps stay right through any sequence of assignments of parameters. -/
theorem C33_history_params_partial {R : Type} [Zero R] [One R] {nelec nspin : ℕ} {t s : Option ℤ} {sds : Except PyErr (List ℕ)}
    {params : Option (List R)} {w w' : Wfn R} (h : init nelec nspin t s sds params = .ok w) (hn : w.sds.Nodup)
    (ps : List (List R)) (hops : (ps.map Op.params).foldlM Wfn.step w = .ok w') : Coherent w' ∧ w'.sds = w.sds := by
  have h2 := steps_params ps hops
  exact ⟨coherent_of_dict (h2 ▸ hn) (by rw [steps_dict _ hops, (init_ok h).2.1, h2]), h2⟩

/-- C33: after any sequence of assignments of determinants and parameters the overlap looks up positions in the *first* list
of determinants, the one given to the constructor. -/
theorem C33_history {R : Type} [Zero R] [One R] {nelec nspin : ℕ} {t s : Option ℤ} {sds : Except PyErr (List ℕ)}
    {params : Option (List R)} {w w' : Wfn R} (h : init nelec nspin t s sds params = .ok w) (hn : w.sds.Nodup)
    (ops : List (Op R)) (hops : ops.foldlM Wfn.step w = .ok w') :
    (∀ (k sd : ℕ) (x : R), w.sds[k]? = some sd → w'.params[k]? = some x → w'.overlap sd = .ok x) ∧
      ∀ sd ∉ w.sds, w'.overlap sd = .ok 0 := by
  have : Coherent ({ w' with sds := w.sds } : Wfn R) :=
    coherent_of_dict hn (by simp only [steps_dict _ hops, (init_ok h).2.1])
  exact this

/-- C33 is false for `assign_sds`: after `assign_sds([0b1010])` the overlap with the only determinant of the list is `0`
although its parameter is `1`. -/
theorem C33_stale : ∃ w w' : Wfn ℤ, ciInit 2 4 (some [1]) (some [0b0101]) none none = .ok w ∧
    [Op.sds [0b1010]].foldlM Wfn.step w = .ok w' ∧ w'.sds = [0b1010] ∧ w'.params = [1] ∧ w'.overlap 0b1010 = .ok 0 ∧
    ¬ Coherent w' := by
  have h1 : ciInit 2 4 (some [(1 : ℤ)]) (some [0b0101]) none none =
      .ok ⟨2, 4, none, none, [0b0101], dictOf [0b0101], [1]⟩ := by
    rw [C33_construct, if_pos (by decide +kernel)]; rfl
  refine ⟨_, ⟨2, 4, none, none, [0b1010], dictOf [0b0101], [1]⟩, h1, ?_, rfl, rfl, ?_, ?_⟩
  · simp only [List.foldlM_cons, List.foldlM_nil, Wfn.step]
    rw [assignSds_eq (by norm_num), if_pos (by decide +kernel)]
    rfl
  · simp [Wfn.overlap, dictOf]
  · intro hc
    have := hc.1 0 0b1010 1 rfl rfl
    simp [Wfn.overlap, dictOf] at this

/-- C33: repeated determinants are not rejected; the overlap is the parameter of the last copy, and the derivative with
respect to the parameters of the other copies is zero. -/
theorem C33_duplicates : ∃ w : Wfn ℤ, ciInit 2 4 (some [7, 9]) (some [0b0101, 0b0101]) none none = .ok w ∧
    w.overlap 0b0101 = .ok 9 ∧ w.overlapDeriv 0b0101 [0, 1] = .ok [0, 1] := by
  refine ⟨_, by rw [C33_construct, if_pos (by decide +kernel)], ?_, ?_⟩ <;> decide

/-- C33: orbitals that do not exist are not rejected: two electrons in the orbitals `0` and `9` of four. -/
theorem C33_out_of_space : ∃ w : Wfn ℤ, ciInit 2 4 none (some [0b1000000001]) none none = .ok w :=
  ⟨_, by rw [C33_construct, if_pos (by decide +kernel)]⟩

/-- C33: too few parameters are not rejected either; the overlap with a determinant beyond them raises `IndexError`. -/
theorem C33_short_params {R : Type} [Zero R] [One R] {nelec nspin : ℕ} {t s : Option ℤ} {sds : Except PyErr (List ℕ)}
    {params : Option (List R)} {w : Wfn R} (h : init nelec nspin t s sds params = .ok w) (hn : w.sds.Nodup) (k sd : ℕ)
    (hk : w.sds[k]? = some sd) (hp : w.params.length ≤ k) (deriv : List ℕ) :
    w.overlap sd = .error .indexError ∧ w.overlapDeriv sd deriv = .error .indexError := by
  have hd := (init_ok h).2.1
  have hs := (dictOf_nodup hn sd k).2 hk
  constructor
  · simp only [Wfn.overlap, hd, hs, pick, List.getElem?_eq_none hp]
  · simp only [Wfn.overlapDeriv, Wfn.oneHot, hd, hs, if_neg (not_lt.2 hp), bind, Except.bind]

/-- C33: with a seniority above that of the ground determinant the default list of determinants is always rejected, since
`sd_list` includes lower seniorities and `assign_sds` asks for the exact one. -/
theorem C33_default_seniority {R : Type} [Zero R] [One R] (nelec nspin : ℕ) (k : ℤ) (g : ℕ) (hg : ground nelec nspin = .ok g)
    (hk : ((symmDiff (alphaSet g (nspin / 2)) (betaSet g (nspin / 2))).card : ℤ) < k) (params : Option (List R)) :
    ciInit nelec nspin params none none (some k) = .error .valueError := by
  have hgf := ground_ok_facts hg
  have hne : ¬ ∃ e, ground nelec nspin = .error e := by rw [hg]; simp
  rw [C03_ground_error] at hne
  have h0 : 0 ≤ k := le_trans (by positivity) hk.le
  have hL := sdList_eq none none none (some k) false hg (by simp) (by simp)
  have hmem : g ∈ fullList g nspin ((none : Option (List ℕ)).getD (List.range' 1 nelec)) none (some k) false := by
    rw [fullList, if_pos]
    · simp
    · simpa [Wanted] using hk.le
  have hsds : defaultSds nelec nspin none (some k) = .error .valueError := by
    unfold defaultSds
    rw [hL]
    simp only [bind, Except.bind, Option.elim_none]
    rw [assignSds_eq hgf.1, if_neg]
    rintro ⟨-, h⟩
    have := (h g hmem).2.2 k rfl
    omega
  unfold ciInit init
  simp only [hsds]
  have c1 : checkNelec nelec = .ok () := by simp [checkNelec]; omega
  have c2 : checkNspin nspin = .ok () := by
    unfold checkNspin; rw [if_neg]; omega
  rw [c1, c2]
  simp only [checkNonneg, if_neg (not_lt.2 h0), bind, Except.bind]

example : ciInit 2 4 (none : Option (List ℤ)) none none (some 2) = .error .valueError :=
  C33_default_seniority 2 4 2 0b0101 (by decide) (by decide +kernel) none

private theorem import_fold {R : Type} (guess : Wfn R) (hgl : guess.params.length = guess.sds.length) (l : List ℕ) (i : ℕ)
    (p : List R) (hl : i + l.length ≤ p.length) :
    ∃ p' : List R, (l.zipIdx i).foldlM guess.importStep p = .ok p' ∧ p'.length = p.length ∧ (∀ j < i, p'[j]? = p[j]?) ∧
      ∀ (k sd : ℕ), l[k]? = some sd →
        p'[i + k]? = if sd ∈ guess.sds then guess.params[guess.sds.idxOf sd]? else p[i + k]? := by
  induction l generalizing i p with
  | nil => exact ⟨p, rfl, rfl, fun _ _ => rfl, by simp⟩
  | cons a l ih =>
    rw [List.length_cons] at hl
    rw [List.zipIdx_cons, List.foldlM_cons]
    have key : ∃ q : List R, guess.importStep p (a, i) = .ok q ∧ q.length = p.length ∧
        q[i]? = (if a ∈ guess.sds then guess.params[guess.sds.idxOf a]? else p[i]?) ∧ ∀ j, j ≠ i → q[j]? = p[j]? := by
      unfold Wfn.importStep
      by_cases ha : a ∈ guess.sds
      · have hv : guess.params[guess.sds.idxOf a]? =
            some (guess.params[guess.sds.idxOf a]'(by have := List.idxOf_lt_length_of_mem ha; omega)) :=
          List.getElem?_eq_getElem _
        simp only [if_pos ha, pick, hv]
        rw [if_pos (by omega)]
        exact ⟨_, rfl, by simp, by rw [List.getElem?_set_self (by omega)], fun j hj => List.getElem?_set_ne hj.symm⟩
      · simp only [if_neg ha]
        exact ⟨p, rfl, rfl, rfl, fun _ _ => rfl⟩
    obtain ⟨q, h1, h2, h3, h4⟩ := key
    obtain ⟨p', h5, h6, h7, h8⟩ := ih (i + 1) q (by omega)
    refine ⟨p', ?_, by omega, fun j hj => by rw [h7 j (by omega), h4 j (by omega)], fun k sd hk => ?_⟩
    · rw [h1]
      exact h5
    · cases k with
      | zero =>
        simp only [List.getElem?_cons_zero, Option.some.injEq] at hk
        subst hk
        rw [add_zero, h7 i (by omega), h3]
      | succ k =>
        rw [List.getElem?_cons_succ] at hk
        have := h8 k sd hk
        rw [show i + (k + 1) = i + 1 + k by ring, this, h4 _ (by omega)]

/-- C33: `import_params` takes over the coefficients of the shared determinants and leaves the others. -/
theorem C33_import {R : Type} [Zero R] [One R] (w guess : Wfn R) (hw : w.sds.Nodup ∧ w.dict = dictOf w.sds)
    (hg : guess.sds.Nodup ∧ guess.dict = dictOf guess.sds) (hwl : w.params.length = w.sds.length)
    (hgl : guess.params.length = guess.sds.length) :
    ∃ w', w.importParams guess = .ok w' ∧ w'.sds = w.sds ∧
      ∀ sd, w'.overlap sd = if sd ∈ w.sds ∧ sd ∈ guess.sds then guess.overlap sd else w.overlap sd := by
  obtain ⟨p', h1, h2, -, h4⟩ := import_fold guess hgl w.sds 0 w.params (by omega)
  refine ⟨{ w with params := p' }, ?_, rfl, fun sd => ?_⟩
  · unfold Wfn.importParams
    rw [h1]
    rfl
  · have c1 := coherent_of_dict hw.1 hw.2
    have c2 := coherent_of_dict hg.1 hg.2
    have c3 : Coherent ({ w with params := p' } : Wfn R) := coherent_of_dict hw.1 hw.2
    by_cases hs : sd ∈ w.sds
    · obtain ⟨k, hk⟩ := List.mem_iff_getElem?.1 hs
      have hkl : k < w.sds.length := by
        by_contra hcc
        rw [List.getElem?_eq_none (by omega)] at hk
        simp at hk
      have h5 := h4 k sd hk
      rw [zero_add] at h5
      by_cases hsg : sd ∈ guess.sds
      · rw [if_pos ⟨hs, hsg⟩]
        rw [if_pos hsg] at h5
        have hi := List.idxOf_lt_length_of_mem hsg
        have e : guess.params[guess.sds.idxOf sd]? = some (guess.params[guess.sds.idxOf sd]'(by omega)) :=
          List.getElem?_eq_getElem _
        rw [c3.1 k sd _ hk (h5.trans e), c2.1 (guess.sds.idxOf sd) sd _ (by
          rw [List.getElem?_eq_getElem hi, List.getElem_idxOf]) e]
      · rw [if_neg fun h => hsg h.2]
        rw [if_neg hsg] at h5
        have e : w.params[k]? = some (w.params[k]'(by omega)) := List.getElem?_eq_getElem _
        rw [c3.1 k sd _ hk (h5.trans e), c1.1 k sd _ hk e]
    · rw [if_neg fun h => hs h.1, c1.2 sd hs, c3.2 sd hs]

example : ∃ w', (⟨2, 4, none, none, [0b0101, 0b1010], dictOf [0b0101, 0b1010], [1, 0]⟩ : Wfn ℤ).importParams
    ⟨2, 4, none, none, [0b0110, 0b1010], dictOf [0b0110, 0b1010], [5, 6]⟩ = .ok w' ∧ w'.params = [1, 6] :=
  ⟨_, rfl, rfl⟩

end Fanpy.Props
