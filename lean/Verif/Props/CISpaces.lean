import Verif.Props.CI
import Verif.Lemmas.Seniority

/-!
# C55: the spaces of the CI wavefunctions

`ground nelec nspin` is the reference (see C03), `excLevel g x` the number of electrons moved, `senOf x n` the number of
singly occupied spatial orbitals.
-/

set_option linter.unusedSimpArgs false

namespace Fanpy.Props
open Fanpy.CI Fanpy.Slater Fanpy.SdList Fanpy.Spec Fanpy.Lemmas

theorem space_ok {nelec nspin : ℕ} {orders : Option (List ℕ)} {t s : Option ℤ} {l : List ℕ}
    (hord : ∀ l ∈ orders, l.Nodup ∧ 0 ∉ l)
    (h : (do assignSds nelec nspin t s (← sdList nelec nspin none orders t s false)) = .ok l) :
    ∃ g, ground nelec nspin = .ok g ∧ l.Nodup ∧
      ∀ x, x ∈ l ↔ x < 2 ^ nspin ∧ SdFits nelec nspin t s x ∧ (x = g ∨ ∀ o ∈ orders, excLevel g x ∈ o) := by
  cases hL : sdList nelec nspin none orders t s false with
  | error e => rw [hL] at h; simp [bind, Except.bind] at h
  | ok L =>
    obtain ⟨g, hg, h1, h2, -⟩ := C14_sd_list nelec nspin orders t s false L hL hord
    rw [hL] at h
    simp only [bind, Except.bind] at h
    rw [assignSds_eq (ground_ok_facts hg).1] at h
    split_ifs at h with h3
    injection h with h
    subst h
    refine ⟨g, hg, h1, fun x => ⟨fun hx => ?_, fun hx => ?_⟩⟩
    · have := (h2 x).1 hx
      exact ⟨this.1, h3.2 x hx, this.2.2.2⟩
    · refine (h2 x).2 ⟨hx.1, hx.2.1.1, ?_, hx.2.2⟩
      simp only [Wanted, Bool.false_eq_true, if_false]
      exact ⟨fun t' ht => (hx.2.1.2.1 t' ht).symm, fun k hk => (hx.2.1.2.2 k hk).le⟩

theorem wanted_fits {nelec nspin x : ℕ} {t s : Option ℤ} (hs : ∀ k ∈ s, k = 0) (hx : (occSet x).card = nelec)
    (hw : Wanted x (nspin / 2) t s false) : SdFits nelec nspin t s x := by
  simp only [Wanted, Bool.false_eq_true, if_false] at hw
  refine ⟨hx, fun a ha => (hw.1 a ha).symm, fun k hk => ?_⟩
  have h1 := hw.2 k hk
  have h2 := hs k hk
  have : (0 : ℤ) ≤ ((symmDiff (alphaSet x (nspin / 2)) (betaSet x (nspin / 2))).card : ℤ) := by positivity
  omega

theorem space_exists {nelec nspin : ℕ} {orders : Option (List ℕ)} {t s : Option ℤ} {g : ℕ}
    (hg : ground nelec nspin = .ok g) (hord : ∀ l ∈ orders, l.Nodup ∧ 0 ∉ l) (hs : ∀ k ∈ s, k = 0)
    (hx : ∃ x, x < 2 ^ nspin ∧ SdFits nelec nspin t s x ∧ (x = g ∨ ∀ o ∈ orders, excLevel g x ∈ o)) :
    ∃ l, (do assignSds nelec nspin t s (← sdList nelec nspin none orders t s false)) = .ok l := by
  obtain ⟨x, hx1, hx2, hx3⟩ := hx
  cases hL : sdList nelec nspin none orders t s false with
  | error e =>
    have hne : ¬ ∃ e, ground nelec nspin = .error e := by rw [hg]; simp
    have := (C14_raises nelec nspin none orders t s false).1 ⟨e, hL⟩
    rw [← C03_ground_error] at this
    simp only [hne, or_false, Option.mem_def, reduceCtorEq, false_and, exists_const, false_or] at this
    obtain ⟨a, ha, v, hv, hav⟩ := this
    subst ha hv
    have e1 := hx2.2.1 a rfl
    have e2 := hx2.2.2 v rfl
    obtain ⟨s', v', c1, c2, c3, -⟩ := C07_constraints x (nspin / 2) (ground_ok_facts hg).1
    rw [(C07_spin_seniority x (nspin / 2) (ground_ok_facts hg).1).1] at c1
    rw [(C07_spin_seniority x (nspin / 2) (ground_ok_facts hg).1).2] at c2
    injection c1 with c1
    injection c2 with c2
    rw [← c1, ← c2, e1, e2] at c3
    omega
  | ok L =>
    obtain ⟨g', hg', h1, h2, -⟩ := C14_sd_list nelec nspin orders t s false L hL hord
    rw [hg] at hg'
    injection hg' with hg'
    subst hg'
    refine ⟨L, ?_⟩
    simp only [bind, Except.bind]
    rw [assignSds_eq (ground_ok_facts hg).1, if_pos]
    refine ⟨fun h0 => ?_, fun y hy => wanted_fits hs ((h2 y).1 hy).2.1 ((h2 y).1 hy).2.2.1⟩
    have : x ∈ L := (h2 x).2 ⟨hx1, hx2.1, by
      simp only [Wanted, Bool.false_eq_true, if_false]
      exact ⟨fun t' ht => (hx2.2.1 t' ht).symm, fun k hk => (hx2.2.2 k hk).le⟩, hx3⟩
    rw [h0] at this
    simp at this

theorem checkNonneg_eq (o : Option ℤ) : checkNonneg o = if ∀ a ∈ o, 0 ≤ a then .ok () else .error .valueError := by
  cases o with
  | none => simp [checkNonneg]
  | some k => by_cases h : 0 ≤ k <;> simp [checkNonneg, h, not_lt.2, lt_of_not_ge]

theorem init_eq {R : Type} [Zero R] [One R] (nelec nspin : ℕ) (t s : Option ℤ) (sds : Except PyErr (List ℕ))
    (params : Option (List R)) :
    init nelec nspin t s sds params =
      if nelec ≠ 0 ∧ nspin ≠ 0 ∧ nspin % 2 = 0 ∧ (∀ a ∈ t, 0 ≤ a) ∧ ∀ k ∈ s, 0 ≤ k then
        sds.map fun l => ⟨nelec, nspin, t, s, l, dictOf l, params.getD (defaultParams l.length)⟩
      else .error .valueError := by
  unfold init
  simp only [checkNonneg_eq]
  by_cases h1 : nelec = 0
  · simp [checkNelec, h1, bind, Except.bind]
  by_cases h2 : nspin = 0
  · simp [checkNelec, checkNspin, h1, h2, bind, Except.bind]
  by_cases h3 : nspin % 2 = 0
  swap
  · have : nspin % 2 = 1 := by omega
    simp [checkNelec, checkNspin, h1, this, bind, Except.bind]
  by_cases h4 : ∀ a ∈ t, 0 ≤ a
  swap
  · rw [if_neg h4]; symm; rw [if_neg fun h => h4 h.2.2.2.1]; simp [checkNelec, checkNspin, h1, h2, h3, bind, Except.bind]
  by_cases h5 : ∀ a ∈ s, 0 ≤ a
  swap
  · rw [if_pos h4, if_neg h5]; symm; rw [if_neg fun h => h5 h.2.2.2.2]; simp [checkNelec, checkNspin, h1, h2, h3, bind, Except.bind]
  rw [if_pos h4, if_pos h5, if_pos ⟨h1, h2, h3, h4, h5⟩]
  cases sds <;> simp [checkNelec, checkNspin, h1, h2, h3, bind, Except.bind, pure, Except.pure, Except.map]

theorem init_ok_iff {R : Type} [Zero R] [One R] {nelec nspin : ℕ} {t s : Option ℤ} {sds : Except PyErr (List ℕ)}
    {params : Option (List R)} :
    (∃ w, init nelec nspin t s sds params = .ok w) ↔
      (nelec ≠ 0 ∧ nspin ≠ 0 ∧ nspin % 2 = 0 ∧ (∀ a ∈ t, 0 ≤ a) ∧ ∀ k ∈ s, 0 ≤ k) ∧ ∃ l, sds = .ok l := by
  rw [init_eq]
  split_ifs with h
  · cases sds with
    | error e => simp [Except.map]
    | ok l => exact ⟨fun _ => ⟨h, l, rfl⟩, fun _ => ⟨_, rfl⟩⟩
  · simp only [reduceCtorEq, exists_false, false_iff]
    exact fun h' => h h'.1

/-- the default space of a class: all determinants of `nelec` electrons in `nspin` orbitals with the spin and the seniority,
of the given excitation levels (or the reference) -/
theorem space_init {R : Type} [Zero R] [One R] {nelec nspin : ℕ} {orders : Option (List ℕ)} {t s : Option ℤ}
    {params : Option (List R)} (hord : ∀ l ∈ orders, l.Nodup ∧ 0 ∉ l) :
    (∀ w, init nelec nspin t s (do assignSds nelec nspin t s (← sdList nelec nspin none orders t s false)) params = .ok w →
      ∃ g, ground nelec nspin = .ok g ∧ w.sds.Nodup ∧
        ∀ x, x ∈ w.sds ↔ x < 2 ^ nspin ∧ SdFits nelec nspin t s x ∧ (x = g ∨ ∀ o ∈ orders, excLevel g x ∈ o)) ∧
    ((∀ k ∈ s, k = 0) →
      ((∃ w, init nelec nspin t s (do assignSds nelec nspin t s (← sdList nelec nspin none orders t s false)) params = .ok w) ↔
        (∀ a ∈ t, 0 ≤ a) ∧ ∃ g, ground nelec nspin = .ok g ∧
          ∃ x, x < 2 ^ nspin ∧ SdFits nelec nspin t s x ∧ (x = g ∨ ∀ o ∈ orders, excLevel g x ∈ o))) := by
  refine ⟨fun w hw => space_ok hord (init_ok hw).1, fun hs => ?_⟩
  rw [init_ok_iff]
  constructor
  · rintro ⟨h1, l, hl⟩
    obtain ⟨g, hg, h2, h3⟩ := space_ok hord hl
    refine ⟨h1.2.2.2.1, g, hg, ?_⟩
    have h4 : l ≠ [] := by
      rintro rfl
      cases hL : sdList nelec nspin none orders t s false with
      | error e => rw [hL] at hl; simp [bind, Except.bind] at hl
      | ok L =>
        rw [hL] at hl
        simp only [bind, Except.bind] at hl
        rw [assignSds_eq (ground_ok_facts hg).1] at hl
        split_ifs at hl with h5
        injection hl with hl
        exact h5.1 hl
    obtain ⟨x, hx⟩ := List.exists_mem_of_ne_nil l h4
    exact ⟨x, (h3 x).1 hx⟩
  · rintro ⟨h1, g, hg, hx⟩
    have hne : ¬ ∃ e, ground nelec nspin = .error e := by rw [hg]; simp
    rw [C03_ground_error] at hne
    exact ⟨⟨by omega, by omega, by omega, h1, fun k hk => (hs k hk).ge⟩, space_exists hg hord hs hx⟩

/-- C55: the FCI wavefunction has all determinants of `nelec` electrons in `nspin` orbitals with the spin, each once. -/
theorem C55_fci {R : Type} [Zero R] [One R] {nelec nspin : ℕ} {params : Option (List R)} {t s : Option ℤ} {w : Wfn R}
    (h : fciInit nelec nspin params t s = .ok w) :
    s = none ∧ w.sds.Nodup ∧
      ∀ x, x ∈ w.sds ↔ x < 2 ^ nspin ∧ (occSet x).card = nelec ∧
        ∀ a ∈ t, ((alphaSet x (nspin / 2)).card : ℤ) - (betaSet x (nspin / 2)).card = a := by
  unfold fciInit at h
  simp only [bind, Except.bind] at h
  split at h
  · simp at h
  split at h
  · simp at h
  split at h
  · simp at h
  split_ifs at h with hs
  obtain ⟨g, hg, h1, h2⟩ := (space_init (orders := none) (t := t) (s := none) (params := params) (by simp)).1 w h
  exact ⟨by simpa using hs, h1, fun x => by simp [h2 x, SdFits]⟩

/-- C55: the FCI wavefunction without a spin has `nspin` choose `nelec` determinants. -/
theorem C55_fci_length {R : Type} [Zero R] [One R] {nelec nspin : ℕ} {params : Option (List R)} {s : Option ℤ} {w : Wfn R}
    (h : fciInit nelec nspin params none s = .ok w) : w.sds.length = nspin.choose nelec := by
  obtain ⟨-, h1, h2⟩ := C55_fci h
  have e : (w.sds.toFinset).image occSet = Finset.powersetCard nelec (Finset.range nspin) := by
    ext S
    rw [Finset.mem_image, Finset.mem_powersetCard]
    constructor
    · rintro ⟨x, hx, rfl⟩
      rw [List.mem_toFinset, h2] at hx
      exact ⟨fun i hi => Finset.mem_range.2 (lt_two_pow_iff.1 hx.1 i hi), hx.2.1⟩
    · rintro ⟨h3, h4⟩
      refine ⟨sdOf S, ?_, occSet_sdOf S⟩
      rw [List.mem_toFinset, h2]
      refine ⟨lt_two_pow_iff.2 fun i hi => ?_, by rw [occSet_sdOf, h4], by simp⟩
      rw [occSet_sdOf] at hi
      exact Finset.mem_range.1 (h3 hi)
  rw [← List.toFinset_card_of_nodup h1, ← Finset.card_image_of_injective _ occSet_injective, e]
  simp

/-- C55: the FCI wavefunction can be made exactly if no seniority is given and there is a determinant. -/
theorem C55_fci_exists {R : Type} [Zero R] [One R] (nelec nspin : ℕ) (params : Option (List R)) (t s : Option ℤ) :
    (∃ w, fciInit nelec nspin params t s = .ok w) ↔
      s = none ∧ 0 < nelec ∧ nspin % 2 = 0 ∧ (∀ a ∈ t, 0 ≤ a) ∧
        ∃ x, x < 2 ^ nspin ∧ (occSet x).card = nelec ∧
          ∀ a ∈ t, ((alphaSet x (nspin / 2)).card : ℤ) - (betaSet x (nspin / 2)).card = a := by
  have key := (space_init (nelec := nelec) (nspin := nspin) (orders := none) (t := t) (s := none) (params := params)
    (by simp)).2 (by simp)
  have e : fciInit nelec nspin params t s = if s = none then
      init nelec nspin t none (do assignSds nelec nspin t none (← sdList nelec nspin none none t none false)) params
      else .error .valueError := by
    unfold fciInit
    by_cases hs : s = none
    · subst hs
      simp only [checkNonneg_eq, ne_eq, not_true, if_false, if_true]
      rw [init_eq, init_eq]
      by_cases h1 : nelec = 0
      · simp [checkNelec, h1, bind, Except.bind]
      by_cases h2 : nspin = 0
      · simp [checkNelec, checkNspin, h1, h2, bind, Except.bind]
      by_cases h3 : nspin % 2 = 0
      swap
      · have : nspin % 2 = 1 := by omega
        simp [checkNelec, checkNspin, h1, this, bind, Except.bind]
      by_cases h4 : ∀ a ∈ t, 0 ≤ a
      · rw [if_pos h4]
        simp only [checkNelec, checkNspin, h1, h2, h3, bind, Except.bind]
        rfl
      · rw [if_neg h4]
        symm
        rw [if_neg fun h => h4 h.2.2.2.1]
        simp [checkNelec, checkNspin, h1, h2, h3, bind, Except.bind]
    · simp only [checkNonneg_eq, checkNelec, checkNspin, bind, Except.bind]
      rw [if_neg hs, if_pos hs]
      by_cases h1 : nelec = 0
      · simp [h1]
      by_cases h2 : nspin = 0 ∨ nspin % 2 = 1
      · simp [h1, h2]
      by_cases h4 : ∀ a ∈ t, 0 ≤ a
      · simp only [h1, h2, if_false]; rw [if_pos h4]
      · simp only [h1, h2, if_false]; rw [if_neg h4]
  rw [e]
  constructor
  · rintro ⟨w, hw⟩
    split_ifs at hw with hs
    obtain ⟨h1, g, hg, x, hx⟩ := key.1 ⟨w, hw⟩
    have hne : ¬ ∃ e, ground nelec nspin = .error e := by rw [hg]; simp
    rw [C03_ground_error] at hne
    exact ⟨hs, by omega, by omega, h1, x, hx.1, hx.2.1.1, hx.2.1.2.1⟩
  · rintro ⟨hs, h1, h2, h3, x, h4, h5, h6⟩
    rw [if_pos hs]
    have hle : nelec ≤ nspin := by
      rw [← h5, ← Finset.card_range nspin]
      exact Finset.card_le_card fun i hi => Finset.mem_range.2 (lt_two_pow_iff.1 h4 i hi)
    cases hg : ground nelec nspin with
    | error e =>
      have := (C03_ground_error nelec nspin).1 ⟨e, hg⟩
      omega
    | ok g => exact key.2 ⟨h3, g, hg, x, h4, ⟨h5, h6, by simp⟩, Or.inr (by simp)⟩

example : ∃ w : Wfn ℤ, fciInit 2 4 none none none = .ok w ∧ w.sds.length = 6 := by
  obtain ⟨w, hw⟩ := (C55_fci_exists (R := ℤ) 2 4 none none none).2 ⟨rfl, by norm_num, by norm_num, by simp, 0b0101, by decide +kernel⟩
  exact ⟨w, hw, C55_fci_length hw⟩
example : fciInit 2 4 (none : Option (List ℤ)) none (some 0) = .error .valueError := rfl

/-- C55: the CISD wavefunction has the reference and all single and double excitations with the spin and the seniority,
each once. -/
theorem C55_cisd {R : Type} [Zero R] [One R] {nelec nspin : ℕ} {params : Option (List R)} {t s : Option ℤ} {w : Wfn R}
    (h : cisdInit nelec nspin params t s = .ok w) :
    ∃ g, ground nelec nspin = .ok g ∧ w.sds.Nodup ∧
      ∀ x, x ∈ w.sds ↔ x < 2 ^ nspin ∧ SdFits nelec nspin t s x ∧ excLevel g x ≤ 2 := by
  obtain ⟨g, hg, h1, h2⟩ := (space_init (orders := some [1, 2]) (t := t) (s := s) (params := params) (by simp)).1 w h
  refine ⟨g, hg, h1, fun x => ?_⟩
  rw [h2 x]
  refine and_congr_right fun _ => and_congr_right fun h3 => ?_
  have h4 : excLevel g x = 0 ↔ x = g := by
    constructor
    · intro h5
      by_contra h6
      exact excLevel_pos (by rw [h3.1, (ground_ok_facts hg).2.2]) h6 h5
    · rintro rfl
      exact ground_level
  rw [← h4]
  simp
  omega

/-- C55: without spin or seniority the CISD wavefunction exists for all numbers of electrons and orbitals that make sense. -/
theorem C55_cisd_exists {R : Type} [Zero R] [One R] (nelec nspin : ℕ) (params : Option (List R)) :
    (∃ w, cisdInit nelec nspin params none none = .ok w) ↔ 0 < nelec ∧ nelec ≤ nspin ∧ nspin % 2 = 0 := by
  have key := (space_init (nelec := nelec) (nspin := nspin) (orders := some [1, 2]) (t := none) (s := none) (params := params)
    (by simp)).2 (by simp)
  rw [cisdInit, key]
  have hne := C03_ground_error nelec nspin
  constructor
  · rintro ⟨-, g, hg, -⟩
    rw [hg] at hne
    simp only [reduceCtorEq, exists_false, false_iff] at hne
    omega
  · rintro ⟨h1, h2, h3⟩
    cases hg : ground nelec nspin with
    | error e => rw [hg] at hne; simp at hne; omega
    | ok g =>
      have hf := ground_ok_facts hg
      exact ⟨by simp, g, rfl, g, hf.2.1, ⟨hf.2.2, by simp, by simp⟩, Or.inl rfl⟩

example : ∃ w : Wfn ℤ, cisdInit 4 8 none none none = .ok w ∧ 0b11000011 ∈ w.sds ∧ 0b11001100 ∉ w.sds := by
  obtain ⟨w, hw⟩ := (C55_cisd_exists (R := ℤ) 4 8 none).2 (by norm_num)
  obtain ⟨g, hg, -, h⟩ := C55_cisd hw
  obtain rfl : g = 0b00110011 := by
    have : ground 4 8 = .ok 0b00110011 := by decide +kernel
    rw [this] at hg; injection hg with hg; exact hg.symm
  exact ⟨w, hw, (h _).2 (by decide +kernel), fun h' => absurd ((h _).1 h') (by decide +kernel)⟩

theorem sen_spin {x n : ℕ} (h : ((symmDiff (alphaSet x n) (betaSet x n)).card : ℤ) = 0) :
    ((alphaSet x n).card : ℤ) - (betaSet x n).card = 0 := by
  have : senOf x n = 0 := by unfold senOf; omega
  rw [senOf_zero_iff.1 this]
  ring

theorem senOf_zero_bits {x n : ℕ} (hx : x < 2 ^ (2 * n)) :
    senOf x n = 0 ↔ ∀ i < n, x.testBit i = x.testBit (i + n) := by
  rw [senOf_zero_iff, Finset.ext_iff]
  constructor
  · intro h i hi
    have := h i
    rw [mem_alphaSet, mem_betaSet] at this
    simp only [hi, true_and] at this
    exact Bool.eq_iff_iff.2 this
  · intro h i
    rw [mem_alphaSet, mem_betaSet]
    by_cases hi : i < n
    · simp [hi, h i hi]
    · have : x.testBit (i + n) = false := Nat.testBit_lt_two_pow (lt_of_lt_of_le hx (Nat.pow_le_pow_right (by norm_num) (by omega)))
      simp [hi, this]

/-- C55: the DOCI wavefunction has all determinants in which every spatial orbital is empty or doubly occupied, each once;
the number of electrons is even. -/
theorem C55_doci {R : Type} [Zero R] [One R] {nelec nspin : ℕ} {params : Option (List R)} {t s : Option ℤ} {w : Wfn R}
    (h : dociInit nelec nspin params none t s = .ok w) :
    nelec % 2 = 0 ∧ (∀ a ∈ t, a = 0) ∧ (∀ a ∈ s, a = 0) ∧ w.sds.Nodup ∧
      ∀ x, x ∈ w.sds ↔ x < 2 ^ nspin ∧ (occSet x).card = nelec ∧
        ∀ i < nspin / 2, x.testBit i = x.testBit (i + nspin / 2) := by
  unfold dociInit at h
  split_ifs at h with hc
  obtain ⟨g, hg, h1, h2⟩ := (space_init (orders := none) (t := some 0) (s := some 0) (params := params) (by simp)).1 w h
  have hev : nspin = 2 * (nspin / 2) := by
    have hne : ¬ ∃ e, ground nelec nspin = .error e := by rw [hg]; simp
    rw [C03_ground_error] at hne
    omega
  simp only [dociChecks, decide_eq_true_eq] at hc
  refine ⟨hc.1, ?_, ?_, h1, fun x => ?_⟩
  · rintro a ha
    simp only [Option.mem_def] at ha
    subst ha
    exact hc.2.1
  · rintro a ha
    simp only [Option.mem_def] at ha
    subst ha
    exact hc.2.2
  · rw [h2 x]
    refine and_congr_right fun hx => ?_
    rw [← senOf_zero_bits (by rwa [← hev])]
    simp only [SdFits, Option.mem_def, Option.some.injEq, forall_eq', reduceCtorEq, false_imp_iff, implies_true, or_true, and_true]
    refine and_congr_right fun _ => ⟨fun h3 => by unfold senOf; omega, fun h3 => ?_⟩
    have h4 : ((symmDiff (alphaSet x (nspin / 2)) (betaSet x (nspin / 2))).card : ℤ) = 0 := by unfold senOf at h3; omega
    exact ⟨sen_spin h4, h4⟩

/-- C55: the DOCI wavefunction can be made exactly for an even number of electrons that fit, with spin and seniority that
are zero or not given. -/
theorem C55_doci_exists {R : Type} [Zero R] [One R] (nelec nspin : ℕ) (params : Option (List R)) (t s : Option ℤ) :
    (∃ w, dociInit nelec nspin params none t s = .ok w) ↔
      nelec % 2 = 0 ∧ (∀ a ∈ t, a = 0) ∧ (∀ a ∈ s, a = 0) ∧ 0 < nelec ∧ nelec ≤ nspin ∧ nspin % 2 = 0 := by
  have key := (space_init (nelec := nelec) (nspin := nspin) (orders := none) (t := some 0) (s := some 0) (params := params)
    (by simp)).2 (by simp)
  have hne := C03_ground_error nelec nspin
  have hcheck : dociChecks nelec t s = true ↔ nelec % 2 = 0 ∧ (∀ a ∈ t, a = 0) ∧ ∀ a ∈ s, a = 0 := by
    simp only [dociChecks, decide_eq_true_eq]
    cases t <;> cases s <;> simp
  constructor
  · rintro ⟨w, hw⟩
    unfold dociInit at hw
    split_ifs at hw with hc
    obtain ⟨-, g, hg, -⟩ := key.1 ⟨w, hw⟩
    rw [hg] at hne
    simp only [reduceCtorEq, exists_false, false_iff] at hne
    rw [hcheck] at hc
    exact ⟨hc.1, hc.2.1, hc.2.2, by omega, by omega, by omega⟩
  · rintro ⟨h1, h2, h3, h4, h5, h6⟩
    unfold dociInit
    rw [if_pos (hcheck.2 ⟨h1, h2, h3⟩)]
    refine key.2 ⟨by simp, ?_⟩
    cases hg : ground nelec nspin with
    | error e => rw [hg] at hne; simp at hne; omega
    | ok g =>
      have hf := ground_ok_facts hg
      have h7 : ((symmDiff (alphaSet g (nspin / 2)) (betaSet g (nspin / 2))).card : ℤ) = 0 := by
        have := senOf_ground hg
        unfold senOf at this
        omega
      exact ⟨g, rfl, g, hf.2.1, ⟨hf.2.2, by simpa using sen_spin h7, by simpa using h7⟩, Or.inl rfl⟩

example : ∃ w : Wfn ℤ, dociInit 2 6 none none none none = .ok w ∧ 0b100100 ∈ w.sds ∧ 0b100001 ∉ w.sds := by
  obtain ⟨w, hw⟩ := (C55_doci_exists (R := ℤ) 2 6 none none none).2 (by simp)
  have h := (C55_doci hw).2.2.2.2
  exact ⟨w, hw, (h _).2 (by decide +kernel), fun h' => absurd ((h _).1 h') (by decide +kernel)⟩

/-- C55: the CIPairs wavefunction has the reference and the excitations of one pair of electrons from a doubly occupied
orbital to an empty one, each once. -/
theorem C55_ci_pairs {R : Type} [Zero R] [One R] {nelec nspin : ℕ} {params : Option (List R)} {t s : Option ℤ} {w : Wfn R}
    (h : ciPairsInit nelec nspin params t s = .ok w) :
    nelec % 2 = 0 ∧ (∀ a ∈ t, a = 0) ∧ (∀ a ∈ s, a = 0) ∧ w.sds.Nodup ∧
      ∀ x, x ∈ w.sds ↔ x < 2 ^ nspin ∧ (occSet x).card = nelec ∧
        (∀ i < nspin / 2, x.testBit i = x.testBit (i + nspin / 2)) ∧
        ((Finset.range (nelec / 2)).filter fun i => x.testBit i = false).card ≤ 1 := by
  unfold ciPairsInit at h
  split_ifs at h with hc
  obtain ⟨g, hg, h1, h2⟩ := (space_init (orders := some [2]) (t := some 0) (s := some 0) (params := params) (by simp)).1 w h
  have hne : ¬ ∃ e, ground nelec nspin = .error e := by rw [hg]; simp
  rw [C03_ground_error] at hne
  have hev : nspin = 2 * (nspin / 2) := by omega
  simp only [dociChecks, decide_eq_true_eq] at hc
  refine ⟨hc.1, ?_, ?_, h1, fun x => ?_⟩
  · rintro a ha
    simp only [Option.mem_def] at ha
    subst ha
    exact hc.2.1
  · rintro a ha
    simp only [Option.mem_def] at ha
    subst ha
    exact hc.2.2
  · rw [h2 x]
    refine and_congr_right fun hx => ?_
    rw [← senOf_zero_bits (by rwa [← hev])]
    have hga : alphaSet g (nspin / 2) \ alphaSet x (nspin / 2) = (Finset.range (nelec / 2)).filter fun i => x.testBit i = false := by
      ext i
      rw [Finset.mem_sdiff, mem_alphaSet, mem_alphaSet, Finset.mem_filter, Finset.mem_range, (C03_ground nelec nspin g hg).1]
      cases x.testBit i <;> simp <;> omega
    have hgs : senOf g (nspin / 2) = 0 := by rw [senOf_ground hg, hc.1]
    simp only [SdFits, Option.mem_def, Option.some.injEq, forall_eq']
    constructor
    · rintro ⟨⟨h3, h4, h5⟩, h6⟩
      have h7 : senOf x (nspin / 2) = 0 := by unfold senOf; omega
      refine ⟨h3, h7, ?_⟩
      have h8 := excLevel_of_senOf_zero hgs h7
      rw [hga] at h8
      rcases h6 with rfl | h6
      · rw [ground_level] at h8; omega
      · simp only [List.mem_singleton] at h6; omega
    · rintro ⟨h3, h7, h6⟩
      have h4 : ((symmDiff (alphaSet x (nspin / 2)) (betaSet x (nspin / 2))).card : ℤ) = 0 := by unfold senOf at h7; omega
      refine ⟨⟨h3, sen_spin h4, h4⟩, ?_⟩
      have h8 := excLevel_of_senOf_zero hgs h7
      rw [hga] at h8
      by_cases hxg : x = g
      · exact Or.inl hxg
      · right
        have := excLevel_pos (by rw [h3, (ground_ok_facts hg).2.2]) hxg
        simp only [List.mem_singleton]
        omega

/-- C55: the CIPairs wavefunction can be made exactly for an even number of electrons that fit, with spin and seniority that
are zero or not given. -/
theorem C55_ci_pairs_exists {R : Type} [Zero R] [One R] (nelec nspin : ℕ) (params : Option (List R)) (t s : Option ℤ) :
    (∃ w, ciPairsInit nelec nspin params t s = .ok w) ↔
      nelec % 2 = 0 ∧ (∀ a ∈ t, a = 0) ∧ (∀ a ∈ s, a = 0) ∧ 0 < nelec ∧ nelec ≤ nspin ∧ nspin % 2 = 0 := by
  have key := (space_init (nelec := nelec) (nspin := nspin) (orders := some [2]) (t := some 0) (s := some 0) (params := params)
    (by simp)).2 (by simp)
  have hne := C03_ground_error nelec nspin
  have hcheck : dociChecks nelec t s = true ↔ nelec % 2 = 0 ∧ (∀ a ∈ t, a = 0) ∧ ∀ a ∈ s, a = 0 := by
    simp only [dociChecks, decide_eq_true_eq]
    cases t <;> cases s <;> simp
  constructor
  · rintro ⟨w, hw⟩
    unfold ciPairsInit at hw
    split_ifs at hw with hc
    obtain ⟨-, g, hg, -⟩ := key.1 ⟨w, hw⟩
    rw [hg] at hne
    simp only [reduceCtorEq, exists_false, false_iff] at hne
    rw [hcheck] at hc
    exact ⟨hc.1, hc.2.1, hc.2.2, by omega, by omega, by omega⟩
  · rintro ⟨h1, h2, h3, h4, h5, h6⟩
    unfold ciPairsInit
    rw [if_pos (hcheck.2 ⟨h1, h2, h3⟩)]
    refine key.2 ⟨by simp, ?_⟩
    cases hg : ground nelec nspin with
    | error e => rw [hg] at hne; simp at hne; omega
    | ok g =>
      have hf := ground_ok_facts hg
      have h7 : ((symmDiff (alphaSet g (nspin / 2)) (betaSet g (nspin / 2))).card : ℤ) = 0 := by
        have := senOf_ground hg
        unfold senOf at this
        omega
      exact ⟨g, rfl, g, hf.2.1, ⟨hf.2.2, by simpa using sen_spin h7, by simpa using h7⟩, Or.inl rfl⟩

example : ∃ w : Wfn ℤ, ciPairsInit 4 8 none none none = .ok w ∧ 0b01010101 ∈ w.sds ∧ 0b11001100 ∉ w.sds := by
  obtain ⟨w, hw⟩ := (C55_ci_pairs_exists (R := ℤ) 4 8 none none none).2 (by simp)
  have h := (C55_ci_pairs hw).2.2.2.2
  exact ⟨w, hw, (h _).2 (by decide +kernel), fun h' => absurd ((h _).1 h') (by decide +kernel)⟩

end Fanpy.Props
