import Verif.Model.GemDefault
import Verif.Props.GemCopy
import Verif.Props.PCCD
import Verif.Props.SdList

/-!
# C130: default parameters of geminal wavefunctions
-/

namespace Fanpy.Props

open Fanpy Fanpy.Spec Fanpy.Slater Fanpy.Graphs Fanpy.Geminal Fanpy.Lemmas

variable {R : Type} [Field R]

private theorem default_fold (w : Geminal.Wfn R) (hw : C129_made (.gem w)) (n : ℕ) :
    ((∀ i < n, (i, i + w.nspin / 2) ∈ columns w.kind w.nspin) →
      ∃ r, (List.range n).foldlM (defaultStep w) (fun _ _ => 0) = .ok r ∧ ∀ p ∈ columns w.kind w.nspin, ∀ g,
        r g ((columns w.kind w.nspin).idxOf p) = if g < n ∧ p = (g, g + w.nspin / 2) then 1 else 0) ∧
    (¬ (∀ i < n, (i, i + w.nspin / 2) ∈ columns w.kind w.nspin) →
      (List.range n).foldlM (defaultStep w) (fun _ _ => 0) = .error .valueError) := by
  have hns : 0 < w.nspin / 2 := by
    obtain ⟨-, -, f3, f4, -⟩ := gemCopy_made_facts _ hw
    simp only [Other.nspin] at f3 f4
    omega
  have hcol : ∀ i, w.colInd (i, i + w.nspin / 2) = if (i, i + w.nspin / 2) ∈ columns w.kind w.nspin then
      .ok ((columns w.kind w.nspin).idxOf (i, i + w.nspin / 2)) else .error .valueError := fun i =>
    gemCopy_keyColInd_pair (.gem w) hw (i, i + w.nspin / 2) (by simp only; omega)
  induction n with
  | zero => exact ⟨fun _ => ⟨fun _ _ => 0, rfl, by simp⟩, fun h => absurd (by simp) h⟩
  | succ n ih =>
    rw [List.range_succ, List.foldlM_append]
    by_cases hn : ∀ i < n, (i, i + w.nspin / 2) ∈ columns w.kind w.nspin
    · obtain ⟨r, hr, hv⟩ := ih.1 hn
      rw [hr]
      simp only [bind, Except.bind, List.foldlM_cons, List.foldlM_nil, defaultStep, hcol]
      by_cases hc : (n, n + w.nspin / 2) ∈ columns w.kind w.nspin
      · rw [if_pos hc]
        refine ⟨fun _ => ⟨_, rfl, fun p hp g => ?_⟩, fun h => ?_⟩
        · by_cases hg : g = n
          · subst hg
            by_cases hpq : p = (g, g + w.nspin / 2)
            · subst hpq
              simp [hv _ hp]
            · have : (columns w.kind w.nspin).idxOf p ≠ (columns w.kind w.nspin).idxOf (g, g + w.nspin / 2) := fun h => hpq ((List.idxOf_inj hp).1 h)
              simp [this, hv _ hp, hpq]
          · simp only [hg, false_and, if_false, hv _ hp]
            have : g < n + 1 ↔ g < n := by omega
            simp only [this]
        · exfalso
          apply h
          intro i hi
          rcases Nat.lt_succ_iff_lt_or_eq.1 hi with hi | rfl
          · exact hn i hi
          · exact hc
      · rw [if_neg hc]
        refine ⟨fun h => absurd (h n (by omega)) hc, fun _ => rfl⟩
    · rw [ih.2 hn]
      exact ⟨fun h => absurd (fun i hi => h i (by omega)) hn, fun _ => rfl⟩

/-- **C130**: the default parameters exist if the wavefunction has the pairs of the first orbitals and their partners, one for each geminal; for
`APG` and `BasicAPsetG` this means that there are at most as many geminals as spatial orbitals.  Otherwise there is a `ValueError`. -/
theorem C130_exists (w : Geminal.Wfn R) (hw : C129_made (.gem w)) :
    ((∀ i < w.ngem, (i, i + w.nspin / 2) ∈ columns w.kind w.nspin) → ∃ params, (Other.gem w).assignDefault = .ok (.gem { w with params := params })) ∧
    (¬ (∀ i < w.ngem, (i, i + w.nspin / 2) ∈ columns w.kind w.nspin) → (Other.gem w).assignDefault = .error .valueError) ∧
    (C129_formula (.gem w) = true → ((∀ i < w.ngem, (i, i + w.nspin / 2) ∈ columns w.kind w.nspin) ↔ w.ngem ≤ w.nspin / 2)) := by
  obtain ⟨-, -, f3, f4, -⟩ := gemCopy_made_facts _ hw
  simp only [Other.nspin] at f3 f4
  refine ⟨fun h => ?_, fun h => ?_, fun h => ?_⟩
  · obtain ⟨r, hr, -⟩ := (default_fold w hw w.ngem).1 h
    exact ⟨r, by rw [Other.assignDefault, defaultParams, hr]; rfl⟩
  · rw [Other.assignDefault, defaultParams, (default_fold w hw w.ngem).2 h]; rfl
  · have key : ∀ i, (i, i + w.nspin / 2) ∈ columns w.kind w.nspin ↔ i < w.nspin / 2 := by
      intro i
      rcases hk : w.kind with _ | _ | pairs
      · simp only [columns, mem_pairsAll]; omega
      · simp only [columns, mem_pairsSets]; omega
      · simp [C129_formula, hk] at h
    simp only [key]
    constructor
    · intro h
      by_contra hc
      have := h (w.nspin / 2) (by omega)
      omega
    · intro h i hi; omega

private theorem default_le (w : Geminal.Wfn R) (hw : C129_made (.gem w)) (h : ∀ i < w.ngem, (i, i + w.nspin / 2) ∈ columns w.kind w.nspin) :
    w.ngem ≤ w.nspin / 2 := by
  obtain ⟨-, -, f3, f4, -⟩ := gemCopy_made_facts _ hw
  simp only [Other.nspin] at f3 f4
  rcases hk : w.kind with _ | _ | pairs
  · exact ((C130_exists w hw).2.2 (by simp [C129_formula, hk])).1 h
  · exact ((C130_exists w hw).2.2 (by simp [C129_formula, hk])).1 h
  · by_contra hc
    have h1 := h 0 (by omega)
    have h2 := h (w.nspin / 2) (by omega)
    rw [hk] at h1 h2
    have hfl := gemCopy_flat w hw hk
    rw [flatPairs, List.nodup_flatMap] at hfl
    have : Std.Symm (Function.onFun List.Disjoint fun p : ℕ × ℕ => [p.1, p.2]) := ⟨fun _ _ h => List.Disjoint.symm h⟩
    have hd := hfl.2.forall h1 h2 (by intro he; injection he; omega)
    exact hd (a := w.nspin / 2) (by simp) (by simp)

private theorem prod_default (w : Geminal.Wfn R) (hw : C129_made (.gem w)) (r : ℕ → ℕ → R)
    (hin : ∀ i < w.ngem, (i, i + w.nspin / 2) ∈ columns w.kind w.nspin)
    (hv : ∀ p ∈ columns w.kind w.nspin, ∀ g, r g ((columns w.kind w.nspin).idxOf p) = if g < w.ngem ∧ p = (g, g + w.nspin / 2) then 1 else 0)
    (rows : List ℕ) (hr : ∀ i ∈ rows, i < w.ngem) :
    gemProd (columns w.kind w.nspin) r rows =
      (flatPairs (rows.map fun i => (i, i + w.nspin / 2))).foldr (fun i v => creOp i v) (ket ∅) := by
  have hop : ∀ g < w.ngem, gemOp (columns w.kind w.nspin) (r g) = (creOp g ∘ₗ creOp (g + w.nspin / 2) : Fock R →ₗ[R] Fock R) := by
    intro g hg
    have hnd : (columns w.kind w.nspin).Nodup := (gemCopy_made_facts _ hw).2.1
    rw [gemCopy_gemOp_pairs hnd, Finset.sum_eq_single (g, g + w.nspin / 2)]
    · rw [hv _ (hin g hg), if_pos ⟨hg, rfl⟩, one_smul]
    · intro p hp hne
      rw [hv p (List.mem_toFinset.1 hp), if_neg (fun h => hne h.2), zero_smul]
    · intro h
      exact absurd (List.mem_toFinset.2 (hin g hg)) h
  induction rows with
  | nil => rfl
  | cons i rows ih =>
    have := ih fun i hi => hr i (by simp [hi])
    rw [gemProd] at this ⊢
    rw [List.foldr_cons, this, hop i (hr i (by simp))]
    simp [flatPairs]

/-- **C130**: with the default parameters the overlap is one, up to a sign that depends on the number of pairs and the class only, for the
determinants whose electrons are paired in spatial orbitals below the number of geminals, and zero for all others. -/
theorem C130_overlap [CharZero R] (w w' : Geminal.Wfn R) (hw : C129_made (.gem w)) (h : (Other.gem w).assignDefault = .ok (.gem w'))
    (sd : ℕ) (hsd : sd < 2 ^ w.nspin) (hc : (occSet sd).card = w.nelec) :
    ((∃ S ⊆ Finset.range w.ngem, occSet sd = S ∪ S.image (· + w.nspin / 2)) →
      w'.overlap sd = .ok (C129_sign w * (-1) ^ (w.nelec / 2 * (w.nelec / 2 - 1) / 2))) ∧
    (¬ (∃ S ⊆ Finset.range w.ngem, occSet sd = S ∪ S.image (· + w.nspin / 2)) → w'.overlap sd = .ok 0) := by
  set n := w.nspin / 2 with hn
  have hin : ∀ i < w.ngem, (i, i + n) ∈ columns w.kind w.nspin := by
    by_contra hc'
    rw [(C130_exists w hw).2.1 hc'] at h
    cases h
  have hle := default_le w hw hin
  obtain ⟨r, hr, hv⟩ := (default_fold w hw w.ngem).1 hin
  obtain rfl : { w with params := r } = w' := by
    rw [Other.assignDefault, defaultParams, hr] at h
    injection h with h
    injection h
  rw [gemCopy_gem_overlap _ (gemCopy_made_setParams _ hw r) sd hsd hc]
  change ((∃ S ⊆ Finset.range w.ngem, occSet sd = S ∪ S.image (· + n)) →
      Except.ok (C129_sign w * gemState (columns w.kind w.nspin) r w.ngem (w.nelec / 2) (occSet sd)) = _) ∧
    (¬ (∃ S ⊆ Finset.range w.ngem, occSet sd = S ∪ S.image (· + n)) →
      Except.ok (C129_sign w * gemState (columns w.kind w.nspin) r w.ngem (w.nelec / 2) (occSet sd)) = _)
  obtain ⟨-, -, f3, f4, f5, f6, f7, -⟩ := gemCopy_made_facts _ hw
  simp only [Other.nspin, Other.nelec, Other.ngem] at f3 f4 f5 f6 f7
  have hterm : ∀ S ∈ (Finset.range w.ngem).powersetCard (w.nelec / 2), gemProd (columns w.kind w.nspin) r (S.sort (· ≤ ·)) (occSet sd) =
      if occSet sd = S ∪ S.image (· + n) then (-1) ^ (w.nelec / 2 * (w.nelec / 2 - 1) / 2) else 0 := by
    intro S hS
    obtain ⟨hS1, hS2⟩ := Finset.mem_powersetCard.1 hS
    have hlt : ∀ i ∈ S.sort (· ≤ ·), i < w.ngem := fun i hi => Finset.mem_range.1 (hS1 ((Finset.mem_sort _).1 hi))
    rw [prod_default w hw r hin hv _ hlt, cre_vac, ← hn]
    have hfs : (flatPairs ((S.sort (· ≤ ·)).map fun i => (i, i + n))).toFinset = S ∪ S.image (· + n) := by
      ext x
      simp only [flatPairs, List.mem_toFinset, List.mem_flatMap, List.mem_map, Finset.mem_union, Finset.mem_image]
      constructor
      · rintro ⟨p, ⟨i, hi, rfl⟩, hx⟩
        have hi' := (Finset.mem_sort _).1 hi
        simp only [List.mem_cons, List.not_mem_nil, or_false] at hx
        rcases hx with rfl | rfl
        · exact Or.inl hi'
        · exact Or.inr ⟨i, hi', rfl⟩
      · rintro (hx | ⟨i, hi, rfl⟩)
        · exact ⟨_, ⟨x, (Finset.mem_sort _).2 hx, rfl⟩, by simp⟩
        · exact ⟨_, ⟨i, (Finset.mem_sort _).2 hi, rfl⟩, by simp⟩
    have hcard : (S ∪ S.image (· + n)).card = 2 * (w.nelec / 2) := by
      rw [Finset.card_union_of_disjoint, Finset.card_image_of_injective _ (add_left_injective n), hS2]
      · omega
      · rw [Finset.disjoint_left]
        intro x hx hx'
        obtain ⟨y, -, rfl⟩ := Finset.mem_image.1 hx'
        have := Finset.mem_range.1 (hS1 hx)
        omega
    have hnd : (flatPairs ((S.sort (· ≤ ·)).map fun i => (i, i + n))).Nodup := by
      rw [← List.dedup_eq_self]
      apply (List.dedup_sublist _).eq_of_length
      rw [← List.card_toFinset, hfs, hcard, flatPairs_length_even, List.length_map, Finset.length_sort, hS2]
    rw [if_pos hnd, hfs, Finsupp.single_apply, sign_seniority n (Finset.sortedLT_sort S).pairwise (fun b hb => by have := hlt b hb; omega),
      Finset.length_sort, hS2]
    by_cases he : occSet sd = S ∪ S.image (· + n)
    · rw [if_pos he.symm, if_pos he]; push_cast; rfl
    · rw [if_neg (Ne.symm he), if_neg he]
  rw [gemState, Finsupp.finsetSum_apply, Finset.sum_congr rfl hterm]
  have huniq : ∀ S T : Finset ℕ, S ⊆ Finset.range w.ngem → T ⊆ Finset.range w.ngem → S ∪ S.image (· + n) = T ∪ T.image (· + n) → S ⊆ T := by
    intro S T hS hT he x hx
    have : x ∈ T ∪ T.image (· + n) := by rw [← he]; exact Finset.mem_union_left _ hx
    rcases Finset.mem_union.1 this with h | h
    · exact h
    · obtain ⟨y, -, rfl⟩ := Finset.mem_image.1 h
      have := Finset.mem_range.1 (hS hx)
      omega
  constructor
  · rintro ⟨S, hS, he⟩
    have hk : S.card = w.nelec / 2 := by
      have : (S ∪ S.image (· + n)).card = 2 * S.card := by
        rw [Finset.card_union_of_disjoint, Finset.card_image_of_injective _ (add_left_injective n)]
        · omega
        · rw [Finset.disjoint_left]
          intro x hx hx'
          obtain ⟨y, -, rfl⟩ := Finset.mem_image.1 hx'
          have := Finset.mem_range.1 (hS hx)
          omega
      rw [← he, hc] at this
      omega
    rw [Finset.sum_eq_single S]
    · rw [if_pos he]
    · intro T hT hne
      rw [if_neg]
      intro he'
      have hT1 := (Finset.mem_powersetCard.1 hT).1
      exact hne (Finset.Subset.antisymm (huniq T S hT1 hS (he'.symm.trans he)) (huniq S T hS hT1 (he.symm.trans he')))
    · intro h'
      exact absurd (Finset.mem_powersetCard.2 ⟨hS, hk⟩) h'
  · intro hne
    rw [Finset.sum_eq_zero, mul_zero]
    intro S hS
    rw [if_neg]
    exact fun he => hne ⟨S, (Finset.mem_powersetCard.1 hS).1, he⟩

private theorem default_ground {nelec nspin g : ℕ} (hg : ground nelec nspin = .ok g) (he : nelec % 2 = 0) :
    occSet g = Finset.range (nelec / 2) ∪ (Finset.range (nelec / 2)).image (· + nspin / 2) := by
  obtain ⟨-, -, -, ho, -⟩ := ground_even hg he
  have := congrArg List.toFinset ho
  rw [toFinset_occIndices] at this
  rw [this]
  ext x
  simp

/-- **C130**: as the documentation says, the default is the Hartree-Fock ground state if there are as many geminals as pairs of electrons: its
overlap is one up to a sign, and all others are zero. -/
theorem C130_ground [CharZero R] (w w' : Geminal.Wfn R) (hw : C129_made (.gem w)) (h : (Other.gem w).assignDefault = .ok (.gem w'))
    (hn : w.ngem = w.nelec / 2) (g : ℕ) (hg : ground w.nelec w.nspin = .ok g) (sd : ℕ) (hsd : sd < 2 ^ w.nspin) (hc : (occSet sd).card = w.nelec) :
    w'.overlap sd = .ok (if sd = g then C129_sign w * (-1) ^ (w.nelec / 2 * (w.nelec / 2 - 1) / 2) else 0) := by
  have he : w.nelec % 2 = 0 := by
    exact (gemCopy_made_facts _ hw).2.2.2.2.2.1
  have hgo := default_ground hg he
  obtain ⟨h1, h2⟩ := C130_overlap w w' hw h sd hsd hc
  by_cases hs : sd = g
  · rw [if_pos hs]
    exact h1 ⟨Finset.range (w.nelec / 2), by rw [hn], by rw [hs, hgo]⟩
  · rw [if_neg hs]
    refine h2 ?_
    rintro ⟨S, hS, ho⟩
    apply hs
    apply occSet_injective
    rw [ho, hgo]
    have hcard : w.nelec ≤ 2 * S.card := by
      rw [← hc, ho]
      refine (Finset.card_union_le _ _).trans ?_
      have := Finset.card_image_le (s := S) (f := (· + w.nspin / 2))
      omega
    have : S = Finset.range (w.nelec / 2) := by
      rw [hn] at hS
      apply Finset.eq_of_subset_of_card_le hS
      rw [Finset.card_range]
      omega
    rw [this]

/-- **C130**: with more geminals than pairs of electrons the default is not the ground state: another determinant has the same overlap. -/
theorem C130_default_disagrees [CharZero R] (w w' : Geminal.Wfn R) (hw : C129_made (.gem w)) (h : (Other.gem w).assignDefault = .ok (.gem w'))
    (hn : w.nelec / 2 < w.ngem) (g : ℕ) (hg : ground w.nelec w.nspin = .ok g) :
    ∃ sd, sd < 2 ^ w.nspin ∧ (occSet sd).card = w.nelec ∧ sd ≠ g ∧ w'.overlap sd = w'.overlap g ∧ w'.overlap g ≠ .ok 0 := by
  have he : w.nelec % 2 = 0 := by
    exact (gemCopy_made_facts _ hw).2.2.2.2.2.1
  have hgo := default_ground hg he
  obtain ⟨hk, hkn, hev, -⟩ := ground_even hg he
  obtain ⟨-, hgb, hgc⟩ := ground_ok_facts hg
  have hin : ∀ i < w.ngem, (i, i + w.nspin / 2) ∈ columns w.kind w.nspin := by
    by_contra hc'
    rw [(C130_exists w hw).2.1 hc'] at h
    cases h
  have hle := default_le w hw hin
  set k := w.nelec / 2
  set n := w.nspin / 2 with hnn
  have hS : (Finset.range k).image (· + 1) ⊆ Finset.range w.ngem := by
    intro x hx
    simp only [Finset.mem_image, Finset.mem_range] at hx ⊢
    omega
  have hmem : ∀ x, x ∈ (Finset.range k).image (· + 1) ↔ 1 ≤ x ∧ x ≤ k := by
    intro x
    simp only [Finset.mem_image, Finset.mem_range]
    constructor
    · rintro ⟨y, hy, rfl⟩; omega
    · intro hx; exact ⟨x - 1, by omega, by omega⟩
  set S := (Finset.range k).image (· + 1) with hSd
  have hocc : occSet (sdOf (S ∪ S.image (· + n))) = S ∪ S.image (· + n) := occSet_sdOf _
  have hcS : S.card = k := by
    rw [hSd, Finset.card_image_of_injective _ (add_left_injective 1), Finset.card_range]
  have hc : (occSet (sdOf (S ∪ S.image (· + n)))).card = w.nelec := by
    rw [hocc, Finset.card_union_of_disjoint, Finset.card_image_of_injective _ (add_left_injective n), hcS]
    · omega
    · rw [Finset.disjoint_left]
      intro x hx hx'
      obtain ⟨y, hy, rfl⟩ := Finset.mem_image.1 hx'
      have := Finset.mem_range.1 (hS hx)
      omega
  have hb : sdOf (S ∪ S.image (· + n)) < 2 ^ w.nspin := by
    rw [lt_two_pow_iff]
    intro i hi
    rw [hocc] at hi
    rcases Finset.mem_union.1 hi with hi | hi
    · have := (hmem i).1 hi; omega
    · obtain ⟨y, hy, rfl⟩ := Finset.mem_image.1 hi
      have := (hmem y).1 hy; omega
  refine ⟨sdOf (S ∪ S.image (· + n)), hb, hc, ?_, ?_, ?_⟩
  · intro heq
    have h0 : 0 ∈ occSet g := by rw [hgo]; simp; omega
    rw [← heq, hocc] at h0
    rcases Finset.mem_union.1 h0 with h0 | h0
    · have := (hmem 0).1 h0; omega
    · obtain ⟨y, hy, h0⟩ := Finset.mem_image.1 h0
      have := (hmem y).1 hy
      omega
  · rw [(C130_overlap w w' hw h _ hb hc).1 ⟨S, hS, hocc⟩,
      (C130_overlap w w' hw h g hgb hgc).1 ⟨Finset.range k, Finset.range_subset_range.2 (by omega), hgo⟩]
  · rw [(C130_overlap w w' hw h g hgb hgc).1 ⟨Finset.range k, Finset.range_subset_range.2 (by omega), hgo⟩]
    intro h0
    injection h0 with h0
    have hsn : C129_sign w ≠ 0 := by
      unfold C129_sign
      split
      · exact pow_ne_zero _ (by simp)
      · exact one_ne_zero
    exact mul_ne_zero hsn (pow_ne_zero _ (by simp)) h0

/-- **C130**: the default parameters of an `AP1roG` give one for its reference, and zero for every other determinant. -/
theorem C130_ap1rog [CharZero R] (w w' : AP1roG R) (hw : C129_made (.ap1rog w)) (h : (Other.ap1rog w).assignDefault = .ok (.ap1rog w')) (sd : ℕ) :
    w'.ref = w.ref ∧ w'.overlap sd = .ok (if sd = w.ref then 1 else 0) := by
  obtain rfl : { w with params := fun _ _ => 0 } = w' := by
    rw [Other.assignDefault] at h
    injection h with h
    injection h
  refine ⟨rfl, ?_⟩
  obtain ⟨nelec, nspin, ngem, op, ref, params, hi⟩ := hw
  obtain ⟨⟨h1, h2, h3, h4, h5⟩, r, pairs, hr1, hr2, -, hp, hsub, rfl⟩ := ap1rog_init_ok hi
  obtain ⟨-, hfl, hlen⟩ := apigOrbpairs_ok hp
  have hpos : 0 < nspin / 2 := by omega
  simp only
  by_cases hsen : sd / 2 ^ (nspin / 2) = sd % 2 ^ (nspin / 2)
  swap
  · rw [AP1roG.overlap, ap1rog_inds_none _ hpos (Or.inl fun h => hsen ((seniority_zero_iff hpos).1 h)), if_neg (by rintro rfl; exact hsen hr2)]
    rfl
  by_cases hl : (occIndices (some (sd % 2 ^ (nspin / 2)))).length = (occIndices (some (r % 2 ^ (nspin / 2)))).length
  swap
  · rw [AP1roG.overlap, ap1rog_inds_none _ hpos (Or.inr hl), if_neg (by rintro rfl; exact hl rfl)]
    rfl
  rw [AP1roG.overlap, ap1rog_inds hfl rfl hpos (by omega) hsub hr2 _ _ _ hsen hl]
  by_cases hs : sd = r
  · subst hs
    simp [bind, Except.bind, AP1roG.overlapOf]
  rw [if_neg hs]
  have hne : ¬ ∀ x ∈ occIndices (some (sd % 2 ^ (nspin / 2))), x ∈ occIndices (some (r % 2 ^ (nspin / 2))) := by
    intro hsub'
    apply hs
    have hm : sd % 2 ^ (nspin / 2) = r % 2 ^ (nspin / 2) := by
      apply occSet_injective
      apply Finset.eq_of_subset_of_card_le
      · intro x hx
        rw [← toFinset_occIndices, List.mem_toFinset] at hx ⊢
        exact hsub' x hx
      · rw [← length_occIndices, ← length_occIndices, hl]
    rw [← Nat.div_add_mod sd (2 ^ (nspin / 2)), ← Nat.div_add_mod r (2 ^ (nspin / 2)), hsen, hr2, hm]
  have hc : ((occIndices (some (sd % 2 ^ (nspin / 2)))).filter (· ∉ occIndices (some (r % 2 ^ (nspin / 2))))).length ≠ 0 := by
    rw [Ne, List.length_eq_zero_iff, List.filter_eq_nil_iff]
    simpa using hne
  have hr : ((occIndices (some (r % 2 ^ (nspin / 2)))).filter (· ∉ occIndices (some (sd % 2 ^ (nspin / 2))))).length ≠ 0 := by
    have e := diffOrbs_filter (r % 2 ^ (nspin / 2)) (sd % 2 ^ (nspin / 2))
    have e1 := diffOrbs_fst_length (r % 2 ^ (nspin / 2)) (sd % 2 ^ (nspin / 2))
    have e2 := diffOrbs_snd_length (r % 2 ^ (nspin / 2)) (sd % 2 ^ (nspin / 2))
    rw [e] at e1 e2
    rw [e2] at hc
    rw [e1]
    rw [length_occIndices, length_occIndices] at hl
    have h1 := Finset.card_sdiff_add_card_inter (occSet (r % 2 ^ (nspin / 2))) (occSet (sd % 2 ^ (nspin / 2)))
    have h2 := Finset.card_sdiff_add_card_inter (occSet (sd % 2 ^ (nspin / 2))) (occSet (r % 2 ^ (nspin / 2)))
    rw [Finset.inter_comm] at h2
    omega
  simp only [bind, Except.bind, AP1roG.overlapOf]
  rw [if_neg (by rw [List.length_map, List.length_map]; exact fun h => hc h.2), permanent_perL _ (by rwa [List.length_map]) (by rwa [List.length_map])]
  congr 1
  rw [perL, perSpec, List.length_map, List.length_map]
  have z1 : ∀ k : ℕ, k ≠ 0 → ∏ _i : Fin k, (0 : R) = 0 := fun k hk => by rw [Finset.prod_const, Finset.card_univ, Fintype.card_fin, zero_pow hk]
  split_ifs
  · exact Finset.sum_eq_zero fun e _ => z1 _ hr
  · exact Finset.sum_eq_zero fun e _ => z1 _ hc

/- the hypotheses can be met: two geminals for two pairs, and three for two pairs -/
example : C129_made (.gem (⟨.apg, 4, 6, 2, fun _ _ => 0⟩ : Geminal.Wfn ℚ)) ∧ C129_made (.gem (⟨.apg, 4, 6, 3, fun _ _ => 0⟩ : Geminal.Wfn ℚ)) ∧
    C129_made (.gem (⟨.apig [(0, 3), (1, 4), (2, 5)], 4, 6, 2, fun _ _ => 0⟩ : Geminal.Wfn ℚ)) ∧
    C129_made (.ap1rog (⟨4, 6, 2, 27, [(0, 3), (1, 4)], [(2, 5)], fun _ _ => 1⟩ : AP1roG ℚ)) ∧
    (∀ i < 3, (i, i + 6 / 2) ∈ columns .apg 6) ∧ ground 4 6 = .ok 27 ∧ 27 < 2 ^ 6 ∧ (occSet 27).card = 4 := by
  refine ⟨⟨.apg, 4, 6, none, none, _, rfl⟩, ⟨.apg, 4, 6, some 3, none, _, rfl⟩, ⟨.apig [], 4, 6, none, none, _, rfl⟩,
    ⟨4, 6, none, none, none, _, rfl⟩, by decide, by decide +kernel,
    by norm_num, by decide +kernel⟩

end Fanpy.Props
