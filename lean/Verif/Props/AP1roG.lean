import Verif.Props.GeminalDeriv
import Verif.Lemmas.PermanentLists
import Verif.Lemmas.SenZero
import Verif.Model.AP1roG

/-! # C36: AP1roG is APIG with an identity block -/

namespace Fanpy.Props
open Fanpy.Slater Fanpy.Graphs Fanpy.Geminal Fanpy.Spec Fanpy.MathTools Fanpy.Lemmas

set_option linter.unusedSectionVars false

variable {R : Type} [Field R]

theorem permanent_perL [CharZero R] (P : ℕ → ℕ → R) {rows cols : List ℕ} (hr : rows.length ≠ 0) (hc : cols.length ≠ 0) :
    permanent P cols rows = .ok (perL P rows cols) := by
  rw [permanent, permanentOf_eq _ _ hr hc]
  rfl

/-! ## The constructor -/

theorem ap1rog_init_ok {nelec nspin : ℕ} {ngem : Option ℕ} {op : Option (List (ℕ × ℕ))} {ref : Option ℕ}
    {params : ℕ → ℕ → R} {w : AP1roG R} (h : AP1roG.init nelec nspin ngem op ref params = .ok w) :
    (nelec ≠ 0 ∧ nelec % 2 = 0 ∧ nspin ≠ 0 ∧ nspin % 2 = 0 ∧ ngem.getD (nelec / 2) = nelec / 2) ∧
    ∃ r pairs, (occSet r).card = nelec ∧ r / 2 ^ (nspin / 2) = r % 2 ^ (nspin / 2) ∧ (∀ r', ref = some r' → r = r') ∧
      apigOrbpairs nspin op = .ok pairs ∧ (∀ p ∈ pairs, ∃ i < nspin / 2, p = (i, i + nspin / 2)) ∧
      w = ⟨nelec, nspin, nelec / 2, r, pairs.filter (inRef r), pairs.filter (fun p => !inRef r p), params⟩ := by
  rw [AP1roG.init, Geminal.checkNelec, CI.checkNelec, CI.checkNspin, ap1rogNgem, assignNgem] at h
  by_cases h1 : nelec = 0
  · simp [h1, bind, Except.bind] at h
  by_cases h2 : nelec % 2 = 0
  swap
  · simp [h1, h2, bind, Except.bind] at h
  by_cases h3 : nspin = 0 ∨ nspin % 2 = 1
  · simp [h1, h2, h3, bind, Except.bind, pure, Except.pure] at h
  by_cases h4 : ngem.getD (nelec / 2) < nelec / 2
  · simp [h1, h2, h3, h4, bind, Except.bind, pure, Except.pure] at h
  by_cases h5 : ngem.getD (nelec / 2) ≠ nelec / 2
  · simp [h1, h2, h3, h4, h5, bind, Except.bind, pure, Except.pure] at h
  rw [ne_eq, not_not] at h5
  simp only [h1, h2, h3, h5, lt_irrefl, bind, Except.bind, if_false, pure, Except.pure, ne_eq, not_true_eq_false] at h
  have hchk : ∀ r s, ap1rogCheckRef nelec nspin r = .ok s → s = r ∧ (occSet r).card = nelec ∧
      r / 2 ^ (nspin / 2) = r % 2 ^ (nspin / 2) := by
    intro r s hr
    rw [ap1rogCheckRef] at hr
    rcases ht : getTwoSpin r (nspin / 2 : ℕ) with e | t
    · rw [ht] at hr; split_ifs at hr; cases hr
    rcases hs : getSeniority r (nspin / 2 : ℕ) with e | t'
    · rw [ht, hs] at hr; simp only [bind, Except.bind] at hr; split_ifs at hr
    rw [ht, hs] at hr
    simp only [bind, Except.bind, pure, Except.pure] at hr
    split_ifs at hr with a b c
    rw [ne_eq, not_not] at a b c
    rw [totalOcc_eq] at a
    refine ⟨by injection hr with hr; exact hr.symm, a, ?_⟩
    rw [← seniority_zero_iff (by omega), hs, c]
  rcases hr : ap1rogRef nelec nspin ref with e | r
  · rw [hr] at h; cases h
  rw [hr] at h
  simp only [ap1rogPairs, bind, Except.bind, pure, Except.pure] at h
  rcases hp : apigOrbpairs nspin op with e | pairs
  · rw [hp] at h; cases h
  rw [hp] at h
  simp only at h
  split_ifs at h with hsub
  refine ⟨⟨h1, h2, by omega, by omega, h5⟩, r, pairs, ?_, ?_, ?_, rfl, ?_, ?_⟩
  · rw [ap1rogRef.eq_def] at hr
    rcases ref with - | r'
    · simp only [bind, Except.bind] at hr
      rcases hg : ground nelec nspin with e | g
      · rw [hg] at hr; cases hr
      · rw [hg] at hr; obtain ⟨rfl, h, -⟩ := hchk g r hr; exact h
    · obtain ⟨rfl, h, -⟩ := hchk r' r hr; exact h
  · rw [ap1rogRef.eq_def] at hr
    rcases ref with - | r'
    · simp only [bind, Except.bind] at hr
      rcases hg : ground nelec nspin with e | g
      · rw [hg] at hr; cases hr
      · rw [hg] at hr; obtain ⟨rfl, -, h⟩ := hchk g r hr; exact h
    · obtain ⟨rfl, -, h⟩ := hchk r' r hr; exact h
  · rintro r' rfl
    exact (hchk r' r hr).1
  · intro p hp
    push Not at hsub
    obtain ⟨i, hi, rfl⟩ := List.mem_map.1 (hsub p hp)
    exact ⟨i, List.mem_range.1 hi, rfl⟩
  · injection h with h
    exact h.symm

/-! ## The identity block -/

/-- The matrix of coefficients of an APIG wavefunction with the given pairs: identity on the pairs of the reference,
the given parameters on the others. -/
def identityBlock (pairs : List (ℕ × ℕ)) (ref : ℕ) (params : ℕ → ℕ → R) : ℕ → ℕ → R := fun r c =>
  let p := pairs.getD c (0, 0)
  let refs := pairs.filter fun p => p.1 ∈ occSet ref ∧ p.2 ∈ occSet ref
  let virs := pairs.filter fun p => ¬ (p.1 ∈ occSet ref ∧ p.2 ∈ occSet ref)
  if p ∈ refs then if r = refs.idxOf p then 1 else 0 else params r (virs.idxOf p)

theorem filter_inRef (pairs : List (ℕ × ℕ)) (ref : ℕ) :
    pairs.filter (inRef ref) = pairs.filter (fun p => p.1 ∈ occSet ref ∧ p.2 ∈ occSet ref) ∧
    pairs.filter (fun p => !inRef ref p) = pairs.filter fun p => ¬ (p.1 ∈ occSet ref ∧ p.2 ∈ occSet ref) := by
  constructor <;> apply List.filter_congr <;> intro p _ <;> simp [inRef, mem_occSet]

theorem map_idxOf_self {l : List (ℕ × ℕ)} (h : l.Nodup) : l.map l.idxOf = List.range l.length := by
  apply List.ext_getElem
  · simp
  · intro i h1 h2
    rw [List.getElem_map, h.idxOf_getElem, List.getElem_range]

theorem testBit_seniority {r n : ℕ} (h : r / 2 ^ n = r % 2 ^ n) (i : ℕ) : r.testBit (i + n) = (decide (i < n) && r.testBit i) := by
  have := congrArg (fun x => x.testBit i) h
  simp only [Nat.testBit_div_two_pow, Nat.testBit_mod_two_pow] at this
  exact this

/-- the order of the occupied orbitals of a determinant of seniority zero -/
theorem card_seniority {r n : ℕ} (h : r / 2 ^ n = r % 2 ^ n) :
    (occSet r).card = 2 * (occIndices (some (r % 2 ^ n))).length := by
  rw [← length_occIndices, occIndices_split r n, h, List.length_append, List.length_map]
  omega

theorem diffOrbs_filter (a b : ℕ) : diffOrbs a b =
    ((occIndices (some a)).filter (· ∉ occIndices (some b)), (occIndices (some b)).filter (· ∉ occIndices (some a))) := by
  simp only [diffOrbs]
  congr 1
  · apply sorted_lt_ext (sorted_occIndices _) ((sorted_occIndices _).filter _)
    intro i
    rw [mem_occIndices, List.mem_filter, mem_occIndices, decide_eq_true_eq, mem_occIndices]
    simp only [Nat.testBit_and, Nat.testBit_xor]
    cases a.testBit i <;> cases b.testBit i <;> simp
  · apply sorted_lt_ext (sorted_occIndices _) ((sorted_occIndices _).filter _)
    intro i
    rw [mem_occIndices, List.mem_filter, mem_occIndices, decide_eq_true_eq, mem_occIndices]
    simp only [Nat.testBit_and, Nat.testBit_xor]
    cases a.testBit i <;> cases b.testBit i <;> simp

section
variable {pairs : List (ℕ × ℕ)} {n ref : ℕ}

/-- all the alpha-beta pairs are there -/
theorem mem_pairs_of (hfl : (flatPairs pairs).Nodup) (hlen : pairs.length = n)
    (hsub : ∀ p ∈ pairs, ∃ i < n, p = (i, i + n)) {i : ℕ} : (i, i + n) ∈ pairs ↔ i < n := by
  constructor
  · intro h
    obtain ⟨j, hj, he⟩ := hsub _ h
    have := (Prod.mk.inj he).1
    omega
  · intro hi
    have h1 : pairs.toFinset ⊆ (Finset.range n).image fun i => (i, i + n) := by
      intro p hp
      obtain ⟨i, hi, rfl⟩ := hsub p (List.mem_toFinset.1 hp)
      exact Finset.mem_image.2 ⟨i, Finset.mem_range.2 hi, rfl⟩
    have h2 := Finset.eq_of_subset_of_card_le h1 (by
      rw [List.toFinset_card_of_nodup (nodup_of_flatPairs hfl), hlen]
      exact Finset.card_image_le.trans (by simp))
    rw [← List.mem_toFinset, h2]
    exact Finset.mem_image.2 ⟨i, Finset.mem_range.2 hi, rfl⟩

theorem mem_refPairs (hfl : (flatPairs pairs).Nodup) (hlen : pairs.length = n)
    (hsub : ∀ p ∈ pairs, ∃ i < n, p = (i, i + n)) (href : ref / 2 ^ n = ref % 2 ^ n) {i : ℕ} :
    (i, i + n) ∈ pairs.filter (inRef ref) ↔ i ∈ occIndices (some (ref % 2 ^ n)) := by
  rw [List.mem_filter, mem_pairs_of hfl hlen hsub, mem_occIndices, Nat.testBit_mod_two_pow]
  simp only [inRef, occ_some, testBit_seniority href]
  by_cases h : i < n <;> simp [h]

theorem mem_virPairs (hfl : (flatPairs pairs).Nodup) (hlen : pairs.length = n)
    (hsub : ∀ p ∈ pairs, ∃ i < n, p = (i, i + n)) (href : ref / 2 ^ n = ref % 2 ^ n) {i : ℕ} :
    (i, i + n) ∈ pairs.filter (fun p => !inRef ref p) ↔ i < n ∧ i ∉ occIndices (some (ref % 2 ^ n)) := by
  rw [List.mem_filter, mem_pairs_of hfl hlen hsub, mem_occIndices, Nat.testBit_mod_two_pow]
  simp only [inRef, occ_some, testBit_seniority href]
  by_cases h : i < n <;> simp [h]

theorem refPairs_perm (hfl : (flatPairs pairs).Nodup) (hlen : pairs.length = n)
    (hsub : ∀ p ∈ pairs, ∃ i < n, p = (i, i + n)) (href : ref / 2 ^ n = ref % 2 ^ n) :
    ((occIndices (some (ref % 2 ^ n))).map fun i => (i, i + n)).Perm (pairs.filter (inRef ref)) := by
  rw [List.perm_ext_iff_of_nodup ((nodup_occIndices _).map (fun a b h => (Prod.mk.inj h).1))
    ((nodup_of_flatPairs hfl).filter _)]
  intro p
  rw [List.mem_map]
  constructor
  · rintro ⟨i, hi, rfl⟩
    exact (mem_refPairs hfl hlen hsub href).2 hi
  · intro hp
    obtain ⟨i, -, rfl⟩ := hsub p (List.mem_of_mem_filter hp)
    exact ⟨i, (mem_refPairs hfl hlen hsub href).1 hp, rfl⟩

/-- The permanent of the APIG matrix reduces to the rows of the orbitals that are emptied and the columns of those that
are filled. -/
theorem perL_identityBlock (hfl : (flatPairs pairs).Nodup) (hlen : pairs.length = n)
    (hsub : ∀ p ∈ pairs, ∃ i < n, p = (i, i + n)) (href : ref / 2 ^ n = ref % 2 ^ n) (params : ℕ → ℕ → R)
    {B : List ℕ} (hB : B.Nodup) (hBn : ∀ b ∈ B, b < n) (hl : B.length = (occIndices (some (ref % 2 ^ n))).length) :
    perL (identityBlock pairs ref params) (List.range B.length) (B.map fun i => pairs.idxOf (i, i + n)) =
      perL params
        (((occIndices (some (ref % 2 ^ n))).filter (· ∉ B)).map fun i => (pairs.filter (inRef ref)).idxOf (i, i + n))
        ((B.filter (· ∉ occIndices (some (ref % 2 ^ n)))).map fun i =>
          (pairs.filter (fun p => !inRef ref p)).idxOf (i, i + n)) := by
  set A := occIndices (some (ref % 2 ^ n)) with hA
  have hAn : A.Nodup := nodup_occIndices _
  have hperm := refPairs_perm hfl hlen hsub href
  have hrange : (A.map fun i => (pairs.filter (inRef ref)).idxOf (i, i + n)).Perm (List.range B.length) := by
    have := hperm.map (pairs.filter (inRef ref)).idxOf
    rw [map_idxOf_self ((nodup_of_flatPairs hfl).filter _), ← hperm.length_eq, List.length_map, ← hA, List.map_map] at this
    rw [hl]
    exact this
  rw [← perL_perm_rows _ hrange (hrange.nodup_iff.2 List.nodup_range) (by simp [hl]), perL_map, perL_map,
    perL_identity _ _ rfl hAn hB hl.le]
  · apply perL_congr
    intro a _ b hb
    obtain ⟨hb1, hb2⟩ := List.mem_filter.1 hb
    rw [decide_eq_true_eq] at hb2
    have hp : (b, b + n) ∈ pairs := (mem_pairs_of hfl hlen hsub).2 (hBn b hb1)
    simp only [identityBlock, ← (filter_inRef pairs ref).1, ← (filter_inRef pairs ref).2]
    have hg : pairs.getD (pairs.idxOf (b, b + n)) (0, 0) = (b, b + n) := by
      rw [List.getD_eq_getElem _ _ (List.idxOf_lt_length_of_mem hp)]
      exact List.getElem_idxOf _
    rw [hg, if_neg]
    rw [mem_refPairs hfl hlen hsub href]
    exact hb2
  · intro a ha b hb hba
    have hp : (b, b + n) ∈ pairs := (mem_pairs_of hfl hlen hsub).2 (hBn b hb)
    simp only [identityBlock, ← (filter_inRef pairs ref).1]
    have hg : pairs.getD (pairs.idxOf (b, b + n)) (0, 0) = (b, b + n) := by
      rw [List.getD_eq_getElem _ _ (List.idxOf_lt_length_of_mem hp)]
      exact List.getElem_idxOf _
    rw [hg, if_pos ((mem_refPairs hfl hlen hsub href).2 hba)]
    have hinj : (pairs.filter (inRef ref)).idxOf (a, a + n) = (pairs.filter (inRef ref)).idxOf (b, b + n) ↔ a = b := by
      rw [List.idxOf_inj ((mem_refPairs hfl hlen hsub href).2 ha), Prod.mk.injEq]
      omega
    simp only [hinj]

/-- `AP1roG.inds` for a determinant of seniority zero -/
theorem ap1rog_inds (hfl : (flatPairs pairs).Nodup) {nspin : ℕ} (hn : nspin / 2 = n) (hpos : 0 < n) (hlen : pairs.length = n)
    (hsub : ∀ p ∈ pairs, ∃ i < n, p = (i, i + n)) (href : ref / 2 ^ n = ref % 2 ^ n) (nelec ngem : ℕ)
    (params : ℕ → ℕ → R) {sd : ℕ} (hsd : sd / 2 ^ n = sd % 2 ^ n)
    (hl : (occIndices (some (sd % 2 ^ n))).length = (occIndices (some (ref % 2 ^ n))).length) :
    (⟨nelec, nspin, ngem, ref, pairs.filter (inRef ref), pairs.filter (fun p => !inRef ref p), params⟩ : AP1roG R).inds sd =
      .ok (some
        (((occIndices (some (ref % 2 ^ n))).filter (· ∉ occIndices (some (sd % 2 ^ n)))).map fun i =>
          (pairs.filter (inRef ref)).idxOf (i, i + n),
        ((occIndices (some (sd % 2 ^ n))).filter (· ∉ occIndices (some (ref % 2 ^ n)))).map fun i =>
          (pairs.filter (fun p => !inRef ref p)).idxOf (i, i + n))) := by
  subst hn
  have hlt : (diffOrbs (ref % 2 ^ (nspin / 2)) (sd % 2 ^ (nspin / 2))).1.length =
      (diffOrbs (ref % 2 ^ (nspin / 2)) (sd % 2 ^ (nspin / 2))).2.length := by
    rw [diffOrbs_fst_length, diffOrbs_snd_length]
    rw [length_occIndices, length_occIndices] at hl
    have h1 := Finset.card_sdiff_add_card_inter (occSet (ref % 2 ^ (nspin / 2))) (occSet (sd % 2 ^ (nspin / 2)))
    have h2 := Finset.card_sdiff_add_card_inter (occSet (sd % 2 ^ (nspin / 2))) (occSet (ref % 2 ^ (nspin / 2)))
    rw [Finset.inter_comm] at h2
    omega
  have hsen := (seniority_zero_iff (n := nspin / 2) hpos).2 hsd
  have e1 : (diffOrbs (ref % 2 ^ (nspin / 2)) (sd % 2 ^ (nspin / 2))).1.mapM
      (pairKey nspin (pairs.filter (inRef ref))) = .ok ((diffOrbs (ref % 2 ^ (nspin / 2)) (sd % 2 ^ (nspin / 2))).1.map
        fun i => (pairs.filter (inRef ref)).idxOf (i, i + nspin / 2)) := by
    apply mapM_eq_ok
    intro i hi
    rw [diffOrbs_filter] at hi
    rw [pairKey, if_pos ((mem_refPairs hfl hlen hsub href).2 (List.mem_of_mem_filter hi))]
  have e2 : (diffOrbs (ref % 2 ^ (nspin / 2)) (sd % 2 ^ (nspin / 2))).2.mapM
      (pairKey nspin (pairs.filter (fun p => !inRef ref p))) =
      .ok ((diffOrbs (ref % 2 ^ (nspin / 2)) (sd % 2 ^ (nspin / 2))).2.map
        fun i => (pairs.filter (fun p => !inRef ref p)).idxOf (i, i + nspin / 2)) := by
    apply mapM_eq_ok
    intro i hi
    rw [diffOrbs_filter] at hi
    obtain ⟨h1, h2⟩ := List.mem_filter.1 hi
    rw [mem_occIndices, Nat.testBit_mod_two_pow] at h1
    rw [pairKey, if_pos ((mem_virPairs hfl hlen hsub href).2 ⟨by simp at h1; exact h1.1, by simpa using h2⟩)]
  simp only [AP1roG.inds, splitSpin_ok hpos, bind, Except.bind, pure, Except.pure, hsen, e1, e2]
  rw [if_neg (by omega), if_neg (by simp)]
  rw [diffOrbs_filter]

/-- other determinants have no overlap -/
theorem ap1rog_inds_none (w : AP1roG R) (hpos : 0 < w.nspin / 2) {sd : ℕ}
    (h : getSeniority sd (w.nspin / 2 : ℕ) ≠ .ok 0 ∨
      (occIndices (some (sd % 2 ^ (w.nspin / 2)))).length ≠ (occIndices (some (w.ref % 2 ^ (w.nspin / 2)))).length) :
    w.inds sd = .ok none := by
  simp only [AP1roG.inds, splitSpin_ok hpos, bind, Except.bind, pure, Except.pure]
  by_cases hl : (diffOrbs (w.ref % 2 ^ (w.nspin / 2)) (sd % 2 ^ (w.nspin / 2))).1.length =
      (diffOrbs (w.ref % 2 ^ (w.nspin / 2)) (sd % 2 ^ (w.nspin / 2))).2.length
  · rw [if_neg (by simpa using hl)]
    have hs : getSeniority sd (w.nspin / 2 : ℕ) ≠ .ok 0 := by
      rcases h with h | h
      · exact h
      · exfalso
        apply h
        rw [length_occIndices, length_occIndices]
        rw [diffOrbs_fst_length, diffOrbs_snd_length] at hl
        have h1 := Finset.card_sdiff_add_card_inter (occSet (w.ref % 2 ^ (w.nspin / 2))) (occSet (sd % 2 ^ (w.nspin / 2)))
        have h2 := Finset.card_sdiff_add_card_inter (occSet (sd % 2 ^ (w.nspin / 2))) (occSet (w.ref % 2 ^ (w.nspin / 2)))
        rw [Finset.inter_comm] at h2
        omega
    rcases hg : getSeniority sd (w.nspin / 2 : ℕ) with e | s
    · rw [getSeniority_eq hpos] at hg; cases hg
    · rw [hg] at hs
      simp only
      rw [if_pos (fun h => hs (by rw [h]))]
  · rw [if_pos hl]

end

/-! ## The property -/

theorem sel_seniority {pairs : List (ℕ × ℕ)} {n : ℕ} (hfl : (flatPairs pairs).Nodup) (hlen : pairs.length = n)
    (hsub : ∀ p ∈ pairs, ∃ i < n, p = (i, i + n)) {sd : ℕ} :
    apigSelect pairs (occIndices (some sd)) = (occIndices (some (sd % 2 ^ n))).map fun i => (i, i + n) := by
  have hfind : ∀ i, i < n → (pairs.find? fun p => p.1 = i) = some (i, i + n) := by
    intro i hi
    rcases hf : pairs.find? (fun p => p.1 = i) with - | p
    · rw [List.find?_eq_none] at hf
      exact absurd (by simp) (hf _ ((mem_pairs_of hfl hlen hsub).2 hi))
    · obtain ⟨j, -, rfl⟩ := hsub p (List.mem_of_find?_eq_some hf)
      have := List.find?_some hf
      simp only [decide_eq_true_eq] at this
      rw [← this, ← hf, this]
  have hnone : ∀ i, n ≤ i → (pairs.find? fun p => p.1 = i) = none := by
    intro i hi
    rw [List.find?_eq_none]
    intro p hp
    obtain ⟨j, hj, rfl⟩ := hsub p hp
    simp only [decide_eq_true_eq]; omega
  rw [apigSelect, occIndices_split sd n, List.filterMap_append, List.filterMap_map]
  rw [List.filterMap_congr (g := some ∘ fun i => (i, i + n)), List.filterMap_eq_map, List.filterMap_congr (g := fun _ => none)
    (l := occIndices (some (sd / 2 ^ n)))]
  · simp
  · intro i _
    exact hnone _ (by simp)
  · intro i hi
    rw [mem_occIndices, Nat.testBit_mod_two_pow] at hi
    exact hfind i (by simp at hi; exact hi.1)

theorem sign_seniority (n : ℕ) {B : List ℕ} (hs : B.Pairwise (· < ·)) (hB : ∀ b ∈ B, b < n) :
    listSign (flatPairs (B.map fun i => (i, i + n))) = (-1) ^ (B.length * (B.length - 1) / 2) := by
  have hz : (B.map fun i => (i, i + n)) = B.zip (B.map (· + n)) := by
    rw [List.zip_map_right, ← List.map_id (B.zip B)]
    induction B with
    | nil => rfl
    | cons b B ih => simp_all
  have hbs : (B.map (· + n)).Pairwise (· < ·) := by
    rw [List.pairwise_map]; exact hs.imp fun h => by omega
  obtain ⟨e, rfl, he⟩ := listSign_flat (a := B) (b := B.map (· + n)) (by simp) (by
    intro x hx hx'
    obtain ⟨y, -, rfl⟩ := List.mem_map.1 hx
    have := hB _ hx'
    omega)
  have happ := listSign_append B (B.map (· + n))
  rw [listSign_sorted (by
    rw [List.pairwise_append]
    refine ⟨hs, hbs, ?_⟩
    intro a ha b hb
    obtain ⟨y, -, rfl⟩ := List.mem_map.1 hb
    have := hB a ha
    show a < y + n
    omega)] at happ
  rw [hz, he, ← happ, mul_one]

theorem neg_one_pow_tri (k : ℕ) : (-1 : ℤ) ^ k * (-1) ^ (k * (k - 1) / 2) = (-1) ^ (k * (k + 1) / 2) := by
  rw [← pow_add]
  congr 1
  rcases k with - | k
  · rfl
  · rw [Nat.add_sub_cancel, show (k + 1) * (k + 1 + 1) = (k + 1) * k + 2 * (k + 1) by ring,
      Nat.add_mul_div_left _ _ (by norm_num)]
    ring

/-- C36. The overlap of an `AP1roG` wavefunction is, up to the sign `(-1) ** (npair * (npair + 1) / 2)`, that of the `APIG`
wavefunction whose matrix of coefficients has an identity block for the pairs of the reference. -/
theorem C36_apig_partial [CharZero R] (nelec nspin : ℕ) (ngem : Option ℕ) (op : Option (List (ℕ × ℕ))) (ref : Option ℕ)
    (params : ℕ → ℕ → R) (w : AP1roG R) (hw : AP1roG.init nelec nspin ngem op ref params = .ok w)
    (pairs : List (ℕ × ℕ)) (hp : apigOrbpairs nspin op = .ok pairs)
    (sd : ℕ) (hsd : sd < 2 ^ nspin) (hc : (occSet sd).card = nelec) :
    ∃ w' : Geminal.Wfn R, Geminal.Wfn.init (.apig []) nelec nspin ngem op (identityBlock pairs w.ref params) = .ok w' ∧
      ∃ v, w'.overlap sd = .ok v ∧ w.overlap sd = .ok ((-1) ^ (nelec / 2 * (nelec / 2 + 1) / 2) * v) := by
  obtain ⟨⟨h1, h2, h3, h4, h5⟩, r, pairs', hr1, hr2, -, hp', hsub, rfl⟩ := ap1rog_init_ok hw
  obtain rfl : pairs = pairs' := by rw [hp] at hp'; injection hp'
  obtain ⟨-, hfl, hlen⟩ := apigOrbpairs_ok hp
  have hlen : pairs.length = nspin / 2 := by omega
  have hpos : 0 < nspin / 2 := by omega
  set n := nspin / 2 with hn
  refine ⟨⟨.apig pairs, nelec, nspin, nelec / 2, identityBlock pairs r params⟩, ?_, ?_⟩
  · rw [geminal_init_ok]
    exact ⟨⟨h1, h2, h3, h4, h5.ge⟩, .apig pairs, by simp [assignOrbpairs, hp, bind, Except.bind, pure, Except.pure], by
      rw [h5]⟩
  set w' : Geminal.Wfn R := ⟨.apig pairs, nelec, nspin, nelec / 2, identityBlock pairs r params⟩ with hw'
  have hocclen : (occIndices (some sd)).length = nelec := by rw [length_occIndices, hc]
  have hselsub : apigSelect pairs (occIndices (some sd)) ⊆ pairs := fun p hp => ((mem_apigSelect hfl).1 hp).1
  have hnf := flatPairs_nodup_sub hfl (nodup_apigSelect (nodup_occIndices sd)) hselsub
  have horb : w'.orbpairs (occIndices (some sd)) =
      if occSet sd ≠ (flatPairs (apigSelect pairs (occIndices (some sd)))).toFinset then .ok [([], 1)]
      else .ok [(apigSelect pairs (occIndices (some sd)),
        listSign (flatPairs (apigSelect pairs (occIndices (some sd)))).reverse)] := by
    rw [Geminal.Wfn.orbpairs]
    simp only [hw', ne_eq, hocclen, not_true_eq_false, if_false, signPerm_true _ hnf, bind, Except.bind, pure, Except.pure,
      toFinset_occIndices]
  by_cases hsen : sd / 2 ^ n = sd % 2 ^ n
  · have hk : (occIndices (some (sd % 2 ^ n))).length = nelec / 2 := by have := card_seniority hsen; omega
    have hkr : (occIndices (some (r % 2 ^ n))).length = nelec / 2 := by have := card_seniority hr2; omega
    have hBn : ∀ b ∈ occIndices (some (sd % 2 ^ n)), b < n := by
      intro b hb
      rw [mem_occIndices, Nat.testBit_mod_two_pow] at hb
      simp at hb; exact hb.1
    have hsel := sel_seniority hfl hlen hsub (sd := sd)
    rw [hsel] at horb hnf
    rw [if_neg (by
      rw [ne_eq, not_not]
      ext x
      rw [mem_occSet, List.mem_toFinset, flatPairs, List.mem_flatMap, ← mem_occIndices, occIndices_split sd n, hsen]
      simp only [List.mem_append, List.mem_map]
      constructor
      · rintro (h | ⟨i, hi, rfl⟩)
        · exact ⟨_, ⟨x, h, rfl⟩, by simp⟩
        · exact ⟨_, ⟨i, hi, rfl⟩, by simp⟩
      · rintro ⟨_, ⟨i, hi, rfl⟩, hx⟩
        simp only [List.mem_cons, List.not_mem_nil, or_false] at hx
        rcases hx with rfl | rfl
        · exact Or.inl hi
        · exact Or.inr ⟨i, hi, rfl⟩)] at horb
    have hfoldlen : (flatPairs ((occIndices (some (sd % 2 ^ n))).map fun i => (i, i + n))).length = 2 * (nelec / 2) := by
      rw [flatPairs_length_even, List.length_map, hk]
    rw [listSign_reverse hnf, hfoldlen, neg_one_pow_pairs, sign_seniority n (sorted_occIndices _) hBn, hk,
      neg_one_pow_tri] at horb
    have hover : w'.overlap sd = .ok (((-1) ^ (nelec / 2 * (nelec / 2 + 1) / 2) : ℤ) *
        perL (identityBlock pairs r params) (List.range (nelec / 2))
          ((occIndices (some (sd % 2 ^ n))).map fun i => pairs.idxOf (i, i + n))) := by
      rw [Geminal.Wfn.overlap, horb]
      simp only [bind, Except.bind, List.foldlM_cons, List.foldlM_nil, Geminal.Wfn.olpStep]
      rw [if_neg (by rw [List.length_map, hk]; omega), mapM_eq_ok (g := pairs.idxOf) _ (fun p hp => by
        obtain ⟨i, hi, rfl⟩ := List.mem_map.1 hp
        exact colInd_ok w' h4 (p := (i, i + n)) ((mem_pairs_of hfl hlen hsub).2 (hBn i hi)))]
      simp only [pure, Except.pure, List.map_map]
      rw [permanent_perL _ (by simp [hw']; omega) (by rw [List.length_map, hk]; omega)]
      simp [hw', Function.comp_def]
    refine ⟨_, hover, ?_⟩
    rw [AP1roG.overlap, ap1rog_inds hfl hn.symm hpos hlen hsub hr2 _ _ _ hsen (by omega)]
    have hper := perL_identityBlock hfl hlen hsub hr2 params (nodup_occIndices (sd % 2 ^ n)) hBn (by omega)
    rw [hk] at hper
    rw [hper, ← mul_assoc]
    push_cast
    rw [← mul_pow, neg_one_mul, neg_neg, one_pow, one_mul]
    simp only [bind, Except.bind, AP1roG.overlapOf]
    split_ifs with hz
    · rw [List.length_eq_zero_iff.1 hz.2, List.length_eq_zero_iff.1 (hz.1.trans hz.2), perL_nil]
    · have hle : ((occIndices (some (r % 2 ^ n))).filter (· ∉ occIndices (some (sd % 2 ^ n)))).length =
          ((occIndices (some (sd % 2 ^ n))).filter (· ∉ occIndices (some (r % 2 ^ n)))).length := by
        have e := diffOrbs_filter (r % 2 ^ n) (sd % 2 ^ n)
        have e1 := diffOrbs_fst_length (r % 2 ^ n) (sd % 2 ^ n)
        have e2 := diffOrbs_snd_length (r % 2 ^ n) (sd % 2 ^ n)
        rw [e] at e1 e2
        rw [e1, e2]
        rw [length_occIndices] at hk hkr
        have h1 := Finset.card_sdiff_add_card_inter (occSet (r % 2 ^ n)) (occSet (sd % 2 ^ n))
        have h2 := Finset.card_sdiff_add_card_inter (occSet (sd % 2 ^ n)) (occSet (r % 2 ^ n))
        rw [Finset.inter_comm] at h2
        omega
      simp only [List.length_map] at hz
      rw [permanent_perL _ (by rw [List.length_map]; omega) (by rw [List.length_map]; omega)]
  · refine ⟨0, ?_, ?_⟩
    · apply overlap_nil
      rw [horb, if_pos]
      intro heq
      apply hsen
      apply Nat.eq_of_testBit_eq
      intro i
      rw [Nat.testBit_div_two_pow, Nat.testBit_mod_two_pow]
      have hmem : ∀ x, sd.testBit x = true ↔ ∃ p ∈ apigSelect pairs (occIndices (some sd)), x = p.1 ∨ x = p.2 := by
        intro x
        rw [← mem_occSet, heq, List.mem_toFinset, flatPairs, List.mem_flatMap]
        simp
      by_cases hi : i < n
      · have : sd.testBit (i + n) = true ↔ sd.testBit i = true := by
          rw [hmem, hmem]
          constructor
          · rintro ⟨p, hp, hx⟩
            obtain ⟨j, hj, rfl⟩ := hsub p (hselsub hp)
            exact ⟨_, hp, by simp only at hx ⊢; omega⟩
          · rintro ⟨p, hp, hx⟩
            obtain ⟨j, hj, rfl⟩ := hsub p (hselsub hp)
            exact ⟨_, hp, by simp only at hx ⊢; omega⟩
        simp only [hi, decide_true, Bool.true_and]
        rw [Bool.eq_iff_iff]; exact this
      · simp only [hi, decide_false, Bool.false_and]
        apply Nat.testBit_lt_two_pow
        exact hsd.trans_le (Nat.pow_le_pow_right (by norm_num) (by omega))
    · rw [AP1roG.overlap, ap1rog_inds_none _ hpos (Or.inl fun h => hsen ((seniority_zero_iff hpos).1 h))]
      simp [bind, Except.bind, AP1roG.overlapOf]

example : AP1roG.init 4 8 none (some [(3, 7), (4, 0), (1, 5), (2, 6)]) (some 0b01100110) (fun i j => (i + 2 * j : ℚ)) =
      .ok ⟨4, 8, 2, 0b01100110, [(1, 5), (2, 6)], [(3, 7), (0, 4)], fun i j => i + 2 * j⟩ ∧
    apigOrbpairs 8 (some [(3, 7), (4, 0), (1, 5), (2, 6)]) = .ok [(3, 7), (0, 4), (1, 5), (2, 6)] ∧
    0b00110011 < 2 ^ 8 ∧ (occSet 0b00110011).card = 4 :=
  ⟨rfl, rfl, by norm_num, by decide +kernel⟩

/-- C36. The overlap with the reference is one. -/
theorem C36_reference [CharZero R] (nelec nspin : ℕ) (ngem : Option ℕ) (op : Option (List (ℕ × ℕ))) (ref : Option ℕ)
    (params : ℕ → ℕ → R) (w : AP1roG R) (hw : AP1roG.init nelec nspin ngem op ref params = .ok w) :
    w.overlap w.ref = .ok 1 := by
  obtain ⟨⟨h1, h2, h3, h4, h5⟩, r, pairs, hr1, hr2, -, hp, hsub, rfl⟩ := ap1rog_init_ok hw
  obtain ⟨-, hfl, hlen⟩ := apigOrbpairs_ok hp
  rw [AP1roG.overlap, ap1rog_inds hfl rfl (by omega) (by omega) hsub hr2 _ _ _ hr2 rfl]
  simp [bind, Except.bind, AP1roG.overlapOf]

/-- C36. The overlap with a determinant that has another number of electrons, or a singly occupied spatial orbital, is
zero. -/
theorem C36_zero (nelec nspin : ℕ) (ngem : Option ℕ) (op : Option (List (ℕ × ℕ))) (ref : Option ℕ)
    (params : ℕ → ℕ → R) (w : AP1roG R) (hw : AP1roG.init nelec nspin ngem op ref params = .ok w) (sd : ℕ)
    (hsd : (occSet sd).card ≠ nelec ∨ ∃ i < nspin / 2, ¬ (i ∈ occSet sd ↔ i + nspin / 2 ∈ occSet sd)) :
    w.overlap sd = .ok 0 := by
  obtain ⟨⟨h1, h2, h3, h4, h5⟩, r, pairs, hr1, hr2, -, hp, hsub, rfl⟩ := ap1rog_init_ok hw
  have hpos : 0 < nspin / 2 := by omega
  rw [AP1roG.overlap, ap1rog_inds_none _ hpos]
  · simp [bind, Except.bind, AP1roG.overlapOf]
  · simp only
    by_cases hsen : sd / 2 ^ (nspin / 2) = sd % 2 ^ (nspin / 2)
    · right
      rcases hsd with hsd | ⟨i, hi, hne⟩
      · have a := card_seniority hsen
        have b := card_seniority hr2
        omega
      · exfalso
        apply hne
        rw [mem_occSet, mem_occSet, testBit_seniority hsen]
        simp [hi]
    · exact Or.inl fun h => hsen ((seniority_zero_iff hpos).1 h)

/-! ## Derivatives -/

theorem permanentDeriv_lists [CharZero R] (P : ℕ → ℕ → R) {rows cols : List ℕ} (hr : rows.Nodup) (hc : cols.Nodup)
    {nb : ℕ} (hl : rows.length = cols.length) (i : ℕ) :
    permanentDeriv P nb cols rows i = .ok (minorL P rows cols (i / nb) (i % nb)) := by
  have hlen : ∀ {l : List ℕ} {a : ℕ}, l.Nodup → ((l.filter (· ≠ a)).length = l.length ↔ a ∉ l) ∧
      (a ∈ l → (l.filter (· ≠ a)).length + 1 = l.length) := by
    intro l a hn
    have h2 : a ∈ l → (l.filter (· ≠ a)).length + 1 = l.length := fun h => by
      have := (filter_ne_getD hn (List.idxOf_lt_length_of_mem h)).1
      rwa [getD_idxOf h] at this
    refine ⟨⟨fun h ha => ?_, fun h => ?_⟩, h2⟩
    · have := h2 ha; omega
    · rw [List.filter_eq_self.2]
      intro x hx
      simp only [ne_eq, decide_eq_true_eq]
      rintro rfl
      exact h hx
  simp only [permanentDeriv, (hlen hr).1, (hlen hc).1, minorL]
  by_cases h : i / nb ∈ rows ∧ i % nb ∈ cols
  · have e1 := (hlen hr).2 h.1
    have e2 := (hlen hc).2 h.2
    rw [if_neg (by tauto), if_pos h]
    split_ifs with hz
    · rw [List.length_eq_zero_iff.1 hz.2, List.length_eq_zero_iff.1 (hz.1.trans hz.2), perL_nil]
    · rw [permanentOf_eq _ _ (by simp only [subMatrix]; omega) (by simp only [subMatrix]; omega)]
      rfl
  · rw [if_pos (by tauto), if_neg h]

/-- C35 for `AP1roG`: each entry of `get_overlap(sd, deriv)` is the slope of the overlap in that parameter. -/
theorem C35_ap1rog [CharZero R] (nelec nspin : ℕ) (ngem : Option ℕ) (op : Option (List (ℕ × ℕ))) (ref : Option ℕ)
    (params : ℕ → ℕ → R) (w : AP1roG R) (hw : AP1roG.init nelec nspin ngem op ref params = .ok w) (sd : ℕ) :
    ∃ (v : R) (d : ℕ → R), w.overlap sd = .ok v ∧ (∀ deriv : List ℕ, w.overlapDeriv sd deriv = .ok (deriv.map d)) ∧
      ∀ r c h, r < w.ngem → c < w.virPairs.length →
        ({ w with params := fun a b => if a = r ∧ b = c then params a b + h else params a b } : AP1roG R).overlap sd =
          .ok (v + h * d (r * w.virPairs.length + c)) := by
  obtain ⟨⟨h1, h2, h3, h4, h5⟩, r, pairs, hr1, hr2, -, hp, hsub, rfl⟩ := ap1rog_init_ok hw
  obtain ⟨-, hfl, hlen⟩ := apigOrbpairs_ok hp
  have hpos : 0 < nspin / 2 := by omega
  have hlen : pairs.length = nspin / 2 := by omega
  by_cases hcase : sd / 2 ^ (nspin / 2) = sd % 2 ^ (nspin / 2) ∧
      (occIndices (some (sd % 2 ^ (nspin / 2)))).length = (occIndices (some (r % 2 ^ (nspin / 2)))).length
  · have hinds : ∀ P : ℕ → ℕ → R, _ := fun P =>
      ap1rog_inds (R := R) hfl rfl hpos hlen hsub hr2 nelec (nelec / 2) P hcase.1 hcase.2
    set rows := ((occIndices (some (r % 2 ^ (nspin / 2)))).filter
      (· ∉ occIndices (some (sd % 2 ^ (nspin / 2))))).map fun i =>
          (pairs.filter (inRef r)).idxOf (i, i + nspin / 2) with hrows
    set cols := ((occIndices (some (sd % 2 ^ (nspin / 2)))).filter
      (· ∉ occIndices (some (r % 2 ^ (nspin / 2))))).map fun i =>
          (pairs.filter (fun p => !inRef r p)).idxOf (i, i + nspin / 2) with hcols
    have hrn : rows.Nodup := by
      apply List.Nodup.map_on _ ((nodup_occIndices _).filter _)
      intro a ha b hb hab
      exact (Prod.mk.inj ((List.idxOf_inj ((mem_refPairs hfl hlen hsub hr2).2 (List.mem_of_mem_filter ha))).1 hab)).1
    have hcn : cols.Nodup := by
      apply List.Nodup.map_on _ ((nodup_occIndices _).filter _)
      intro a ha b hb hab
      obtain ⟨ha1, ha2⟩ := List.mem_filter.1 ha
      rw [mem_occIndices, Nat.testBit_mod_two_pow] at ha1
      exact (Prod.mk.inj ((List.idxOf_inj ((mem_virPairs hfl hlen hsub hr2).2
        ⟨by simp at ha1; exact ha1.1, by simpa using ha2⟩)).1 hab)).1
    have hrc : rows.length = cols.length := by
      rw [hrows, hcols, List.length_map, List.length_map]
      have e := diffOrbs_filter (r % 2 ^ (nspin / 2)) (sd % 2 ^ (nspin / 2))
      have e1 := diffOrbs_fst_length (r % 2 ^ (nspin / 2)) (sd % 2 ^ (nspin / 2))
      have e2 := diffOrbs_snd_length (r % 2 ^ (nspin / 2)) (sd % 2 ^ (nspin / 2))
      rw [e] at e1 e2
      rw [e1, e2]
      have hcc := hcase.2
      rw [length_occIndices, length_occIndices] at hcc
      have h1 := Finset.card_sdiff_add_card_inter (occSet (r % 2 ^ (nspin / 2))) (occSet (sd % 2 ^ (nspin / 2)))
      have h2 := Finset.card_sdiff_add_card_inter (occSet (sd % 2 ^ (nspin / 2))) (occSet (r % 2 ^ (nspin / 2)))
      rw [Finset.inter_comm] at h2
      omega
    have hover : ∀ P : ℕ → ℕ → R, (⟨nelec, nspin, nelec / 2, r, pairs.filter (inRef r),
        pairs.filter (fun p => !inRef r p), P⟩ : AP1roG R).overlap sd = .ok (perL P rows cols) := by
      intro P
      rw [AP1roG.overlap, hinds P]
      simp only [bind, Except.bind, AP1roG.overlapOf]
      split_ifs with hz
      · rw [List.length_eq_zero_iff.1 hz.2, List.length_eq_zero_iff.1 (hz.1.trans hz.2), perL_nil]
      · exact permanent_perL _ (by omega) (by omega)
    set nb := (pairs.filter (fun p => !inRef r p)).length with hnb
    refine ⟨_, fun i => minorL params rows cols (i / nb) (i % nb), hover params, ?_, ?_⟩
    · intro deriv
      rw [AP1roG.overlapDeriv, hinds params]
      simp only [bind, Except.bind, AP1roG.derivOf]
      split_ifs with hz
      · congr 1
        apply List.map_congr_left
        intro i _
        rw [minorL, if_neg]
        rw [List.length_eq_zero_iff.1 hz.2]
        simp
      · exact mapM_eq_ok _ fun i _ => permanentDeriv_lists params hrn hcn hrc i
    · intro a c h ha hc
      rw [hover, perL_shift params hrn hcn]
      simp only at hc ⊢
      rw [mul_comm a, Nat.mul_add_div (by omega), Nat.div_eq_of_lt hc, add_zero, Nat.mul_add_mod, Nat.mod_eq_of_lt hc]
  · have hinds : ∀ P : ℕ → ℕ → R, (⟨nelec, nspin, nelec / 2, r, pairs.filter (inRef r),
        pairs.filter (fun p => !inRef r p), P⟩ : AP1roG R).inds sd = .ok none := by
      intro P
      apply ap1rog_inds_none _ hpos
      simp only
      by_cases hs : sd / 2 ^ (nspin / 2) = sd % 2 ^ (nspin / 2)
      · exact Or.inr fun h => hcase ⟨hs, h⟩
      · exact Or.inl fun h => hs ((seniority_zero_iff hpos).1 h)
    refine ⟨0, fun _ => 0, ?_, ?_, ?_⟩
    · rw [AP1roG.overlap, hinds]; rfl
    · intro deriv
      rw [AP1roG.overlapDeriv, hinds]; rfl
    · intro a c h _ _
      rw [AP1roG.overlap, hinds]
      simp [bind, Except.bind, AP1roG.overlapOf]

end Fanpy.Props
