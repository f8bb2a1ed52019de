import Mathlib.Algebra.Field.Rat
import Mathlib.Data.Rat.Cast.CharZero
import Verif.Lemmas.CCMain
import Verif.Props.SdList

/-! # Property C41: overlaps of coupled cluster wavefunctions -/

namespace Fanpy.Props
open Fanpy.Spec Fanpy.Slater Fanpy.Graphs Fanpy.It Fanpy.CC Fanpy.Lemmas

theorem signExcite_diff (R : Type*) [CommRing R] [Nontrivial R] (sd ref : ℕ) :
    ∃ s : ℤ, signExcite (some ref) (diffOrbs sd ref).2 (diffOrbs sd ref).1 = .ok s ∧
      (excOp (diffOrbs sd ref).2 (diffOrbs sd ref).1 (ket (occSet ref) : Fock R)) (occSet sd) = (s : R) := by
  have na : ∀ m : ℕ, (occIndices (some m)).Nodup := fun m => (sorted_occIndices m).imp fun h => by omega
  have ha := diffOrbs_snd_toFinset sd ref
  have hc := diffOrbs_fst_toFinset sd ref
  rw [excOp_apply]
  -- the string does not vanish
  have annNe : ∀ (l : List ℕ) (s : Finset ℕ) (x : ℤ), l.Nodup → l.toFinset ⊆ s → x * x = 1 →
      ∃ y : ℤ, annString l (Finsupp.single s (x : R)) = Finsupp.single (s \ l.toFinset) (y : R) ∧ y * y = 1 := by
    intro l
    induction l with
    | nil => intro s x _ _ hx; exact ⟨x, by simp [annString], hx⟩
    | cons i l ih =>
      intro s x hn hs hx
      rw [List.nodup_cons] at hn
      have hi : i ∈ s := hs (by simp)
      rw [annString_cons, annOp_single, if_pos hi, ← Int.cast_mul]
      obtain ⟨y, h1, h2⟩ := ih (s.erase i) (x * phase s i) hn.2 (by
        intro j hj
        refine Finset.mem_erase.2 ⟨?_, hs (by simp at hj ⊢; tauto)⟩
        rintro rfl; exact hn.1 (List.mem_toFinset.1 hj)) (by linear_combination (x * x) * phase_sq s i + hx)
      refine ⟨y, ?_, h2⟩
      rw [h1]
      congr 1
      ext j; simp; tauto
  have creNe : ∀ (l : List ℕ) (s : Finset ℕ) (x : ℤ), l.Nodup → Disjoint l.toFinset s → x * x = 1 →
      ∃ y : ℤ, creString l (Finsupp.single s (x : R)) = Finsupp.single (s ∪ l.toFinset) (y : R) ∧ y * y = 1 := by
    intro l
    induction l with
    | nil => intro s x _ _ hx; exact ⟨x, by simp [creString], hx⟩
    | cons i l ih =>
      intro s x hn hs hx
      rw [List.nodup_cons] at hn
      rw [Finset.disjoint_left] at hs
      have hi : i ∉ s := hs (by simp)
      rw [creString_cons, creOp_single, if_neg hi, ← Int.cast_mul]
      obtain ⟨y, h1, h2⟩ := ih (insert i s) (x * phase s i) hn.2 (by
        rw [Finset.disjoint_left]
        intro j hj hj'
        rcases Finset.mem_insert.1 hj' with rfl | hj'
        · exact hn.1 (List.mem_toFinset.1 hj)
        · exact hs (by simp at hj ⊢; tauto) hj') (by linear_combination (x * x) * phase_sq s i + hx)
      refine ⟨y, ?_, h2⟩
      rw [h1]
      congr 1
      ext j; simp
  obtain ⟨y, h1, h2⟩ := annNe (diffOrbs sd ref).2 (occSet ref) 1 (na _) (by rw [ha]; exact Finset.sdiff_subset) (by ring)
  obtain ⟨z, h3, h4⟩ := creNe (diffOrbs sd ref).1 (occSet ref \ (diffOrbs sd ref).2.toFinset) y (na _) (by
    rw [hc, Finset.disjoint_left]
    intro i hi hi'
    exact (Finset.mem_sdiff.1 hi).2 (Finset.mem_sdiff.1 hi').1) h2
  have hset : occSet ref \ (diffOrbs sd ref).2.toFinset ∪ (diffOrbs sd ref).1.toFinset = occSet sd := by
    rw [ha, hc]
    ext i
    simp only [Finset.mem_union, Finset.mem_sdiff]
    tauto
  have hk : (ket (occSet ref) : Fock R) = Finsupp.single (occSet ref) ((1 : ℤ) : R) := by simp [ket]
  have hval : creString (diffOrbs sd ref).1 (annString (diffOrbs sd ref).2 (ket (occSet ref) : Fock R)) =
      Finsupp.single (occSet sd) (z : R) := by rw [hk, h1, h3, hset]
  have hz : (z : R) ≠ 0 := by
    intro e
    have : ((z * z : ℤ) : R) = 1 := by rw [h4]; simp
    rw [Int.cast_mul, e, zero_mul] at this
    exact zero_ne_one this
  rcases C10_sign_excite R ref (diffOrbs sd ref).2 (diffOrbs sd ref).1 with ⟨s, sd', g1, g2, -, g4⟩ | ⟨-, -, g⟩
  · refine ⟨s, g1, ?_⟩
    have e := g4
    rw [hval] at e
    have hs : occSet sd' = occSet sd := by
      by_contra hne
      have := DFunLike.congr_fun e (occSet sd)
      rw [Finsupp.single_eq_same, Finsupp.smul_apply, ket, Finsupp.single_eq_of_ne (Ne.symm hne), smul_zero] at this
      exact hz this
    rw [g4, hs, Finsupp.smul_apply, ket, Finsupp.single_eq_same, smul_eq_mul, mul_one]
  · rw [hval] at g
    have := DFunLike.congr_fun g (occSet sd)
    rw [Finsupp.single_eq_same] at this
    exact absurd this hz

theorem diff_lengths {sd ref : ℕ} (h : (occSet sd).card = (occSet ref).card) : (diffOrbs sd ref).2.length = (diffOrbs sd ref).1.length := by
  rw [diffOrbs_snd_length, diffOrbs_fst_length]
  have h1 := Finset.card_sdiff_add_card_inter (occSet sd) (occSet ref)
  have h2 := Finset.card_sdiff_add_card_inter (occSet ref) (occSet sd)
  rw [Finset.inter_comm] at h2
  omega

/-- the amplitude of an excitation operator: the parameter at the index of its key -/
def amplitude {R : Type} (w : Wfn R) (A C : Finset ℕ) : R := w.params (w.exops.idxOf (A.sort (· ≤ ·) ++ C.sort (· ≤ ·)))

/-- C41 for operators from a set of orbitals to a disjoint set and any reference: the overlap is the coefficient of the determinant in the
exponential series of the cluster operator, applied to the reference.  The series may be cut at any power that is at least the number of
electrons.  Missing from the claim: see `C41_standard_partial`. -/
theorem C41_overlap_partial {R : Type} [Field R] [CharZero R] (w : Wfn R) (U V : List ℕ) (hr : w.ranks.Pairwise (· < ·))
    (hpos : ∀ r ∈ w.ranks, 0 < r) (hU : U.Pairwise (· < ·)) (hV : V.Pairwise (· < ·)) (hUV : ∀ i ∈ U, i ∉ V)
    (he : w.exops = exopsFrom w.ranks U V) (hm : w.memo = true) (sd : ℕ) (hsd : (occSet sd).card = (occSet w.refwfn).card) (N : ℕ)
    (hN : (occSet w.refwfn).card ≤ N) :
    overlap w sd = .ok ((expSeries (clusterOp w.ranks.toFinset U.toFinset V.toFinset (amplitude w)) N (ket (occSet w.refwfn))) (occSet sd)) := by
  have ha := sorted_occIndices ((sd ^^^ w.refwfn) &&& w.refwfn)
  have hc := sorted_occIndices ((sd ^^^ w.refwfn) &&& sd)
  have hl := diff_lengths hsd
  obtain ⟨L, l1, l2, l3⟩ := possibleExops_spec w.ranks w.exops (diffOrbs sd w.refwfn).2 (diffOrbs sd w.refwfn).1
    (hr.imp fun h => by omega) hpos ha hc hl
  have key := expSeries_coeff hr hpos hU hV hUV (amplitude w) (occSet w.refwfn) (occSet sd) (diffOrbs sd w.refwfn).2
    (diffOrbs sd w.refwfn).1 ha hc hl (diffOrbs_snd_toFinset _ _) (diffOrbs_fst_toFinset _ _) N
    (le_trans (by rw [diffOrbs_snd_length]; exact Finset.card_le_card Finset.sdiff_subset) hN) L l2 (by rw [← he]; exact l3)
  obtain ⟨s, s1, s2⟩ := signExcite_diff R sd w.refwfn
  rw [s2] at key
  have amp : amplitudes w.params (L.map (out w.exops)) =
      (L.map fun S => (S.map fun q => amplitude w q.1.toFinset q.2.toFinset).prod * (sgn S : R)).sum := by
    unfold amplitudes
    rw [List.map_map]
    congr 1
    apply List.map_congr_left
    intro S hS
    simp only [Function.comp_apply, out, List.map_map]
    congr 2
    apply List.map_congr_left
    intro q hq
    have p := (l3 S).1 hS
    have e1 := (List.toFinset_sort (· ≤ ·) ((p.srtA q hq).imp fun h => by omega)).2 ((p.srtA q hq).imp fun h => h.le)
    have e2 := (List.toFinset_sort (· ≤ ·) ((p.srtC q hq).imp fun h => by omega)).2 ((p.srtC q hq).imp fun h => h.le)
    rw [Function.comp_apply, amplitude, e1, e2]
  by_cases hsr : sd = w.refwfn
  · subst hsr
    have hd : diffOrbs w.refwfn w.refwfn = ([], []) := by simp [diffOrbs, occIndices_eq_filter]
    rw [overlap, if_pos rfl, key]
    have hs1 : s = 1 := by
      rw [hd] at s1
      simpa [signExcite, signExciteAnn, signExciteCre, bind, Except.bind] using s1.symm
    have hL : L = [[]] := by
      have hmem : ∀ S, S ∈ L ↔ S = [] := by
        intro S
        rw [l3, hd]
        constructor
        · intro h
          have := h.ann
          rw [List.perm_nil] at this
          cases S with
          | nil => rfl
          | cons q S =>
            rw [List.flatMap_cons, List.append_eq_nil_iff] at this
            have h1 := hpos _ (h.rank q (by simp))
            rw [this.1] at h1; simp at h1
        · rintro rfl
          exact ⟨by simp, by simp, by simp, by simp, by simp, by simp, by simp, by simp⟩
      have h1 : [] ∈ L := (hmem []).2 rfl
      refine List.Perm.eq_singleton ?_
      exact (List.perm_ext_iff_of_nodup l2 (by simp)).2 fun S => by rw [hmem]; simp
    rw [hL, hs1]
    simp [sgn, hops, listSign]
  · rw [overlap, if_neg hsr, key]
    simp only [expansion, s1, hm, l1, bind, Except.bind, pure, Except.pure, Bool.not_true, Bool.false_eq_true, if_false]
    rw [amp, mul_comm]

/-- the ranks that an argument `ranks` selects -/
def rankSet (nelec : ℕ) : RankArg → Finset ℕ
  | .none => Finset.Icc 1 nelec
  | .int k => Finset.Icc 1 k.toNat
  | .list l => (l.map Int.toNat).toFinset

/-- C41, `assign_ranks`: an accepted argument gives a strictly increasing list of positive ranks, at most the number of electrons; an
argument is rejected with a `ValueError` exactly if there is no rank in it or one that is not between one and the number of electrons. -/
theorem C41_ranks (nelec : ℕ) (r : RankArg) :
    (∃ ranks, assignRanks nelec r = .ok ranks ∧ ranks.Pairwise (· < ·) ∧ (∀ k ∈ ranks, 1 ≤ k ∧ k ≤ nelec) ∧
      ranks.toFinset = rankSet nelec r ∧ ranks ≠ []) ∨
    (assignRanks nelec r = .error .valueError ∧ match r with
      | .none => nelec = 0
      | .int k => k < 1 ∨ (nelec : ℤ) < k
      | .list l => l = [] ∨ ∃ k ∈ l, k < 1 ∨ (nelec : ℤ) < k) := by
  have rng : ∀ n : ℕ, (List.range' 1 n).toFinset = Finset.Icc 1 n := by
    intro n; ext x; simp only [List.mem_toFinset, List.mem_range'_1, Finset.mem_Icc]; omega
  cases r with
  | none =>
    by_cases h : nelec = 0
    · exact Or.inr ⟨by simp [assignRanks, h], h⟩
    · refine Or.inl ⟨_, by simp only [assignRanks, if_neg h], List.pairwise_lt_range', ?_, rng nelec, by simp [h]⟩
      intro k hk; rw [List.mem_range'_1] at hk; omega
  | int k =>
    by_cases h : k < 1 ∨ (nelec : ℤ) < k
    · refine Or.inr ⟨?_, h⟩
      unfold assignRanks
      simp only
      split_ifs <;> first | rfl | omega
    · refine Or.inl ⟨List.range' 1 k.toNat, ?_, List.pairwise_lt_range', ?_, rng _, ?_⟩
      · unfold assignRanks
        simp only
        rw [if_neg (by omega), if_neg (by omega)]
      · intro x hx; rw [List.mem_range'_1] at hx; omega
      · rw [Ne, List.range'_eq_nil_iff]; omega
  | list l =>
    by_cases h : l = [] ∨ ∃ k ∈ l, k < 1 ∨ (nelec : ℤ) < k
    · refine Or.inr ⟨?_, h⟩
      unfold assignRanks
      simp only
      by_cases h1 : ¬ l.all (fun k => decide (k > 0)) = true
      · rw [if_pos h1]
      · rw [if_neg h1]
        by_cases h2 : l = []
        · rw [if_pos h2]
        · rw [if_neg h2, if_pos]
          rcases h with h | ⟨k, hk, hk'⟩
          · exact absurd h h2
          · rw [List.any_eq_true]
            refine ⟨k, hk, ?_⟩
            rw [not_not, List.all_eq_true] at h1
            have := h1 k hk
            simp only [decide_eq_true_eq] at this ⊢
            omega
    · rw [not_or] at h
      have hk : ∀ k ∈ l, 1 ≤ k ∧ k ≤ (nelec : ℤ) := fun k hk => by
        by_contra hc
        exact h.2 ⟨k, hk, by omega⟩
      refine Or.inl ⟨(l.map Int.toNat).dedup.mergeSort (fun a b => decide (a ≤ b)), ?_, ?_, ?_, ?_, ?_⟩
      · unfold assignRanks
        simp only
        rw [if_neg, if_neg h.1, if_neg]
        · rw [List.any_eq_true]
          rintro ⟨k, hk1, hk2⟩
          have := hk k hk1
          simp only [decide_eq_true_eq] at hk2
          omega
        · rw [not_not, List.all_eq_true]
          intro k hk1
          have := hk k hk1
          simp only [decide_eq_true_eq]
          omega
      · have := binSizeNum_sizes (l.map Int.toNat)
        simpa [binSizeNum, Function.comp_def] using this
      · intro x hx
        rw [List.mem_mergeSort, List.mem_dedup, List.mem_map] at hx
        obtain ⟨k, hk1, rfl⟩ := hx
        have := hk k hk1
        omega
      · ext x; simp [rankSet]
      · intro e
        have h1 := (List.mergeSort_perm (l.map Int.toNat).dedup (fun a b => decide (a ≤ b))).length_eq
        rw [e] at h1
        have h2 : (l.map Int.toNat).dedup = [] := List.length_eq_zero_iff.1 h1.symm
        rw [List.dedup_eq_nil] at h2
        exact h.1 (List.map_eq_nil_iff.1 h2)

theorem standardCC_facts {R : Type} {nelec nspin : ℕ} {r : RankArg} {refwfn : Option ℕ} {params : ℕ → R} {b : Bool} {w : Wfn R}
    (h : standardCC nelec nspin r refwfn params b = .ok w) : ∃ g, ground nelec nspin = .ok g ∧ assignRanks nelec r = .ok w.ranks ∧
      w.exops = exopsStandard w.ranks nspin g ∧ w.params = params ∧ w.memo = !b ∧ w.refwfn = refwfn.getD g ∧
      (occSet w.refwfn).card = nelec := by
  unfold standardCC at h
  rcases hr : assignRanks nelec r with e | ranks
  · rw [hr] at h; simp [bind, Except.bind] at h
  · rcases hg : ground nelec nspin with e | g
    · rw [hr, hg] at h; simp [bind, Except.bind] at h
    · rw [hr, hg] at h
      simp only [bind, Except.bind, pure, Except.pure] at h
      cases refwfn with
      | none =>
        rw [Except.ok.injEq] at h
        subst h
        exact ⟨g, rfl, rfl, rfl, rfl, rfl, rfl, (ground_ok_facts hg).2.2⟩
      | some m =>
        simp only at h
        by_cases hm : totalOcc (some m) ≠ nelec
        · rw [if_pos hm] at h; simp at h
        · rw [if_neg hm, Except.ok.injEq] at h
          subst h
          rw [not_not, totalOcc_eq] at hm
          exact ⟨g, rfl, rfl, rfl, rfl, rfl, rfl, hm⟩

/-- C41 for `StandardCC`: the overlap with a determinant with the right number of electrons is its coefficient in `Σ_k T^k / k!` applied to
the reference, where `T` is the sum of the amplitudes times the excitation operators of the given ranks from the occupied to the virtual
orbitals of the ground state.  Missing from the claim: if a reference other than the ground state is given, the operators are still those of
the ground state (`C41_other_reference`); for determinants with another number of electrons the overlap need not vanish, or there is an error
(`C41_fewer_electrons`); `BaseCC` and `GeneralizedCC`, whose operators do not commute (`C41_generalized`); and a wavefunction that was given
`exop_combinations` has no overlaps (`C41_memo`). -/
theorem C41_standard_partial {R : Type} [Field R] [CharZero R] (nelec nspin : ℕ) (r : RankArg) (refwfn : Option ℕ) (params : ℕ → R) (w : Wfn R)
    (hw : standardCC nelec nspin r refwfn params false = .ok w) (sd : ℕ) (hsd : (occSet sd).card = nelec) (N : ℕ) (hN : nelec ≤ N) :
    ∃ g, ground nelec nspin = .ok g ∧
      overlap w sd = .ok ((expSeries (clusterOp (rankSet nelec r) (occSet g) (Finset.range nspin \ occSet g) (amplitude w)) N
        (ket (occSet (refwfn.getD g)))) (occSet sd)) := by
  obtain ⟨g, h1, h2, h3, h4, h5, h6, h7⟩ := standardCC_facts hw
  refine ⟨g, h1, ?_⟩
  rcases C41_ranks nelec r with ⟨ranks, r1, r2, r3, r4, -⟩ | ⟨r1, -⟩
  · rw [h2, Except.ok.injEq] at r1
    subst r1
    have eU : (occIndices (some g)).toFinset = occSet g := by ext i; rw [List.mem_toFinset, mem_occIndices, mem_occSet]
    have eV : ((List.range nspin).filter fun i => i ∉ occIndices (some g)).toFinset = Finset.range nspin \ occSet g := by
      ext i
      simp only [List.mem_toFinset, List.mem_filter, List.mem_range, decide_eq_true_eq, Finset.mem_sdiff, Finset.mem_range, mem_occIndices,
        mem_occSet]
    have := C41_overlap_partial w (occIndices (some g)) ((List.range nspin).filter fun i => i ∉ occIndices (some g)) r2
      (fun k hk => (r3 k hk).1) (sorted_occIndices g) (List.pairwise_lt_range.filter _) (by
        intro i hi hi'
        rw [List.mem_filter] at hi'
        simp [hi] at hi') h3 (by rw [h5]; rfl) sd (hsd.trans h7.symm) N (h7.le.trans hN)
    rw [this, r4, eU, eV, h6]
  · rw [h2] at r1; simp at r1

/-- C41: every excitation operator of the cluster operator has its own parameter, and every parameter belongs to one. -/
theorem C41_parameters {R : Type} (nelec nspin : ℕ) (r : RankArg) (refwfn : Option ℕ) (params : ℕ → R) (b : Bool) (w : Wfn R)
    (hw : standardCC nelec nspin r refwfn params b = .ok w) :
    ∃ g, ground nelec nspin = .ok g ∧
      Set.BijOn (fun p : Finset ℕ × Finset ℕ => w.exops.idxOf (p.1.sort (· ≤ ·) ++ p.2.sort (· ≤ ·)))
        {p | p.1 ⊆ occSet g ∧ p.2 ⊆ Finset.range nspin \ occSet g ∧ p.1.card = p.2.card ∧ p.1.card ∈ rankSet nelec r}
        (Set.Iio w.exops.length) := by
  obtain ⟨g, h1, h2, h3, h4, h5, h6, h7⟩ := standardCC_facts hw
  refine ⟨g, h1, ?_⟩
  rcases C41_ranks nelec r with ⟨ranks, r1, r2, r3, r4, -⟩ | ⟨r1, -⟩
  · rw [h2, Except.ok.injEq] at r1
    subst r1
    have sU := sorted_occIndices g
    have sV : ((List.range nspin).filter fun i => i ∉ occIndices (some g)).Pairwise (· < ·) := List.pairwise_lt_range.filter _
    have subl : ∀ {l c : List ℕ}, l.Pairwise (· < ·) → c.Pairwise (· < ·) → (∀ i ∈ c, i ∈ l) → c.Sublist l := fun hl hc h =>
      List.sublist_of_subperm_of_pairwise (r := (· < ·)) (List.subperm_of_subset (hc.imp fun h => by omega) h) hc hl
    have hmem : ∀ p : Finset ℕ × Finset ℕ, (p.1 ⊆ occSet g ∧ p.2 ⊆ Finset.range nspin \ occSet g ∧ p.1.card = p.2.card ∧
        p.1.card ∈ rankSet nelec r) → p.1.sort (· ≤ ·) ++ p.2.sort (· ≤ ·) ∈ w.exops := by
      rintro p ⟨p1, p2, p3, p4⟩
      rw [h3, exopsStandard, mem_exopsFrom (p := (p.1.sort (· ≤ ·), p.2.sort (· ≤ ·))) (by simp [p3]), mem_opsP]
      refine ⟨by rw [Finset.length_sort]; rw [← r4] at p4; exact List.mem_toFinset.1 p4, by simp [p3], ?_, ?_⟩
      · exact subl sU (Finset.sortedLT_sort p.1).pairwise (fun i hi => mem_occIndices.2 (mem_occSet.1 (p1 ((Finset.mem_sort _).1 hi))))
      · exact subl sV (Finset.sortedLT_sort p.2).pairwise (fun i hi => by
          have := p2 ((Finset.mem_sort _).1 hi)
          rw [Finset.mem_sdiff, Finset.mem_range, mem_occSet] at this
          rw [List.mem_filter, List.mem_range, decide_eq_true_eq, mem_occIndices]
          exact this)
    have hnd : w.exops.Nodup := by
      rw [h3, exopsStandard, exopsFrom_eq]
      refine List.Nodup.map_on ?_ ((opsP_order r2 sU sV).imp fun {p q} h => by rintro rfl; exact opLt_asymm h h)
      intro p hp q hq e
      have hp' := (mem_opsP.1 hp).2.1
      have hq' := (mem_opsP.1 hq).2.1
      obtain ⟨e1, e2⟩ := List.append_inj e (by
        have := congrArg List.length e
        rw [List.length_append, List.length_append] at this; omega)
      exact Prod.ext e1 e2
    refine ⟨?_, ?_, ?_⟩
    · intro p hp
      exact List.idxOf_lt_length_iff.2 (hmem p hp)
    · intro p hp q hq e
      have e := (List.idxOf_inj (hmem p hp)).1 e
      have hl : p.1.card = q.1.card := by
        have := congrArg List.length e
        simp only [List.length_append, Finset.length_sort] at this
        have h1 := hp.2.2.1
        have h2 := hq.2.2.1
        omega
      obtain ⟨e1, e2⟩ := List.append_inj e (by simp [hl])
      exact Prod.ext (by rw [← p.1.sort_toFinset (· ≤ ·), e1, Finset.sort_toFinset]) (by rw [← p.2.sort_toFinset (· ≤ ·), e2, Finset.sort_toFinset])
    · intro i hi
      have hi : i < w.exops.length := hi
      have hop := List.getElem_mem hi
      have hex : ∃ q ∈ opsP w.ranks (occIndices (some g)) ((List.range nspin).filter fun i => i ∉ occIndices (some g)), q.1 ++ q.2 = w.exops[i] := by
        have h := hop
        conv at h => arg 1; rw [h3]
        rw [exopsStandard, exopsFrom_eq, List.mem_map] at h
        exact h
      obtain ⟨q, hq, e⟩ := hex
      obtain ⟨q1, q2, q3, q4⟩ := mem_opsP.1 hq
      have s1 := sU.sublist q3
      have s2 := sV.sublist q4
      have n1 : q.1.Nodup := s1.imp fun h => by omega
      have n2 : q.2.Nodup := s2.imp fun h => by omega
      refine ⟨(q.1.toFinset, q.2.toFinset), ⟨?_, ?_, ?_, ?_⟩, ?_⟩
      · intro x hx
        exact mem_occSet.2 (mem_occIndices.1 (q3.subset (List.mem_toFinset.1 hx)))
      · intro x hx
        have := q4.subset (List.mem_toFinset.1 hx)
        rw [List.mem_filter, List.mem_range, decide_eq_true_eq, mem_occIndices] at this
        rw [Finset.mem_sdiff, Finset.mem_range, mem_occSet]
        exact this
      · rw [List.toFinset_card_of_nodup n1, List.toFinset_card_of_nodup n2, q2]
      · rw [List.toFinset_card_of_nodup n1, ← r4]; exact List.mem_toFinset.2 q1
      · show w.exops.idxOf _ = i
        rw [(List.toFinset_sort (· ≤ ·) n1).2 (s1.imp fun h => h.le), (List.toFinset_sort (· ≤ ·) n2).2 (s2.imp fun h => h.le), e]
        exact hnd.idxOf_getElem i hi
  · rw [h2] at r1; simp at r1

/-- C41, a wavefunction that was given `exop_combinations` has no attribute of that name: every overlap other than the reference's is an
`AttributeError` -/
theorem C41_memo {R : Type} [CommRing R] [Nontrivial R] (w : Wfn R) (hm : w.memo = false) (sd : ℕ) (h : sd ≠ w.refwfn) :
    overlap w sd = .error .attributeError := by
  obtain ⟨s, s1, -⟩ := signExcite_diff R sd w.refwfn
  simp [overlap, h, expansion, s1, hm, bind, Except.bind]

/-- C41 fails for a reference other than the ground state: no operator annihilates an orbital that is empty in the ground state, so that
the overlap of a determinant in which such an orbital of the reference is empty is zero for all parameters -/
theorem C41_other_reference {R : Type} [CommRing R] [Nontrivial R] (nelec nspin : ℕ) (r : RankArg) (ref g : ℕ) (params : ℕ → R) (w : Wfn R)
    (hg : ground nelec nspin = .ok g) (hw : standardCC nelec nspin r (some ref) params false = .ok w) (sd : ℕ) (hsd : (occSet sd).card = nelec)
    (i : ℕ) (h1 : i ∈ occSet ref) (h2 : i ∉ occSet sd) (h3 : i ∉ occSet g) : overlap w sd = .ok 0 := by
  obtain ⟨g', k1, k2, k3, k4, k5, k6, k7⟩ := standardCC_facts hw
  rw [hg, Except.ok.injEq] at k1
  subst k1
  rcases C41_ranks nelec r with ⟨ranks, r1, r2, r3, r4, -⟩ | ⟨r1, -⟩
  · rw [k2, Except.ok.injEq] at r1
    subst r1
    have hl := diff_lengths (hsd.trans k7.symm)
    obtain ⟨L, l1, l2, l3⟩ := possibleExops_spec w.ranks w.exops (diffOrbs sd w.refwfn).2 (diffOrbs sd w.refwfn).1
      (r2.imp fun h => by omega) (fun k hk => (r3 k hk).1) (sorted_occIndices _) (sorted_occIndices _) hl
    obtain ⟨s, s1, -⟩ := signExcite_diff R sd w.refwfn
    have hL : L = [] := by
      rw [List.eq_nil_iff_forall_not_mem]
      intro S hS
      have hp := (l3 S).1 hS
      have hi : i ∈ (diffOrbs sd w.refwfn).2 := by
        rw [← List.mem_toFinset, diffOrbs_snd_toFinset, Finset.mem_sdiff, k6]
        exact ⟨h1, h2⟩
      rw [← hp.ann.mem_iff, List.mem_flatMap] at hi
      obtain ⟨q, hq, hi⟩ := hi
      have hmem := hp.mem q hq
      rw [k3, exopsStandard, mem_exopsFrom (hp.len q hq), mem_opsP] at hmem
      exact h3 (mem_occSet.2 (mem_occIndices.1 (hmem.2.2.1.subset hi)))
    have hne : sd ≠ w.refwfn := by rintro rfl; rw [k6] at h2; exact h2 h1
    simp [overlap, hne, expansion, s1, k5, l1, hL, amplitudes, bind, Except.bind, pure, Except.pure]
  · rw [k2] at r1; simp at r1

/-- the hypotheses can be met: two electrons, the reference has orbitals 1 and 3, the determinant orbitals 0 and 3 -/
example (params : ℕ → ℚ) : ∃ w, standardCC 2 4 (.int 2) (some 0b1010) params false = .ok w ∧ overlap w 0b1001 = .ok 0 := by
  have hg : ground 2 4 = .ok 0b0101 := by decide +kernel
  have hw : standardCC 2 4 (.int 2) (some 0b1010) params false =
      .ok ⟨[1, 2], 0b1010, exopsStandard [1, 2] 4 0b0101, params, true⟩ := by
    simp only [standardCC, hg, bind, Except.bind]
    rfl
  exact ⟨_, hw, C41_other_reference 2 4 _ _ _ params _ hg hw _ (by decide +kernel) 1 (by decide +kernel) (by decide +kernel) (by decide +kernel)⟩

theorem part_one_one : intPartition [1] 1 1 = some [[1]] := by
  unfold intPartition; simp; unfold intPartition; simp

theorem part_one_two : intPartition [1] 1 2 = some [[1, 1]] := by
  unfold intPartition; simp; unfold intPartition; simp; unfold intPartition; simp

theorem paths_fewer : possibleExops [1] [[0, 1], [0, 3], [2, 1], [2, 3]] [0, 2] [1] = .ok [([0], 1)] := by
  have h : binSizeNum [1, 1] = [(1, 2)] := by decide +kernel
  simp only [possibleExops, List.length_cons, List.length_nil, zero_add, Nat.reduceAdd, part_one_two, ofOption, bind, Except.bind, List.reverse_cons,
    List.reverse_nil, List.nil_append, List.mapM_cons, List.mapM_nil, h, pure, Except.pure]
  decide +kernel
theorem paths_err : possibleExops [1, 2] [[0, 1], [0, 3], [2, 1], [2, 3], [0, 2, 1, 3]] [0, 2] [1] = .error .keyError := by
  have h : binSizeNum [2] = [(2, 1)] := by decide +kernel
  have h0 : intPartition [1, 2] 2 2 = some [[2], [1, 1]] := by
    unfold intPartition; simp; unfold intPartition; simp; unfold intPartition; simp; unfold intPartition; simp
  have h' : binSizeNum [1, 1] = [(1, 2)] := by decide +kernel
  simp only [possibleExops, List.length_cons, List.length_nil, zero_add, Nat.reduceAdd, h0, ofOption, bind, Except.bind, List.reverse_cons,
    List.reverse_nil, List.nil_append, List.singleton_append, List.mapM_cons, List.mapM_nil, h, h', pure, Except.pure]
  decide +kernel
/-- C41 fails for determinants with fewer electrons than the reference, whose coefficient in the exponential is zero: the overlap is an
amplitude, or there is a `KeyError` -/
theorem C41_fewer_electrons (t : ℕ → ℚ) : (∃ w : Wfn ℚ, standardCC 2 4 (.int 1) none t false = .ok w ∧ overlap w 0b0010 = .ok (t 0)) ∧
    ∃ w : Wfn ℚ, standardCC 2 4 (.int 2) none t false = .ok w ∧ overlap w 0b0010 = .error .keyError := by
  have hg : ground 2 4 = .ok 0b0101 := by decide +kernel
  have hd : diffOrbs 0b0010 0b0101 = ([1], [0, 2]) := by decide +kernel
  have hs : signExcite (some 0b0101) [0, 2] [1] = .ok 1 := by decide +kernel
  constructor
  · refine ⟨⟨[1], 0b0101, [[0, 1], [0, 3], [2, 1], [2, 3]], t, true⟩, ?_, ?_⟩
    · simp only [standardCC, hg, bind, Except.bind]
      rfl
    · simp [overlap, expansion, hd, hs, paths_fewer, bind, Except.bind, pure, Except.pure, amplitudes]
  · refine ⟨⟨[1, 2], 0b0101, [[0, 1], [0, 3], [2, 1], [2, 3], [0, 2, 1, 3]], t, true⟩, ?_, ?_⟩
    · simp only [standardCC, hg, bind, Except.bind]
      rfl
    · simp [overlap, expansion, hd, hs, paths_err, bind, Except.bind]

/-- C41 fails for `BaseCC` and `GeneralizedCC`, whose operators do not commute and can be applied one after the other through an orbital that
is neither annihilated nor created in the end: with amplitudes one for `0 → 1` and `1 → 2`, zero otherwise, the overlap with the determinant
of orbital 2 is zero, its coefficient in the exponential is a half -/
theorem C41_generalized (t : ℕ → ℚ) (ht : t = fun i => if i = (exopsAll [1] 3).idxOf [0, 1] ∨ i = (exopsAll [1] 3).idxOf [1, 2] then 1 else 0) :
    overlap ⟨[1], 1, exopsAll [1] 3, t, true⟩ 0b100 = .ok 0 ∧
      (expSeries (excOp [0] [1] + excOp [1] [2] : Module.End ℚ (Fock ℚ)) 2 (ket (occSet 1))) (occSet 0b100) = 1 / 2 := by
  constructor
  · have hd : diffOrbs 0b100 1 = ([2], [0]) := by decide +kernel
    have hs : signExcite (some 1) [0] [2] = .ok 1 := by decide +kernel
    have hp : possibleExops [1] (exopsAll [1] 3) [0] [2] = .ok [([1], 1)] := by
      have h : binSizeNum [1] = [(1, 1)] := by decide +kernel
      simp only [possibleExops, List.length_cons, List.length_nil, zero_add, part_one_one, ofOption, bind, Except.bind, List.reverse_cons,
        List.reverse_nil, List.nil_append, List.mapM_cons, List.mapM_nil, h, pure, Except.pure]
      decide +kernel
    have h0 : t 1 = 0 := by
      rw [ht]; decide +kernel
    simp [overlap, expansion, hd, hs, hp, bind, Except.bind, pure, Except.pure, amplitudes, h0]
  · have e1 : occSet 1 = {0} := by ext i; rw [mem_occSet]; simp [Nat.testBit_one_eq_true_iff_self_eq_zero]
    have e2 : occSet 0b100 = {2} := by decide +kernel
    rw [e1, e2]
    have hop : ∀ i j k : ℕ, (excOp [i] [j] : Module.End ℚ (Fock ℚ)) (ket {k}) = if k = i then ket {j} else 0 := by
      intro i j k
      by_cases h : k = i
      · subst h
        simp [excOp, ket, phase, Finset.filter_singleton]
      · have h' : ¬ i = k := fun e => h e.symm
        simp [excOp, ket, h, h']
    have T0 : (excOp [0] [1] + excOp [1] [2] : Module.End ℚ (Fock ℚ)) (ket {0}) = ket {1} := by
      rw [LinearMap.add_apply, hop, hop]; simp
    have T1 : (excOp [0] [1] + excOp [1] [2] : Module.End ℚ (Fock ℚ)) (ket {1}) = ket {2} := by
      rw [LinearMap.add_apply, hop, hop]; simp
    rw [expSeries, Finset.sum_range_succ, Finset.sum_range_succ, Finset.sum_range_one, LinearMap.add_apply, LinearMap.add_apply,
      LinearMap.smul_apply, LinearMap.smul_apply, LinearMap.smul_apply, pow_zero, pow_one, pow_two, Module.End.mul_apply, Module.End.one_apply, T0, T1]
    simp [ket]
end Fanpy.Props
