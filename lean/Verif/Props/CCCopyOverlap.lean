import Verif.Props.CC
import Verif.Props.CCCopy

/-! # C139: the wavefunction that the copied parameters give -/

namespace Fanpy.Props
open Fanpy.Spec Fanpy.Slater Fanpy.Graphs Fanpy.It Fanpy.CC Fanpy.Lemmas

/-- a wavefunction as `assign_params` sees it: its operators are numbered by their positions -/
def copyView {R : Type} (nelec nspin : ℕ) (w : CC.Wfn R) : CCCopy.Wfn R :=
  ⟨nelec, nspin, w.exops.zipIdx, (List.range w.exops.length).map w.params⟩

theorem copyView_numbered {R : Type} (nelec nspin : ℕ) {w : CC.Wfn R} (h : w.exops.Nodup) : Numbered (copyView nelec nspin w) := by
  refine ⟨?_, ?_, ?_⟩
  · simpa [copyView] using h
  · simp [copyView, List.range_eq_range']
  · simp [copyView]

theorem standardCC_params {R : Type} {nelec nspin : ℕ} {r : RankArg} {refwfn : Option ℕ} {params : ℕ → R} {b : Bool} {w : CC.Wfn R}
    (h : standardCC nelec nspin r refwfn params b = .ok w) (params' : ℕ → R) :
    standardCC nelec nspin r refwfn params' b = .ok { w with params := params' } := by
  unfold standardCC at h ⊢
  rcases hr : assignRanks nelec r with e | ranks
  · rw [hr] at h; simp [bind, Except.bind] at h
  · rcases hg : ground nelec nspin with e | g
    · rw [hr, hg] at h; simp [bind, Except.bind] at h
    · rw [hr, hg] at h
      simp only [bind, Except.bind, pure, Except.pure] at h ⊢
      cases refwfn with
      | none =>
        rw [Except.ok.injEq] at h
        subst h
        rfl
      | some m =>
        simp only at h ⊢
        by_cases hm : totalOcc (some m) ≠ nelec
        · rw [if_pos hm] at h; simp at h
        · rw [if_neg hm, Except.ok.injEq] at h
          subst h
          rw [if_neg hm]

/-- the operators of `StandardCC` are different, and are those of its ranks -/
theorem standardCC_exops {R : Type} {nelec nspin : ℕ} {r : RankArg} {refwfn : Option ℕ} {params : ℕ → R} {b : Bool} {w : CC.Wfn R}
    (hw : standardCC nelec nspin r refwfn params b = .ok w) {g : ℕ} (hg : ground nelec nspin = .ok g) :
    w.exops.Nodup ∧ (∀ A C : Finset ℕ, A ⊆ occSet g → C ⊆ Finset.range nspin \ occSet g → A.card = C.card →
      (A.sort (· ≤ ·) ++ C.sort (· ≤ ·) ∈ w.exops ↔ A.card ∈ rankSet nelec r)) ∧
    ∀ op ∈ w.exops, ∃ A C : Finset ℕ, A ⊆ occSet g ∧ C ⊆ Finset.range nspin \ occSet g ∧ A.card = C.card ∧
      op = A.sort (· ≤ ·) ++ C.sort (· ≤ ·) := by
  obtain ⟨g', h1, h2, h3, -, -, -, -⟩ := standardCC_facts hw
  rw [hg, Except.ok.injEq] at h1
  subst h1
  rcases C41_ranks nelec r with ⟨ranks, r1, r2, r3, r4, -⟩ | ⟨r1, -⟩
  · rw [h2, Except.ok.injEq] at r1
    subst r1
    have sU := sorted_occIndices g
    have sV : ((List.range nspin).filter fun i => i ∉ occIndices (some g)).Pairwise (· < ·) := List.pairwise_lt_range.filter _
    have subl : ∀ {l c : List ℕ}, l.Pairwise (· < ·) → c.Pairwise (· < ·) → (∀ i ∈ c, i ∈ l) → c.Sublist l := fun hl hc h =>
      List.sublist_of_subperm_of_pairwise (r := (· < ·)) (List.subperm_of_subset (hc.imp fun h => by omega) h) hc hl
    refine ⟨?_, ?_, ?_⟩
    · rw [h3, exopsStandard, exopsFrom_eq]
      refine List.Nodup.map_on ?_ ((opsP_order r2 sU sV).imp fun {p q} h => by rintro rfl; exact opLt_asymm h h)
      intro p hp q hq e
      have hp' := (mem_opsP.1 hp).2.1
      have hq' := (mem_opsP.1 hq).2.1
      obtain ⟨e1, e2⟩ := List.append_inj e (by
        have := congrArg List.length e
        rw [List.length_append, List.length_append] at this; omega)
      exact Prod.ext e1 e2
    · intro A C p1 p2 p3
      rw [h3, exopsStandard, mem_exopsFrom (p := (A.sort (· ≤ ·), C.sort (· ≤ ·))) (by simp [p3]), mem_opsP, ← r4, List.mem_toFinset]
      simp only [Finset.length_sort]
      refine ⟨fun h => h.1, fun h => ⟨h, p3, ?_, ?_⟩⟩
      · exact subl sU (Finset.sortedLT_sort A).pairwise (fun i hi => mem_occIndices.2 (mem_occSet.1 (p1 ((Finset.mem_sort _).1 hi))))
      · exact subl sV (Finset.sortedLT_sort C).pairwise (fun i hi => by
          have := p2 ((Finset.mem_sort _).1 hi)
          rw [Finset.mem_sdiff, Finset.mem_range, mem_occSet] at this
          rw [List.mem_filter, List.mem_range, decide_eq_true_eq, mem_occIndices]
          exact this)
    · intro op hop
      rw [h3, exopsStandard, exopsFrom_eq, List.mem_map] at hop
      obtain ⟨⟨a, c⟩, hq, rfl⟩ := hop
      obtain ⟨-, q2, q3, q4⟩ := mem_opsP.1 hq
      have sa := sU.sublist q3
      have sc := sV.sublist q4
      have na : a.Nodup := sa.imp fun h => by omega
      have nc : c.Nodup := sc.imp fun h => by omega
      have srt : ∀ l : List ℕ, l.Pairwise (· < ·) → l.toFinset.sort (· ≤ ·) = l := fun l hl =>
        (List.toFinset_sort (· ≤ ·) (hl.imp fun h => by omega)).2 (hl.imp fun h => by omega)
      refine ⟨a.toFinset, c.toFinset, ?_, ?_, ?_, ?_⟩
      · intro i hi
        exact mem_occSet.2 (mem_occIndices.1 (q3.subset (List.mem_toFinset.1 hi)))
      · intro i hi
        have := q4.subset (List.mem_toFinset.1 hi)
        rw [List.mem_filter, List.mem_range, decide_eq_true_eq, mem_occIndices] at this
        rw [Finset.mem_sdiff, Finset.mem_range, mem_occSet]
        exact this
      · rw [List.toFinset_card_of_nodup na, List.toFinset_card_of_nodup nc]; exact q2
      · rw [srt a sa, srt c sc]
  · rw [h2] at r1; simp at r1

/-- **C139, the same wavefunction.**  If `StandardCC` wavefunctions have the same electrons, orbitals and reference, and all ranks of `other` are ranks
of `w`, then `w.assign_params(other)` prints nothing and gives `w` the overlap of `other` with every determinant with the right number of electrons. -/
theorem C139_overlap {R : Type} [Field R] [CharZero R] (nelec nspin : ℕ) (r r' : RankArg) (refwfn : Option ℕ) (params params' : ℕ → R)
    (w other : CC.Wfn R) (hw : standardCC nelec nspin r refwfn params false = .ok w)
    (ho : standardCC nelec nspin r' refwfn params' false = .ok other) (hr : rankSet nelec r' ⊆ rankSet nelec r) :
    ∃ v, CCCopy.assignFrom (copyView nelec nspin w) (copyView nelec nspin other) = .ok (v, []) ∧
      ∀ sd, (occSet sd).card = nelec → overlap { w with params := fun i => v.params.getD i 0 } sd = overlap other sd := by
  obtain ⟨g, hg, -⟩ := standardCC_facts hw
  obtain ⟨w1, w2, -⟩ := standardCC_exops hw hg
  obtain ⟨o1, o2, o3⟩ := standardCC_exops ho hg
  have nw := copyView_numbered nelec nspin w1
  have keys : ∀ u : CC.Wfn R, (copyView nelec nspin u).exops.map Prod.fst = u.exops := fun u => by simp [copyView]
  obtain ⟨v, printed, c1, -, -, -, c5, c6, c7, c8⟩ := C139_copy (copyView nelec nspin w) (copyView nelec nspin other) ⟨nw.1, nw.2.1⟩
    (copyView_numbered nelec nspin o1) rfl rfl
  rw [keys] at c6 c7 c8
  rw [keys] at c7 c8
  have hsub : ∀ op ∈ other.exops, op ∈ w.exops := by
    intro op hop
    obtain ⟨A, C, p1, p2, p3, rfl⟩ := o3 op hop
    exact (w2 A C p1 p2 p3).2 (hr ((o2 A C p1 p2 p3).1 hop))
  have hp : printed = [] := by
    rw [c8, List.filter_eq_nil_iff]
    intro op hop
    simpa using hsub op hop
  subst hp
  refine ⟨v, c1, fun sd hsd => ?_⟩
  have value : ∀ op x, HasAmplitude v op x → v.params.getD (w.exops.idxOf op) 0 = x := by
    rintro op x ⟨i, hi, hx⟩
    rw [c5] at hi
    have hi' : w.exops[i]? = some op := by simpa [copyView, List.mem_zipIdx_iff_getElem?] using hi
    obtain ⟨hlt, he⟩ := List.getElem?_eq_some_iff.1 hi'
    rw [← he, w1.idxOf_getElem i hlt, List.getD_eq_getElem?_getD, hx]
    rfl
  obtain ⟨g1, e1, t1⟩ := C41_standard_partial nelec nspin r refwfn _ _ (standardCC_params hw fun i => v.params.getD i 0) sd hsd nelec le_rfl
  obtain ⟨g2, e2, t2⟩ := C41_standard_partial nelec nspin r' refwfn _ _ ho sd hsd nelec le_rfl
  rw [hg, Except.ok.injEq] at e1 e2
  subst e1 e2
  rw [t1, t2]
  congr 4
  rw [clusterOp, clusterOp]
  symm
  have amp : ∀ k, ∀ A ∈ (occSet g).powersetCard k, ∀ C ∈ (Finset.range nspin \ occSet g).powersetCard k,
      amplitude { w with params := fun i => v.params.getD i 0 } A C =
        if k ∈ rankSet nelec r' then amplitude other A C else if k ∈ rankSet nelec r then 0 else
          amplitude { w with params := fun i => v.params.getD i 0 } A C := by
    intro k A hA C hC
    rw [Finset.mem_powersetCard] at hA hC
    have hc : A.card = C.card := hA.2.trans hC.2.symm
    have m1 := o2 A C hA.1 hC.1 hc
    have m2 := w2 A C hA.1 hC.1 hc
    rw [hA.2] at m1 m2
    by_cases hk : k ∈ rankSet nelec r'
    · rw [if_pos hk]
      have hop := m1.2 hk
      refine value _ _ (c6 _ (hsub _ hop) _ ⟨other.exops.idxOf (A.sort (· ≤ ·) ++ C.sort (· ≤ ·)), ?_, ?_⟩)
      · rw [copyView, List.mem_zipIdx_iff_getElem?]
        exact List.getElem?_idxOf hop
      · have := List.idxOf_lt_length_iff.2 hop
        simp [copyView, amplitude, this]
    · rw [if_neg hk]
      by_cases hk2 : k ∈ rankSet nelec r
      · rw [if_pos hk2]
        exact value _ _ (c7 _ (m2.2 hk2) fun h => hk (m1.1 h))
      · rw [if_neg hk2]
  rw [← Finset.sum_subset hr]
  · refine Finset.sum_congr rfl fun k hk => Finset.sum_congr rfl fun A hA => Finset.sum_congr rfl fun C hC => ?_
    rw [amp k A hA C hC, if_pos hk]
  · intro k hk hk'
    refine Finset.sum_eq_zero fun A hA => Finset.sum_eq_zero fun C hC => ?_
    rw [amp k A hA C hC, if_neg hk', if_pos hk, zero_smul]

/-- single excitations into single and double ones, for two electrons in four spin orbitals -/
example (params params' : ℕ → ℚ) : ∃ w other : CC.Wfn ℚ, standardCC 2 4 (.int 2) none params false = .ok w ∧
    standardCC 2 4 (.int 1) none params' false = .ok other ∧ w.exops.length = 5 ∧ other.exops.length = 4 ∧
    rankSet 2 (.int 1) ⊆ rankSet 2 (.int 2) := by
  have hg : ground 2 4 = .ok 0b0101 := by decide +kernel
  refine ⟨⟨[1, 2], 0b0101, exopsStandard [1, 2] 4 0b0101, params, true⟩, ⟨[1], 0b0101, exopsStandard [1] 4 0b0101, params', true⟩, ?_, ?_, ?_, ?_, ?_⟩
  · simp only [standardCC, hg, bind, Except.bind]; rfl
  · simp only [standardCC, hg, bind, Except.bind]; rfl
  · show (exopsStandard [1, 2] 4 0b0101).length = 5; decide +kernel
  · show (exopsStandard [1] 4 0b0101).length = 4; decide +kernel
  · decide +kernel

/-- operators made of combinations of each rank are different -/
theorem operators_nodup (ranks U : List ℕ) (V : List ℕ → List ℕ) (hr : ranks.Nodup) (hU : U.Nodup) (hV : ∀ a, (V a).Nodup) :
    (ranks.flatMap fun k => (comb U k).flatMap fun a => (comb (V a) k).map fun c => a ++ c).Nodup := by
  unfold List.Nodup
  rw [List.pairwise_flatMap]
  refine ⟨fun k _ => ?_, hr.imp ?_⟩
  · rw [List.pairwise_flatMap]
    refine ⟨fun a _ => ?_, List.Pairwise.imp_of_mem ?_ (comb_nodup k hU)⟩
    · exact (comb_nodup k (hV a)).map fun c d h => List.append_cancel_left h
    · intro a b ha hb hab p hp q hq e
      obtain ⟨c, -, rfl⟩ := List.mem_map.1 hp
      obtain ⟨d, -, rfl⟩ := List.mem_map.1 hq
      exact hab (List.append_inj e ((mem_comb.1 ha).2.trans (mem_comb.1 hb).2.symm)).1
  · intro k m hkm p hp q hq e
    simp only [List.mem_flatMap, List.mem_map, mem_comb] at hp hq
    obtain ⟨a, ⟨-, ha⟩, c, ⟨-, hc⟩, rfl⟩ := hp
    obtain ⟨b, ⟨-, hb⟩, d, ⟨-, hd⟩, rfl⟩ := hq
    have := congrArg List.length e
    rw [List.length_append, List.length_append] at this
    omega

/-- **C139, numbers.**  The operators that `assign_exops` makes for the ranks that `assign_ranks` accepts are different, with and without given indices
and for the ground state, also if indices are repeated or occur in both lists; so the other theorems hold for all these wavefunctions. -/
theorem C139_numbers {R : Type} (nelec nspin : ℕ) (r : RankArg) (ranks : List ℕ) (h : assignRanks nelec r = .ok ranks) (w : CC.Wfn R)
    (hw : w.exops = exopsAll ranks nspin ∨ (∃ exFrom exTo, w.exops = exopsIndices ranks exFrom exTo) ∨ ∃ g, w.exops = exopsStandard ranks nspin g) :
    Numbered (copyView nelec nspin w) := by
  apply copyView_numbered
  have hr : ranks.Nodup := by
    rcases C41_ranks nelec r with ⟨ranks', r1, r2, -⟩ | ⟨r1, -⟩
    · rw [h, Except.ok.injEq] at r1
      subst r1
      exact r2.imp fun h => by omega
    · rw [h] at r1; simp at r1
  have srt : ∀ l : List ℕ, (l.dedup.mergeSort (fun a b => decide (a ≤ b))).Nodup := fun l =>
    (List.mergeSort_perm _ _).nodup_iff.2 (List.nodup_dedup l)
  rcases hw with hw | ⟨F, T, hw⟩ | ⟨g, hw⟩
  · rw [hw]
    exact operators_nodup ranks (List.range nspin) (fun a => (List.range nspin).filter fun i => i ∉ a) hr List.nodup_range
      fun a => List.nodup_range.filter _
  · rw [hw]
    exact operators_nodup ranks _ (fun _ => _) hr (srt F) fun _ => srt T
  · rw [hw]
    exact operators_nodup ranks _ (fun _ => _) hr ((sorted_occIndices g).imp fun h => by omega) fun _ => List.nodup_range.filter _

/-- all operators for two electrons in three spin orbitals, and operators with an index in both lists -/
example : exopsAll [1, 2] 3 = [[0, 1], [0, 2], [1, 0], [1, 2], [2, 0], [2, 1]] ∧ exopsFrom [1] [0, 1] [1, 2] = [[0, 1], [0, 2], [1, 1], [1, 2]] ∧
    assignRanks 2 (.int 2) = .ok [1, 2] := by
  refine ⟨by decide +kernel, by decide +kernel, rfl⟩

end Fanpy.Props
