import Verif.Lemmas.FirstPartition
import Verif.Model.QuasiParams
import Verif.Props.SdList
import Verif.Props.Tetret

/-! # C121: parameters of the quasiparticle wavefunctions -/

namespace Fanpy.Props
open Fanpy.Slater Fanpy.Quasi Fanpy.Linalg Fanpy.Spec Fanpy.MathTools Fanpy.Graphs

set_option linter.unusedSectionVars false

variable {R : Type} [Field R]

/-! ## The default parameters -/

theorem foldlM_defaultStep (w : Wfn R) : ∀ (o : List (List ℕ)) (k : ℕ) (P : ℕ → ℕ → R), (∀ b ∈ o, b ∈ w.subsets) →
    k + o.length ≤ w.nquasi →
    (((List.range' k o.length).zip o)).foldlM w.defaultStep P = .ok fun a b =>
      P a b + if k ≤ a ∧ a < k + o.length ∧ b = w.subsets.idxOf (o.getD (a - k) []) then 1 else 0 := by
  intro o
  induction o with
  | nil =>
    intro k P _ _
    simp only [List.length_nil, List.range'_zero, List.zip_nil_left, List.foldlM_nil, pure, Except.pure]
    congr 1
    funext a b
    rw [if_neg (by omega), add_zero]
  | cons s o ih =>
    intro k P h hk
    rw [List.length_cons] at hk
    rw [List.length_cons, List.range'_succ, List.zip_cons_cons, List.foldlM_cons, Wfn.defaultStep, Wfn.colInd,
      if_pos (h s (by simp))]
    simp only [bind, Except.bind]
    rw [if_pos (by omega)]
    simp only [pure, Except.pure]
    rw [ih (k + 1) _ (fun b hb => h b (by simp [hb])) (by omega)]
    congr 1
    funext a b
    rcases Nat.lt_trichotomy a k with ha | rfl | ha
    · rw [if_neg (by omega), if_neg (by omega), if_neg (by omega)]
    · rw [if_neg (show ¬ (a + 1 ≤ a ∧ _) by omega), add_zero]
      simp only [true_and, le_refl, Nat.sub_self, List.getD_cons_zero]
      by_cases hb : b = w.subsets.idxOf s
      · rw [if_pos hb, if_pos ⟨by omega, hb⟩]
      · rw [if_neg hb, if_neg fun h => hb h.2, add_zero]
    · rw [if_neg (by omega)]
      congr 1
      obtain ⟨d, rfl⟩ : ∃ d, a = k + 1 + d := ⟨a - (k + 1), by omega⟩
      rw [show k + 1 + d - (k + 1) = d by omega, show k + 1 + d - k = d + 1 by omega, List.getD_cons_succ]
      congr 1
      rw [eq_iff_iff]
      constructor
      · rintro ⟨-, h2, h3⟩; exact ⟨by omega, by omega, h3⟩
      · rintro ⟨-, h2, h3⟩; exact ⟨by omega, by omega, h3⟩

theorem foldlM_defaultStep_error (w : Wfn R) : ∀ (o : List (List ℕ)) (k : ℕ) (P : ℕ → ℕ → R), (∀ b ∈ o, b ∈ w.subsets) →
    k ≤ w.nquasi → w.nquasi < k + o.length →
    (((List.range' k o.length).zip o)).foldlM w.defaultStep P = .error .indexError := by
  intro o
  induction o with
  | nil => intro k P _ h1 h2; simp at h2; omega
  | cons s o ih =>
    intro k P h h1 h2
    rw [List.length_cons] at h2
    rw [List.length_cons, List.range'_succ, List.zip_cons_cons, List.foldlM_cons, Wfn.defaultStep, Wfn.colInd,
      if_pos (h s (by simp))]
    simp only [bind, Except.bind]
    by_cases hk : k < w.nquasi
    · rw [if_pos hk]
      simp only [pure, Except.pure]
      exact ih (k + 1) _ (fun b hb => h b (by simp [hb])) (by omega) (by omega)
    · rw [if_neg hk]

/-- C121: the default parameters of a quasiparticle wavefunction.  In row `a` the column of subset `a` of the first
partition of the orbitals of the ground state is one.  The other numbers are zero.  More subsets than quasiparticles are an
`IndexError`. -/
theorem C121_default_rows (w : Wfn R) {gen : List ℕ → Except PyErr (List (List (List ℕ)))} {g : ℕ} {o : List (List ℕ)}
    {L : List (List (List ℕ))} (hg : ground w.nelec w.nspin = .ok g) (hL : gen (occIndices (some g)) = .ok (o :: L))
    (ho : ∀ b ∈ o, b ∈ w.subsets) :
    w.defaultParams gen = if o.length ≤ w.nquasi then
      .ok fun a b => if a < o.length ∧ b = w.subsets.idxOf (o.getD a []) then 1 else 0
    else .error .indexError := by
  rw [Wfn.defaultParams, hg]
  simp only [bind, Except.bind]
  rw [hL]
  simp only [List.head?_cons]
  rw [List.range_eq_range']
  by_cases h : o.length ≤ w.nquasi
  · rw [if_pos h, foldlM_defaultStep w o 0 _ ho (by omega)]
    congr 1
    funext a b
    simp
  · rw [if_neg h]
    exact foldlM_defaultStep_error w o 0 _ ho (by omega) (by omega)

/-- the permanent for the default parameters -/
theorem perL_default {subsets o o' : List (List ℕ)} {k : ℕ} (ho : ∀ b ∈ o, b ∈ subsets) (ho' : ∀ b ∈ o', b ∈ subsets)
    (hl : o.length = k) (hl' : o'.length = k) (hn : o.Nodup) {P : ℕ → ℕ → R}
    (hP : ∀ a b, P a b = if a < o.length ∧ b = subsets.idxOf (o.getD a []) then 1 else 0) :
    (o' = o → perL P (List.range k) (o'.map fun b => subsets.idxOf b) = 1) ∧
    (o'.toFinset ≠ o.toFinset → perL P (List.range k) (o'.map fun b => subsets.idxOf b) = 0) := by
  have key : perL P (List.range k) (o'.map fun b => subsets.idxOf b) = ∑ σ : Equiv.Perm (Fin k),
      ∏ i : Fin k, if o'.getD (σ i) [] = o.getD i [] then (1 : R) else 0 := by
    rw [perL_range_sum _ (by rw [List.length_map, hl'])]
    apply Finset.sum_congr rfl
    intro σ _
    apply Finset.prod_congr rfl
    intro i _
    have h1 : (o'.map fun b => subsets.idxOf b).getD (σ i) 0 = subsets.idxOf (o'.getD (σ i) []) := by
      rw [List.getD_eq_getElem _ _ (by rw [List.length_map, hl']; exact (σ i).2), List.getElem_map,
        List.getD_eq_getElem _ _ (by rw [hl']; exact (σ i).2)]
    have h2 : o'.getD (σ i) [] ∈ subsets := by
      rw [List.getD_eq_getElem _ _ (by rw [hl']; exact (σ i).2)]
      exact ho' _ (List.getElem_mem _)
    have h3 : (i : ℕ) < o.length := by have := i.2; omega
    rw [hP, h1]
    by_cases h : o'.getD (σ i) [] = o.getD i []
    · rw [if_pos h, if_pos ⟨h3, by rw [h]⟩]
    · rw [if_neg h, if_neg fun h' => h ((List.idxOf_inj h2).1 h'.2)]
  have hmem : ∀ i : Fin k, o.getD i [] ∈ o := by
    intro i
    rw [List.getD_eq_getElem _ _ (by rw [hl]; exact i.2)]
    exact List.getElem_mem _
  refine ⟨?_, ?_⟩
  · rintro rfl
    rw [key, Finset.sum_eq_single 1]
    · simp
    · intro σ _ hσ
      obtain ⟨i, hi⟩ : ∃ i, σ i ≠ i := by
        by_contra h
        push Not at h
        exact hσ (Equiv.ext h)
      apply Finset.prod_eq_zero (Finset.mem_univ i)
      rw [if_neg]
      intro h
      rw [List.getD_eq_getElem _ _ (by rw [hl]; exact (σ i).2), List.getD_eq_getElem _ _ (by rw [hl]; exact i.2)] at h
      exact hi (Fin.ext ((List.Nodup.getElem_inj_iff hn).1 h))
    · simp
  · intro hne
    rw [key]
    apply Finset.sum_eq_zero
    intro σ _
    by_contra h
    have h := Finset.prod_ne_zero_iff.1 h
    have h : ∀ i : Fin k, o'.getD (σ i) [] = o.getD i [] := by
      intro i
      by_contra hi
      exact h i (Finset.mem_univ i) (if_neg hi)
    apply hne
    ext b
    rw [List.mem_toFinset, List.mem_toFinset]
    constructor
    · intro hb
      obtain ⟨j, hj, rfl⟩ := List.getElem_of_mem hb
      have := h (σ.symm ⟨j, hl' ▸ hj⟩)
      rw [Equiv.apply_symm_apply] at this
      simp only at this
      rw [List.getD_eq_getElem _ _ hj] at this
      rw [this]
      exact hmem _
    · intro hb
      obtain ⟨j, hj, rfl⟩ := List.getElem_of_mem hb
      have := h ⟨j, hl ▸ hj⟩
      simp only at this
      rw [List.getD_eq_getElem _ _ hj] at this
      rw [← this, List.getD_eq_getElem _ _ (by rw [hl']; exact (σ _).2)]
      exact List.getElem_mem _

theorem tetretInit_nspin {nelec nspin : ℕ} {nq : Option ℕ} {subs : Option (List (List ℕ))} {params : ℕ → ℕ → R} {w : Wfn R}
    (h : tetretInit nelec nspin nq subs params = .ok w) : w.nspin = nspin := by
  unfold tetretInit at h
  rw [baseOrbsubsets_ok (nodup_tetretSubsets nspin) fun s hs => (mem_tetretSubsets.1 hs).2.1] at h
  simp only [CI.checkNelec, CI.checkNspin, bind, Except.bind, pure, Except.pure] at h
  split_ifs at h <;> simp at h
  subst h
  rfl

/-- the first partition of the orbitals of a determinant -/
theorem tetret_first {n k sd : ℕ} (hlt : sd < 2 ^ n) (hlen : (occIndices (some sd)).length = 4 * k) (h0 : 1 ≤ k) :
    ∃ o L, tetretGen (occIndices (some sd)) = .ok (o :: L) ∧ o.flatten = occIndices (some sd) ∧
      BlockCovers (tetretSubsets n) (occSet sd) k (o :: L) := by
  obtain ⟨L, hg, hcov⟩ := tetret_covers (n := n) (sorted_occIndices sd) (fun x hx => by
    rw [← List.mem_toFinset, toFinset_occIndices] at hx; exact lt_two_pow_iff.1 hlt x hx) hlen h0
  rw [toFinset_occIndices] at hcov
  obtain ⟨o, M, h1, -, h3⟩ := firstPartition 4 k (by omega) h0 (occIndices (some sd)).reverse
    (List.pairwise_reverse.2 (sorted_occIndices sd)) (by rw [List.length_reverse, hlen])
  rw [List.reverse_reverse] at h3
  have hg' := hg
  rw [tetretGen, if_neg (by omega), unorderedPartition, show (occIndices (some sd)).length / 4 = k by omega, h1] at hg'
  injection hg' with hg'
  subst hg'
  exact ⟨o, M, hg, h3, hcov⟩

/-- what the default parameters of tetrets are -/
theorem tetretNew_default {nelec nspin : ℕ} {nq : Option ℕ} {subs : Option (List (List ℕ))} {w : Wfn R}
    (h : tetretInit nelec nspin nq subs (fun _ _ => 0) = .ok w) {g : ℕ} (hg : ground nelec nspin = .ok g) :
    ∃ o L, tetretGen (occIndices (some g)) = .ok (o :: L) ∧ o.flatten = occIndices (some g) ∧
      BlockCovers (tetretSubsets nspin) (occSet g) w.nquasi (o :: L) ∧
      tetretNew nelec nspin nq subs (.default : ParamArg R) =
        .ok ⟨w.nelec, w.nspin, w.nquasi, w.subsets,
          fun a b => if a < o.length ∧ b = w.subsets.idxOf (o.getD a []) then 1 else 0⟩ := by
  obtain ⟨hsub, -, hne, hq, h0⟩ := tetretInit_ok h
  have hns := tetretInit_nspin h
  obtain ⟨-, hlt, hcard⟩ := ground_ok_facts hg
  obtain ⟨o, L, h1, h2, h3⟩ := tetret_first hlt (by rw [length_occIndices, hcard, hq]) h0
  refine ⟨o, L, h1, h2, h3, ?_⟩
  rw [tetretNew, h]
  simp only [bind, Except.bind, Wfn.assignParams]
  rw [C121_default_rows w (by rw [hne, hns]; exact hg) h1 (by rw [hsub]; exact h3.sub o (by simp)),
    if_pos (by rw [h3.len o (by simp)])]
  rfl

/-- C121: the default wavefunction of tetrets is the determinant of the ground state.  The overlap with it is one and the
overlap with every other determinant of as many electrons is zero. -/
theorem C121_default [CharZero R] {nelec nspin : ℕ} {nq : Option ℕ} {subs : Option (List (List ℕ))} {w : Wfn R}
    (h : tetretNew nelec nspin nq subs (.default : ParamArg R) = .ok w) {g : ℕ} (hg : ground nelec nspin = .ok g) {sd : ℕ}
    (hlt : sd < 2 ^ nspin) (hn : totalOcc (some sd) = nelec) :
    w.overlap tetretGen sd = .ok (if sd = g then 1 else 0) := by
  rcases hi : tetretInit nelec nspin nq subs (fun _ _ => (0 : R)) with e | w0
  · rw [tetretNew, hi] at h; cases h
  obtain ⟨hsub, -, hne, hq, h0⟩ := tetretInit_ok hi
  obtain ⟨o, L, h1, h2, h3, h4⟩ := tetretNew_default hi hg
  rw [h] at h4
  injection h4 with h4
  have hlen : ∀ sd, totalOcc (some sd) = nelec → (occIndices (some sd)).length = 4 * w0.nquasi := by
    intro sd hn; rw [length_occIndices, ← totalOcc_eq, hn, hq]
  have w1 : w.subsets = tetretSubsets nspin := by rw [h4]; exact hsub
  have w2 : w.nquasi = w0.nquasi := by rw [h4]
  have w3 : ∀ a b, w.params a b = if a < o.length ∧ b = w.subsets.idxOf (o.getD a []) then 1 else 0 := by
    intro a b; rw [h4]
  have hnd : ∀ {s : Finset ℕ} {M : List (List (List ℕ))}, BlockCovers (tetretSubsets nspin) s w0.nquasi M → ∀ o ∈ M,
      o.Nodup := by
    intro s M hM o ho
    exact nodup_of_flatten (by rintro b hb rfl; simpa using (mem_tetretSubsets.1 (hM.sub o ho _ hb)).1) (hM.flat o ho)
  have hv : ∀ {s : Finset ℕ} {M : List (List (List ℕ))}, BlockCovers (tetretSubsets nspin) s w0.nquasi M → ∀ o' ∈ M, _ :=
    fun {s M} hM o' ho' => perL_default (P := w.params) (subsets := w.subsets) (o := o) (o' := o') (k := w.nquasi)
      (by rw [w1]; exact h3.sub o (by simp)) (by rw [w1]; exact hM.sub o' ho')
      (by rw [w2]; exact h3.len o (by simp)) (by rw [w2]; exact hM.len o' ho') (hnd h3 o (by simp)) w3
  by_cases hs : sd = g
  · subst hs
    rw [if_pos rfl, tetret_overlap_eq w w1 (by omega) (by rw [w2]; exact hlen sd hn) h1
      (by rw [toFinset_occIndices, w2]; exact h3), List.map_cons, List.sum_cons, h2, listSign_sorted (sorted_occIndices sd),
      (hv h3 o (by simp)).1 rfl, List.sum_eq_zero]
    · simp
    · intro x hx
      obtain ⟨o', ho', rfl⟩ := List.mem_map.1 hx
      rw [(hv h3 o' (by simp [ho'])).2, mul_zero]
      intro he
      have := h3.once
      rw [List.map_cons, List.nodup_cons] at this
      exact this.1 (List.mem_map.2 ⟨o', ho', he⟩)
  · obtain ⟨o₁, L₁, g1, -, g3⟩ := tetret_first hlt (hlen sd hn) h0
    rw [if_neg hs, tetret_overlap_eq w w1 (by omega) (by rw [w2]; exact hlen sd hn) g1
      (by rw [toFinset_occIndices, w2]; exact g3), List.sum_eq_zero]
    intro x hx
    obtain ⟨o', ho', rfl⟩ := List.mem_map.1 hx
    rw [(hv g3 o' ho').2, mul_zero]
    intro he
    apply hs
    apply occSet_injective
    rw [← g3.occ o' ho', ← h3.occ o (by simp)]
    ext x
    have : ∀ b, b ∈ o' ↔ b ∈ o := fun b => by rw [← List.mem_toFinset, he, List.mem_toFinset]
    simp only [List.mem_toFinset, List.mem_flatten, this]

theorem tetretInit_ok_iff {nelec nspin : ℕ} {nq : Option ℕ} {subs : Option (List (List ℕ))} {params : ℕ → ℕ → R} :
    (∃ w, tetretInit nelec nspin nq subs params = .ok w) ↔
      nelec ≠ 0 ∧ nelec % 4 = 0 ∧ nspin ≠ 0 ∧ nspin % 2 = 0 ∧ (∀ n ∈ nq, n * 4 = nelec) ∧ subs = none := by
  unfold tetretInit
  rw [baseOrbsubsets_ok (nodup_tetretSubsets nspin) fun s hs => (mem_tetretSubsets.1 hs).2.1]
  simp only [CI.checkNelec, CI.checkNspin, bind, Except.bind, pure, Except.pure]
  have hnq : nelec % 4 = 0 → ((∀ n ∈ nq, n * 4 = nelec) ↔ nq.getD (nelec / 4) * 4 = nelec) := by
    intro h
    cases nq with
    | none => simp; omega
    | some n => simp
  have hsub : subs = none ↔ ¬ subs.isSome = true := by cases subs <;> simp
  constructor
  · rintro ⟨w, hw⟩
    split_ifs at hw with h1 h2 h3 h4 h5 h6
    rw [hnq (by omega), hsub]
    exact ⟨h1, by omega, by omega, by omega, by omega, h6⟩
  · rintro ⟨h1, h2, h3, h4, h5, h6⟩
    rw [hnq h2] at h5
    rw [hsub] at h6
    refine ⟨⟨nelec, nspin, nq.getD (nelec / 4), tetretSubsets nspin, params⟩, ?_⟩
    rw [if_neg h1]
    simp only
    rw [if_neg (by omega), if_neg (by omega)]
    simp only
    rw [if_neg (by omega), if_neg (by omega), if_neg h6]

/-- C121: when the default wavefunction of tetrets can be made: the arguments are accepted and the ground state exists. -/
theorem C121_default_succeeds {nelec nspin : ℕ} {nq : Option ℕ} {subs : Option (List (List ℕ))} :
    (∃ w, tetretNew nelec nspin nq subs (.default : ParamArg R) = .ok w) ↔
      nelec ≠ 0 ∧ nelec % 4 = 0 ∧ nelec ≤ nspin ∧ nspin % 2 = 0 ∧ (∀ n ∈ nq, n * 4 = nelec) ∧ subs = none := by
  constructor
  · rintro ⟨w, hw⟩
    rcases hi : tetretInit nelec nspin nq subs (fun _ _ => (0 : R)) with e | w0
    · rw [tetretNew, hi] at hw; cases hw
    obtain ⟨a1, a2, a3, a4, a5, a6⟩ := tetretInit_ok_iff.1 ⟨w0, hi⟩
    refine ⟨a1, a2, ?_, a4, a5, a6⟩
    by_contra hlt
    obtain ⟨e, he⟩ := (C03_ground_error nelec nspin).2 (Or.inl (by omega))
    obtain ⟨-, -, b1, -⟩ := tetretInit_ok hi
    rw [tetretNew, hi] at hw
    simp only [bind, Except.bind, Wfn.assignParams, Wfn.defaultParams] at hw
    rw [b1, tetretInit_nspin hi, he] at hw
    cases hw
  · rintro ⟨a1, a2, a3, a4, a5, a6⟩
    obtain ⟨w0, hi⟩ := tetretInit_ok_iff (params := fun _ _ => (0 : R)).2 ⟨a1, a2, show nspin ≠ 0 by omega, a4, a5, a6⟩
    rcases hg : ground nelec nspin with e | g
    · have := (C03_ground_error nelec nspin).1 ⟨e, hg⟩
      omega
    · obtain ⟨o, L, -, -, -, h⟩ := tetretNew_default hi hg
      exact ⟨_, h⟩

-- eight electrons in twelve spin orbitals
example : ∃ (w : Wfn ℚ) (g : ℕ), tetretNew 8 12 none none (.default : ParamArg ℚ) = .ok w ∧ ground 8 12 = .ok g ∧
    0b001111101011 < 2 ^ 12 ∧ totalOcc (some 0b001111101011) = 8 ∧ 0b001111101011 ≠ g ∧
    w.overlap tetretGen 0b001111101011 = .ok 0 ∧ w.overlap tetretGen g = .ok 1 := by
  obtain ⟨w, hw⟩ := (C121_default_succeeds (R := ℚ) (nelec := 8) (nspin := 12) (nq := none) (subs := none)).2 (by simp)
  have hg : ground 8 12 = .ok 0b001111001111 := by decide
  exact ⟨w, _, hw, hg, by decide, by decide, by decide, C121_default hw hg (by decide) (by decide),
    C121_default hw hg (by decide) (by decide)⟩

/-! ## Parameters of another wavefunction -/

theorem copyParams_apply (w other : Wfn R) (hw : w.subsets.Nodup) {b : ℕ} (hb : b < w.subsets.length) (a : ℕ) :
    ∀ (l : List (List ℕ)) (k : ℕ) (P : ℕ → ℕ → R), l.Nodup →
    ((List.range' k l.length).zip l).foldl (w.copyStep other) P a b =
      if a < other.nquasi ∧ w.subsets[b] ∈ l then other.params a (k + l.idxOf w.subsets[b]) else P a b := by
  intro l
  induction l with
  | nil => intro k P _; simp
  | cons s l ih =>
    intro k P hl
    rw [List.nodup_cons] at hl
    rw [List.length_cons, List.range'_succ, List.zip_cons_cons, List.foldl_cons, ih (k + 1) _ hl.2]
    by_cases hs : w.subsets[b] = s
    · have hmem : s ∈ w.subsets := hs ▸ List.getElem_mem hb
      have hidx : w.subsets.idxOf s = b := by rw [← hs]; exact hw.idxOf_getElem b hb
      rw [hs, if_neg fun h => hl.1 h.2, Wfn.copyStep, Wfn.colInd, if_pos hmem, hidx]
      simp
    · have hidx : w.subsets.idxOf s ≠ b := by
        rintro rfl; exact hs (List.getElem_idxOf hb)
      have hstep : w.copyStep other P (k, s) a b = P a b := by
        rw [Wfn.copyStep, Wfn.colInd]
        by_cases hm : s ∈ w.subsets
        · rw [if_pos hm]
          exact if_neg fun h => hidx h.2.symm
        · rw [if_neg hm]
      rw [hstep, List.idxOf_cons_ne _ (Ne.symm hs), show k + 1 + l.idxOf w.subsets[b] = k + (l.idxOf w.subsets[b] + 1) by omega]
      have : w.subsets[b] ∈ s :: l ↔ w.subsets[b] ∈ l := by simp [hs]
      simp only [this]

/-- C121: parameters taken from another wavefunction.  The wavefunctions must have the same electrons and orbitals, and the
other may not have more quasiparticles.  The numbers of the subsets that both have are copied, all others are zero. -/
theorem C121_copy (w other : Wfn R) (gen : List ℕ → Except PyErr (List (List (List ℕ)))) (hw : w.subsets.Nodup)
    (ho : other.subsets.Nodup) :
    if w.nelec = other.nelec ∧ w.nspin = other.nspin ∧ other.nquasi ≤ w.nquasi then
      ∃ P, w.assignParams gen (.wfn other) = .ok { w with params := P } ∧ ∀ a b (hb : b < w.subsets.length),
        P a b = if a < other.nquasi ∧ w.subsets[b] ∈ other.subsets then
          other.params a (other.subsets.idxOf w.subsets[b]) else 0
    else w.assignParams gen (.wfn other) = .error .valueError := by
  split_ifs with h
  · refine ⟨((List.range other.subsets.length).zip other.subsets).foldl (w.copyStep other) (fun _ _ => 0), ?_, ?_⟩
    · rw [Wfn.assignParams, Wfn.copyParams, if_neg (by simpa using h.1), if_neg (by simpa using h.2.1), if_neg (by omega)]
      rfl
    · intro a b hb
      rw [List.range_eq_range', copyParams_apply w other hw hb a _ 0 _ ho]
      simp
  · rw [Wfn.assignParams, Wfn.copyParams]
    by_cases h1 : w.nelec = other.nelec
    · by_cases h2 : w.nspin = other.nspin
      · rw [if_neg (by simpa using h1), if_neg (by simpa using h2), if_pos (by by_contra h3; exact h ⟨h1, h2, by omega⟩)]
        rfl
      · rw [if_neg (by simpa using h1), if_pos h2]; rfl
    · rw [if_pos h1]; rfl

/-- C121: tetrets made from other tetrets are the same wavefunction: the overlaps with all determinants of `nelec`
electrons agree. -/
theorem C121_copy_overlap [CharZero R] {nelec nspin : ℕ} {nq nq' : Option ℕ} {subs subs' : Option (List (List ℕ))}
    {params : ℕ → ℕ → R} {other w : Wfn R} (h' : tetretInit nelec nspin nq' subs' params = .ok other)
    (h : tetretNew nelec nspin nq subs (.wfn other) = .ok w) {sd : ℕ}
    (hlt : sd < 2 ^ nspin) (hn : totalOcc (some sd) = nelec) :
    w.overlap tetretGen sd = other.overlap tetretGen sd := by
  rcases hi : tetretInit nelec nspin nq subs (fun _ _ => (0 : R)) with e | w0
  · rw [tetretNew, hi] at h; cases h
  obtain ⟨s0, -, n0, q0, z0⟩ := tetretInit_ok hi
  obtain ⟨s1, -, n1, q1, z1⟩ := tetretInit_ok h'
  have hc := C121_copy w0 other tetretGen (s0 ▸ nodup_tetretSubsets nspin) (s1 ▸ nodup_tetretSubsets nspin)
  rw [if_pos ⟨n0.trans n1.symm, (tetretInit_nspin hi).trans (tetretInit_nspin h').symm, by omega⟩] at hc
  obtain ⟨P, hP, hv⟩ := hc
  rw [tetretNew, hi] at h
  change w0.assignParams tetretGen (.wfn other) = _ at h
  rw [hP] at h
  injection h with h
  have hlen : (occIndices (some sd)).length = 4 * w0.nquasi := by rw [length_occIndices, ← totalOcc_eq, hn, q0]
  obtain ⟨L, hg, hcov⟩ := tetret_covers (n := nspin) (sorted_occIndices sd) (fun x hx => by
    rw [← List.mem_toFinset, toFinset_occIndices] at hx; exact lt_two_pow_iff.1 hlt x hx) hlen z0
  have hqq : other.nquasi = w0.nquasi := by omega
  have w2 : w.nquasi = w0.nquasi := by rw [← h]
  have w1 : w.subsets = tetretSubsets nspin := by rw [← h]; exact s0
  rw [tetret_overlap_eq w w1 (by omega) (by rw [w2]; exact hlen) hg (by rw [w2]; exact hcov),
    tetret_overlap_eq other s1 z1 (by rw [hqq]; exact hlen) hg (by rw [hqq]; exact hcov)]
  congr 2
  apply List.map_congr_left
  intro o ho
  rw [w2, hqq, w1, s1]
  congr 1
  have hl := hcov.len o ho
  rw [perL_range_sum _ (by rw [List.length_map, hl]), perL_range_sum _ (by rw [List.length_map, hl])]
  apply Finset.sum_congr rfl
  intro σ _
  apply Finset.prod_congr rfl
  intro i _
  rw [List.getD_eq_getElem _ _ (by rw [List.length_map, hl]; exact (σ i).2), List.getElem_map]
  have hm := hcov.sub o ho _ (List.getElem_mem (l := o) (n := σ i) (by rw [hl]; exact (σ i).2))
  have hix := List.idxOf_lt_length_of_mem hm
  have hb := hv i _ (by rw [s0]; exact hix)
  rw [show w.params = P by rw [← h], hb]
  have e : ∀ h, w0.subsets[(tetretSubsets nspin).idxOf (o[(σ i : ℕ)]'(by rw [hl]; exact (σ i).2))]'h =
      o[(σ i : ℕ)]'(by rw [hl]; exact (σ i).2) := by
    intro h
    simp only [s0]
    exact List.getElem_idxOf hix
  rw [e, s1, if_pos ⟨by rw [hqq]; exact i.2, hm⟩]

/-- C121: a wavefunction with more quasiparticles than the one its parameters are taken from has a row of zeros.  If all
subsets have an even number of orbitals, every overlap is zero. -/
theorem C121_extra_rows [CharZero R] (w other w' : Wfn R) {gen : List ℕ → Except PyErr (List (List (List ℕ)))}
    (hw : w.subsets.Nodup) (ho : other.subsets.Nodup) (h : w.assignParams gen (.wfn other) = .ok w')
    (hq : other.nquasi < w.nquasi) {sd : ℕ} {L : List (List (List ℕ))} {v : R} (hL : gen (occIndices (some sd)) = .ok L)
    (hs : ∀ o ∈ L, o.Nodup ∧ o.length = w.nquasi ∧ ∀ b ∈ o, b ∈ w.subsets ∧ b.length % 2 = 0)
    (hv : w'.overlap gen sd = .ok v) : v = 0 := by
  have hc := C121_copy w other gen hw ho
  split_ifs at hc with hh
  swap
  · rw [hc] at h; cases h
  obtain ⟨P, hP, hval⟩ := hc
  rw [hP] at h
  injection h with h
  have w1 : w'.subsets = w.subsets := by rw [← h]
  have w2 : w'.nquasi = w.nquasi := by rw [← h]
  have w3 : w'.params = P := by rw [← h]
  rw [Wfn.overlap, hL] at hv
  simp only [bind, Except.bind] at hv
  have key : ∀ (L : List (List (List ℕ))) (u : R),
      (∀ o ∈ L, o.Nodup ∧ o.length = w.nquasi ∧ ∀ b ∈ o, b ∈ w.subsets ∧ b.length % 2 = 0) →
      L.foldlM (w'.olpStep (occIndices (some sd))) u = .ok v → v = u := by
    intro L
    induction L with
    | nil => intro u _ h; simp [pure, Except.pure] at h; exact h.symm
    | cons o L ih =>
      intro u hs hv
      obtain ⟨o1, o2, o3⟩ := hs o (by simp)
      rw [List.foldlM_cons] at hv
      rcases hu' : w'.olpStep (occIndices (some sd)) u o with e | u'
      · rw [hu'] at hv; cases hv
      rw [hu'] at hv
      change L.foldlM (w'.olpStep (occIndices (some sd))) u' = .ok v at hv
      rw [Wfn.olpStep, process_bosons w' (by rw [w1]; exact fun b hb => (o3 b hb).1) fun b hb => (o3 b hb).2] at hu'
      simp only [bind, Except.bind] at hu'
      rcases hsg : signPerm (o ++ []).flatten (some (occIndices (some sd))) with e | sg
      · rw [hsg] at hu'; cases hu'
      rw [hsg] at hu'
      simp only at hu'
      have hcols := idxOf_cols (subsets := w'.subsets) (by rw [w1]; exact fun b hb => (o3 b hb).1) o1
      rw [o2, w2, permsum_bosons w'.params hcols.1 (by rw [List.length_map, o2]) (by omega)] at hu'
      have hz : perL w'.params (List.range w.nquasi) (o.map fun b => w'.subsets.idxOf b) = 0 := by
        rw [perL_range_sum _ (by rw [List.length_map, o2])]
        apply Finset.sum_eq_zero
        intro σ _
        apply Finset.prod_eq_zero (Finset.mem_univ ⟨w.nquasi - 1, by omega⟩)
        have hm : (o.map fun b => w'.subsets.idxOf b).getD (σ ⟨w.nquasi - 1, by omega⟩) 0 < w.subsets.length := by
          rw [List.getD_eq_getElem _ _ (by rw [List.length_map, o2]; exact (σ _).2), ← w1]
          exact hcols.2 _ (List.getElem_mem _)
        rw [w3, hval _ _ hm, if_neg]
        simp only
        omega
      rw [hz] at hu'
      change Except.ok (u + (sg : R) * 0) = Except.ok u' at hu'
      rw [mul_zero, add_zero] at hu'
      injection hu' with hu'
      rw [hu']
      exact ih _ (fun o ho => hs o (by simp [ho])) hv
  exact key L 0 hs hv

-- two pairs made from one pair
example : ∃ v : ℚ, ((⟨4, 4, 2, [[0, 1], [2, 3], [0, 2], [1, 3]], fun _ _ => 0⟩ : Wfn ℚ).assignParams
      (fun _ => .ok [[[0, 1], [2, 3]], [[0, 2], [1, 3]]])
      (.wfn ⟨4, 4, 1, [[1, 3], [0, 1], [2, 3]], fun i j => (i + j + 1 : ℚ)⟩)).bind
      (fun w => (w.overlap (fun _ => .ok [[[0, 1], [2, 3]], [[0, 2], [1, 3]]]) 0b1111).map
        fun v => (v, w.params 0 0, w.params 0 1, w.params 0 2, w.params 0 3, w.params 1 0)) = .ok (v, 2, 3, 0, 1, 0) ∧ v = 0 :=
  ⟨0, by decide +kernel, rfl⟩

/-! ## An array -/

theorem flatMap_rows (m n : ℕ) : ∀ l : List R, l.length = m * n →
    ((List.range m).flatMap fun i => (List.range n).map fun j => l.getD (i * n + j) 0) = l := by
  induction m with
  | zero => intro l h; rw [Nat.zero_mul, List.length_eq_zero_iff] at h; subst h; rfl
  | succ m ih =>
    intro l h
    have hn : n ≤ l.length := by rw [h, Nat.succ_mul]; omega
    rw [List.range_succ_eq_map, List.flatMap_cons, List.flatMap_map]
    have e1 : ((List.range n).map fun j => l.getD (0 * n + j) 0) = l.take n := by
      apply List.ext_getElem
      · simp; omega
      · intro i h1 h2
        simp only [List.length_map, List.length_range] at h1
        rw [List.getElem_map, List.getElem_range, List.getElem_take, Nat.zero_mul, Nat.zero_add,
          List.getD_eq_getElem _ _ (by omega)]
    have e2 : ((List.range m).flatMap fun i => (List.range n).map fun j => l.getD ((i + 1) * n + j) 0) = l.drop n := by
      rw [← ih (l.drop n) (by rw [List.length_drop, h, Nat.succ_mul]; omega)]
      congr 1
      funext i
      congr 1
      funext j
      rw [List.getD_eq_getElem?_getD, List.getD_eq_getElem?_getD, List.getElem?_drop]
      congr 2
      ring
    rw [e1]
    exact (congrArg (l.take n ++ ·) e2).trans (List.take_append_drop n l)

/-- C121: parameters given as an array are read row by row; an array of another size is a `ValueError`. -/
theorem C121_array (w : Wfn R) (gen : List ℕ → Except PyErr (List (List (List ℕ)))) (l : List R) :
    if l.length = w.nquasi * w.subsets.length then
      ∃ P, w.assignParams gen (.array l) = .ok { w with params := P } ∧
        ((List.range w.nquasi).flatMap fun i => (List.range w.subsets.length).map fun j => P i j) = l
    else w.assignParams gen (.array l) = .error .valueError := by
  split_ifs with h
  · refine ⟨_, by rw [Wfn.assignParams, if_neg (by simpa using h)], ?_⟩
    exact flatMap_rows w.nquasi w.subsets.length l h
  · rw [Wfn.assignParams, if_pos h]

end Fanpy.Props
