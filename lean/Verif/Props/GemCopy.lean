import Verif.Model.GemCopy
import Verif.Props.AP1roG

/-!
# C129: parameters of a geminal wavefunction from another one
-/

namespace Fanpy.Props

open Fanpy Fanpy.Spec Fanpy.Slater Fanpy.Graphs Fanpy.Geminal

variable {R : Type} [Field R]

/-- the pairs of the columns of a wavefunction -/
def C129_columns : Other R → List (ℕ × ℕ)
  | .gem w => columns w.kind w.nspin
  | .ap1rog w => w.virPairs

/-- a wavefunction made by one of the constructors -/
def C129_made : Other R → Prop
  | .gem w => ∃ kind nelec nspin ngem op params, Geminal.Wfn.init kind nelec nspin ngem op params = .ok w
  | .ap1rog w => ∃ nelec nspin ngem op ref params, AP1roG.init nelec nspin ngem op ref params = .ok w

/-- is it an `APG` or a `BasicAPsetG`, not an `APIG` or an `AP1roG`? -/
def C129_formula : Other R → Bool
  | .gem w => match w.kind with
    | .apig _ => false
    | _ => true
  | .ap1rog _ => false

/-- is it a `BasicAPsetG`? -/
def C129_sets : Other R → Bool
  | .gem w => match w.kind with
    | .apsetg => true
    | _ => false
  | .ap1rog _ => false

private theorem baseOrbpairs_lt {l pairs : List (ℕ × ℕ)} (h : baseOrbpairs l = .ok pairs) : ∀ p ∈ pairs, p.1 < p.2 :=
  foldlM_addOrbpair l [] pairs (by simp) h

private theorem apigOrbpairs_lt {nspin : ℕ} {op : Option (List (ℕ × ℕ))} {pairs : List (ℕ × ℕ)} (h : apigOrbpairs nspin op = .ok pairs) :
    ∀ p ∈ pairs, p.1 < p.2 := by
  rw [apigOrbpairs] at h
  rcases hb : baseOrbpairs (op.getD ((List.range (nspin / 2)).map fun i => (i, i + nspin / 2))) with e | ps
  · rw [hb] at h; cases h
  · rw [hb] at h
    simp only [bind, Except.bind, pure, Except.pure] at h
    split_ifs at h
    injection h with h
    subst h
    exact baseOrbpairs_lt hb

/-- what is known about a wavefunction made by a constructor -/
theorem gemCopy_made_facts (w : Other R) (h : C129_made w) :
    (∀ p ∈ C129_columns w, p.1 < p.2) ∧ (C129_columns w).Nodup ∧ w.nspin % 2 = 0 ∧ w.nspin ≠ 0 ∧ w.nelec ≠ 0 ∧ w.nelec % 2 = 0 ∧
    w.nelec / 2 ≤ w.ngem ∧ w.norbpair = (C129_columns w).length := by
  cases w with
  | gem w =>
    obtain ⟨kind, nelec, nspin, ngem, op, params, h⟩ := h
    obtain ⟨⟨h1, h2, h3, h4, h5⟩, kind', hk, rfl⟩ := (geminal_init_ok ..).1 h
    cases kind with
    | apg =>
      rw [assignOrbpairs] at hk
      split_ifs at hk
      injection hk with hk
      subst hk
      refine ⟨fun p hp => (mem_pairsAll.1 hp).1, nodup_pairsAll _, h4, h3, h1, h2, h5, ?_⟩
      exact (C37_apg_length nspin).symm
    | apsetg =>
      rw [assignOrbpairs] at hk
      split_ifs at hk
      injection hk with hk
      subst hk
      refine ⟨fun p hp => ?_, nodup_pairsSets _, h4, h3, h1, h2, h5, ?_⟩
      · have := mem_pairsSets.1 hp
        omega
      · change nspin / 2 * (nspin - nspin / 2) = (pairsSets nspin).length
        rw [C37_apsetg_length nspin h4, show nspin - nspin / 2 = nspin / 2 by omega, sq]
    | apig old =>
      rw [assignOrbpairs] at hk
      rcases hp : apigOrbpairs nspin op with e | pairs
      · rw [hp] at hk; cases hk
      · rw [hp] at hk
        simp only [bind, Except.bind, pure, Except.pure] at hk
        injection hk with hk
        subst hk
        obtain ⟨-, hfl, hlen⟩ := apigOrbpairs_ok hp
        exact ⟨apigOrbpairs_lt hp, nodup_of_flatPairs hfl, h4, h3, h1, h2, h5, rfl⟩
  | ap1rog w =>
    obtain ⟨nelec, nspin, ngem, op, ref, params, h⟩ := h
    obtain ⟨⟨h1, h2, h3, h4, h5⟩, r, pairs, hr1, hr2, -, hp, hsub, rfl⟩ := ap1rog_init_ok h
    obtain ⟨-, hfl, hlen⟩ := apigOrbpairs_ok hp
    refine ⟨fun p hp' => apigOrbpairs_lt hp p (List.mem_of_mem_filter hp'), (nodup_of_flatPairs hfl).filter _, h4, h3, h1, h2, le_refl _, rfl⟩

theorem gemCopy_keyColInd_pair (w : Other R) (hw : C129_made w) (p : ℕ × ℕ) (hp : p.1 < p.2) :
    w.keyColInd (.pair p) = if p ∈ C129_columns w then .ok ((C129_columns w).idxOf p) else .error .valueError := by
  have he := (gemCopy_made_facts w hw).2.2.1
  cases w with
  | gem w =>
    rw [Other.keyColInd]
    by_cases h : p ∈ C129_columns (.gem w)
    · rw [if_pos h]
      exact colInd_ok w he h
    · rw [if_neg h, Geminal.Wfn.colInd]
      rcases hk : w.kind with _ | _ | pairs
      · have h' : ¬ p.2 < w.nspin := fun h' => h (by
          change p ∈ columns w.kind w.nspin
          rw [hk]
          exact mem_pairsAll.2 ⟨hp, h'⟩)
        simp only [apgColInd]
        rw [if_neg (show ¬ ((p.1 : ℤ) > p.2) by omega), if_neg (by simp only; omega)]
        rfl
      · have h' : ¬ (p.1 < w.nspin / 2 ∧ w.nspin / 2 ≤ p.2 ∧ p.2 < w.nspin) := fun h' => h (by
          change p ∈ columns w.kind w.nspin
          rw [hk]
          exact mem_pairsSets.2 h')
        simp only [apsetgColInd]
        rw [if_neg (by omega)]
        rfl
      · have h' : p ∉ pairs := fun h' => h (by
          change p ∈ columns w.kind w.nspin
          rw [hk]
          exact h')
        simp only [dictColInd]
        rw [if_neg h']
  | ap1rog w => rfl

private theorem items_eq (o : Other R) (h : C129_sets o = false) : o.items = (C129_columns o).zipIdx.map fun e => (.int e.2, .pair e.1) := by
  cases o with
  | gem w =>
    rcases hk : w.kind with _ | _ | pairs
    · simp only [Other.items, C129_columns, hk]; rfl
    · simp [C129_sets, hk] at h
    · simp only [Other.items, C129_columns, hk]; rfl
  | ap1rog w => rfl

private theorem items_sets (w : Geminal.Wfn R) (h : C129_sets (.gem w) = true) :
    (Other.gem w).items = (C129_columns (.gem w)).zipIdx.map fun e => (.pair e.1, .int e.2) := by
  rcases hk : w.kind with _ | _ | pairs
  · simp [C129_sets, hk] at h
  · simp only [Other.items, C129_columns, hk]; rfl
  · simp [C129_sets, hk] at h

private theorem copy_fold (w o : Other R) (hw : C129_made w) (ps : List (ℕ × ℕ)) (hps : ∀ p ∈ ps, p.1 < p.2) (hnd : ps.Nodup) :
    ∀ (k : ℕ) (acc : ℕ → ℕ → R), k + ps.length ≤ o.norbpair →
      ∃ r, ((ps.zipIdx k).map fun e => (Key.int e.2, Key.pair e.1)).foldlM (copyStep w o) acc = .ok r ∧
        ∀ p ∈ C129_columns w, ∀ g, r g ((C129_columns w).idxOf p) =
          if p ∈ ps then o.params g (k + ps.idxOf p) else acc g ((C129_columns w).idxOf p) := by
  induction ps with
  | nil => intro k acc _; exact ⟨acc, rfl, by simp⟩
  | cons q ps ih =>
    intro k acc hk
    simp only [List.length_cons] at hk
    have hq := hps q (by simp)
    have hnd' := List.nodup_cons.1 hnd
    have hstep : ∃ acc', copyStep w o acc (.int k, .pair q) = .ok acc' ∧ ∀ p ∈ C129_columns w, ∀ g,
        acc' g ((C129_columns w).idxOf p) = if p = q then o.params g k else acc g ((C129_columns w).idxOf p) := by
      rw [copyStep]
      simp only [Other.column, if_pos (show k < o.norbpair by omega), gemCopy_keyColInd_pair w hw q hq]
      by_cases hc : q ∈ C129_columns w
      · rw [if_pos hc]
        refine ⟨_, rfl, fun p hp g => ?_⟩
        by_cases e : p = q
        · subst e; simp
        · have : (C129_columns w).idxOf p ≠ (C129_columns w).idxOf q := fun h => e ((List.idxOf_inj hp).1 h)
          simp [e, this]
      · rw [if_neg hc]
        refine ⟨_, rfl, fun p hp g => ?_⟩
        have : p ≠ q := by rintro rfl; exact hc hp
        simp [this]
    obtain ⟨acc', h1, h2⟩ := hstep
    obtain ⟨r, h3, h4⟩ := ih (fun p hp => hps p (by simp [hp])) hnd'.2 (k + 1) acc' (by omega)
    refine ⟨r, ?_, fun p hp g => ?_⟩
    · simp only [List.zipIdx_cons, List.map_cons, List.foldlM_cons, h1]
      exact h3
    · rw [h4 p hp g, h2 p hp g]
      by_cases e : p = q
      · subst e
        simp [hnd'.1]
      · by_cases hm : p ∈ ps
        · rw [if_pos hm, if_pos (by simp [hm])]
          rw [List.idxOf_cons_ne _ (Ne.symm e)]
          congr 1
          omega
        · rw [if_neg hm, if_neg e, if_neg (by simp [e, hm])]

theorem gemCopy_made_setParams (w : Other R) (h : C129_made w) (p : ℕ → ℕ → R) : C129_made (w.setParams p) := by
  cases w with
  | gem w =>
    obtain ⟨kind, nelec, nspin, ngem, op, params, h⟩ := h
    obtain ⟨h1, kind', hk, rfl⟩ := (geminal_init_ok ..).1 h
    exact ⟨kind, nelec, nspin, ngem, op, p, (geminal_init_ok ..).2 ⟨h1, kind', hk, rfl⟩⟩
  | ap1rog w =>
    obtain ⟨nelec, nspin, ngem, op, ref, params, h⟩ := h
    refine ⟨nelec, nspin, ngem, op, ref, p, ?_⟩
    rw [AP1roG.init] at h ⊢
    simp only [bind, Except.bind, pure, Except.pure] at h ⊢
    rcases e1 : Geminal.checkNelec nelec with e | u
    · rw [e1] at h; cases h
    rw [e1] at h
    rcases e2 : CI.checkNspin nspin with e | u2
    · rw [e2] at h; cases h
    rw [e2] at h
    rcases e3 : ap1rogNgem nelec ngem with e | g
    · rw [e3] at h; cases h
    rw [e3] at h
    rcases e4 : ap1rogRef nelec nspin ref with e | r
    · rw [e4] at h; cases h
    rw [e4] at h
    simp only at h ⊢
    rcases e5 : ap1rogPairs nspin r op with e | q
    · rw [e5] at h; cases h
    rw [e5] at h
    injection h with h
    subst h
    rfl

private theorem setParams_columns (w : Other R) (p : ℕ → ℕ → R) : C129_columns (w.setParams p) = C129_columns w := by cases w <;> rfl

private theorem setParams_params (w : Other R) (p : ℕ → ℕ → R) : (w.setParams p).params = p := by cases w <;> rfl

private theorem setParams_sizes (w : Other R) (p : ℕ → ℕ → R) :
    (w.setParams p).nelec = w.nelec ∧ (w.setParams p).nspin = w.nspin ∧ (w.setParams p).ngem = w.ngem := by
  cases w <;> exact ⟨rfl, rfl, rfl⟩

/-- **C129**: parameters are taken from another wavefunction pair by pair: a coefficient is that of the same pair in the other wavefunction, or zero
if it has no such pair.  Other numbers of electrons, orbitals or geminals are `ValueError`s. -/
theorem C129_copy (w o : Other R) (hw : C129_made w) (ho : C129_made o) :
    (w.nelec ≠ o.nelec ∨ w.nspin ≠ o.nspin ∨ w.ngem ≠ o.ngem → w.assignFrom o = .error .valueError) ∧
    (w.nelec = o.nelec → w.nspin = o.nspin → w.ngem = o.ngem → C129_sets o = false →
      ∃ params, w.assignFrom o = .ok (w.setParams params) ∧
        ∀ p ∈ C129_columns w, ∀ g, params g ((C129_columns w).idxOf p) =
          if p ∈ C129_columns o then o.params g ((C129_columns o).idxOf p) else 0) := by
  constructor
  · intro h
    have : copyParams w o = .error .valueError := by
      unfold copyParams
      split_ifs <;> first | rfl | (exfalso; tauto)
    rw [Other.assignFrom, this]; rfl
  · intro h1 h2 h3 hs
    obtain ⟨f1, f2, -, -, -, -, -, f8⟩ := gemCopy_made_facts o ho
    obtain ⟨r, hr, hv⟩ := copy_fold w o hw (C129_columns o) f1 f2 0 (fun _ _ => 0) (by omega)
    have : copyParams w o = .ok r := by
      rw [copyParams, if_neg (by simp [h1]), if_neg (by simp [h2]), if_neg (by simp [h3]), items_eq o hs]
      exact hr
    rw [Other.assignFrom, this]
    exact ⟨r, rfl, fun p hp g => by simpa using hv p hp g⟩

/-! ## States -/

theorem gemCopy_gemOp_pairs {pairs : List (ℕ × ℕ)} (h : pairs.Nodup) (w : ℕ → R) :
    gemOp pairs w = ∑ p ∈ pairs.toFinset, w (pairs.idxOf p) • (creOp p.1 ∘ₗ creOp p.2 : Fock R →ₗ[R] Fock R) := by
  rw [gemOp]
  refine Finset.sum_bij (fun c _ => pairs.getD c (0, 0)) ?_ ?_ ?_ ?_
  · intro c hc
    rw [Finset.mem_range] at hc
    rw [List.getD_eq_getElem _ _ hc, List.mem_toFinset]
    exact List.getElem_mem hc
  · intro c hc d hd he
    rw [Finset.mem_range] at hc hd
    rw [List.getD_eq_getElem _ _ hc, List.getD_eq_getElem _ _ hd] at he
    exact (h.getElem_inj_iff).1 he
  · intro p hp
    rw [List.mem_toFinset] at hp
    refine ⟨pairs.idxOf p, Finset.mem_range.2 (List.idxOf_lt_length_of_mem hp), ?_⟩
    rw [List.getD_eq_getElem _ _ (List.idxOf_lt_length_of_mem hp)]
    exact List.getElem_idxOf _
  · intro c hc
    rw [Finset.mem_range] at hc
    rw [List.getD_eq_getElem _ _ hc, h.idxOf_getElem]

private theorem gemState_copy {ps qs : List (ℕ × ℕ)} (hp : ps.Nodup) (hq : qs.Nodup) (hsub : ∀ q ∈ qs, q ∈ ps) (C D : ℕ → ℕ → R)
    (h : ∀ p ∈ ps, ∀ g, C g (ps.idxOf p) = if p ∈ qs then D g (qs.idxOf p) else 0) (n k : ℕ) :
    gemState ps C n k = gemState qs D n k := by
  have hop : ∀ g, gemOp ps (C g) = gemOp qs (D g) := by
    intro g
    rw [gemCopy_gemOp_pairs hp, gemCopy_gemOp_pairs hq]
    have hs : qs.toFinset ⊆ ps.toFinset := fun q hq' => List.mem_toFinset.2 (hsub q (List.mem_toFinset.1 hq'))
    rw [← Finset.sum_subset hs]
    · refine Finset.sum_congr rfl fun q hq' => ?_
      rw [h q (List.mem_toFinset.1 (hs hq')) g, if_pos (List.mem_toFinset.1 hq')]
    · intro p hp' hn
      rw [h p (List.mem_toFinset.1 hp') g, if_neg (fun h' => hn (List.mem_toFinset.2 h')), zero_smul]
  rw [gemState, gemState]
  refine Finset.sum_congr rfl fun S _ => ?_
  rw [gemProd, gemProd]
  congr 1
  funext r v
  rw [hop]

/-- the sign of the class: overlaps of `APIG` have the sign of the order of the pairs (C34) -/
def C129_sign (w : Geminal.Wfn R) : R :=
  match w.kind with
  | .apig _ => (-1) ^ (w.nelec / 2)
  | _ => 1

theorem gemCopy_flat (w : Geminal.Wfn R) (hw : C129_made (.gem w)) {pairs : List (ℕ × ℕ)} (hk : w.kind = .apig pairs) :
    (flatPairs pairs).Nodup := by
  obtain ⟨kind, nelec, nspin, ngem, op, params, h⟩ := hw
  obtain ⟨-, kind', hk', rfl⟩ := (geminal_init_ok ..).1 h
  simp only at hk
  subst hk
  cases kind with
  | apg => rw [assignOrbpairs] at hk'; split_ifs at hk'; cases hk'
  | apsetg => rw [assignOrbpairs] at hk'; split_ifs at hk'; cases hk'
  | apig old =>
    rw [assignOrbpairs] at hk'
    rcases hp : apigOrbpairs nspin op with e | ps
    · rw [hp] at hk'; cases hk'
    · rw [hp] at hk'
      simp only [bind, Except.bind, pure, Except.pure] at hk'
      injection hk' with hk'
      injection hk' with hk'
      subst hk'
      exact (apigOrbpairs_ok hp).2.1

theorem gemCopy_gem_overlap [CharZero R] (w : Geminal.Wfn R) (hw : C129_made (.gem w)) (sd : ℕ) (hsd : sd < 2 ^ w.nspin)
    (hc : (occSet sd).card = w.nelec) :
    w.overlap sd = .ok (C129_sign w * gemState (columns w.kind w.nspin) w.params w.ngem (w.nelec / 2) (occSet sd)) := by
  obtain ⟨-, -, f3, f4, f5, f6, f7, -⟩ := gemCopy_made_facts _ hw
  simp only [Other.nspin, Other.nelec, Other.ngem] at f3 f4 f5 f6 f7
  rcases hk : w.kind with _ | _ | pairs
  · rw [apg_overlap w hk f3 (by omega) f7 hsd (by omega)]
    simp [C129_sign, hk, columns]
  · rw [apsetg_overlap w hk f3 (by omega) f7 hsd (by omega)]
    simp [C129_sign, hk, columns]
  · have hfl := gemCopy_flat w hw hk
    rw [apig_overlap w hk hfl f3 (k := w.nelec / 2) (by omega) f7 (by omega) hc]
    simp [C129_sign, hk, columns]

/-- **C129**: if every pair of the other wavefunction is a pair of this one (as for `APG` from `APIG`), the wavefunction is the same afterwards: all
overlaps agree, up to the sign of the classes. -/
theorem C129_overlap [CharZero R] (w o : Geminal.Wfn R) (hw : C129_made (.gem w)) (ho : C129_made (.gem o)) (h1 : w.nelec = o.nelec)
    (h2 : w.nspin = o.nspin) (h3 : w.ngem = o.ngem) (hs : C129_sets (.gem o) = false)
    (hsub : ∀ p ∈ columns o.kind o.nspin, p ∈ columns w.kind w.nspin) :
    ∃ params, (Other.gem w).assignFrom (.gem o) = .ok (.gem { w with params := params }) ∧
      ∀ sd, sd < 2 ^ w.nspin → (occSet sd).card = w.nelec →
        ∃ v, o.overlap sd = .ok (C129_sign o * v) ∧ ({ w with params := params } : Geminal.Wfn R).overlap sd = .ok (C129_sign w * v) := by
  obtain ⟨params, ha, hv⟩ := (C129_copy _ _ hw ho).2 h1 h2 h3 hs
  refine ⟨params, ha, fun sd hsd hc => ?_⟩
  have hw' := gemCopy_made_setParams _ hw params
  refine ⟨_, gemCopy_gem_overlap o ho sd (by rwa [← h2]) (by rw [hc, h1]), ?_⟩
  rw [gemCopy_gem_overlap _ hw' sd hsd hc]
  have e : gemState (columns w.kind w.nspin) params w.ngem (w.nelec / 2) = gemState (columns o.kind o.nspin) o.params o.ngem (o.nelec / 2) := by
    have := gemState_copy (gemCopy_made_facts _ hw).2.1 (gemCopy_made_facts _ ho).2.1 hsub params o.params hv o.ngem (o.nelec / 2)
    rw [h1, h3]
    exact this
  simp only [e]
  rfl

/-- **C129** (the code disagrees with its documentation): the two dictionaries of a `BasicAPsetG` are exchanged.  Taking its parameters raises
`TypeError` in `APG` and `BasicAPsetG`, also if the other wavefunction is the wavefunction itself, and sets all parameters of `APIG` and
`AP1roG` to zero without an error.  (For two spin orbitals all of them raise `IndexError`.) -/
theorem C129_sets_disagrees (w o : Other R) (ho : C129_made o) (h1 : w.nelec = o.nelec)
    (h2 : w.nspin = o.nspin) (h3 : w.ngem = o.ngem) (hs : C129_sets o = true) :
    (o.nspin = 2 → w.assignFrom o = .error .indexError) ∧
    (o.nspin ≠ 2 → C129_formula w = true → w.assignFrom o = .error .typeError) ∧
    (o.nspin ≠ 2 → C129_formula w = false → w.assignFrom o = .ok (w.setParams fun _ _ => 0)) := by
  obtain ⟨f1, f2, f3, f4, -, -, -, f8⟩ := gemCopy_made_facts o ho
  cases o with
  | ap1rog o => simp [C129_sets] at hs
  | gem o =>
    have hk : o.kind = .apsetg := by
      rcases hk : o.kind with _ | _ | pairs
      · simp [C129_sets, hk] at hs
      · rfl
      · simp [C129_sets, hk] at hs
    have hcol : C129_columns (.gem o) = pairsSets o.nspin := by simp [C129_columns, hk, columns]
    simp only [Other.nspin] at f3 f4
    have hlen : (pairsSets o.nspin).length = (o.nspin / 2) ^ 2 := C37_apsetg_length _ f3
    have hn : (Other.gem o).norbpair = (o.nspin / 2) ^ 2 := by rw [f8, hcol, hlen]
    have hcp : copyParams w (.gem o) = ((pairsSets o.nspin).zipIdx.map fun e => (Key.pair e.1, Key.int e.2)).foldlM (copyStep w (.gem o))
        fun _ _ => 0 := by
      rw [copyParams, if_neg (by simp [h1]), if_neg (by simp [h2]), if_neg (by simp [h3]), items_sets o hs, hcol]
    have hne : pairsSets o.nspin ≠ [] := by
      intro h
      rw [h, List.length_nil] at hlen
      exact absurd hlen (Nat.ne_of_lt (Nat.pow_pos (by omega)))
    rw [← forall_and]
    refine ⟨fun h => ?_, fun h => ?_⟩
    · simp only [Other.nspin] at h
      have : pairsSets o.nspin = [(0, 1)] := by rw [h]; decide
      rw [Other.assignFrom, hcp, this]
      simp only [List.zipIdx_cons, List.zipIdx_nil, List.map_cons, List.map_nil, List.foldlM_cons, copyStep, Other.column, hn, h]
      rfl
    · simp only [Other.nspin] at h
      have hbig : ∀ p ∈ pairsSets o.nspin, p.1 < (Other.gem o).norbpair ∧ p.2 < (Other.gem o).norbpair := by
        intro p hp
        have := mem_pairsSets.1 hp
        rw [hn]
        have h4 : 2 ≤ o.nspin / 2 := by omega
        have : o.nspin / 2 * 2 ≤ (o.nspin / 2) ^ 2 := by rw [sq]; exact Nat.mul_le_mul_left _ h4
        omega
      have hstep : ∀ e : (ℕ × ℕ) × ℕ, e.1 ∈ pairsSets o.nspin → ∀ acc : ℕ → ℕ → R, copyStep w (.gem o) acc (Key.pair e.1, Key.int e.2) =
          match w.keyColInd (.int e.2) with
          | .ok _ => .ok acc
          | .error .valueError => .ok acc
          | .error e => .error e := by
        intro e he acc
        rw [copyStep]
        simp only [Other.column, if_pos (hbig e.1 he)]
        rcases w.keyColInd (.int e.2) with e' | c
        · cases e' <;> rfl
        · rfl
      have hfail : (∀ k, w.keyColInd (.int k) = .error .typeError) → w.assignFrom (.gem o) = .error .typeError := by
        intro hk'
        rw [Other.assignFrom, hcp]
        rcases hps : pairsSets o.nspin with _ | ⟨q, ps⟩
        · exact absurd hps hne
        · simp only [List.zipIdx_cons, List.map_cons, List.foldlM_cons]
          rw [hstep (q, 0) (by rw [hps]; simp), hk']
          rfl
      have hzero : (∀ k, w.keyColInd (.int k) = .error .valueError) → w.assignFrom (.gem o) = .ok (w.setParams fun _ _ => 0) := by
        intro hk'
        rw [Other.assignFrom, hcp]
        have : ∀ (l : List ((ℕ × ℕ) × ℕ)), (∀ e ∈ l, e.1 ∈ pairsSets o.nspin) → ∀ acc : ℕ → ℕ → R,
            (l.map fun e => (Key.pair e.1, Key.int e.2)).foldlM (copyStep w (.gem o)) acc = .ok acc := by
          intro l
          induction l with
          | nil => intro _ acc; rfl
          | cons e l ih =>
            intro hl acc
            simp only [List.map_cons, List.foldlM_cons]
            rw [hstep e (hl e (by simp)), hk']
            exact ih (fun e he => hl e (by simp [he])) acc
        rw [this _ (fun e he => List.fst_mem_of_mem_zipIdx he)]
        rfl
      constructor
      · intro hf
        apply hfail
        intro k
        cases w with
        | ap1rog w => simp [C129_formula] at hf
        | gem w =>
          rcases hk : w.kind with _ | _ | pairs
          · simp [Other.keyColInd, hk]
          · simp [Other.keyColInd, hk]
          · simp [C129_formula, hk] at hf
      · intro hf
        apply hzero
        intro k
        cases w with
        | ap1rog w => rfl
        | gem w =>
          rcases hk : w.kind with _ | _ | pairs
          · simp [C129_formula, hk] at hf
          · simp [C129_formula, hk] at hf
          · simp [Other.keyColInd, hk]

private theorem gemState_touch {pairs : List (ℕ × ℕ)} (C : ℕ → ℕ → R) (n k : ℕ) (hk : k ≠ 0) {s : Finset ℕ}
    (h : ∀ p ∈ pairs, ¬ (p.1 ∈ s ∧ p.2 ∈ s)) : gemState pairs C n k s = 0 := by
  rw [gemState, Finsupp.finsetSum_apply]
  apply Finset.sum_eq_zero
  intro S hS
  have hl : (S.sort (· ≤ ·)).length = k := by rw [Finset.length_sort]; exact (Finset.mem_powersetCard.1 hS).2
  have e1 : S.sort (· ≤ ·) = List.ofFn fun i : Fin k => (S.sort (· ≤ ·)).getD i 0 := by
    apply List.ext_getElem
    · rw [List.length_ofFn, hl]
    · intro m h1 h2; rw [List.getElem_ofFn, List.getD_eq_getElem _ _ h1]
  rw [e1, gemProd_expand, Finsupp.finsetSum_apply]
  apply Finset.sum_eq_zero
  intro f _
  rw [Finsupp.smul_apply, cre_vac]
  split_ifs with hn
  · rw [Finsupp.single_apply, if_neg, smul_zero]
    intro hs
    have hm : pairs.get (f ⟨0, by omega⟩) ∈ List.ofFn fun i => pairs.get (f i) := List.mem_ofFn.2 ⟨_, rfl⟩
    apply h (pairs.get (f ⟨0, by omega⟩)) (List.get_mem _ _)
    rw [← hs, List.mem_toFinset, List.mem_toFinset, flatPairs, List.mem_flatMap, List.mem_flatMap]
    exact ⟨⟨_, hm, by simp⟩, ⟨_, hm, by simp⟩⟩
  · simp

/-- **C129** (the code disagrees with its documentation): the parameters of an `AP1roG` do not include the coefficients of the pairs of its
reference, which are set to zero: the overlap with the reference is one before and zero after. -/
theorem C129_ap1rog_disagrees [CharZero R] (w : Geminal.Wfn R) (o : AP1roG R) (hw : C129_made (.gem w)) (ho : C129_made (.ap1rog o))
    (h1 : w.nelec = o.nelec) (h2 : w.nspin = o.nspin) (h3 : w.ngem = o.ngem) :
    o.overlap o.ref = .ok 1 ∧
    ∃ params, (Other.gem w).assignFrom (.ap1rog o) = .ok (.gem { w with params := params }) ∧
      ({ w with params := params } : Geminal.Wfn R).overlap o.ref = .ok 0 := by
  obtain ⟨params, ha, hv⟩ := (C129_copy _ _ hw ho).2 h1 h2 h3 rfl
  obtain ⟨nelec, nspin, ngem, op, ref, params0, h⟩ := ho
  refine ⟨C36_reference nelec nspin ngem op ref params0 o h, params, ha, ?_⟩
  obtain ⟨⟨g1, g2, g3, g4, g5⟩, r, pairs, hr1, hr2, -, hp, hsub, rfl⟩ := ap1rog_init_ok h
  have hr : r < 2 ^ w.nspin := by
    rw [h2]
    have e : nspin = nspin / 2 + nspin / 2 := by omega
    change r < 2 ^ nspin
    rw [e, pow_add]
    have := Nat.div_add_mod r (2 ^ (nspin / 2))
    have hlt := Nat.mod_lt r (show 2 ^ (nspin / 2) > 0 by positivity)
    rw [← hr2] at hlt
    exact (Nat.div_lt_iff_lt_mul (by positivity)).1 hlt
  have hov := gemCopy_gem_overlap _ (gemCopy_made_setParams _ hw params) r hr (by change _ = w.nelec; rw [h1, hr1])
  change ({ w with params := params } : Geminal.Wfn R).overlap r = .ok 0
  rw [hov]
  have f1 := (gemCopy_made_facts _ hw).2.1
  -- the columns of pairs that the reference occupies are zero
  have e := gemState_copy (ps := columns w.kind w.nspin) (qs := (columns w.kind w.nspin).filter fun p => !inRef r p) f1 (f1.filter _)
    (fun q hq => List.mem_of_mem_filter hq) params (fun g c => params g ((columns w.kind w.nspin).idxOf
      (((columns w.kind w.nspin).filter fun p => !inRef r p).getD c (0, 0)))) (by
      intro p hp' g
      by_cases hin : p ∈ (columns w.kind w.nspin).filter fun p => !inRef r p
      · rw [if_pos hin, List.getD_eq_getElem _ _ (List.idxOf_lt_length_of_mem hin), List.getElem_idxOf]
      · rw [if_neg hin]
        have := hv p hp' g
        rw [if_neg] at this
        · exact this
        · intro hm
          apply hin
          have := (List.mem_filter.1 hm).2
          exact List.mem_filter.2 ⟨hp', this⟩) w.ngem (w.nelec / 2)
  have hz : gemState (columns w.kind w.nspin) params w.ngem (w.nelec / 2) (occSet r) = 0 := by
    rw [e]
    apply gemState_touch
    · have := (gemCopy_made_facts _ hw).2.2.2.2.1
      have := (gemCopy_made_facts _ hw).2.2.2.2.2.1
      simp only [Other.nelec] at *
      omega
    · intro p hp' hb
      have := (List.mem_filter.1 hp').2
      simp only [mem_occSet] at hb
      simp [inRef, hb.1, hb.2] at this
  simp only [hz, mul_zero]

/-- **C129** (the code disagrees with its documentation): the tables and printers of geminals go through the keys of `dict_orbpair_ind` as pairs of
orbitals, which they are for all classes but `BasicAPsetG`, where the first key is a `TypeError`. -/
theorem C129_tables_disagrees (w : Other R) (hw : C129_made w) :
    (C129_sets w = false → w.pairKeys.mapM iterKey = .ok ((C129_columns w).map fun p => [p.1, p.2])) ∧
    (C129_sets w = true → w.pairKeys.mapM iterKey = .error .typeError) := by
  constructor
  · intro h
    rw [Other.pairKeys, items_eq w h]
    have : ∀ (l : List (ℕ × ℕ)) k, (((l.zipIdx k).map fun e => (Key.int e.2, Key.pair e.1)).map fun e => e.2).mapM iterKey =
        .ok (l.map fun p => [p.1, p.2]) := by
      intro l
      induction l with
      | nil => intro k; rfl
      | cons p l ih =>
        intro k
        simp only [List.zipIdx_cons, List.map_cons, List.mapM_cons, iterKey, ih (k + 1)]
        rfl
    exact this _ 0
  · intro h
    cases w with
    | ap1rog w => simp [C129_sets] at h
    | gem w =>
      obtain ⟨-, -, f3, f4, -⟩ := gemCopy_made_facts _ hw
      rw [Other.pairKeys, items_sets w h]
      have hk : w.kind = .apsetg := by
        rcases hk : w.kind with _ | _ | pairs
        · simp [C129_sets, hk] at h
        · rfl
        · simp [C129_sets, hk] at h
      have hcol : C129_columns (.gem w) = pairsSets w.nspin := by simp [C129_columns, hk, columns]
      simp only [Other.nspin] at f3 f4
      rw [hcol]
      rcases hps : pairsSets w.nspin with _ | ⟨q, ps⟩
      · have := C37_apsetg_length w.nspin f3
        rw [hps, List.length_nil] at this
        exact absurd this (Nat.ne_of_lt (Nat.pow_pos (by omega)))
      · simp only [List.zipIdx_cons, List.map_cons, List.mapM_cons, iterKey]
        rfl

/-! ## A case of each theorem -/

example : C129_made (.gem (⟨.apg, 4, 6, 2, fun i j => i + 2 * j⟩ : Geminal.Wfn ℚ)) ∧
    C129_made (.gem (⟨.apig [(0, 3), (1, 4), (2, 5)], 4, 6, 2, fun i j => i + 2 * j⟩ : Geminal.Wfn ℚ)) ∧
    C129_made (.gem (⟨.apsetg, 4, 6, 2, fun i j => i + 2 * j⟩ : Geminal.Wfn ℚ)) ∧
    C129_made (.ap1rog (⟨4, 6, 2, 27, [(0, 3), (1, 4)], [(2, 5)], fun i j => i + 2 * j⟩ : AP1roG ℚ)) ∧
    (∀ p ∈ columns (.apig [(0, 3), (1, 4), (2, 5)]) 6, p ∈ columns .apg 6) ∧ 27 < 2 ^ 6 ∧ (occSet 27).card = 4 := by
  refine ⟨⟨.apg, 4, 6, none, none, _, rfl⟩, ⟨.apig [], 4, 6, none, none, _, rfl⟩, ⟨.apsetg, 4, 6, none, none, _, rfl⟩,
    ⟨4, 6, none, none, none, _, rfl⟩, by decide, by norm_num, by decide +kernel⟩

end Fanpy.Props
