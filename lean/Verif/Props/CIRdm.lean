import Verif.Props.CI
import Verif.Lemmas.DensityPairs
import Verif.Props.Signs

/-!
# C58: the one-particle density matrix of the CI wavefunctions

`compute_1rdm` gives `⟨ψ| a†_i a_j |ψ⟩` for the vector with the parameters as coefficients.
-/

set_option linter.unusedSimpArgs false
set_option linter.unusedSectionVars false

namespace Fanpy.Props
open Fanpy.CI Fanpy.Slater Fanpy.Spec Fanpy.Lemmas Fanpy.Ham

section
variable {R : Type} [CommRing R]

theorem foldlM_bump2 {step : (ℕ → ℕ → R) → ℕ × ℕ → Except PyErr (ℕ → ℕ → R)} {val : ℕ × ℕ → R} (L : List (ℕ × ℕ))
    (hs : ∀ p ∈ L, ∀ m, step m p = .ok (bump2 m p.1 p.2 (val p))) (hn : L.Nodup) (m : ℕ → ℕ → R) :
    ∃ m', L.foldlM step m = .ok m' ∧ ∀ a b, m' a b = m a b + if (a, b) ∈ L then val (a, b) else 0 := by
  induction L generalizing m with
  | nil => exact ⟨m, rfl, by simp⟩
  | cons p L ih =>
    obtain ⟨m', h1, h2⟩ := ih (fun q hq => hs q (List.mem_cons_of_mem _ hq)) (List.nodup_cons.1 hn).2 (bump2 m p.1 p.2 (val p))
    refine ⟨m', by rw [List.foldlM_cons, hs p (by simp)]; exact h1, fun a b => ?_⟩
    rw [h2, bump2]
    by_cases hp : (a, b) = p
    · subst hp
      have := (List.nodup_cons.1 hn).1
      simp [this]
    · have h3 : ¬ (a = p.1 ∧ b = p.2) := fun h => hp (Prod.ext h.1 h.2)
      simp [h3, hp]

/-- a sum over the determinants in which only one contributes -/
theorem sum_single (P : List (ℕ × R)) (hn : (P.map Prod.fst).Nodup) (f : ℕ → R) (e : ℕ) (hf : ∀ t, t ≠ e → f t = 0) :
    (∀ y, (e, y) ∈ P → (P.map fun q => q.2 * f q.1).sum = y * f e) ∧
      (e ∉ P.map Prod.fst → (P.map fun q => q.2 * f q.1).sum = 0) := by
  have hz : e ∉ P.map Prod.fst → (P.map fun q => q.2 * f q.1).sum = 0 := by
    intro he
    refine List.sum_eq_zero fun x hx => ?_
    obtain ⟨q, hq, rfl⟩ := List.mem_map.1 hx
    rw [hf q.1 fun h => he (h ▸ List.mem_map_of_mem hq), mul_zero]
  refine ⟨fun y hy => ?_, hz⟩
  clear hz
  induction P with
  | nil => simp at hy
  | cons p P ih =>
    rw [List.map_cons, List.nodup_cons] at hn
    rw [List.map_cons, List.sum_cons]
    rcases List.mem_cons.1 hy with rfl | hy
    · rw [List.sum_eq_zero (l := P.map fun q => q.2 * f q.1), add_zero]
      intro x hx
      obtain ⟨q, hq, rfl⟩ := List.mem_map.1 hx
      rw [hf q.1 fun h => hn.1 (List.mem_map.2 ⟨q, hq, h⟩), mul_zero]
    · rw [ih hn.2 hy, hf p.1 fun h => hn.1 (h ▸ List.mem_map.2 ⟨_, hy, rfl⟩), mul_zero, zero_add]

/-- the row of matrix elements of the determinant `s` -/
noncomputable def rowSum (P : List (ℕ × R)) (s a b : ℕ) : R := (P.map fun q => q.2 * oneME R (occSet s) (occSet q.1) a b).sum

/-- what is known of a wavefunction that was not tampered with -/
def Fresh (w : Wfn R) : Prop :=
  w.sds.Nodup ∧ w.dict = dictOf w.sds ∧ w.params.length = w.sds.length ∧ ∀ s ∈ w.sds, s < 2 ^ w.nspin

theorem zip_mem {w : Wfn R} (hw : Fresh w) {e : ℕ} (he : e ∈ w.sds) :
    ∃ i y, w.dict e = some i ∧ w.params[i]? = some y ∧ (e, y) ∈ w.sds.zip w.params := by
  obtain ⟨i, hi, rfl⟩ := List.getElem_of_mem he
  have hi' : i < w.params.length := by rw [hw.2.2.1]; exact hi
  refine ⟨i, w.params[i], ?_, List.getElem?_eq_getElem hi', ?_⟩
  · rw [hw.2.1]
    exact (dictOf_nodup hw.1 _ i).2 (List.getElem?_eq_getElem hi)
  · rw [List.mem_iff_getElem]
    exact ⟨i, by simp [hi, hi'], by simp⟩

theorem fst_zip {w : Wfn R} (hw : Fresh w) : (w.sds.zip w.params).map Prod.fst = w.sds :=
  List.map_fst_zip hw.2.2.1.ge

theorem rdmExc_eq {w : Wfn R} (hw : Fresh w) (x : ℕ × R) {i j : ℕ} (hi : x.1.testBit i = true) (hj : x.1.testBit j = false)
    (m : ℕ → ℕ → R) :
    w.rdmExc x m (i, j) = .ok (bump2 m i j (x.2 * rowSum (w.sds.zip w.params) x.1 i j)) := by
  have hij : i ≠ j := by rintro rfl; rw [hi] at hj; simp at hj
  have hex : excite (some x.1) [i, j] = .ok (create (annihilate (some x.1) [i]) [j]) :=
    excite_eq_of_length (a := [i]) (c := [j]) rfl
  have hcr : create (annihilate (some x.1) [i]) [j] = some (sdOf ((occSet x.1 \ [i].toFinset) ∪ [j].toFinset)) :=
    create_annihilate_sdOf (by simp) (by simp) (by simpa using hi) (by simpa using hj)
  set e := sdOf ((occSet x.1 \ [i].toFinset) ∪ [j].toFinset) with he
  have hocc : occSet e = insert j ((occSet x.1).erase i) := by
    rw [he, occSet_sdOf]
    ext k
    simp only [List.toFinset_cons, List.toFinset_nil, insert_empty_eq, Finset.mem_union, Finset.mem_sdiff,
      Finset.mem_singleton, Finset.mem_insert, Finset.mem_erase]
    tauto
  have hf : ∀ t, t ≠ e → oneME R (occSet x.1) (occSet t) i j = 0 := by
    intro t ht
    rw [oneME_eq, if_neg]
    rintro ⟨-, h2, h3⟩
    refine ht (occSet_injective ?_)
    rw [hocc, h3, Finset.insert_erase h2]
  obtain ⟨s1, s2⟩ := sum_single (w.sds.zip w.params) (by rw [fst_zip hw]; exact hw.1)
    (fun t => oneME R (occSet x.1) (occSet t) i j) e hf
  rw [fst_zip hw] at s2
  unfold Wfn.rdmExc
  simp only [hex, hcr, bind, Except.bind]
  by_cases hmem : e ∈ w.sds
  · obtain ⟨k, y, h1, h2, h3⟩ := zip_mem hw hmem
    rw [if_pos hmem, h1]
    simp only [pick, h2]
    rcases C10_sign_excite R x.1 [i] [j] with ⟨s, sd', g1, -, g3, g4⟩ | ⟨-, g2, -⟩
    · rw [g1]
      rw [hcr] at g3
      injection g3 with g3
      subst g3
      have hs : oneME R (occSet x.1) (occSet e) i j = (s : R) := by
        rw [← oneME_symm]
        have : creString [j] (annString [i] (ket (occSet x.1) : Fock R)) = creOp j (annOp i (ket (occSet x.1))) := rfl
        rw [oneME, ← this, g4, inner_smul_right, ket, inner_single]
        simp
      simp only [pure, Except.pure]
      rw [rowSum, s1 y h3, hs, mul_assoc]
    · rw [hcr] at g2
      simp at g2
  · rw [if_neg hmem, rowSum, s2 hmem, mul_zero]
    simp only [pure, Except.pure, Except.ok.injEq]
    funext a b
    simp [bump2]

theorem mem_prod' {A B : List ℕ} {p : ℕ × ℕ} : p ∈ It.prod A B ↔ p.1 ∈ A ∧ p.2 ∈ B := by
  simp only [It.prod, List.mem_flatMap, List.mem_map]
  constructor
  · rintro ⟨a, ha, b, hb, rfl⟩; exact ⟨ha, hb⟩
  · rintro ⟨ha, hb⟩; exact ⟨_, ha, _, hb, rfl⟩

theorem nodup_prod' {A B : List ℕ} (hA : A.Nodup) (hB : B.Nodup) : (It.prod A B).Nodup := by
  rw [It.prod, List.nodup_flatMap]
  refine ⟨fun a _ => hB.map fun b b' h => (Prod.mk.inj h).2, hA.imp fun {a a'} hne => ?_⟩
  rw [Function.onFun, List.disjoint_left]
  intro p hp hp'
  obtain ⟨b, -, rfl⟩ := List.mem_map.1 hp
  obtain ⟨b', -, h⟩ := List.mem_map.1 hp'
  exact hne (Prod.mk.inj h).1.symm

theorem rdmStep_eq {w : Wfn R} (hw : Fresh w) (x : ℕ × R) (hx : x ∈ w.sds.zip w.params) (m : ℕ → ℕ → R) :
    ∃ m', w.rdmStep m x = .ok m' ∧ ∀ a b, b < w.nspin → m' a b = m a b + x.2 * rowSum (w.sds.zip w.params) x.1 a b := by
  have hx1 : x.1 ∈ w.sds := by rw [← fst_zip hw]; exact List.mem_map_of_mem hx
  have hlt := hw.2.2.2 x.1 hx1
  have hvir : (virIndices (some x.1) w.nspin).Nodup := (sorted_virIndices x.1 w.nspin).imp (fun h => Nat.ne_of_lt h)
  obtain ⟨m1, h1, h2⟩ := foldlM_bump2 (step := fun m p => .ok (bump2 m p.1 p.2 (x.2 * x.2))) (val := fun _ => x.2 * x.2)
    ((occIndices (some x.1)).map fun i => (i, i)) (fun _ _ _ => rfl)
    ((nodup_occIndices x.1).map fun a b h => (Prod.mk.inj h).1) m
  obtain ⟨m2, h3, h4⟩ := foldlM_bump2 (step := w.rdmExc x) (val := fun p => x.2 * rowSum (w.sds.zip w.params) x.1 p.1 p.2)
    (It.prod (occIndices (some x.1)) (virIndices (some x.1) w.nspin)) (by
      intro p hp m
      rw [mem_prod', mem_occIndices, mem_virIndices] at hp
      exact rdmExc_eq hw x hp.1 (by simpa using hp.2.2) m) (nodup_prod' (nodup_occIndices x.1) hvir) m1
  have hfold : (occIndices (some x.1)).foldl (fun m i => bump2 m i i (x.2 * x.2)) m = m1 := by
    have : ∀ (l : List ℕ) (m : ℕ → ℕ → R), (l.map fun i => (i, i)).foldlM (fun m p => .ok (bump2 m p.1 p.2 (x.2 * x.2))) m =
        (Except.ok (l.foldl (fun m i => bump2 m i i (x.2 * x.2)) m) : Except PyErr (ℕ → ℕ → R)) := by
      intro l
      induction l with
      | nil => intro m; rfl
      | cons a l ih => intro m; rw [List.map_cons, List.foldlM_cons, List.foldl_cons, ← ih]; rfl
    rw [this] at h1
    injection h1
  refine ⟨m2, ?_, fun a b hb => ?_⟩
  · unfold Wfn.rdmStep
    simp only [guardIdx_ok fun i hi => lt_two_pow_iff.1 hlt i (mem_occSet.2 (mem_occIndices.1 hi)), bind, Except.bind, hfold]
    exact h3
  · rw [h4, h2, add_assoc]
    congr 1
    by_cases ha : x.1.testBit a = true
    swap
    · have hz : rowSum (w.sds.zip w.params) x.1 a b = 0 := by
        refine List.sum_eq_zero fun y hy => ?_
        obtain ⟨q, -, rfl⟩ := List.mem_map.1 hy
        rw [oneME_eq, if_neg fun h => ha (mem_occSet.1 h.1), mul_zero]
      rw [hz, if_neg, if_neg]
      · ring
      · rw [mem_prod', mem_occIndices]; exact fun h => ha h.1
      · intro h
        obtain ⟨i, hi, h⟩ := List.mem_map.1 h
        have := (Prod.mk.inj h).1
        rw [mem_occIndices, this] at hi
        exact ha hi
    by_cases hb' : x.1.testBit b = true
    · have hp : (a, b) ∉ It.prod (occIndices (some x.1)) (virIndices (some x.1) w.nspin) := by
        rw [mem_prod', mem_virIndices]; exact fun h => by simp [hb'] at h
      rw [if_neg hp, add_zero]
      by_cases hab : a = b
      · subst hab
        have hmem : (a, a) ∈ (occIndices (some x.1)).map fun i => (i, i) := List.mem_map.2 ⟨a, mem_occIndices.2 ha, rfl⟩
        rw [if_pos hmem, rowSum, (sum_single (w.sds.zip w.params) (by rw [fst_zip hw]; exact hw.1)
          (fun t => oneME R (occSet x.1) (occSet t) a a) x.1 ?_).1 x.2 hx, oneME_same, if_pos ⟨rfl, mem_occSet.2 ha⟩, mul_one]
        intro t ht
        rw [oneME_eq, if_neg]
        rintro ⟨h5, h6, h7⟩
        refine ht (occSet_injective ?_)
        rw [← Finset.insert_erase h5, ← Finset.insert_erase h6, h7]
      · have hmem : (a, b) ∉ (occIndices (some x.1)).map fun i => (i, i) := by
          intro h
          obtain ⟨i, -, h⟩ := List.mem_map.1 h
          exact hab ((Prod.mk.inj h).1.symm.trans (Prod.mk.inj h).2)
        have hz : rowSum (w.sds.zip w.params) x.1 a b = 0 := by
          refine List.sum_eq_zero fun y hy => ?_
          obtain ⟨q, -, rfl⟩ := List.mem_map.1 hy
          rw [oneME_eq, if_neg, mul_zero]
          rintro ⟨-, -, h7⟩
          have : b ∈ (occSet x.1).erase a := Finset.mem_erase.2 ⟨fun h => hab h.symm, mem_occSet.2 hb'⟩
          rw [h7] at this
          simp at this
        rw [if_neg hmem, hz, mul_zero]
    · have hp : (a, b) ∈ It.prod (occIndices (some x.1)) (virIndices (some x.1) w.nspin) := by
        rw [mem_prod', mem_occIndices, mem_virIndices]
        exact ⟨ha, by exact_mod_cast hb, by simpa using hb'⟩
      rw [if_pos hp, if_neg, zero_add]
      intro h
      obtain ⟨i, hi, h⟩ := List.mem_map.1 h
      have := (Prod.mk.inj h).2
      rw [mem_occIndices, this] at hi
      exact hb' hi

theorem rdm_fold {w : Wfn R} (hw : Fresh w) (L : List (ℕ × R)) (hL : ∀ x ∈ L, x ∈ w.sds.zip w.params) (m : ℕ → ℕ → R) :
    ∃ m', L.foldlM w.rdmStep m = .ok m' ∧
      ∀ a b, b < w.nspin → m' a b = m a b + (L.map fun x => x.2 * rowSum (w.sds.zip w.params) x.1 a b).sum := by
  induction L generalizing m with
  | nil => exact ⟨m, rfl, by simp⟩
  | cons x L ih =>
    obtain ⟨m1, h1, h2⟩ := rdmStep_eq hw x (hL x (by simp)) m
    obtain ⟨m2, h3, h4⟩ := ih (fun y hy => hL y (by simp [hy])) m1
    refine ⟨m2, by rw [List.foldlM_cons, h1]; exact h3, fun a b hb => ?_⟩
    rw [h4 a b hb, h2 a b hb, List.map_cons, List.sum_cons, add_assoc]

/-- C58: `compute_1rdm()` is the one-particle density matrix of the vector whose coefficients are the parameters, for any list
of distinct determinants (not only for complete spaces). -/
theorem C58_rdm_partial {w : Wfn R} (hw : Fresh w) :
    ∃ D, w.computeRdm = .ok D ∧ ∀ i j, j < w.nspin → D i j = rdm1 (ciVec w.params w.sds) i j := by
  obtain ⟨D, h1, h2⟩ := rdm_fold hw (w.sds.zip w.params) (fun _ h => h) fun _ _ => 0
  refine ⟨D, h1, fun i j hj => ?_⟩
  have hv : ciVec w.params w.sds = vecOf (w.params.zip w.sds) := rfl
  have := inner_vecOf (w.params.zip w.sds) (w.params.zip w.sds) (creOp (R := R) i ∘ₗ annOp j)
  rw [h2 i j hj, zero_add, hv, rdm1]
  refine Eq.trans ?_ this.symm
  have hsw : w.params.zip w.sds = (w.sds.zip w.params).map Prod.swap := (List.zip_swap w.sds w.params).symm
  rw [hsw, List.map_map]
  congr 1
  refine List.map_congr_left fun x _ => ?_
  rw [rowSum, ← List.sum_map_mul_left]
  simp only [Function.comp, List.map_map, Prod.fst_swap, Prod.snd_swap]
  congr 1
  refine List.map_congr_left fun q _ => ?_
  rw [oneME]
  simp only [Function.comp, Prod.fst_swap, Prod.snd_swap, LinearMap.comp_apply]
  ring

/-- C58: in particular for every CI wavefunction as constructed. -/
theorem C58_rdm_init_partial {nelec nspin : ℕ} {t s : Option ℤ} {sds : Except PyErr (List ℕ)} {params : Option (List R)} {w : Wfn R}
    (h : init nelec nspin t s sds params = .ok w) (hn : w.sds.Nodup) (hlt : ∀ x ∈ w.sds, x < 2 ^ w.nspin)
    (hp : ∀ p ∈ params, p.length = w.sds.length) :
    ∃ D, w.computeRdm = .ok D ∧ ∀ i j, j < w.nspin → D i j = rdm1 (ciVec w.params w.sds) i j := by
  obtain ⟨-, h2, h3⟩ := init_ok h
  refine C58_rdm_partial ⟨hn, h2, ?_, hlt⟩
  rw [h3]
  cases params with
  | none => simp [defaultParams]
  | some p => exact hp p rfl

/-- C58: the density matrix is symmetric and its trace is the number of electrons times the squared norm. -/
theorem C58_trace_partial {w : Wfn R} (hw : Fresh w) (hN : ∀ x ∈ w.sds, (occSet x).card = w.nelec) :
    ∃ D, w.computeRdm = .ok D ∧ (∀ i j, i < w.nspin → j < w.nspin → D i j = D j i) ∧
      ∑ i ∈ Finset.range w.nspin, D i i = w.nelec * (w.params.map fun c => c * c).sum := by
  obtain ⟨D, h1, h2⟩ := C58_rdm_partial hw
  have hv : ciVec w.params w.sds = vecOf (w.params.zip w.sds) := rfl
  refine ⟨D, h1, fun i j hi hj => ?_, ?_⟩
  · rw [h2 i j hj, h2 j i hi, hv]
    have e1 := inner_vecOf (w.params.zip w.sds) (w.params.zip w.sds) (creOp (R := R) i ∘ₗ annOp j)
    have e2 := inner_vecOf (w.params.zip w.sds) (w.params.zip w.sds) (creOp (R := R) j ∘ₗ annOp i)
    rw [rdm1, rdm1]
    refine e1.trans (Eq.trans ?_ e2.symm)
    generalize hA : w.params.zip w.sds = L
    have key : ∀ L' : List (R × ℕ), (L.map fun p => (L'.map fun q => p.1 * q.1 * Spec.inner (ket (occSet p.2))
        ((creOp (R := R) i ∘ₗ annOp j) (ket (occSet q.2)))).sum).sum =
        (L'.map fun p => (L.map fun q => p.1 * q.1 * Spec.inner (ket (occSet p.2))
        ((creOp (R := R) j ∘ₗ annOp i) (ket (occSet q.2)))).sum).sum := by
      intro L'
      clear hA e1 e2
      induction L with
      | nil => simp
      | cons p L ih =>
        rw [List.map_cons, List.sum_cons, ih]
        simp only [List.map_cons, List.sum_cons, List.sum_map_add]
        congr 2
        refine List.map_congr_left fun q _ => ?_
        have := oneME_symm (R := R) (occSet p.2) (occSet q.2) i j
        rw [oneME, oneME] at this
        rw [LinearMap.comp_apply, LinearMap.comp_apply, this]
        ring
    exact key L
  · rw [Finset.sum_congr rfl fun i hi => h2 i i (Finset.mem_range.1 hi), hv, rdm1_trace w.nspin w.nelec]
    · congr 1
      have e := inner_vecOf (w.params.zip w.sds) (w.params.zip w.sds) (LinearMap.id (R := R) (M := Fock R))
      rw [LinearMap.id_apply] at e
      rw [e]
      have hsnd : (w.params.zip w.sds).map Prod.snd = w.sds := List.map_snd_zip hw.2.2.1.ge
      have hfst : (w.params.zip w.sds).map Prod.fst = w.params := List.map_fst_zip hw.2.2.1.le
      conv_rhs => rw [← hfst, List.map_map]
      congr 1
      refine List.map_congr_left fun p hp => ?_
      have hs := sum_single ((w.params.zip w.sds).map Prod.swap) (by
        rw [List.map_map]
        have : (Prod.fst ∘ Prod.swap : R × ℕ → ℕ) = Prod.snd := rfl
        rw [this, hsnd]; exact hw.1)
        (fun t => if t = p.2 then p.1 else 0) p.2 (fun t ht => if_neg ht)
      have h5 := hs.1 p.1 (List.mem_map.2 ⟨p, hp, rfl⟩)
      rw [if_pos rfl, List.map_map] at h5
      simp only [Function.comp] at h5 ⊢
      rw [← h5]
      congr 1
      refine List.map_congr_left fun q _ => ?_
      rw [LinearMap.id_apply, ket, inner_single, ket, Finsupp.single_apply, one_mul]
      simp only [Function.comp, Prod.fst_swap, Prod.snd_swap]
      by_cases h6 : q.2 = p.2
      · rw [if_pos (by rw [h6]), if_pos h6]; ring
      · rw [if_neg fun h7 => h6 (occSet_injective h7), if_neg h6]; ring
    · intro p hp
      have : p.2 ∈ w.sds := (List.of_mem_zip hp).2
      exact ⟨hw.2.2.2 _ this, hN _ this⟩

end

-- two electrons in four spin orbitals; the second determinant is a single excitation of the first
example : ∃ D, (⟨2, 4, none, none, [0b0101, 0b0110], dictOf [0b0101, 0b0110], [2, 3]⟩ : Wfn ℤ).computeRdm = .ok D ∧
    D 0 1 = rdm1 (ciVec [2, 3] [0b0101, 0b0110]) 0 1 ∧ D 0 1 = 6 ∧ D 2 2 = 13 := by
  obtain ⟨D, h1, h2⟩ := C58_rdm_partial (w := (⟨2, 4, none, none, [0b0101, 0b0110], dictOf [0b0101, 0b0110], [2, 3]⟩ : Wfn ℤ))
    ⟨by decide, rfl, rfl, by decide⟩
  refine ⟨D, h1, h2 0 1 (by norm_num), ?_⟩
  have h3 : ((⟨2, 4, none, none, [0b0101, 0b0110], dictOf [0b0101, 0b0110], [2, 3]⟩ : Wfn ℤ).computeRdm.map
    fun D => (D 0 1, D 2 2)).toOption = some (6, 13) := by decide +kernel
  rw [h1] at h3
  simpa [Except.map, Except.toOption] using h3

end Fanpy.Props
