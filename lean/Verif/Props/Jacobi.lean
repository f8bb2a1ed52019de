import Verif.Model.Jacobi
import Verif.Lemmas.Transform
import Verif.Lemmas.Excite
import Verif.Props.Signs
import Mathlib.Analysis.SpecialFunctions.Trigonometric.Deriv

/-! # C43: wavefunctions with two rotated orbitals -/

namespace Fanpy.Props
open Fanpy.Slater Fanpy.Spec Fanpy.Jacobi Finset

variable {R : Type} [CommRing R]

/-! ## Set-up -/

theorem jac_sign {x p q : ℕ} (h : p ∈ occSet x) : signSwap (some x) p q = .ok (moveSign (occSet x) p q) :=
  (C09_sign_swap x p q).2.1 (mem_occSet.1 h)

theorem jac_excite {x p q : ℕ} (hp : p ∈ occSet x) (hq : q ∉ occSet x) :
    excite (some x) [p, q] = .ok (some (sdOf (insert q ((occSet x).erase p)))) := by
  rw [show [p, q] = [p] ++ [q] from rfl, excite_eq_of_length (by simp), create_annihilate_sdOf (by simp) (by simp)]
  · congr 3
    ext k; simp; tauto
  · simpa [mem_occSet] using hp
  · simpa [mem_occSet] using hq

theorem jac_excite_two {x p q p' q' : ℕ} (hp : p ∈ occSet x) (hq : q ∉ occSet x) (hp' : p' ∈ occSet x) (hq' : q' ∉ occSet x)
    (h1 : p ≠ p') (h2 : q ≠ q') :
    excite (some x) [p, p', q, q'] = .ok (some (sdOf (insert q' (insert q (((occSet x).erase p).erase p'))))) := by
  rw [show [p, p', q, q'] = [p, p'] ++ [q, q'] from rfl, excite_eq_of_length (by simp), create_annihilate_sdOf (by simpa) (by simpa)]
  · congr 3
    ext k; simp; tauto
  · simp only [mem_occSet] at hp hp'
    simp [hp, hp']
  · simp only [mem_occSet] at hq hq'
    simp [hq, hq']

theorem jac_occ (x i : ℕ) : occ (some x) i = decide (i ∈ occSet x) := by
  rw [occ_some]
  by_cases h : x.testBit i = true
  · rw [h, decide_eq_true (mem_occSet.2 h)]
  · rw [Bool.eq_false_iff.2 h, decide_eq_false (fun hm => h (mem_occSet.1 hm))]

/-- `assign_jacobi_indices` accepts two different non-negative indices of the orbitals, and stores them in increasing order;
for unrestricted orbitals it only compares them with the number of spatial orbitals. -/
theorem C43_indices (t : OrbType) (nspin : ℕ) (i j : ℤ) (p q : ℕ) :
    assignIndices t nspin [i, j] = .ok (p, q) ↔
      p < q ∧ ((i = p ∧ j = q) ∨ (i = q ∧ j = p)) ∧ (t = .generalized → q < nspin) ∧ (t = .restricted → q < nspin / 2) ∧
        (t = .unrestricted → (p < nspin / 2 ↔ q < nspin / 2)) := by
  rw [assignIndices]
  split_ifs with h1 h2 h3 h4 h5 h6
  · simp; intros; omega
  · simp; intros; omega
  · simp only [false_iff]
    rintro ⟨a, b, c, -, -⟩
    have := c h3.1
    omega
  · simp only [false_iff]
    rintro ⟨a, b, -, c, -⟩
    have := c h4.1
    omega
  · simp only [false_iff]
    rintro ⟨a, b, -, -, c⟩
    have := c h5.1
    apply h5.2
    rw [decide_eq_decide]
    omega
  · rw [Except.ok.injEq, Prod.mk.injEq]
    constructor
    · rintro ⟨rfl, rfl⟩
      refine ⟨by omega, by omega, fun h => ?_, fun h => ?_, fun h => ?_⟩
      · have := not_not.1 (not_and.1 h3 h); omega
      · have := not_not.1 (not_and.1 h4 h); omega
      · have := not_not.1 (not_and.1 h5 h)
        rw [decide_eq_decide] at this
        omega
    · rintro ⟨a, b, -⟩; omega
  · rw [Except.ok.injEq, Prod.mk.injEq]
    constructor
    · rintro ⟨rfl, rfl⟩
      refine ⟨by omega, by omega, fun h => ?_, fun h => ?_, fun h => ?_⟩
      · have := not_not.1 (not_and.1 h3 h); omega
      · have := not_not.1 (not_and.1 h4 h); omega
      · have := not_not.1 (not_and.1 h5 h)
        rw [decide_eq_decide] at this
        omega
    · rintro ⟨a, b, -⟩; omega

/-- Everything else raises: a wrong number of indices a `TypeError`, all other rejected indices a `ValueError`. -/
theorem C43_indices_error (t : OrbType) (nspin : ℕ) (inds : List ℤ) (e : PyErr) (h : assignIndices t nspin inds = .error e) :
    e = if inds.length = 2 then .valueError else .typeError := by
  match inds with
  | [] => simp [assignIndices] at h ⊢; exact h.symm
  | [_] => simp [assignIndices] at h ⊢; exact h.symm
  | _ :: _ :: _ :: _ => simp [assignIndices] at h ⊢; exact h.symm
  | [i, j] =>
    rw [assignIndices] at h
    split_ifs at h <;> simp_all

example : assignIndices .restricted 8 [3, 1] = .ok (1, 3) := by decide +kernel

omit [CommRing R] in
/-- The constructor: the checks of the numbers of electrons and orbitals, of the component, and of the indices. -/
theorem C43_init (nelec nspin : ℕ) (comp : Option ℕ → Except PyErr R) (cn : ℕ) (t : OrbType) (inds : List ℤ) (w : Wfn R) :
    Jacobi.init nelec nspin comp cn (some (some t)) inds = .ok w ↔
      0 < nelec ∧ 0 < nspin ∧ nspin % 2 = 0 ∧ cn = nelec ∧ ∃ p q, assignIndices t nspin inds = .ok (p, q) ∧ w = ⟨nspin, t, p, q, comp⟩ := by
  simp only [Jacobi.init, CI.checkNelec, CI.checkNspin, assignOrbtype, bind, Except.bind, pure, Except.pure, throw, throwThe,
    MonadExceptOf.throw]
  by_cases h1 : nelec = 0
  · simp [h1]
  by_cases h2 : nspin = 0 ∨ nspin % 2 = 1
  · simp only [h1, h2, if_true, if_false, reduceCtorEq, false_iff]; omega
  by_cases h3 : cn = nelec
  · simp only [h1, h2, h3, if_false, ne_eq, not_true_eq_false]
    cases h : assignIndices t nspin inds with
    | error e => simp
    | ok pq =>
      obtain ⟨p, q⟩ := pq
      simp only [Except.ok.injEq, Prod.mk.injEq]
      constructor
      · intro hw
        exact ⟨by omega, by omega, by omega, trivial, p, q, ⟨rfl, rfl⟩, hw.symm⟩
      · rintro ⟨-, -, -, -, _, _, ⟨rfl, rfl⟩, hw⟩
        exact hw.symm
  · simp [h1, h2, h3]

omit [CommRing R] in
/-- The type of the orbitals is restricted if none is given; an unknown type raises `ValueError` (after the numbers of electrons and orbitals
were checked). -/
theorem C43_init_orbtype (nelec nspin : ℕ) (comp : Option ℕ → Except PyErr R) (cn : ℕ) (inds : List ℤ) :
    Jacobi.init nelec nspin comp cn none inds = Jacobi.init nelec nspin comp cn (some (some .restricted)) inds ∧
    (0 < nelec → 0 < nspin → nspin % 2 = 0 → cn = nelec → Jacobi.init nelec nspin comp cn (some none) inds = .error .valueError) := by
  refine ⟨rfl, fun h1 h2 h3 h4 => ?_⟩
  rw [Jacobi.init, CI.checkNelec, CI.checkNspin, if_neg (by omega), if_neg (by omega)]
  simp [bind, Except.bind, h4, assignOrbtype, pure, Except.pure]

/-! ## The matrix of the rotation -/

/-- `jacobi_rotation` for generalized orbitals is the Givens matrix of the spin orbitals. -/
theorem C43_rotation_generalized (w : Wfn R) (hw : w.orbtype = .generalized) (h : w.p < w.q) (hq : w.q < w.nspin) (c s : R) :
    ∃ m, w.rotation c s = .ok [m] ∧ ∀ i j, m i j = givens c s w.p w.q i j := by
  refine ⟨_, by simp only [Wfn.rotation, hw, rotationMatrix, reduceCtorEq, false_and, if_true, if_false, h.trans hq, hq, and_self, bind, Except.bind, or_true, pure, Except.pure]; rfl, ?_⟩
  intro i j
  simp only [givens]
  split_ifs <;> first | rfl | omega

/-- `jacobi_rotation` for restricted orbitals is the Givens matrix of the spatial orbitals. -/
theorem C43_rotation_restricted (w : Wfn R) (hw : w.orbtype = .restricted) (h : w.p < w.q) (hq : w.q < w.nspatial) (c s : R) :
    ∃ m, w.rotation c s = .ok [m] ∧ ∀ i j, m i j = givens c s w.p w.q i j := by
  refine ⟨_, by simp only [Wfn.rotation, hw, rotationMatrix, reduceCtorEq, false_and, if_true, if_false, h.trans hq, hq, and_self, bind, Except.bind, true_or, pure, Except.pure]; rfl, ?_⟩
  intro i j
  simp only [givens]
  split_ifs <;> first | rfl | omega

/-- `jacobi_rotation` for unrestricted orbitals: the two blocks make up the Givens matrix of the spin orbitals. -/
theorem C43_rotation_unrestricted (w : Wfn R) (hw : w.orbtype = .unrestricted) (hn : w.nspin % 2 = 0) (h : w.p < w.q)
    (hq : w.q < w.nspin) (hs : w.p < w.nspatial ↔ w.q < w.nspatial) (c s : R) :
    ∃ a b, w.rotation c s = .ok [a, b] ∧
      ∀ i < w.nspin, ∀ j < w.nspin, blockDiag w.nspatial w.nspatial a b i j = givens c s w.p w.q i j := by
  have hnn : w.nspin = w.nspatial + w.nspatial := by rw [Wfn.nspatial]; omega
  by_cases h1 : w.q < w.nspatial
  · have h2 := hs.2 h1
    refine ⟨_, _, by simp only [Wfn.rotation, hw, rotationMatrix, reduceCtorEq, true_and, if_true, if_false, show ¬ (w.p ≥ w.nspatial ∧ w.nspatial ≤ w.q) by omega, h1, h2, and_self, bind, Except.bind, or_self, pure, Except.pure]; rfl, ?_⟩
    intro i hi j hj
    simp only [givens, blockDiag]
    split_ifs <;> first | rfl | omega
  · have h2 : ¬ w.p < w.nspatial := fun h => h1 (hs.1 h)
    have h3 : w.p ≥ w.nspatial ∧ w.nspatial ≤ w.q := by omega
    have h4 : w.p - w.nspatial < w.nspatial ∧ w.q - w.nspatial < w.nspatial := by omega
    refine ⟨_, _, by simp only [Wfn.rotation, hw, rotationMatrix, reduceCtorEq, if_true, if_false, h3, h1, h2, h4, and_self, bind, Except.bind, or_self, pure, Except.pure]; rfl, ?_⟩
    intro i hi j hj
    simp only [givens, blockDiag]
    split_ifs <;> first | rfl | omega

/-- The indices of unrestricted orbitals are not compared with the number of spin orbitals: indices outside of it are accepted, and
`jacobi_rotation` raises an `IndexError`. -/
theorem C43_unrestricted_index (nspin p q : ℕ) (h : p < q) (hp : nspin ≤ p) (hn : 0 < nspin) (comp : Option ℕ → Except PyErr R) (c s : R) :
    assignIndices .unrestricted nspin [(p : ℤ), (q : ℤ)] = .ok (p, q) ∧
      Wfn.rotation ⟨nspin, .unrestricted, p, q, comp⟩ c s = .error .indexError := by
  constructor
  · rw [C43_indices]
    refine ⟨h, by simp, by simp, by simp, fun _ => by omega⟩
  · have h1 : nspin / 2 ≤ p ∧ nspin / 2 ≤ q := by omega
    have h2 : ¬ (p - nspin / 2 < nspin / 2 ∧ q - nspin / 2 < nspin / 2) := by omega
    simp only [Wfn.rotation, Wfn.nspatial, rotationMatrix, reduceCtorEq, if_false, ge_iff_le, h1, and_self, if_true, h2]
    rfl

/-! ## Overlaps -/

omit [CommRing R] in
theorem jac_comp {w : Wfn R} {f : Finset ℕ → R} {n : ℕ} (hf : ∀ S ⊆ range n, w.comp (some (sdOf S)) = .ok (f S)) {sd : ℕ} (hsd : sd < 2 ^ n) :
    w.comp (some sd) = .ok (f (occSet sd)) := by
  have := hf (occSet sd) (fun k hk => mem_range.2 ((lt_two_pow_iff.1 hsd) k hk))
  rwa [sdOf_occSet] at this

theorem olpSpin_eq {w : Wfn R} {f : Finset ℕ → R} {n : ℕ} (hf : ∀ S ⊆ range n, w.comp (some (sdOf S)) = .ok (f S))
    (hp : w.p < n) (hq : w.q < n) {sd : ℕ} (hsd : sd < 2 ^ n) (c s : R) :
    w.olpSpin c s sd = .ok (rotTwo c s w.p w.q f (occSet sd)) := by
  have hS : ∀ k ∈ occSet sd, k < n := lt_two_pow_iff.1 hsd
  have hex : ∀ a b, b < n → insert b ((occSet sd).erase a) ⊆ range n := by
    intro a b hb k hk
    rcases mem_insert.1 hk with rfl | hk
    · exact mem_range.2 hb
    · exact mem_range.2 (hS k (mem_of_mem_erase hk))
  simp only [Wfn.olpSpin, jac_occ, rotTwo]
  by_cases h1 : w.p ∈ occSet sd <;> by_cases h2 : w.q ∈ occSet sd
  · simp [h1, h2, jac_comp hf hsd]
  · simp [h1, h2, jac_comp hf hsd, jac_sign h1, jac_excite h1 h2, hf _ (hex _ _ hq), bind, Except.bind, pure, Except.pure]
  · simp [h1, h2, jac_comp hf hsd, jac_sign h2, jac_excite h2 h1, hf _ (hex _ _ hp), bind, Except.bind, pure, Except.pure]
  · simp [h1, h2, jac_comp hf hsd]

/-- The overlap for generalized and unrestricted orbitals is the sum of minors of the rotation matrix times the overlaps of the component. -/
theorem C43_overlap_spin (w : Wfn R) (hw : w.orbtype ≠ .restricted) (h : w.p < w.q) (hq : w.q < w.nspin) (f : Finset ℕ → R)
    (hf : ∀ S ⊆ range w.nspin, w.comp (some (sdOf S)) = .ok (f S)) (c s : R) (hcs : c ^ 2 + s ^ 2 = 1) (sd : ℕ)
    (hsd : sd < 2 ^ w.nspin) :
    w.overlap c s sd = .ok (transform (givens c s w.p w.q) w.nspin f (occSet sd)) := by
  rw [transform_givens hcs (h.trans hq) hq h.ne f (fun k hk => mem_range.2 ((lt_two_pow_iff.1 hsd) k hk)), Wfn.overlap, if_neg hw]
  exact olpSpin_eq hf (h.trans hq) hq hsd c s

/-- the set of the spin orbitals made of a set of alpha and a set of beta orbitals -/
def spinSet (n : ℕ) (Sa Sb : Finset ℕ) : Finset ℕ := Sa ∪ Sb.map (addRightEmbedding n)

theorem mem_spinSet_alpha {n i : ℕ} {Sa Sb : Finset ℕ} (hi : i < n) : i ∈ spinSet n Sa Sb ↔ i ∈ Sa := by
  rw [spinSet, mem_union, mem_map]
  constructor
  · rintro (h | ⟨k, _, h⟩)
    · exact h
    · simp only [addRightEmbedding_apply] at h; omega
  · exact Or.inl

theorem mem_spinSet_beta {n i : ℕ} {Sa Sb : Finset ℕ} (ha : ∀ k ∈ Sa, k < n) : i + n ∈ spinSet n Sa Sb ↔ i ∈ Sb := by
  rw [spinSet, mem_union, mem_map]
  constructor
  · rintro (h | ⟨k, hk, h⟩)
    · have := ha _ h; omega
    · have : k = i := by simpa using h
      rwa [← this]
  · intro h; exact Or.inr ⟨i, h, rfl⟩

theorem mem_spinSet {n k : ℕ} {Sa Sb : Finset ℕ} (ha : ∀ k ∈ Sa, k < n) :
    k ∈ spinSet n Sa Sb ↔ if k < n then k ∈ Sa else k - n ∈ Sb := by
  split_ifs with h
  · exact mem_spinSet_alpha h
  · have e : k = (k - n) + n := by omega
    rw [e, mem_spinSet_beta ha, Nat.add_sub_cancel]

theorem occSet_spinSet (sd n : ℕ) : occSet sd = spinSet n (occSet (sd % 2 ^ n)) (occSet (sd / 2 ^ n)) := by
  have ha : ∀ k ∈ occSet (sd % 2 ^ n), k < n := lt_two_pow_iff.1 (Nat.mod_lt _ (by positivity))
  ext k
  rw [mem_spinSet ha]
  simp only [mem_occSet, Nat.testBit_mod_two_pow, Nat.testBit_div_two_pow]
  split_ifs with h
  · simp [h]
  · rw [Nat.sub_add_cancel (by omega)]

theorem spinSet_alpha {n p q : ℕ} (hp : p < n) (hq : q < n) {Sa Sb : Finset ℕ} (ha : ∀ k ∈ Sa, k < n) :
    insert q ((spinSet n Sa Sb).erase p) = spinSet n (insert q (Sa.erase p)) Sb := by
  have ha' : ∀ k ∈ insert q (Sa.erase p), k < n := by
    intro k hk
    rcases mem_insert.1 hk with rfl | hk
    · exact hq
    · exact ha k (mem_of_mem_erase hk)
  ext k
  rw [mem_spinSet ha', mem_insert, mem_erase, mem_spinSet ha, mem_insert, mem_erase]
  split_ifs with h
  · rfl
  · constructor
    · rintro (h | h)
      · omega
      · exact h.2
    · intro h'; exact Or.inr ⟨by omega, h'⟩

theorem spinSet_beta {n p q : ℕ} {Sa Sb : Finset ℕ} (ha : ∀ k ∈ Sa, k < n) :
    insert (q + n) ((spinSet n Sa Sb).erase (p + n)) = spinSet n Sa (insert q (Sb.erase p)) := by
  ext k
  rw [mem_spinSet ha, mem_insert, mem_erase, mem_spinSet ha, mem_insert, mem_erase]
  split_ifs with h
  · constructor
    · rintro (h | h)
      · omega
      · exact h.2
    · intro h'; exact Or.inr ⟨by omega, h'⟩
  · constructor
    · rintro (h | h)
      · exact Or.inl (by omega)
      · exact Or.inr ⟨by omega, h.2⟩
    · rintro (h | h)
      · exact Or.inl (by omega)
      · exact Or.inr ⟨by omega, h.2⟩

section
variable {w : Wfn R} {f : Finset ℕ → R} {sd : ℕ}

/-- The steps of the restricted case, with the alpha and the beta part of the determinant. -/
structure Steps (w : Wfn R) (f : Finset ℕ → R) (sd : ℕ) (Sa Sb : Finset ℕ) : Prop where
  comp : w.comp (some sd) = .ok (f (spinSet w.nspatial Sa Sb))
  alpha : ∀ i j, i < w.nspatial → j < w.nspatial → i ∈ Sa → j ∉ Sa →
    ∃ x, excite (some sd) [i, j] = .ok x ∧ w.comp x = .ok (f (spinSet w.nspatial (insert j (Sa.erase i)) Sb))
  beta : ∀ i j, i < w.nspatial → j < w.nspatial → i ∈ Sb → j ∉ Sb →
    ∃ x, excite (some sd) [i + w.nspatial, j + w.nspatial] = .ok x ∧
      w.comp x = .ok (f (spinSet w.nspatial Sa (insert j (Sb.erase i))))
  both : ∀ i j k l, i < w.nspatial → j < w.nspatial → k < w.nspatial → l < w.nspatial → i ∈ Sa → j ∉ Sa → k ∈ Sb → l ∉ Sb →
    ∃ x, excite (some sd) [i, k + w.nspatial, j, l + w.nspatial] = .ok x ∧
      w.comp x = .ok (f (spinSet w.nspatial (insert j (Sa.erase i)) (insert l (Sb.erase k))))

omit [CommRing R] in
theorem steps (hn : w.nspin % 2 = 0) (hf : ∀ S ⊆ range w.nspin, w.comp (some (sdOf S)) = .ok (f S)) (hsd : sd < 2 ^ w.nspin) :
    Steps w f sd (occSet (sd % 2 ^ w.nspatial)) (occSet (sd / 2 ^ w.nspatial)) := by
  have hnn : w.nspin = w.nspatial + w.nspatial := by rw [Wfn.nspatial]; omega
  have ha : ∀ k ∈ occSet (sd % 2 ^ w.nspatial), k < w.nspatial := lt_two_pow_iff.1 (Nat.mod_lt _ (by positivity))
  have hS : ∀ k ∈ occSet sd, k < w.nspin := lt_two_pow_iff.1 hsd
  have e := occSet_spinSet sd w.nspatial
  generalize occSet (sd % 2 ^ w.nspatial) = Sa at e ha
  generalize occSet (sd / 2 ^ w.nspatial) = Sb at e
  have hsub : ∀ i j, j < w.nspin → ∀ T ⊆ range w.nspin, insert j (T.erase i) ⊆ range w.nspin := by
    intro i j hj T hT k hk
    rcases mem_insert.1 hk with rfl | hk
    · exact mem_range.2 hj
    · exact hT (mem_of_mem_erase hk)
  have hS' : spinSet w.nspatial Sa Sb ⊆ range w.nspin := fun k hk => mem_range.2 (hS k (e ▸ hk))
  refine ⟨?_, ?_, ?_, ?_⟩
  · rw [← e]; exact jac_comp hf hsd
  · intro i j hi hj h1 h2
    refine ⟨_, jac_excite (by rwa [e, mem_spinSet_alpha hi]) (by rwa [e, mem_spinSet_alpha hj]), ?_⟩
    rw [e, spinSet_alpha hi hj ha, ← spinSet_alpha hi hj ha]
    exact hf _ (hsub _ _ (by omega) _ hS')
  · intro i j hi hj h1 h2
    refine ⟨_, jac_excite (by rwa [e, mem_spinSet_beta ha]) (by rwa [e, mem_spinSet_beta ha]), ?_⟩
    rw [e, spinSet_beta ha, ← spinSet_beta ha]
    exact hf _ (hsub _ _ (by omega) _ hS')
  · intro i j k l hi hj hk hl h1 h2 h3 h4
    refine ⟨_, jac_excite_two (by rwa [e, mem_spinSet_alpha hi]) (by rwa [e, mem_spinSet_alpha hj])
      (by rwa [e, mem_spinSet_beta ha]) (by rwa [e, mem_spinSet_beta ha]) (by omega) (by omega), ?_⟩
    have ha' : ∀ k ∈ insert j (Sa.erase i), k < w.nspatial := by
      intro k hk
      rcases mem_insert.1 hk with rfl | hk
      · exact hj
      · exact ha k (mem_of_mem_erase hk)
    have e2 : insert j (((occSet sd).erase i).erase (k + w.nspatial)) =
        (insert j ((occSet sd).erase i)).erase (k + w.nspatial) := by
      rw [erase_insert_of_ne (by omega)]
    rw [e2, e, spinSet_alpha hi hj ha, spinSet_beta ha', ← spinSet_beta ha', ← spinSet_alpha hi hj ha]
    exact hf _ (hsub _ _ (by omega) _ (hsub _ _ (by omega) _ hS'))

/-- the value of the restricted overlap -/
def resValue (c s : R) (p q n : ℕ) (f : Finset ℕ → R) (Sa Sb : Finset ℕ) : R :=
  rotTwo c s p q (fun Ta => rotTwo c s p q (fun Tb => f (spinSet n Ta Tb)) Sb) Sa

theorem olpRestricted_eq (hn : w.nspin % 2 = 0) (hf : ∀ S ⊆ range w.nspin, w.comp (some (sdOf S)) = .ok (f S))
    (hsd : sd < 2 ^ w.nspin) (hp : w.p < w.nspatial) (hq : w.q < w.nspatial) (c s : R) :
    w.olpRestricted c s sd =
      .ok (resValue c s w.p w.q w.nspatial f (occSet (sd % 2 ^ w.nspatial)) (occSet (sd / 2 ^ w.nspatial))) := by
  have st := steps hn hf hsd
  simp only [Wfn.olpRestricted, splitSpin_ok (show 0 < w.nspatial by omega), bind, Except.bind, jac_occ]
  have sa := fun i j => @jac_sign (sd % 2 ^ w.nspatial) i j
  have sb := fun i j => @jac_sign (sd / 2 ^ w.nspatial) i j
  generalize occSet (sd % 2 ^ w.nspatial) = Sa at *
  generalize occSet (sd / 2 ^ w.nspatial) = Sb at *
  have hpp := st.alpha w.p w.q hp hq
  have hqq := st.alpha w.q w.p hq hp
  have gpp := st.beta w.p w.q hp hq
  have gqq := st.beta w.q w.p hq hp
  have b1 := st.both w.p w.q w.p w.q hp hq hp hq
  have b2 := st.both w.p w.q w.q w.p hp hq hq hp
  have b3 := st.both w.q w.p w.p w.q hq hp hp hq
  have b4 := st.both w.q w.p w.q w.p hq hp hq hp
  have sc := st.comp
  simp only [resValue, rotTwo]
  by_cases h1 : w.p ∈ Sa <;> by_cases h2 : w.q ∈ Sa <;> by_cases h3 : w.p ∈ Sb <;> by_cases h4 : w.q ∈ Sb
  all_goals
    simp only [h1, h2, h3, h4, not_true_eq_false, not_false_eq_true, forall_true_left, IsEmpty.forall_iff] at hpp hqq gpp gqq b1 b2 b3 b4
    try obtain ⟨x1, hx1, hy1⟩ := hpp
    try obtain ⟨x2, hx2, hy2⟩ := hqq
    try obtain ⟨x3, hx3, hy3⟩ := gpp
    try obtain ⟨x4, hx4, hy4⟩ := gqq
    try obtain ⟨x5, hx5, hy5⟩ := b1
    try obtain ⟨x6, hx6, hy6⟩ := b2
    try obtain ⟨x7, hx7, hy7⟩ := b3
    try obtain ⟨x8, hx8, hy8⟩ := b4
    simp [*, pure, Except.pure] <;> ring

theorem transform_spin {c s : R} (hcs : c ^ 2 + s ^ 2 = 1) {p q n : ℕ} (hp : p < n) (hq : q < n) (hpq : p ≠ q) (f : Finset ℕ → R)
    {Sa Sb : Finset ℕ} (ha : Sa ⊆ range n) (hb : Sb ⊆ range n) :
    transform (blockDiag n n (givens c s p q) (givens c s p q)) (n + n) f (spinSet n Sa Sb) = resValue c s p q n f Sa Sb := by
  rw [spinSet, transform_blockDiag _ _ _ _ _ (fun i hi => mem_range.1 (ha hi)), transform_givens hcs hp hq hpq _ ha, resValue]
  congr 1
  funext Ta
  exact transform_givens hcs hp hq hpq _ hb

/-- The overlap for restricted orbitals is the sum of minors of the matrix that rotates the alpha and the beta orbitals in the same way,
times the overlaps of the component. -/
theorem C43_overlap_restricted (w : Wfn R) (hw : w.orbtype = .restricted) (hn : w.nspin % 2 = 0) (h : w.p < w.q)
    (hq : w.q < w.nspatial) (f : Finset ℕ → R) (hf : ∀ S ⊆ range w.nspin, w.comp (some (sdOf S)) = .ok (f S)) (c s : R)
    (hcs : c ^ 2 + s ^ 2 = 1) (sd : ℕ) (hsd : sd < 2 ^ w.nspin) :
    w.overlap c s sd =
      .ok (transform (blockDiag w.nspatial w.nspatial (givens c s w.p w.q) (givens c s w.p w.q)) w.nspin f (occSet sd)) := by
  have hnn : w.nspin = w.nspatial + w.nspatial := by rw [Wfn.nspatial]; omega
  rw [Wfn.overlap, if_pos hw, olpRestricted_eq hn hf hsd (h.trans hq) hq, occSet_spinSet sd w.nspatial, hnn,
    transform_spin hcs (h.trans hq) hq h.ne f]
  · intro k hk
    exact mem_range.2 (lt_two_pow_iff.1 (Nat.mod_lt _ (by positivity)) k hk)
  · intro k hk
    refine mem_range.2 (lt_two_pow_iff.1 (Nat.div_lt_of_lt_mul ?_) k hk)
    rwa [← pow_add, ← hnn]

end

/-! ## Derivatives -/

theorem hasDeriv_one (a b θ : ℝ) :
    HasDerivAt (fun t => Real.cos t * a + Real.sin t * b) (-Real.sin θ * a + Real.cos θ * b) θ :=
  ((Real.hasDerivAt_cos θ).mul_const a).add ((Real.hasDerivAt_sin θ).mul_const b)

theorem hasDeriv_two (a b d θ : ℝ) :
    HasDerivAt (fun t => Real.cos t ^ 2 * a + Real.cos t * Real.sin t * b + Real.sin t ^ 2 * d)
      (-2 * Real.cos θ * Real.sin θ * a + (Real.cos θ * Real.cos θ - Real.sin θ * Real.sin θ) * b + 2 * Real.sin θ * Real.cos θ * d) θ := by
  have h1 := ((Real.hasDerivAt_cos θ).pow 2).mul_const a
  have h2 := ((Real.hasDerivAt_cos θ).mul (Real.hasDerivAt_sin θ)).mul_const b
  have h3 := ((Real.hasDerivAt_sin θ).pow 2).mul_const d
  refine ((h1.add h2).add h3).congr_deriv ?_
  push_cast
  ring

theorem hasDeriv_of_eq {g h : ℝ → ℝ} {d d' θ : ℝ} (hg : HasDerivAt g d θ) (e : ∀ t, h t = g t) (ed : d' = d) : HasDerivAt h d' θ := by
  rw [ed, funext e]
  exact hg

theorem derivSpin_eq {w : Wfn ℝ} {f : Finset ℕ → ℝ} {n : ℕ} (hf : ∀ S ⊆ range n, w.comp (some (sdOf S)) = .ok (f S))
    (hp : w.p < n) (hq : w.q < n) {sd : ℕ} (hsd : sd < 2 ^ n) (θ : ℝ) :
    ∃ d, w.derivSpin (Real.cos θ) (Real.sin θ) sd = .ok d ∧
      HasDerivAt (fun t => rotTwo (Real.cos t) (Real.sin t) w.p w.q f (occSet sd)) d θ := by
  have hS : ∀ k ∈ occSet sd, k < n := lt_two_pow_iff.1 hsd
  have hex : ∀ a b, b < n → insert b ((occSet sd).erase a) ⊆ range n := by
    intro a b hb k hk
    rcases mem_insert.1 hk with rfl | hk
    · exact mem_range.2 hb
    · exact mem_range.2 (hS k (mem_of_mem_erase hk))
  simp only [Wfn.derivSpin, jac_occ, rotTwo]
  by_cases h1 : w.p ∈ occSet sd <;> by_cases h2 : w.q ∈ occSet sd
  · simp only [h1, h2, decide_true, beq_self_eq_true, if_true]
    exact ⟨0, rfl, hasDerivAt_const _ _⟩
  · simp [h1, h2, jac_comp hf hsd, jac_sign h1, jac_excite h1 h2, hf _ (hex _ _ hq), bind, Except.bind, pure, Except.pure,
      -neg_mul]
    exact hasDeriv_of_eq (hasDeriv_one (f (occSet sd)) ((moveSign (occSet sd) w.p w.q) * f (insert w.q ((occSet sd).erase w.p))) θ)
      (fun t => by ring) (by ring)
  · simp [h1, h2, jac_comp hf hsd, jac_sign h2, jac_excite h2 h1, hf _ (hex _ _ hp), bind, Except.bind, pure, Except.pure,
      -neg_mul]
    exact hasDeriv_of_eq (hasDeriv_one (f (occSet sd)) (-(moveSign (occSet sd) w.q w.p) * f (insert w.p ((occSet sd).erase w.q))) θ)
      (fun t => by ring) (by ring)
  · simp only [h1, h2, decide_false, beq_self_eq_true, if_true, if_false]
    exact ⟨0, rfl, hasDerivAt_const _ _⟩

theorem derivRestricted_eq {w : Wfn ℝ} {f : Finset ℕ → ℝ} {sd : ℕ} (hn : w.nspin % 2 = 0)
    (hf : ∀ S ⊆ range w.nspin, w.comp (some (sdOf S)) = .ok (f S))
    (hsd : sd < 2 ^ w.nspin) (hp : w.p < w.nspatial) (hq : w.q < w.nspatial) (θ : ℝ) :
    ∃ d, w.derivRestricted (Real.cos θ) (Real.sin θ) sd = .ok d ∧ HasDerivAt (fun t => resValue (Real.cos t) (Real.sin t) w.p w.q w.nspatial f
      (occSet (sd % 2 ^ w.nspatial)) (occSet (sd / 2 ^ w.nspatial))) d θ := by
  have st := steps hn hf hsd
  simp only [Wfn.derivRestricted, splitSpin_ok (show 0 < w.nspatial by omega), bind, Except.bind, jac_occ]
  have sa := fun i j => @jac_sign (sd % 2 ^ w.nspatial) i j
  have sb := fun i j => @jac_sign (sd / 2 ^ w.nspatial) i j
  generalize occSet (sd % 2 ^ w.nspatial) = Sa at *
  generalize occSet (sd / 2 ^ w.nspatial) = Sb at *
  have hpp := st.alpha w.p w.q hp hq
  have hqq := st.alpha w.q w.p hq hp
  have gpp := st.beta w.p w.q hp hq
  have gqq := st.beta w.q w.p hq hp
  have b1 := st.both w.p w.q w.p w.q hp hq hp hq
  have b2 := st.both w.p w.q w.q w.p hp hq hq hp
  have b3 := st.both w.q w.p w.p w.q hq hp hp hq
  have b4 := st.both w.q w.p w.q w.p hq hp hq hp
  have sc := st.comp
  clear st hf
  simp only [resValue, rotTwo]
  set F := f (spinSet w.nspatial Sa Sb) with hF
  let A : ℕ → ℕ → ℝ := fun i j => moveSign Sa i j * f (spinSet w.nspatial (insert j (Sa.erase i)) Sb)
  let B : ℕ → ℕ → ℝ := fun i j => moveSign Sb i j * f (spinSet w.nspatial Sa (insert j (Sb.erase i)))
  let D : ℕ → ℕ → ℕ → ℕ → ℝ := fun i j k l =>
    moveSign Sa i j * moveSign Sb k l * f (spinSet w.nspatial (insert j (Sa.erase i)) (insert l (Sb.erase k)))
  by_cases h1 : w.p ∈ Sa <;> by_cases h2 : w.q ∈ Sa <;> by_cases h3 : w.p ∈ Sb <;> by_cases h4 : w.q ∈ Sb
  all_goals
    simp only [h1, h2, h3, h4, not_true_eq_false, not_false_eq_true, forall_true_left, IsEmpty.forall_iff] at hpp hqq gpp gqq b1 b2 b3 b4
    try obtain ⟨x1, hx1, hy1⟩ := hpp
    try obtain ⟨x2, hx2, hy2⟩ := hqq
    try obtain ⟨x3, hx3, hy3⟩ := gpp
    try obtain ⟨x4, hx4, hy4⟩ := gqq
    try obtain ⟨x5, hx5, hy5⟩ := b1
    try obtain ⟨x6, hx6, hy6⟩ := b2
    try obtain ⟨x7, hx7, hy7⟩ := b3
    try obtain ⟨x8, hx8, hy8⟩ := b4
    refine ⟨_, by simp [*, pure, Except.pure, -neg_mul] <;> rfl, ?_⟩
    simp only [h1, h2, h3, h4, if_true, if_false]
    first
    | exact hasDerivAt_const _ _
    | (refine hasDeriv_of_eq (hasDeriv_one F (A w.p w.q) θ) (fun t => ?_) ?_ <;> simp only [A, B, D, F] <;> ring1)
    | (refine hasDeriv_of_eq (hasDeriv_one F (-A w.q w.p) θ) (fun t => ?_) ?_ <;> simp only [A, B, D, F] <;> ring1)
    | (refine hasDeriv_of_eq (hasDeriv_one F (B w.p w.q) θ) (fun t => ?_) ?_ <;> simp only [A, B, D, F] <;> ring1)
    | (refine hasDeriv_of_eq (hasDeriv_one F (-B w.q w.p) θ) (fun t => ?_) ?_ <;> simp only [A, B, D, F] <;> ring1)
    | (refine hasDeriv_of_eq (hasDeriv_two F (A w.p w.q + B w.p w.q) (D w.p w.q w.p w.q) θ) (fun t => ?_) ?_ <;> simp only [A, B, D, F] <;> ring1)
    | (refine hasDeriv_of_eq (hasDeriv_two F (A w.p w.q - B w.q w.p) (-D w.p w.q w.q w.p) θ) (fun t => ?_) ?_ <;> simp only [A, B, D, F] <;> ring1)
    | (refine hasDeriv_of_eq (hasDeriv_two F (-A w.q w.p + B w.p w.q) (-D w.q w.p w.p w.q) θ) (fun t => ?_) ?_ <;> simp only [A, B, D, F] <;> ring1)
    | (refine hasDeriv_of_eq (hasDeriv_two F (-A w.q w.p - B w.q w.p) (D w.q w.p w.q w.p) θ) (fun t => ?_) ?_ <;> simp only [A, B, D, F] <;> ring1)

/-- The derivative for generalized and unrestricted orbitals is the derivative of the overlap in the angle, once for each index. -/
theorem C43_deriv_spin (w : Wfn ℝ) (hw : w.orbtype ≠ .restricted) (h : w.p < w.q) (hq : w.q < w.nspin) (f : Finset ℕ → ℝ)
    (hf : ∀ S ⊆ range w.nspin, w.comp (some (sdOf S)) = .ok (f S)) (θ : ℝ) (sd : ℕ) (hsd : sd < 2 ^ w.nspin) (k : ℕ) :
    ∃ d, w.overlapDeriv (Real.cos θ) (Real.sin θ) sd .self (List.replicate k 0) = .ok (List.replicate k d) ∧
      HasDerivAt (fun t => transform (givens (Real.cos t) (Real.sin t) w.p w.q) w.nspin f (occSet sd)) d θ := by
  obtain ⟨d, h1, h2⟩ := derivSpin_eq hf (h.trans hq) hq hsd θ
  refine ⟨d, ?_, hasDeriv_of_eq h2 (fun t => ?_) rfl⟩
  · simp [Wfn.overlapDeriv, Wfn.olpDeriv, hw, h1, bind, Except.bind, pure, Except.pure]
  · exact transform_givens (Real.cos_sq_add_sin_sq t) (h.trans hq) hq h.ne f (fun k hk => mem_range.2 ((lt_two_pow_iff.1 hsd) k hk))

/-- The derivative for restricted orbitals is the derivative of the overlap in the angle, once for each index. -/
theorem C43_deriv_restricted (w : Wfn ℝ) (hw : w.orbtype = .restricted) (hn : w.nspin % 2 = 0) (h : w.p < w.q)
    (hq : w.q < w.nspatial) (f : Finset ℕ → ℝ) (hf : ∀ S ⊆ range w.nspin, w.comp (some (sdOf S)) = .ok (f S)) (θ : ℝ) (sd : ℕ)
    (hsd : sd < 2 ^ w.nspin) (k : ℕ) :
    ∃ d, w.overlapDeriv (Real.cos θ) (Real.sin θ) sd .self (List.replicate k 0) = .ok (List.replicate k d) ∧
      HasDerivAt (fun t => transform (blockDiag w.nspatial w.nspatial (givens (Real.cos t) (Real.sin t) w.p w.q)
        (givens (Real.cos t) (Real.sin t) w.p w.q)) w.nspin f (occSet sd)) d θ := by
  obtain ⟨d, h1, h2⟩ := derivRestricted_eq hn hf hsd (h.trans hq) hq θ
  have hnn : w.nspin = w.nspatial + w.nspatial := by rw [Wfn.nspatial]; omega
  refine ⟨d, ?_, hasDeriv_of_eq h2 (fun t => ?_) rfl⟩
  · simp [Wfn.overlapDeriv, Wfn.olpDeriv, hw, h1, bind, Except.bind, pure, Except.pure]
  · rw [occSet_spinSet sd w.nspatial, hnn, transform_spin (Real.cos_sq_add_sin_sq t) (h.trans hq) hq h.ne f]
    · intro k hk
      exact mem_range.2 (lt_two_pow_iff.1 (Nat.mod_lt _ (by positivity)) k hk)
    · intro k hk
      refine mem_range.2 (lt_two_pow_iff.1 (Nat.div_lt_of_lt_mul ?_) k hk)
      rwa [← pow_add, ← hnn]

/-- The other calls with `deriv` raise: derivatives of another wavefunction, of the component, and indices other than zero. -/
theorem C43_deriv_error (w : Wfn R) (c s : R) (sd : ℕ) (inds : List ℤ) :
    w.overlapDeriv c s sd .other inds = .error .valueError ∧ w.overlapDeriv c s sd .comp inds = .error .notImplemented ∧
      ((∃ i ∈ inds, i ≠ 0) → w.overlapDeriv c s sd .self inds = .error .valueError) := by
  refine ⟨rfl, rfl, ?_⟩
  rintro ⟨i, hi, h0⟩
  simp only [Wfn.overlapDeriv]
  rw [if_pos]
  rw [Bool.or_eq_true, List.any_eq_true, List.any_eq_true]
  rcases lt_or_gt_of_ne h0 with h | h
  · exact Or.inl ⟨i, hi, by simpa using h⟩
  · exact Or.inr ⟨i, hi, by simp; omega⟩

/-- An exception of the component for the determinant itself is raised by the overlap. -/
theorem C43_component_error (w : Wfn R) (hn : 0 < w.nspatial) (c s : R) (sd : ℕ) (e : PyErr) (h : w.comp (some sd) = .error e) :
    w.overlap c s sd = .error e := by
  have hs : ∀ x i j, i ∈ occSet x → ∃ k, signSwap (some x) i j = .ok k := fun x i j hi => ⟨_, jac_sign hi⟩
  rw [Wfn.overlap]
  split_ifs with hr
  · simp only [Wfn.olpRestricted, splitSpin_ok hn, bind, Except.bind, jac_occ]
    have sa := fun i j => @jac_sign (sd % 2 ^ w.nspatial) i j
    have sb := fun i j => @jac_sign (sd / 2 ^ w.nspatial) i j
    generalize occSet (sd % 2 ^ w.nspatial) = Sa at *
    generalize occSet (sd / 2 ^ w.nspatial) = Sb at *
    by_cases h1 : w.p ∈ Sa <;> by_cases h2 : w.q ∈ Sa <;> by_cases h3 : w.p ∈ Sb <;> by_cases h4 : w.q ∈ Sb <;>
      simp [h, h1, h2, h3, h4, sa, sb]
  · simp only [Wfn.olpSpin, jac_occ, bind, Except.bind]
    by_cases h1 : w.p ∈ occSet sd <;> by_cases h2 : w.q ∈ occSet sd <;> simp [h, h1, h2, jac_sign]

/-! ## A case -/

/-- a component whose coefficients are the numbers of the determinants -/
def jacExample (t : OrbType) (p q : ℕ) : Wfn ℚ := ⟨4, t, p, q, fun d => .ok (d.getD 0 : ℕ)⟩

example : (jacExample .restricted 0 1).overlap (3 / 5) (4 / 5) 5 = .ok (9 / 25 * 5 + 12 / 25 * (6 + 9) + 16 / 25 * 10) := by
  decide +kernel

example : (∀ S ⊆ range 4, (jacExample .restricted 0 1).comp (some (sdOf S)) = .ok ((sdOf S : ℕ) : ℚ)) ∧
    (3 / 5 : ℚ) ^ 2 + (4 / 5) ^ 2 = 1 := ⟨fun _ _ => rfl, by norm_num⟩

end Fanpy.Props
