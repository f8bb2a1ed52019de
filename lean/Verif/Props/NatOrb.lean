import Verif.Lemmas.NatOrb
import Verif.Props.CIRdm

/-!
# C94: natural orbitals of the CI wavefunctions

`scipy.linalg.eigh` and `np.argsort` are assumed to do what they are documented to do (`EighOk`, `ArgsortOk`).
-/

set_option linter.unusedSimpArgs false
set_option linter.unusedSectionVars false

namespace Fanpy.Props
open Fanpy.CI Fanpy.Slater Fanpy.Spec Fanpy.Lemmas Fanpy.Lemmas.NatOrb Fanpy.NatOrb

/-- the squared norm of the vector is the sum of the squares of the parameters -/
theorem inner_ciVec {R : Type} [CommRing R] {w : Wfn R} (hw : Fresh w) :
    Spec.inner (ciVec w.params w.sds) (ciVec w.params w.sds) = (w.params.map fun c => c * c).sum := by
  have hv : ciVec w.params w.sds = vecOf (w.params.zip w.sds) := rfl
  have e := inner_vecOf (w.params.zip w.sds) (w.params.zip w.sds) (LinearMap.id (R := R) (M := Fock R))
  rw [LinearMap.id_apply] at e
  rw [hv, e]
  have hsnd : (w.params.zip w.sds).map Prod.snd = w.sds := List.map_snd_zip hw.2.2.1.ge
  have hfst : (w.params.zip w.sds).map Prod.fst = w.params := List.map_fst_zip hw.2.2.1.le
  conv_rhs => rw [← hfst, List.map_map]
  congr 1
  refine List.map_congr_left fun p hp => ?_
  have hs := sum_single ((w.params.zip w.sds).map Prod.swap) (by
    rw [List.map_map]
    have : (Prod.fst ∘ Prod.swap : R × ℕ → ℕ) = Prod.snd := rfl
    rw [this, hsnd]; exact hw.1)
    (fun t => if t = p.2 then p.1 else 0) p.2 (fun t ht => if_neg ht)
  have h5 := hs.1 p.1 (List.mem_map.2 ⟨p, hp, rfl⟩)
  rw [if_pos rfl, List.map_map] at h5
  simp only [Function.comp] at h5 ⊢
  rw [← h5]
  congr 1
  refine List.map_congr_left fun q _ => ?_
  rw [LinearMap.id_apply, ket, inner_single, ket, Finsupp.single_apply, one_mul]
  simp only [Function.comp, Prod.fst_swap, Prod.snd_swap]
  by_cases h6 : q.2 = p.2
  · rw [if_pos (by rw [h6]), if_pos h6]; ring
  · rw [if_neg fun h7 => h6 (occSet_injective h7), if_neg h6]; ring

theorem rdm1_symm {R : Type} [CommRing R] (v : Fock R) (i j : ℕ) : rdm1 v i j = rdm1 v j i := by
  rw [rdm1, rdm1, ← ann_adj, ← ann_adj, inner_comm]

/-- what is assumed of `eigh` -/
def EighSpec (eigh : ℕ → (ℕ → ℕ → ℝ) → List ℝ × (ℕ → ℕ → ℝ)) : Prop :=
  ∀ n m, (∀ i < n, ∀ j < n, m i j = m j i) → EighOk n m (eigh n m)

/-- One spin: orbitals `f 0, …, f (n - 1)`, occupations `occ`, orbitals in the columns of `v`. -/
structure SpinNO (Ψ : Fock ℝ) (n : ℕ) (f : ℕ → ℕ) (occ : List ℝ) (v : ℕ → ℕ → ℝ) : Prop where
  len : occ.length = n
  descending : occ.Pairwise (· ≥ ·)
  trace : occ.sum = ∑ i ∈ Finset.range n, rdm1 Ψ (f i) (f i)
  bounds : ∀ k < n, 0 ≤ occ.getD k 0 ∧ occ.getD k 0 ≤ Spec.inner Ψ Ψ
  ortho : ∀ k < n, ∀ l < n, ∑ i ∈ Finset.range n, v i k * v i l = if k = l then 1 else 0
  eigen : ∀ k < n, ∀ i < n, ∑ j ∈ Finset.range n, rdm1 Ψ (f i) (f j) * v j k = occ.getD k 0 * v i k
  /-- the density matrix in the basis of the natural orbitals is diagonal -/
  diag : ∀ k < n, ∀ l < n, ∑ i ∈ Finset.range n, ∑ j ∈ Finset.range n, v i k * rdm1 Ψ (f i) (f j) * v j l
    = if k = l then occ.getD k 0 else 0

theorem spinNO_of {eigh : ℕ → (ℕ → ℕ → ℝ) → List ℝ × (ℕ → ℕ → ℝ)} {argsort : List ℝ → List ℕ} (he : EighSpec eigh)
    (ha : ArgsortOk argsort) (Ψ : Fock ℝ) (n : ℕ) (f : ℕ → ℕ) (hf : Function.Injective f) (m : ℕ → ℕ → ℝ)
    (hm : ∀ i < n, ∀ j < n, m i j = rdm1 Ψ (f i) (f j)) :
    SpinNO Ψ n f (sortedEig eigh argsort n m).1 (sortedEig eigh argsort n m).2 := by
  have hs : ∀ i < n, ∀ j < n, m i j = m j i := fun i hi j hj => by rw [hm i hi j hj, hm j hj i hi, rdm1_symm]
  obtain ⟨h1, h2, h3, h4, h5⟩ := sorted_ok (he n m hs) ha
  have hE : ∀ k < n, ∀ i < n, ∑ j ∈ Finset.range n, rdm1 Ψ (f i) (f j) * (sortedEig eigh argsort n m).2 j k
      = (sortedEig eigh argsort n m).1.getD k 0 * (sortedEig eigh argsort n m).2 i k := by
    intro k hk i hi
    rw [← h5 k hk i hi]
    exact Finset.sum_congr rfl fun j hj => by rw [hm i hi j (Finset.mem_range.1 hj)]
  have hD : ∀ k < n, ∀ l < n, ∑ i ∈ Finset.range n, ∑ j ∈ Finset.range n,
      (sortedEig eigh argsort n m).2 i k * rdm1 Ψ (f i) (f j) * (sortedEig eigh argsort n m).2 j l
      = if k = l then (sortedEig eigh argsort n m).1.getD k 0 else 0 := by
    intro k hk l hl
    have : ∀ i ∈ Finset.range n, ∑ j ∈ Finset.range n,
        (sortedEig eigh argsort n m).2 i k * rdm1 Ψ (f i) (f j) * (sortedEig eigh argsort n m).2 j l
        = (sortedEig eigh argsort n m).1.getD l 0 * ((sortedEig eigh argsort n m).2 i k * (sortedEig eigh argsort n m).2 i l) := by
      intro i hi
      simp_rw [mul_assoc]
      rw [← Finset.mul_sum, hE l hl i (Finset.mem_range.1 hi)]
      ring
    rw [Finset.sum_congr rfl this, ← Finset.mul_sum, h4 k hk l hl]
    by_cases hkl : k = l
    · subst hkl; simp
    · simp [hkl]
  refine ⟨h1, h2, ?_, fun k hk => ?_, h4, hE, hD⟩
  · rw [h3]
    exact Finset.sum_congr rfl fun i hi => hm i (Finset.mem_range.1 hi) i (Finset.mem_range.1 hi)
  · have h6 := h4 k hk k hk
    rw [if_pos rfl] at h6
    have h7 := number_bounds (Finset.range n) f hf (fun i => (sortedEig eigh argsort n m).2 i k) h6 Ψ
    have h8 := hD k hk k hk
    rw [if_pos rfl] at h8
    simp only [h8] at h7
    exact h7

variable {eigh : ℕ → (ℕ → ℕ → ℝ) → List ℝ × (ℕ → ℕ → ℝ)} {argsort : List ℝ → List ℕ}

theorem natOrb_core (he : EighSpec eigh) (ha : ArgsortOk argsort) {w : Wfn ℝ} (hw : Fresh w) {n : ℕ} (hn : w.nspin = 2 * n) :
    ∃ oa ob va vb, SpinNO (ciVec w.params w.sds) n (fun i => i) oa va ∧ SpinNO (ciVec w.params w.sds) n (fun i => n + i) ob vb ∧
      ∀ mo, naturalOrbitals eigh argsort w mo = (do
        let a ← toAO n mo va
        let b ← toAO n mo vb
        return (oa ++ ob, fun r k => if k < n then a r k else b r (k - n))) := by
  obtain ⟨D, h1, h2⟩ := C58_rdm_partial hw
  have hn2 : w.nspin / 2 = n := by omega
  refine ⟨(sortedEig eigh argsort n D).1, (sortedEig eigh argsort n fun i j => D (n + i) (n + j)).1,
    (sortedEig eigh argsort n D).2, (sortedEig eigh argsort n fun i j => D (n + i) (n + j)).2, ?_, ?_, fun mo => ?_⟩
  · exact spinNO_of he ha _ n _ (fun a b h => h) D fun i _ j hj => h2 i j (by omega)
  · exact spinNO_of he ha _ n _ (fun a b h => by simpa using h) _ fun i _ j hj => h2 _ _ (by omega)
  · rw [naturalOrbitals, h1]
    simp only [hn2]
    rfl

/-- C94: in the basis of the molecular orbitals.  The first half of the occupations and the first half of the columns belong to the alpha
orbitals, the second half to the beta orbitals.  For each spin the occupations descend, lie between 0 and the squared norm of the
wavefunction, and the columns are orthonormal eigenvectors of the block of the density matrix of this spin. -/
theorem C94_natural_partial (he : EighSpec eigh) (ha : ArgsortOk argsort) {w : Wfn ℝ} (hw : Fresh w) {n : ℕ} (hn : w.nspin = 2 * n) :
    ∃ occ orb, naturalOrbitals eigh argsort w none = .ok (occ, orb) ∧ occ.length = w.nspin ∧
      SpinNO (ciVec w.params w.sds) n (fun i => i) (occ.take n) (fun r k => orb r k) ∧
      SpinNO (ciVec w.params w.sds) n (fun i => n + i) (occ.drop n) (fun r k => orb r (n + k)) ∧
      ∀ o ∈ occ, 0 ≤ o ∧ o ≤ (w.params.map fun c => c * c).sum := by
  obtain ⟨oa, ob, va, vb, h1, h2, h3⟩ := natOrb_core he ha hw hn
  refine ⟨oa ++ ob, fun r k => if k < n then va r k else vb r (k - n), ?_, ?_, ?_, ?_, ?_⟩
  · rw [h3]; rfl
  · rw [List.length_append, h1.len, h2.len]; omega
  · rw [List.take_append_of_le_length h1.len.ge, List.take_of_length_le h1.len.le]
    refine ⟨h1.len, h1.descending, h1.trace, h1.bounds, fun k hk l hl => ?_, fun k hk i hi => ?_, fun k hk l hl => ?_⟩
    · simp only [hk, hl, if_true]; exact h1.ortho k hk l hl
    · simp only [hk, if_true]; exact h1.eigen k hk i hi
    · simp only [hk, hl, if_true]; exact h1.diag k hk l hl
  · have : (oa ++ ob).drop n = ob := by rw [← h1.len, List.drop_left]
    rw [this]
    have hif : ∀ k, ¬ n + k < n := fun k => by omega
    refine ⟨h2.len, h2.descending, h2.trace, h2.bounds, fun k hk l hl => ?_, fun k hk i hi => ?_, fun k hk l hl => ?_⟩
    · simp only [hif, if_false, Nat.add_sub_cancel_left]; exact h2.ortho k hk l hl
    · simp only [hif, if_false, Nat.add_sub_cancel_left]; exact h2.eigen k hk i hi
    · simp only [hif, if_false, Nat.add_sub_cancel_left]; exact h2.diag k hk l hl
  · rw [← inner_ciVec hw]
    intro o ho
    rcases List.mem_append.1 ho with ho | ho
    · obtain ⟨k, hk, rfl⟩ := List.getElem_of_mem ho
      have := h1.bounds k (by rw [← h1.len]; exact hk)
      rwa [List.getD_eq_getElem _ _ hk] at this
    · obtain ⟨k, hk, rfl⟩ := List.getElem_of_mem ho
      have := h2.bounds k (by rw [← h2.len]; exact hk)
      rwa [List.getD_eq_getElem _ _ hk] at this

/-- C94: the occupations sum to the number of electrons times the squared norm. -/
theorem C94_sum_partial (he : EighSpec eigh) (ha : ArgsortOk argsort) {w : Wfn ℝ} (hw : Fresh w) {n : ℕ} (hn : w.nspin = 2 * n)
    (hN : ∀ x ∈ w.sds, (occSet x).card = w.nelec) :
    ∃ occ orb, naturalOrbitals eigh argsort w none = .ok (occ, orb) ∧ occ.sum = w.nelec * (w.params.map fun c => c * c).sum := by
  obtain ⟨oa, ob, va, vb, h1, h2, h3⟩ := natOrb_core he ha hw hn
  refine ⟨oa ++ ob, _, by rw [h3]; rfl, ?_⟩
  rw [List.sum_append, h1.trace, h2.trace, ← Finset.sum_range_add, ← two_mul, ← hn, ← inner_ciVec hw]
  exact rdm1_trace w.nspin w.nelec _ fun p hp =>
    ⟨hw.2.2.2 _ (List.of_mem_zip hp).2, hN _ (List.of_mem_zip hp).2⟩

/-- C94: with orbitals `C` given, column `k` is `C` times the natural orbital, and the columns of a spin are orthonormal in the metric `S`
in which the given orbitals are.  The occupations are the same. -/
theorem C94_ao_partial (he : EighSpec eigh) (ha : ArgsortOk argsort) {w : Wfn ℝ} (hw : Fresh w) {n : ℕ} (hn : w.nspin = 2 * n)
    (c : Arr ℝ) (hc : c.cols = n) (hr : c.rows = n) :
    ∃ occ orb orb', naturalOrbitals eigh argsort w none = .ok (occ, orb) ∧ naturalOrbitals eigh argsort w (some c) = .ok (occ, orb') ∧
      (∀ r k, orb' r k = ∑ i ∈ Finset.range n, c.get r i * orb i k) ∧
      ∀ S : ℕ → ℕ → ℝ, (∀ i < n, ∀ j < n, ∑ p ∈ Finset.range n, ∑ q ∈ Finset.range n, c.get p i * S p q * c.get q j = if i = j then 1 else 0) →
        ∀ o, o = 0 ∨ o = n → ∀ k < n, ∀ l < n,
          ∑ p ∈ Finset.range n, ∑ q ∈ Finset.range n, orb' p (o + k) * S p q * orb' q (o + l) = if k = l then 1 else 0 := by
  obtain ⟨oa, ob, va, vb, h1, h2, h3⟩ := natOrb_core he ha hw hn
  have hsum : ∀ (f : ℕ → ℝ), ((List.range n).map f).sum = ∑ i ∈ Finset.range n, f i := fun f => by
    rw [Finset.sum_range, ← List.sum_ofFn]; congr 1
    apply List.ext_getElem <;> simp
  have key : ∀ v : ℕ → ℕ → ℝ, (∀ k < n, ∀ l < n, ∑ i ∈ Finset.range n, v i k * v i l = if k = l then 1 else 0) →
      ∀ S : ℕ → ℕ → ℝ, (∀ i < n, ∀ j < n, ∑ p ∈ Finset.range n, ∑ q ∈ Finset.range n, c.get p i * S p q * c.get q j = if i = j then 1 else 0) →
      ∀ k < n, ∀ l < n, ∑ p ∈ Finset.range n, ∑ q ∈ Finset.range n,
        (∑ i ∈ Finset.range n, c.get p i * v i k) * S p q * (∑ j ∈ Finset.range n, c.get q j * v j l) = if k = l then 1 else 0 := by
    intro v hv S hS k hk l hl
    have e : ∀ p q, (∑ i ∈ Finset.range n, c.get p i * v i k) * S p q * (∑ j ∈ Finset.range n, c.get q j * v j l)
        = ∑ i ∈ Finset.range n, ∑ j ∈ Finset.range n, v i k * v j l * (c.get p i * S p q * c.get q j) := by
      intro p q
      rw [Finset.sum_mul, Finset.sum_mul]
      refine Finset.sum_congr rfl fun i _ => ?_
      rw [Finset.mul_sum]
      exact Finset.sum_congr rfl fun j _ => by ring
    simp_rw [e]
    have e2 : ∑ p ∈ Finset.range n, ∑ q ∈ Finset.range n, ∑ i ∈ Finset.range n, ∑ j ∈ Finset.range n,
        v i k * v j l * (c.get p i * S p q * c.get q j) = ∑ i ∈ Finset.range n, ∑ j ∈ Finset.range n, v i k * v j l *
        ∑ p ∈ Finset.range n, ∑ q ∈ Finset.range n, c.get p i * S p q * c.get q j := by
      simp_rw [Finset.mul_sum]
      rw [Finset.sum_congr rfl fun p _ => Finset.sum_comm, Finset.sum_comm]
      refine Finset.sum_congr rfl fun i _ => ?_
      rw [Finset.sum_congr rfl fun p _ => Finset.sum_comm, Finset.sum_comm]
    rw [e2]
    rw [Finset.sum_congr rfl fun i hi => Finset.sum_congr rfl fun j hj => by rw [hS i (Finset.mem_range.1 hi) j (Finset.mem_range.1 hj)]]
    rw [← hv k hk l hl]
    refine Finset.sum_congr rfl fun i hi => ?_
    simp only [mul_ite, mul_one, mul_zero]
    rw [Finset.sum_ite_eq, if_pos hi]
  have ht : ∀ v, toAO n (some c) v = .ok fun r k => ∑ i ∈ Finset.range n, c.get r i * v i k := by
    intro v
    simp only [toAO, hc, hr, ne_eq, not_true, if_false, if_true, hsum]
  refine ⟨oa ++ ob, fun r k => if k < n then va r k else vb r (k - n),
    fun r k => if k < n then ∑ i ∈ Finset.range n, c.get r i * va i k else ∑ i ∈ Finset.range n, c.get r i * vb i (k - n), by rw [h3]; rfl,
    by rw [h3, ht, ht]; rfl, fun r k => ?_, fun S hS o ho k hk l hl => ?_⟩
  · by_cases hk : k < n <;> simp only [hk, if_true, if_false]
  · rcases ho with rfl | rfl
    · simp only [Nat.zero_add, hk, hl, if_true]
      exact key va h1.ortho S hS k hk l hl
    · have hif : ∀ k, ¬ o + k < o := fun k => by omega
      simp only [hif, if_false, Nat.add_sub_cancel_left]
      exact key vb h2.ortho S hS k hk l hl

/-- C94: the shapes of the given orbitals that raise.  In particular orbitals that are fewer than the functions they are expanded in. -/
theorem C94_shape (he : EighSpec eigh) (ha : ArgsortOk argsort) {w : Wfn ℝ} (hw : Fresh w) {n : ℕ} (hn : w.nspin = 2 * n) (c : Arr ℝ) :
    naturalOrbitals eigh argsort w (some c) = .error .valueError ↔ c.cols ≠ n ∨ (c.rows ≠ n ∧ c.rows ≠ 1) := by
  obtain ⟨oa, ob, va, vb, h1, h2, h3⟩ := natOrb_core he ha hw hn
  rw [h3]
  by_cases h4 : c.cols = n
  · by_cases h5 : c.rows = n
    · simp [toAO, h4, h5, bind, Except.bind, pure, Except.pure]
    · by_cases h6 : c.rows = 1
      · have : (1 : ℕ) ≠ n := fun h => h5 (h6.trans h)
        simp [toAO, h4, h6, this, bind, Except.bind, pure, Except.pure]
      · simp [toAO, h4, h5, h6, bind, Except.bind, pure, Except.pure]
  · simp [toAO, h4, bind, Except.bind, pure, Except.pure]

/-- the density matrix does not mix the spins if all determinants have the same number of alpha electrons -/
theorem rdm1_spin {R : Type} [CommRing R] {coeffs : List R} {sds : List ℕ} {n na : ℕ}
    (h : ∀ x ∈ sds, ((occSet x).filter (· < n)).card = na) {i j : ℕ} (hi : i < n) (hj : n ≤ j) :
    rdm1 (ciVec coeffs sds) i j = 0 := by
  have hv : ciVec coeffs sds = vecOf (coeffs.zip sds) := rfl
  have e := inner_vecOf (coeffs.zip sds) (coeffs.zip sds) (creOp (R := R) i ∘ₗ annOp j)
  rw [hv, rdm1]
  refine e.trans (List.sum_eq_zero fun x hx => ?_)
  obtain ⟨p, hp, rfl⟩ := List.mem_map.1 hx
  refine List.sum_eq_zero fun x hx => ?_
  obtain ⟨q, hq, rfl⟩ := List.mem_map.1 hx
  have : oneME R (occSet p.2) (occSet q.2) i j = 0 := by
    rw [oneME_eq, if_neg]
    rintro ⟨h1, h2, h3⟩
    have h4 := congrArg (fun s : Finset ℕ => (s.filter (· < n)).card) h3
    simp only [Finset.filter_erase] at h4
    rw [Finset.card_erase_of_mem (Finset.mem_filter.2 ⟨h1, hi⟩), Finset.erase_eq_of_notMem (by
      rw [Finset.mem_filter]; omega), h _ (List.of_mem_zip hp).2, h _ (List.of_mem_zip hq).2] at h4
    have : 0 < ((occSet p.2).filter (· < n)).card := Finset.card_pos.2 ⟨i, Finset.mem_filter.2 ⟨h1, hi⟩⟩
    rw [h _ (List.of_mem_zip hp).2] at this
    omega
  rw [LinearMap.comp_apply]
  rw [oneME] at this
  rw [this, mul_zero]

/-- C94: if all determinants have the same number of alpha electrons, the columns are eigenvectors of the whole density matrix (padded with
zeros for the other spin). -/
theorem C94_whole_partial (he : EighSpec eigh) (ha : ArgsortOk argsort) {w : Wfn ℝ} (hw : Fresh w) {n na : ℕ} (hn : w.nspin = 2 * n)
    (hs : ∀ x ∈ w.sds, ((occSet x).filter (· < n)).card = na) :
    ∃ occ orb, naturalOrbitals eigh argsort w none = .ok (occ, orb) ∧ ∀ k < w.nspin, ∀ p < w.nspin,
      ∑ q ∈ Finset.range w.nspin, rdm1 (ciVec w.params w.sds) p q *
        (if q < n ∧ k < n then orb q k else if n ≤ q ∧ n ≤ k then orb (q - n) k else 0)
      = occ.getD k 0 * (if p < n ∧ k < n then orb p k else if n ≤ p ∧ n ≤ k then orb (p - n) k else 0) := by
  obtain ⟨oa, ob, va, vb, h1, h2, h3⟩ := natOrb_core he ha hw hn
  refine ⟨oa ++ ob, fun r k => if k < n then va r k else vb r (k - n), by rw [h3]; rfl, fun k hk p hp => ?_⟩
  have hz : ∀ i < n, ∀ j, n ≤ j → rdm1 (ciVec w.params w.sds) i j = 0 := fun i hi j hj => rdm1_spin hs hi hj
  have hz' : ∀ i < n, ∀ j, n ≤ j → rdm1 (ciVec w.params w.sds) j i = 0 := fun i hi j hj => by rw [rdm1_symm]; exact hz i hi j hj
  rw [hn, two_mul, Finset.sum_range_add]
  have hif : ∀ k, ¬ n + k < n := fun k => by omega
  by_cases hk1 : k < n
  · have hk2 : ¬ n ≤ k := by omega
    rw [List.getD_append _ _ _ _ (by rw [h1.len]; exact hk1)]
    simp only [hk1, hk2, and_true, and_false, if_false, hif, mul_zero, Finset.sum_const_zero, add_zero, if_true]
    rw [Finset.sum_congr rfl fun q hq => by rw [if_pos (Finset.mem_range.1 hq)]]
    by_cases hp1 : p < n
    · rw [if_pos hp1]; exact h1.eigen k hk1 p hp1
    · rw [if_neg hp1, mul_zero]
      exact Finset.sum_eq_zero fun q hq => by rw [hz' q (Finset.mem_range.1 hq) p (by omega), zero_mul]
  · have hk2 : n ≤ k := by omega
    rw [List.getD_append_right _ _ _ _ (by rw [h1.len]; exact hk2), h1.len]
    simp only [hk1, hk2, and_true, and_false, if_false, Nat.le_add_right, if_true, Nat.add_sub_cancel_left]
    rw [Finset.sum_eq_zero, zero_add]
    · by_cases hp1 : n ≤ p
      · rw [if_pos hp1]
        have := h2.eigen (k - n) (by omega) (p - n) (by omega)
        rw [show n + (p - n) = p by omega] at this
        exact this
      · rw [if_neg hp1, mul_zero]
        exact Finset.sum_eq_zero fun q _ => by rw [hz p (by omega) (n + q) (by omega), zero_mul]
    · intro q hq
      have := Finset.mem_range.1 hq
      rw [if_neg (by omega), mul_zero]

/-- one electron in an alpha and a beta orbital -/
noncomputable def mixedW : Wfn ℝ := ⟨1, 2, none, none, [0b01, 0b10], dictOf [0b01, 0b10], [1, 1]⟩

theorem mixedW_fresh : Fresh mixedW := ⟨by decide, rfl, rfl, by decide⟩

theorem mixedW_rdm {i j : ℕ} (hi : i < 2) (hj : j < 2) : rdm1 (ciVec mixedW.params mixedW.sds) i j = 1 := by
  have e := inner_vecOf (mixedW.params.zip mixedW.sds) (mixedW.params.zip mixedW.sds) (creOp (R := ℝ) i ∘ₗ annOp j)
  have o1 : occSet 0b01 = {0} := by decide
  have o2 : occSet 0b10 = {1} := by decide
  have hm : ∀ a b : ℕ, Spec.inner (ket {a}) ((creOp (R := ℝ) i ∘ₗ annOp j) (ket {b})) = if i = a ∧ j = b then 1 else 0 := by
    intro a b
    have := oneME_eq (R := ℝ) {a} {b} i j
    rw [oneME] at this
    rw [LinearMap.comp_apply, this]
    by_cases hh : i = a ∧ j = b
    · obtain ⟨rfl, rfl⟩ := hh
      rw [if_pos (by simp), if_pos ⟨rfl, rfl⟩]
      simp [phase, Finset.filter_singleton]
    · rw [if_neg (by simp only [Finset.mem_singleton]; tauto), if_neg hh]
  change Spec.inner (vecOf (mixedW.params.zip mixedW.sds)) _ = 1
  refine e.trans ?_
  simp only [mixedW, List.zip_cons_cons, List.zip_nil_right, List.map_cons, List.map_nil, List.sum_cons, List.sum_nil, o1, o2, hm]
  interval_cases i <;> interval_cases j <;> norm_num

/-- C94 (disagreement): a wavefunction with determinants of different spin.  The occupations that are returned are 1 and 1, though no orbital
has occupation 1: the eigenvalues of the density matrix are 2 and 0. -/
theorem C94_mixed (he : EighSpec eigh) (ha : ArgsortOk argsort) :
    (∃ orb, naturalOrbitals eigh argsort mixedW none = .ok ([1, 1], orb)) ∧
    ∀ (o : ℝ) (x : ℕ → ℝ), (∃ i < 2, x i ≠ 0) →
      (∀ i < 2, ∑ j ∈ Finset.range 2, rdm1 (ciVec mixedW.params mixedW.sds) i j * x j = o * x i) → o = 2 ∨ o = 0 := by
  constructor
  · obtain ⟨occ, orb, h1, h2, h3, h4, -⟩ := C94_natural_partial he ha mixedW_fresh (n := 1) rfl
    refine ⟨orb, ?_⟩
    rw [h1]
    have e3 := h3.trace
    have e4 := h4.trace
    rw [Finset.sum_range_one, mixedW_rdm (by norm_num) (by norm_num)] at e3 e4
    have h2' : occ.length = 2 := h2
    match occ, h2' with
    | [a, b], _ =>
      simp only [List.take_succ_cons, List.take_zero, List.drop_succ_cons, List.drop_zero, List.sum_cons, List.sum_nil, add_zero] at e3 e4
      rw [e3, e4]
  · intro o x ⟨i, hi, hx⟩ h
    have e0 := h 0 (by norm_num)
    have e1 := h 1 (by norm_num)
    rw [Finset.sum_range_succ, Finset.sum_range_one, mixedW_rdm (by norm_num) (by norm_num), mixedW_rdm (by norm_num) (by norm_num)] at e0 e1
    by_cases ho : o = 0
    · exact Or.inr ho
    left
    have e2 : x 0 = x 1 := mul_left_cancel₀ ho (by rw [← e0, ← e1])
    have hx0 : x 0 ≠ 0 := by interval_cases i <;> [exact hx; exact e2 ▸ hx]
    rw [← e2] at e0
    exact (mul_right_cancel₀ hx0 (by linarith : 2 * x 0 = o * x 0)).symm

-- two electrons in four spin orbitals, one of each spin: the hypotheses can be met, and the occupations are not all trivial
noncomputable def natW : Wfn ℝ := ⟨2, 4, none, none, [0b0101, 0b1010], dictOf [0b0101, 0b1010], [3, 4]⟩

theorem natW_ok : Fresh natW ∧ (∀ x ∈ natW.sds, (occSet x).card = natW.nelec) ∧ ∀ x ∈ natW.sds, ((occSet x).filter (· < 2)).card = 1 :=
  ⟨⟨by decide, rfl, rfl, by decide⟩, by decide, by decide⟩

example : ∃ eigh argsort, ∃ occ orb, naturalOrbitals eigh argsort natW none = .ok (occ, orb) ∧ occ.length = 4 ∧ occ.sum = 50 ∧
    ∀ o ∈ occ, 0 ≤ o ∧ o ≤ 25 := by
  obtain ⟨eigh, he⟩ := eigh_exists
  obtain ⟨argsort, ha⟩ := argsort_exists
  obtain ⟨occ, orb, h1, h2, -, -, h3⟩ := C94_natural_partial he ha natW_ok.1 (n := 2) rfl
  obtain ⟨occ', orb', h1', h4⟩ := C94_sum_partial he ha natW_ok.1 (n := 2) rfl natW_ok.2.1
  have h5 := h1.symm.trans h1'
  simp only [Except.ok.injEq, Prod.mk.injEq] at h5
  refine ⟨eigh, argsort, occ, orb, h1, h2, ?_, ?_⟩
  · rw [h5.1, h4]; norm_num [natW]
  · intro o ho
    obtain ⟨h6, h7⟩ := h3 o ho
    refine ⟨h6, h7.trans ?_⟩
    norm_num [natW]

-- orbitals given in a larger basis raise
example : ∃ eigh argsort, naturalOrbitals eigh argsort natW (some ⟨3, 2, fun _ _ => 1⟩) = .error .valueError := by
  obtain ⟨eigh, he⟩ := eigh_exists
  obtain ⟨argsort, ha⟩ := argsort_exists
  exact ⟨eigh, argsort, (C94_shape he ha natW_ok.1 (n := 2) rfl _).2 (Or.inr ⟨by norm_num, by norm_num⟩)⟩

end Fanpy.Props
