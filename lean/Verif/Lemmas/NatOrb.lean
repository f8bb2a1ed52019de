import Mathlib.LinearAlgebra.Matrix.NonsingularInverse
import Mathlib.LinearAlgebra.Matrix.Trace
import Mathlib.Data.Real.Basic
import Mathlib.Analysis.Matrix.Spectrum
import Mathlib.Tactic.Linarith
import Verif.Lemmas.DensityPairs
import Verif.Model.NatOrb
import Verif.Spec.Density

/-! # Bounds of occupation numbers, and eigenvectors -/

namespace Fanpy.Lemmas.NatOrb
open Fanpy.Spec Fanpy.NatOrb Fanpy.Lemmas

section
variable {R : Type} [CommRing R]

theorem inner_comm (u v : Fock R) : Spec.inner u v = Spec.inner v u := by
  induction u using Finsupp.induction_linear with
  | zero => rw [inner_zero_left, inner_zero_right]
  | add a b ha hb => rw [inner_add_left, inner_add_right, ha, hb]
  | single s c =>
    induction v using Finsupp.induction_linear with
    | zero => rw [inner_zero_left, inner_zero_right]
    | add a b ha hb => rw [inner_add_left, inner_add_right, ha, hb]
    | single t d =>
      rw [inner_single, inner_single, Finsupp.single_apply, Finsupp.single_apply]
      by_cases h : s = t
      · subst h; simp [mul_comm]
      · rw [if_neg h, if_neg (Ne.symm h)]; simp

theorem ann_adj (i : ℕ) (u v : Fock R) : Spec.inner (annOp i u) v = Spec.inner u (creOp i v) := by
  induction u using Finsupp.induction_linear with
  | zero => rw [map_zero, inner_zero_left, inner_zero_left]
  | add a b ha hb => rw [map_add, inner_add_left, inner_add_left, ha, hb]
  | single s c =>
    induction v using Finsupp.induction_linear with
    | zero => rw [map_zero, inner_zero_right, inner_zero_right]
    | add a b ha hb => rw [map_add, inner_add_right, inner_add_right, ha, hb]
    | single t d => exact annOp_adjoint i s t c d

theorem cre_adj (i : ℕ) (u v : Fock R) : Spec.inner (creOp i u) v = Spec.inner u (annOp i v) := by
  rw [inner_comm, ← ann_adj, inner_comm]

theorem inner_sum_left {ι : Type} (s : Finset ι) (f : ι → Fock R) (u : Fock R) :
    Spec.inner (∑ i ∈ s, f i) u = ∑ i ∈ s, Spec.inner (f i) u := by
  rw [inner_comm, inner_sum_right]
  exact Finset.sum_congr rfl fun i _ => inner_comm _ _

/-- the expectation value of the number of electrons in the orbital `∑ x i |f i⟩` -/
theorem number_eq (s : Finset ℕ) (f : ℕ → ℕ) (x : ℕ → R) (v : Fock R) :
    Spec.inner (∑ i ∈ s, x i • annOp (f i) v) (∑ i ∈ s, x i • annOp (f i) v) = ∑ i ∈ s, ∑ j ∈ s, x i * rdm1 v (f i) (f j) * x j := by
  rw [inner_sum_left]
  refine Finset.sum_congr rfl fun i _ => ?_
  rw [inner_sum_right]
  refine Finset.sum_congr rfl fun j _ => ?_
  rw [inner_smul_left, inner_smul_right, ann_adj, rdm1]
  ring

/-- the expectation value of the number of holes -/
theorem hole_eq (s : Finset ℕ) (f : ℕ → ℕ) (hf : Function.Injective f) (x : ℕ → R) (v : Fock R) :
    Spec.inner (∑ i ∈ s, x i • creOp (f i) v) (∑ i ∈ s, x i • creOp (f i) v) =
      (∑ i ∈ s, x i * x i) * Spec.inner v v - ∑ i ∈ s, ∑ j ∈ s, x i * rdm1 v (f i) (f j) * x j := by
  have e : ∀ i ∈ s, ∀ j ∈ s, Spec.inner (x i • creOp (f i) v) (x j • creOp (f j) v) =
      (if i = j then x i * x j * Spec.inner v v else 0) - x j * rdm1 v (f j) (f i) * x i := by
    intro i _ j _
    have h := car_ann_cre (f i) (f j) v
    have h2 : annOp (f i) (creOp (f j) v) = (if f i = f j then v else 0) - creOp (f j) (annOp (f i) v) := by
      rw [← h, add_sub_cancel_right]
    rw [inner_smul_left, inner_smul_right, cre_adj, h2, rdm1]
    have h3 : Spec.inner v ((if f i = f j then v else 0) - creOp (f j) (annOp (f i) v)) =
        (if i = j then Spec.inner v v else 0) - Spec.inner v (creOp (f j) (annOp (f i) v)) := by
      rw [sub_eq_add_neg, inner_add_right, ← neg_one_smul R, inner_smul_right]
      by_cases hij : i = j
      · subst hij; simp [sub_eq_add_neg]
      · rw [if_neg (fun hh => hij (hf hh)), if_neg hij, inner_zero_right]; ring
    rw [h3]
    split_ifs <;> ring
  rw [inner_sum_left]
  simp_rw [inner_sum_right]
  rw [Finset.sum_congr rfl fun i hi => Finset.sum_congr rfl fun j hj => e i hi j hj]
  simp only [Finset.sum_sub_distrib]
  congr 1
  · rw [Finset.sum_mul]
    refine Finset.sum_congr rfl fun i hi => ?_
    rw [Finset.sum_ite_eq, if_pos hi]
  · rw [Finset.sum_comm]

end

theorem inner_self_nonneg (v : Fock ℝ) : 0 ≤ Spec.inner v v :=
  Finset.sum_nonneg fun s _ => mul_self_nonneg (v s)

/-- Pauli: the occupation of a normalized orbital is between 0 and the squared norm. -/
theorem number_bounds (s : Finset ℕ) (f : ℕ → ℕ) (hf : Function.Injective f) (x : ℕ → ℝ) (hx : ∑ i ∈ s, x i * x i = 1) (v : Fock ℝ) :
    0 ≤ ∑ i ∈ s, ∑ j ∈ s, x i * rdm1 v (f i) (f j) * x j ∧ ∑ i ∈ s, ∑ j ∈ s, x i * rdm1 v (f i) (f j) * x j ≤ Spec.inner v v := by
  constructor
  · rw [← number_eq]; exact inner_self_nonneg _
  · have h := inner_self_nonneg (∑ i ∈ s, x i • creOp (f i) v)
    rw [hole_eq s f hf, hx, one_mul] at h
    linarith

/-! ## Eigenvectors -/

/-- what `scipy.linalg.eigh` is documented to return for a symmetric matrix (the order of the eigenvalues is not used) -/
structure EighOk (n : ℕ) (m : ℕ → ℕ → ℝ) (r : List ℝ × (ℕ → ℕ → ℝ)) : Prop where
  len : r.1.length = n
  ortho : ∀ k < n, ∀ l < n, ∑ i ∈ Finset.range n, r.2 i k * r.2 i l = if k = l then 1 else 0
  eigen : ∀ k < n, ∀ i < n, ∑ j ∈ Finset.range n, m i j * r.2 j k = r.1.getD k 0 * r.2 i k

/-- what `np.argsort` is documented to return -/
def ArgsortOk (f : List ℝ → List ℕ) : Prop :=
  ∀ l, (f l).Perm (List.range l.length) ∧ ((f l).map fun i => l.getD i 0).Pairwise (· ≤ ·)

/-- there is such a function (the spectral theorem) -/
theorem eigh_exists : ∃ eigh : ℕ → (ℕ → ℕ → ℝ) → List ℝ × (ℕ → ℕ → ℝ),
    ∀ n m, (∀ i < n, ∀ j < n, m i j = m j i) → EighOk n m (eigh n m) := by
  have : ∀ n m, ∃ r : List ℝ × (ℕ → ℕ → ℝ), (∀ i < n, ∀ j < n, m i j = m j i) → EighOk n m r := by
    intro n m
    by_cases hs : ∀ i < n, ∀ j < n, m i j = m j i
    swap
    · exact ⟨([], fun _ _ => 0), fun h => absurd h hs⟩
    have hA : (Matrix.of fun i j : Fin n => m i j).IsHermitian := by
      ext i j
      rw [Matrix.conjTranspose_apply, Matrix.of_apply, Matrix.of_apply, star_trivial]
      exact hs j j.2 i i.2
    refine ⟨(List.ofFn hA.eigenvalues, fun i k => if h : i < n ∧ k < n then hA.eigenvectorBasis ⟨k, h.2⟩ ⟨i, h.1⟩ else 0), fun _ => ?_⟩
    refine ⟨List.length_ofFn, fun k hk l hl => ?_, fun k hk i hi => ?_⟩
    · have h := (orthonormal_iff_ite.1 hA.eigenvectorBasis.orthonormal) ⟨k, hk⟩ ⟨l, hl⟩
      rw [PiLp.inner_apply] at h
      rw [Finset.sum_range]
      simp only [Fin.is_lt, hk, hl, and_self, dite_true]
      simp only [Fin.mk.injEq] at h
      rw [← h]
      refine Finset.sum_congr rfl fun i _ => ?_
      simp [mul_comm]
    · have h := congrFun (hA.mulVec_eigenvectorBasis ⟨k, hk⟩) ⟨i, hi⟩
      rw [Finset.sum_range]
      simp only [Fin.is_lt, hk, hi, and_self, dite_true]
      rw [Matrix.mulVec, dotProduct, Pi.smul_apply, smul_eq_mul] at h
      simp only [Matrix.of_apply] at h
      rw [List.getD_eq_getElem _ _ (by rw [List.length_ofFn]; exact hk), List.getElem_ofFn]
      exact h
  choose f hf using this
  exact ⟨f, hf⟩

/-- sorting exists -/
theorem argsort_exists : ∃ f, ArgsortOk f := by
  refine ⟨fun l => (List.range l.length).mergeSort fun i j => decide (l.getD i 0 ≤ l.getD j 0), fun l => ⟨List.mergeSort_perm _ _, ?_⟩⟩
  have := List.pairwise_mergeSort (le := fun i j => decide (l.getD i 0 ≤ l.getD j 0))
    (fun a b c h1 h2 => by simp only [decide_eq_true_eq] at *; exact h1.trans h2)
    (fun a b => by simp only [Bool.or_eq_true, decide_eq_true_eq]; exact le_total _ _) (List.range l.length)
  rw [List.pairwise_map]
  exact this.imp fun h => by simpa using h

section
variable {n : ℕ} {m : ℕ → ℕ → ℝ} {r : List ℝ × (ℕ → ℕ → ℝ)}

/-- the sum of the eigenvalues is the trace -/
theorem EighOk.trace (h : EighOk n m r) : r.1.sum = ∑ i ∈ Finset.range n, m i i := by
  have hV : ((Matrix.of fun i k : Fin n => r.2 i k).transpose * Matrix.of fun i k : Fin n => r.2 i k) = 1 := by
    ext k l
    rw [Matrix.mul_apply]
    simp only [Matrix.transpose_apply, Matrix.of_apply]
    rw [Fin.sum_univ_eq_sum_range (fun i => r.2 i k * r.2 i l) n, h.ortho k k.2 l l.2, Matrix.one_apply]
    simp [Fin.ext_iff]
  have hV' : ((Matrix.of fun i k : Fin n => r.2 i k) * (Matrix.of fun i k : Fin n => r.2 i k).transpose) = 1 :=
    mul_eq_one_comm.1 hV
  have e1 : (Matrix.of fun i j : Fin n => m i j).trace =
      ((Matrix.of fun i k : Fin n => r.2 i k).transpose * ((Matrix.of fun i j : Fin n => m i j) * Matrix.of fun i k : Fin n => r.2 i k)).trace := by
    rw [Matrix.trace_mul_comm, Matrix.mul_assoc, hV', Matrix.mul_one]
  have e2 : ((Matrix.of fun i j : Fin n => m i j) * Matrix.of fun i k : Fin n => r.2 i k) = Matrix.of fun i k : Fin n => r.1.getD k 0 * r.2 i k := by
    ext i k
    rw [Matrix.mul_apply]
    simp only [Matrix.of_apply]
    rw [Fin.sum_univ_eq_sum_range (fun j => m i j * r.2 j k) n, h.eigen k k.2 i i.2]
  have e3 : (Matrix.of fun i j : Fin n => m i j).trace = ∑ i ∈ Finset.range n, m i i := by
    rw [Matrix.trace]
    simp only [Matrix.diag_apply, Matrix.of_apply]
    exact Fin.sum_univ_eq_sum_range (fun i => m i i) n
  rw [← e3, e1, e2, Matrix.trace]
  have e4 : ∀ k : Fin n, Matrix.diag ((Matrix.of fun i k : Fin n => r.2 i k).transpose * Matrix.of fun i k : Fin n => r.1.getD k 0 * r.2 i k) k
      = r.1.getD k 0 := by
    intro k
    rw [Matrix.diag_apply, Matrix.mul_apply]
    simp only [Matrix.transpose_apply, Matrix.of_apply]
    rw [Fin.sum_univ_eq_sum_range (fun i => r.2 i k * (r.1.getD k 0 * r.2 i k)) n]
    have := h.ortho k k.2 k k.2
    rw [if_pos rfl] at this
    rw [Finset.sum_congr rfl fun i _ => show r.2 i k * (r.1.getD k 0 * r.2 i k) = r.1.getD k 0 * (r.2 i k * r.2 i k) by ring,
      ← Finset.mul_sum, this, mul_one]
  rw [Finset.sum_congr rfl fun k _ => e4 k, Fin.sum_univ_eq_sum_range (fun k => r.1.getD k 0) n]
  rw [← h.len, Finset.sum_range, ← List.sum_ofFn]
  congr 1
  apply List.ext_getElem
  · simp
  · intro i h1 h2
    simp

/-- the sorted eigenvalues and eigenvectors -/
theorem sorted_ok {eigh : ℕ → (ℕ → ℕ → ℝ) → List ℝ × (ℕ → ℕ → ℝ)} {argsort : List ℝ → List ℕ} (h : EighOk n m (eigh n m)) (ha : ArgsortOk argsort) :
    (sortedEig eigh argsort n m).1.length = n ∧ (sortedEig eigh argsort n m).1.Pairwise (· ≥ ·) ∧
    (sortedEig eigh argsort n m).1.sum = ∑ i ∈ Finset.range n, m i i ∧
    (∀ k < n, ∀ l < n, ∑ i ∈ Finset.range n, (sortedEig eigh argsort n m).2 i k * (sortedEig eigh argsort n m).2 i l = if k = l then 1 else 0) ∧
    (∀ k < n, ∀ i < n, ∑ j ∈ Finset.range n, m i j * (sortedEig eigh argsort n m).2 j k
      = (sortedEig eigh argsort n m).1.getD k 0 * (sortedEig eigh argsort n m).2 i k) := by
  obtain ⟨hp, hs⟩ := ha (eigh n m).1
  rw [h.len] at hp
  have hrev := (List.reverse_perm (argsort (eigh n m).1)).trans hp
  have hlen : (argsort (eigh n m).1).reverse.length = n := by rw [hrev.length_eq, List.length_range]
  have hnd : (argsort (eigh n m).1).reverse.Nodup := hrev.nodup_iff.2 List.nodup_range
  have hlt : ∀ k < n, (argsort (eigh n m).1).reverse.getD k 0 < n := by
    intro k hk
    rw [List.getD_eq_getElem _ _ (by omega)]
    exact List.mem_range.1 (hrev.mem_iff.1 (List.getElem_mem _))
  refine ⟨by simp only [sortedEig, List.length_map, hlen], ?_, ?_, ?_, ?_⟩
  · simp only [sortedEig]
    rw [List.map_reverse, List.pairwise_reverse]
    exact hs
  · rw [← h.trace]
    simp only [sortedEig]
    rw [(hrev.map _).sum_eq]
    congr 1
    apply List.ext_getElem
    · simp [h.len]
    · intro i h1 h2
      simp [List.getElem?_eq_getElem h2]
  · intro k hk l hl
    simp only [sortedEig]
    rw [h.ortho _ (hlt k hk) _ (hlt l hl)]
    congr 1
    rw [List.getD_eq_getElem _ _ (by omega), List.getD_eq_getElem _ _ (by omega), hnd.getElem_inj_iff]
  · intro k hk i hi
    simp only [sortedEig]
    rw [h.eigen _ (hlt k hk) i hi]
    congr 1
    rw [List.getD_eq_getElem (List.map _ _) _ (by simp only [List.length_map]; omega), List.getElem_map,
      List.getD_eq_getElem (argsort (eigh n m).1).reverse _ (by omega)]

end

end Fanpy.Lemmas.NatOrb
