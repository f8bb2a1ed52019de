import Verif.Model.Solver
import Verif.Spec.Eigen
import Verif.Props.CI
import Verif.Props.CISpaces
import Verif.Props.HamSymmetric
import Verif.Props.HamWfnFock
import Mathlib.Data.List.GetD

/-!
# C74: the lowest state of a CI wavefunction, and C75: the equations given to the root solver
-/

namespace Fanpy.Props
open Fanpy.Spec Fanpy.Slater Fanpy.Ham Fanpy.Lemmas Fanpy.Solver

/-! ### the matrix -/

/-- the rows of the upper triangle of `h` over `l` -/
def upperVals {R : Type} (h : ℕ → ℕ → R) : List ℕ → List (List R)
  | [] => []
  | sd :: r => (sd :: r).map (h sd) :: upperVals h r

theorem upperRows_ok {R : Type} {elem : ℕ → ℕ → Except PyErr R} {h : ℕ → ℕ → R} : ∀ (l : List ℕ) (_ : ∀ a ∈ l, ∀ b ∈ l, elem a b = .ok (h a b)),
    upperRows elem l = .ok (upperVals h l)
  | [], _ => rfl
  | sd :: r, hl => by
    rw [upperRows, mapM_eq_ok (sd :: r) (g := h sd) (fun b hb => hl sd (by simp) b hb),
      upperRows_ok r fun a ha b hb => hl a (by simp [ha]) b (by simp [hb])]
    rfl

theorem ciMatrix_eq (h : ℕ → ℕ → ℝ) : ∀ (l : List ℕ) (i j : ℕ) (_ : i ≤ j) (_ : j < l.length),
    ciMatrix (upperVals h l) i j = h (l.getD i 0) (l.getD j 0)
  | [], i, j, _, hj => by simp at hj
  | sd :: r, 0, j, hij, hj => by
    rw [ciMatrix, if_pos hij, upperVals, List.getD_cons_zero, List.getD_cons_zero, Nat.sub_zero, List.getD_eq_getElem _ _ (by simpa using hj),
      List.getD_eq_getElem _ _ hj, List.getElem_map]
  | sd :: r, i + 1, 0, hij, hj => by omega
  | sd :: r, i + 1, j + 1, hij, hj => by
    rw [List.getD_cons_succ, List.getD_cons_succ, ← ciMatrix_eq h r i j (by omega) (by simpa using hj), ciMatrix, ciMatrix, if_pos hij, if_pos (by omega),
      upperVals, List.getD_cons_succ]
    congr 1
    omega

theorem upperSym_eq (h : ℕ → ℕ → ℝ) (l : List ℕ) (hs : ∀ a ∈ l, ∀ b ∈ l, h a b = h b a) (i j : ℕ) (hi : i < l.length) (hj : j < l.length) :
    upperSym (ciMatrix (upperVals h l)) i j = h (l.getD i 0) (l.getD j 0) := by
  have hm : ∀ i < l.length, l.getD i 0 ∈ l := fun i hi => by rw [List.getD_eq_getElem _ _ hi]; exact List.getElem_mem _
  rw [upperSym]
  rcases le_total i j with hij | hij
  · rw [min_eq_left hij, max_eq_right hij, ciMatrix_eq h l i j hij hj]
  · rw [min_eq_right hij, max_eq_left hij, ciMatrix_eq h l j i hij hi, hs _ (hm j hj) _ (hm i hi)]

/-! ### eigenvectors -/

/-- the lowest eigenvalue is the least value of the quadratic form -/
theorem lowest_le {n : ℕ} {S V : ℕ → ℕ → ℝ} {lam : ℕ → ℝ}
    (he : ∀ i < n, ∀ k < n, ∑ j ∈ Finset.range n, S i j * V j k = lam k * V i k)
    (ho : ∀ k < n, ∀ l < n, ∑ i ∈ Finset.range n, V i k * V i l = if k = l then 1 else 0) (hl : ∀ k < n, lam 0 ≤ lam k) (x : ℕ → ℝ) :
    lam 0 * ∑ i ∈ Finset.range n, x i ^ 2 ≤ ∑ i ∈ Finset.range n, ∑ j ∈ Finset.range n, x i * S i j * x j := by
  have hr : ∀ i < n, ∀ j < n, ∑ k ∈ Finset.range n, V i k * V j k = if i = j then 1 else 0 := by
    let M : Matrix (Fin n) (Fin n) ℝ := fun i k => V i k
    have h1 : M.transpose * M = 1 := by
      ext k l
      rw [Matrix.mul_apply, Matrix.one_apply]
      have := ho k k.2 l l.2
      rw [Finset.sum_range] at this
      change ∑ i : Fin n, V i k * V i l = _
      rw [this]
      simp [Fin.ext_iff]
    rw [mul_eq_one_comm] at h1
    intro i hi j hj
    have := congrFun (congrFun h1 ⟨i, hi⟩) ⟨j, hj⟩
    rw [Matrix.mul_apply, Matrix.one_apply] at this
    rw [Finset.sum_range]
    change ∑ k : Fin n, V i k * V j k = _ at this
    rw [this]
    simp [Fin.ext_iff]
  have hS : ∀ i ∈ Finset.range n, ∀ j ∈ Finset.range n, S i j = ∑ k ∈ Finset.range n, lam k * V i k * V j k := by
    intro i hi j hj
    rw [Finset.mem_range] at hi hj
    have h1 : ∀ k ∈ Finset.range n, lam k * V i k * V j k = ∑ m ∈ Finset.range n, S i m * (V m k * V j k) := by
      intro k hk
      rw [← he i hi k (Finset.mem_range.1 hk), Finset.sum_mul]
      exact Finset.sum_congr rfl fun m _ => by ring
    rw [Finset.sum_congr rfl h1, Finset.sum_comm]
    have h2 : ∀ m ∈ Finset.range n, ∑ k ∈ Finset.range n, S i m * (V m k * V j k) = if m = j then S i m else 0 := by
      intro m hm
      rw [← Finset.mul_sum, hr m (Finset.mem_range.1 hm) j hj]
      split_ifs <;> simp
    rw [Finset.sum_congr rfl h2, Finset.sum_ite_eq' (Finset.range n) j, if_pos (Finset.mem_range.2 hj)]
  let y : ℕ → ℝ := fun k => ∑ i ∈ Finset.range n, x i * V i k
  have hform : ∀ mu : ℕ → ℝ, ∑ i ∈ Finset.range n, ∑ j ∈ Finset.range n, x i * (∑ k ∈ Finset.range n, mu k * V i k * V j k) * x j =
      ∑ k ∈ Finset.range n, mu k * y k ^ 2 := by
    intro mu
    have h1 : ∀ k ∈ Finset.range n, mu k * y k ^ 2 = ∑ i ∈ Finset.range n, ∑ j ∈ Finset.range n, x i * (mu k * V i k * V j k) * x j := by
      intro k _
      simp only [y]
      rw [sq, Finset.sum_mul_sum, Finset.mul_sum]
      refine Finset.sum_congr rfl fun i _ => ?_
      rw [Finset.mul_sum]
      exact Finset.sum_congr rfl fun j _ => by ring
    rw [Finset.sum_congr rfl h1]
    conv_rhs => rw [Finset.sum_comm]
    refine Finset.sum_congr rfl fun i _ => ?_
    conv_rhs => rw [Finset.sum_comm]
    refine Finset.sum_congr rfl fun j _ => ?_
    rw [Finset.mul_sum, Finset.sum_mul]
  have hone : ∑ i ∈ Finset.range n, x i ^ 2 = ∑ k ∈ Finset.range n, y k ^ 2 := by
    have h1 := hform fun _ => 1
    simp only [one_mul] at h1
    rw [← h1]
    refine Finset.sum_congr rfl fun i hi => ?_
    have h2 : ∀ j ∈ Finset.range n, x i * (∑ k ∈ Finset.range n, V i k * V j k) * x j = if j = i then x i ^ 2 else 0 := by
      intro j hj
      rw [hr i (Finset.mem_range.1 hi) j (Finset.mem_range.1 hj)]
      by_cases h : i = j
      · subst h; simp; ring
      · rw [if_neg h, if_neg fun h' => h h'.symm]; ring
    rw [Finset.sum_congr rfl h2, Finset.sum_ite_eq' (Finset.range n) i, if_pos hi]
  have hfull : ∑ i ∈ Finset.range n, ∑ j ∈ Finset.range n, x i * S i j * x j = ∑ k ∈ Finset.range n, lam k * y k ^ 2 := by
    rw [← hform lam]
    exact Finset.sum_congr rfl fun i hi => Finset.sum_congr rfl fun j hj => by rw [hS i hi j hj]
  rw [hone, hfull, Finset.mul_sum]
  exact Finset.sum_le_sum fun k hk => mul_le_mul_of_nonneg_right (hl k (Finset.mem_range.1 hk)) (sq_nonneg _)

/-! ### C74 -/

/-- **C74**.  If the matrix elements between the determinants of the wavefunction are the numbers `h` and symmetric, `brute` gives a normalized eigenvector
of the full matrix, and the energy is the least value of the quadratic form. -/
theorem C74_lowest {eigh : ℕ → (ℕ → ℕ → ℝ) → (ℕ → ℝ) × (ℕ → ℕ → ℝ)} (hE : IsEigh eigh) (w : CI.Wfn ℝ) (hne : w.sds ≠ [])
    (elem : ℕ → ℕ → Except PyErr ℝ) (h : ℕ → ℕ → ℝ) (hel : ∀ a ∈ w.sds, ∀ b ∈ w.sds, elem a b = .ok (h a b))
    (hs : ∀ a ∈ w.sds, ∀ b ∈ w.sds, h a b = h b a) (save : Bool) :
    ∃ out, brute eigh w w.nspin elem save = .ok out ∧ out.params.length = w.sds.length ∧
      ∑ i ∈ Finset.range w.sds.length, out.params.getD i 0 ^ 2 = 1 ∧
      (∀ i < w.sds.length, ∑ j ∈ Finset.range w.sds.length, h (w.sds.getD i 0) (w.sds.getD j 0) * out.params.getD j 0 =
        out.energy * out.params.getD i 0) ∧
      ∀ x : ℕ → ℝ, out.energy * ∑ i ∈ Finset.range w.sds.length, x i ^ 2 ≤
        ∑ i ∈ Finset.range w.sds.length, ∑ j ∈ Finset.range w.sds.length, x i * h (w.sds.getD i 0) (w.sds.getD j 0) * x j := by
  have hn : w.sds.length ≠ 0 := by simpa using hne
  have hpos : 0 < w.sds.length := by omega
  generalize hA : ciMatrix (upperVals h w.sds) = A
  have hS : ∀ i < w.sds.length, ∀ j < w.sds.length, upperSym A i j = h (w.sds.getD i 0) (w.sds.getD j 0) := fun i hi j hj => by
    rw [← hA]; exact upperSym_eq h w.sds hs i j hi hj
  have hget : ∀ i < w.sds.length, ((List.range w.sds.length).map fun i => (eigh w.sds.length A).2 i 0).getD i 0 = (eigh w.sds.length A).2 i 0 := by
    intro i hi
    rw [List.getD_eq_getElem _ _ (by simpa using hi)]
    simp
  refine ⟨⟨(eigh w.sds.length A).1 0, (List.range w.sds.length).map fun i => (eigh w.sds.length A).2 i 0, if save then some w.params else none⟩, ?_,
    by simp, ?_, ?_, ?_⟩
  · rw [brute, if_neg (by simp), upperRows_ok w.sds hel]
    simp only [bind, Except.bind, pure, Except.pure, if_neg hn, hA]
  · have h1 := hE.orthonormal w.sds.length A 0 hpos 0 hpos
    rw [if_pos rfl] at h1
    rw [← h1]
    refine Finset.sum_congr rfl fun i hi => ?_
    rw [hget i (Finset.mem_range.1 hi), sq]
  · intro i hi
    rw [hget i hi, ← hE.eigen w.sds.length A i hi 0 hpos]
    refine Finset.sum_congr rfl fun j hj => ?_
    rw [hget j (Finset.mem_range.1 hj), hS i hi j (Finset.mem_range.1 hj)]
  · intro x
    have h1 := lowest_le (hE.eigen w.sds.length A) (hE.orthonormal w.sds.length A) (hE.sorted w.sds.length A) x
    refine le_trans h1 (le_of_eq ?_)
    exact Finset.sum_congr rfl fun i hi => Finset.sum_congr rfl fun j hj => by rw [hS i (Finset.mem_range.1 hi) j (Finset.mem_range.1 hj)]

/-- **C74**, failures: different numbers of spin orbitals are a ValueError, and an exception of a matrix element is passed on. -/
theorem C74_nspin {R : Type} [Zero R] (eigh : ℕ → (ℕ → ℕ → R) → (ℕ → R) × (ℕ → ℕ → R)) (w : CI.Wfn R) (k : ℕ) (hk : w.nspin ≠ k)
    (elem : ℕ → ℕ → Except PyErr R) (save : Bool) : brute eigh w k elem save = .error .valueError := by
  rw [brute, if_pos hk]

/-- **C74**, the file: what is saved are the parameters the wavefunction had before, whatever the solution is. -/
theorem C74_saved {R : Type} [Zero R] (eigh : ℕ → (ℕ → ℕ → R) → (ℕ → R) × (ℕ → ℕ → R)) (w : CI.Wfn R) (k : ℕ) (elem : ℕ → ℕ → Except PyErr R)
    (out : Output R) (h : brute eigh w k elem true = .ok out) : out.saved = some w.params := by
  rw [brute] at h
  by_cases hk : w.nspin ≠ k
  · rw [if_pos hk] at h; cases h
  rw [if_neg hk] at h
  rcases hr : upperRows elem w.sds with e | rows
  · rw [hr] at h; cases h
  rw [hr] at h
  by_cases h0 : w.sds.length = 0
  · simp [bind, Except.bind, h0] at h
  simp only [bind, Except.bind, pure, Except.pure, if_neg h0] at h
  injection h with h
  rw [← h]
  rfl

/-! ### the wavefunction with the parameters of the solution -/

/-- a sum over all determinants of a function that is zero outside a list of determinants -/
theorem sum_over_sds (N : ℕ) (sds : List ℕ) (hnd : sds.Nodup) (hN : ∀ a ∈ sds, a < N) (F : ℕ → ℝ) (hF : ∀ m, m ∉ sds → F m = 0) :
    ∑ m ∈ Finset.range N, F m = ∑ j ∈ Finset.range sds.length, F (sds.getD j 0) := by
  have h1 : ∑ m ∈ Finset.range N, F m = ∑ m ∈ sds.toFinset, F m := by
    symm
    apply Finset.sum_subset
    · intro a ha
      rw [List.mem_toFinset] at ha
      exact Finset.mem_range.2 (hN a ha)
    · intro m _ hm
      rw [List.mem_toFinset] at hm
      exact hF m hm
  rw [h1, List.sum_toFinset _ hnd, Finset.sum_range]
  have h2 : sds.map F = List.ofFn fun j : Fin sds.length => F (sds.getD j 0) := by
    apply List.ext_getElem (by simp)
    intro i h1 h2
    rw [List.getElem_map, List.getElem_ofFn, List.getD_eq_getElem _ _ (by simpa using h1)]
  rw [h2, List.sum_ofFn]

/-- the overlap as a function of integers -/
def olpFn (f : ℕ → ℝ) : ℤ → ℝ := fun m => f m.toNat

/-- **C74**, the generalized Hamiltonian: with the parameters of the solution, `integrate_sd_wfn(sd, wfn)` is the energy times `get_overlap(sd)` for every
determinant of the wavefunction. -/
theorem C74_projected {eigh : ℕ → (ℕ → ℕ → ℝ) → (ℕ → ℝ) × (ℕ → ℕ → ℝ)} (hE : IsEigh eigh) (w : CI.Wfn ℝ) (hne : w.sds ≠ []) (hnd : w.sds.Nodup)
    (hd : w.dict = CI.dictOf w.sds) (hlt : ∀ a ∈ w.sds, a < 2 ^ w.nspin) (h0 : ∀ a ∈ w.sds, a ≠ 0) (h63 : w.nspin ≤ 63) (h : ℕ → ℕ → ℝ)
    (g : ℕ → ℕ → ℕ → ℕ → ℝ) (hh : ∀ i j, h i j = h j i) (hr : ∀ i j k l, g i j k l = g k l i j) (hg : ∀ i j k l, g i j k l = g j i l k) (save : Bool) :
    ∃ out f, brute eigh w w.nspin (genSdSd (GenHam.ofInts w.nspin h g)) save = .ok out ∧
      (∀ sd, ({ w with params := out.params } : CI.Wfn ℝ).overlap sd = .ok (f sd)) ∧
      ∀ sd ∈ w.sds, ∃ t, genSdWfn (GenHam.ofInts w.nspin h g) (olpFn f) sd = .ok t ∧ sumComp t = out.energy * f sd := by
  have hel : ∀ a ∈ w.sds, ∀ b ∈ w.sds, genSdSd (GenHam.ofInts w.nspin h g) a b = .ok (hamME w.nspin h g (occSet a) (occSet b)) :=
    fun a ha b hb => C22_generalized w.nspin h g hg a b (hlt a ha) (hlt b hb) (.inl (h0 a ha))
  have hs : ∀ a ∈ w.sds, ∀ b ∈ w.sds, hamME w.nspin h g (occSet a) (occSet b) = hamME w.nspin h g (occSet b) (occSet a) := by
    intro a ha b hb
    have h1 := hel a ha b hb
    have h2 := hel b hb a ha
    have h3 := C26_generalized w.nspin h g hh hr hg a b (hlt a ha) (hlt b hb)
    rw [genSdSd, h3] at h1
    rw [genSdSd, h1] at h2
    exact Except.ok.inj h2
  obtain ⟨out, ho, hlen, -, heig, -⟩ := C74_lowest hE w hne _ _ hel hs save
  have hco : Coherent ({ w with params := out.params } : CI.Wfn ℝ) := coherent_of_dict hnd hd
  let f : ℕ → ℝ := fun sd => if sd ∈ w.sds then out.params.getD (w.sds.idxOf sd) 0 else 0
  have hf : ∀ sd, ({ w with params := out.params } : CI.Wfn ℝ).overlap sd = .ok (f sd) := by
    intro sd
    by_cases hm : sd ∈ w.sds
    · have hi : w.sds.idxOf sd < w.sds.length := List.idxOf_lt_length_iff.2 hm
      simp only [f, if_pos hm]
      refine hco.1 (w.sds.idxOf sd) sd _ ?_ ?_
      · rw [List.getElem?_eq_getElem hi, List.getElem_idxOf]
      · rw [List.getElem?_eq_getElem (by omega : w.sds.idxOf sd < out.params.length), List.getD_eq_getElem]
    · simp only [f, if_neg hm]
      exact hco.2 sd hm
  have hfi : ∀ j < w.sds.length, f (w.sds.getD j 0) = out.params.getD j 0 := by
    intro j hj
    have hm : w.sds.getD j 0 ∈ w.sds := by rw [List.getD_eq_getElem _ _ hj]; exact List.getElem_mem _
    simp only [f, if_pos hm]
    rw [List.getD_eq_getElem _ _ hj, hnd.idxOf_getElem]
  refine ⟨out, f, ho, hf, ?_⟩
  intro sd hsd
  obtain ⟨t, ht, hsum⟩ := C27_generalized_fock w.nspin h63 h g hg (olpFn f) sd (hlt sd hsd)
  refine ⟨t, ht, ?_⟩
  rw [hsum, sum_over_sds (2 ^ w.nspin) w.sds hnd hlt _ (fun m hm => by simp [olpFn, f, hm])]
  have hi : w.sds.idxOf sd < w.sds.length := List.idxOf_lt_length_iff.2 hsd
  have hsdi : w.sds.getD (w.sds.idxOf sd) 0 = sd := by rw [List.getD_eq_getElem _ _ hi, List.getElem_idxOf]
  have h1 := heig (w.sds.idxOf sd) hi
  rw [hsdi] at h1
  rw [show f sd = out.params.getD (w.sds.idxOf sd) 0 by simp only [f, if_pos hsd], ← h1]
  refine Finset.sum_congr rfl fun j hj => ?_
  rw [olpFn, Int.toNat_natCast, hfi j (Finset.mem_range.1 hj), mul_comm]

theorem init_fields {R : Type} [Zero R] [One R] {nelec nspin : ℕ} {t s : Option ℤ} {sds : Except PyErr (List ℕ)} {params : Option (List R)} {w : CI.Wfn R}
    (h : CI.init nelec nspin t s sds params = .ok w) : w.nelec = nelec ∧ w.nspin = nspin := by
  unfold CI.init at h
  simp only [bind, Except.bind] at h
  split at h
  · simp at h
  split at h
  · simp at h
  split at h
  · simp at h
  split at h
  · simp at h
  split at h
  · simp at h
  injection h with h
  rw [← h]
  exact ⟨rfl, rfl⟩

/-- **C74**, full CI: the result of `brute` for `FCI(nelec, nspin)` solves the Schrödinger equation projected on every determinant with `nelec` electrons,
and no wavefunction over these determinants has a lower energy. -/
theorem C74_fci {eigh : ℕ → (ℕ → ℕ → ℝ) → (ℕ → ℝ) × (ℕ → ℕ → ℝ)} (hE : IsEigh eigh) (nelec nspin : ℕ) (params : Option (List ℝ)) (w : CI.Wfn ℝ)
    (hw : CI.fciInit nelec nspin params none none = .ok w) (h63 : nspin ≤ 63) (h : ℕ → ℕ → ℝ)
    (g : ℕ → ℕ → ℕ → ℕ → ℝ) (hh : ∀ i j, h i j = h j i) (hr : ∀ i j k l, g i j k l = g k l i j) (hg : ∀ i j k l, g i j k l = g j i l k) :
    ∃ out f, brute eigh w nspin (genSdSd (GenHam.ofInts nspin h g)) false = .ok out ∧
      (∀ sd, ({ w with params := out.params } : CI.Wfn ℝ).overlap sd = .ok (f sd)) ∧
      (∀ sd < 2 ^ nspin, (occSet sd).card = nelec →
        ∃ t, genSdWfn (GenHam.ofInts nspin h g) (olpFn f) sd = .ok t ∧ sumComp t = out.energy * f sd) ∧
      ∀ x : ℕ → ℝ, (∀ m, (occSet m).card ≠ nelec → x m = 0) → out.energy * ∑ m ∈ Finset.range (2 ^ nspin), x m ^ 2 ≤
        ∑ m ∈ Finset.range (2 ^ nspin), ∑ k ∈ Finset.range (2 ^ nspin), x m * hamME nspin h g (occSet m) (occSet k) * x k := by
  obtain ⟨-, hnd, hmem⟩ := C55_fci hw
  obtain ⟨-, hpos, -, -, x0, hx0, hx1, -⟩ := (C55_fci_exists nelec nspin params none none).1 ⟨w, hw⟩
  have hfields : (w.nelec = nelec ∧ w.nspin = nspin) ∧ w.dict = CI.dictOf w.sds := by
    unfold CI.fciInit at hw
    simp only [bind, Except.bind] at hw
    split at hw
    · simp at hw
    split at hw
    · simp at hw
    split at hw
    · simp at hw
    split_ifs at hw
    exact ⟨init_fields hw, (init_ok hw).2.1⟩
  obtain ⟨⟨-, hns⟩, hd⟩ := hfields
  have hm : ∀ a, a ∈ w.sds ↔ a < 2 ^ nspin ∧ (occSet a).card = nelec := fun a => by rw [hmem a]; simp
  have hne : w.sds ≠ [] := List.ne_nil_of_mem ((hm x0).2 ⟨hx0, hx1⟩)
  have h0 : ∀ a ∈ w.sds, a ≠ 0 := by
    rintro a ha rfl
    have := ((hm 0).1 ha).2
    have hz : occSet 0 = ∅ := rfl
    rw [hz] at this
    simp at this
    omega
  have hlt : ∀ a ∈ w.sds, a < 2 ^ w.nspin := fun a ha => by rw [hns]; exact ((hm a).1 ha).1
  obtain ⟨out, f, ho, hf, hp⟩ := C74_projected hE w hne hnd hd hlt h0 (by omega) h g hh hr hg false
  have hel : ∀ a ∈ w.sds, ∀ b ∈ w.sds, genSdSd (GenHam.ofInts w.nspin h g) a b = .ok (hamME w.nspin h g (occSet a) (occSet b)) :=
    fun a ha b hb => C22_generalized w.nspin h g hg a b (hlt a ha) (hlt b hb) (.inl (h0 a ha))
  have hs : ∀ a ∈ w.sds, ∀ b ∈ w.sds, hamME w.nspin h g (occSet a) (occSet b) = hamME w.nspin h g (occSet b) (occSet a) := by
    intro a ha b hb
    have h1 := hel a ha b hb
    have h2 := hel b hb a ha
    have h3 := C26_generalized w.nspin h g hh hr hg a b (hlt a ha) (hlt b hb)
    rw [genSdSd, h3] at h1
    rw [genSdSd, h1] at h2
    exact Except.ok.inj h2
  obtain ⟨out', ho', -, -, -, hmin⟩ := C74_lowest hE w hne _ _ hel hs false
  rw [ho] at ho'
  obtain rfl := Except.ok.inj ho'
  rw [hns] at ho hp hmin hlt
  refine ⟨out, f, ho, hf, fun sd h1 h2 => hp sd ((hm sd).2 ⟨h1, h2⟩), ?_⟩
  intro x hx
  have hx' : ∀ m, m ∉ w.sds → m < 2 ^ nspin → x m = 0 := by
    intro m h1 h2
    apply hx
    intro h3
    exact h1 ((hm m).2 ⟨h2, h3⟩)
  have hsum : ∀ F : ℕ → ℝ, (∀ m, m < 2 ^ nspin → x m = 0 → F m = 0) →
      ∑ m ∈ Finset.range (2 ^ nspin), F m = ∑ j ∈ Finset.range w.sds.length, F (w.sds.getD j 0) := by
    intro F hF
    have h1 := sum_over_sds (2 ^ nspin) w.sds hnd hlt (fun m => if m ∈ w.sds then F m else 0) (fun m hm => if_neg hm)
    have h2 : ∑ m ∈ Finset.range (2 ^ nspin), F m = ∑ m ∈ Finset.range (2 ^ nspin), if m ∈ w.sds then F m else 0 := by
      refine Finset.sum_congr rfl fun m hmr => ?_
      split_ifs with h3
      · rfl
      · exact hF m (Finset.mem_range.1 hmr) (hx' m h3 (Finset.mem_range.1 hmr))
    rw [h2, h1]
    refine Finset.sum_congr rfl fun j hj => if_pos ?_
    rw [List.getD_eq_getElem _ _ (Finset.mem_range.1 hj)]
    exact List.getElem_mem _
  rw [hsum (fun m => x m ^ 2) (fun m _ h => by simp [h]), hsum _ (fun m _ h => by simp [h])]
  refine le_trans (hmin fun j => x (w.sds.getD j 0)) (le_of_eq ?_)
  refine Finset.sum_congr rfl fun i _ => ?_
  rw [hsum _ (fun m _ h => by simp [h])]

/-! ### C75 -/

/-- **C75**.  If every constraint is one equation and there are at least as many parameters as constraints, `root` keeps the first equations, so many that
there are as many equations as parameters, all constraints, and the weights that belong to them; with fewer equations than parameters it fails. -/
theorem C75_root_partial {R : Type} (nactive : ℕ) (consEqns pspace : List ℕ) (weights : List R) (hc : ∀ k ∈ consEqns, k = 1)
    (hw : weights.length = pspace.length + consEqns.sum) (hn : consEqns.length ≤ nactive) :
    (nactive ≤ pspace.length + consEqns.sum → ∃ P W, rootEqns nactive consEqns pspace weights = .ok (P, W) ∧ P.length + consEqns.sum = nactive ∧
      P = pspace.take P.length ∧ W = weights.take P.length ++ weights.drop pspace.length) ∧
    (pspace.length + consEqns.sum < nactive → rootEqns nactive consEqns pspace weights = .error .valueError) := by
  have hsum : consEqns.sum = consEqns.length := by
    rw [List.eq_replicate_of_mem hc]
    simp
  rw [hsum] at hw ⊢
  refine ⟨fun he => ?_, fun he => ?_⟩
  swap
  · rw [rootEqns]
    simp only [hsum]
    rw [if_pos he]
  rw [rootEqns]
  simp only [hsum]
  have h1 : ¬ pspace.length + consEqns.length < nactive := by omega
  rw [if_neg h1]
  by_cases h2 : pspace.length + consEqns.length > nactive
  · rw [if_pos h2]
    have hk : (0 : ℤ) ≤ (nactive : ℤ) - (consEqns.length : ℤ) := by omega
    have hk' : ((nactive : ℤ) - (consEqns.length : ℤ)).toNat = nactive - consEqns.length := by omega
    refine ⟨_, _, rfl, ?_, ?_, ?_⟩
    · rw [sliceTo, if_pos hk, hk', List.length_take]
      omega
    · rw [sliceTo, if_pos hk, hk', List.length_take, min_eq_left (by omega)]
    · have hl : (sliceTo pspace ((nactive : ℤ) - (consEqns.length : ℤ))).length = nactive - consEqns.length := by
        rw [sliceTo, if_pos hk, hk', List.length_take, min_eq_left (by omega)]
      rw [hl]
      by_cases h0 : consEqns.length = 0
      · rw [if_pos h0, h0, Nat.sub_zero, List.drop_eq_nil_of_le (by omega), List.append_nil]
      · rw [if_neg h0, sliceTo, if_pos hk, hk', sliceFrom, if_neg h0]
        congr 2
        omega
  · rw [if_neg h2]
    refine ⟨_, _, rfl, by omega, by simp, by simp⟩

/-- **C75**, more constraints than parameters: one parameter, two constraints and two determinants leave three equations. -/
theorem C75_constraints : ∃ P W, rootEqns 1 [1, 1] [5, 3] [(1 : ℤ), 1, 2, 2] = .ok (P, W) ∧ P.length + 2 = 3 := ⟨_, _, rfl, rfl⟩

/-- **C75**, a constraint of two equations: two parameters, three determinants: three equations and two weights. -/
theorem C75_many : ∃ P W, rootEqns 2 [2] [5, 3, 9] [(1 : ℤ), 1, 1, 2, 3] = .ok (P, W) ∧ P.length + 2 = 3 ∧ W = [1, 3] := ⟨_, _, rfl, rfl, rfl⟩

/-! ### concrete cases -/

example : rootEqns 3 [1] [5, 3, 9, 6] [(1 : ℤ), 2, 3, 4, 7] = .ok ([5, 3], [1, 2, 7]) := rfl

/-- two electrons in four spin orbitals: the hypotheses of `C74_fci` hold -/
example : ∃ w : CI.Wfn ℝ, CI.fciInit 2 4 none none none = .ok w :=
  (C55_fci_exists 2 4 none none none).2 ⟨rfl, by decide, by decide, by simp, 3, by decide, by decide, by simp⟩

example : ∃ eigh, IsEigh eigh := exists_isEigh

example : (∀ i j : ℕ, ((i : ℝ) + j) = j + i) ∧ (∀ i j k l : ℕ, (i * k + j * l : ℝ) = k * i + l * j) ∧ ∀ i j k l : ℕ, (i * k + j * l : ℝ) = j * l + i * k :=
  ⟨fun _ _ => add_comm _ _, fun _ _ _ _ => by ring, fun _ _ _ _ => by ring⟩

end Fanpy.Props
