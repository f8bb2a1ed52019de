import Verif.Props.MPS
import Verif.Model.MPSOne

/-! # C101: the derivative of a matrix product state with respect to one parameter -/

namespace Fanpy.Props
open Fanpy.MPS Fanpy.Slater Fanpy.Lemmas Fanpy.Spec Finset

variable {R : Type} [Field R]

theorem range_list_sum (n : ℕ) (f : ℕ → R) : ((List.range n).map f).sum = ∑ x ∈ range n, f x := by
  rw [← List.sum_toFinset _ List.nodup_range, List.toFinset_range]

theorem rows_right (w : Wfn R) (hK : 2 ≤ w.nspatial) (hp : mpsSize w.nspatial w.dimension ≤ w.nparams) (occ : ℕ → ℕ)
    (a m c : ℕ) (h : a + m < w.nspatial) :
    (List.range' (a + 1) m).foldlM (w.rowStep occ) ⟨mpsDim w.nspatial w.dimension (a + 1), mpsMat w occ a c⟩ =
    .ok ⟨mpsDim w.nspatial w.dimension (a + m + 1), chain (mpsDim w.nspatial w.dimension) (mpsMat w occ) a m c⟩ := by
  induction m with
  | zero => rfl
  | succ m ih =>
    rw [List.range'_1_concat, List.foldlM_append, ih (by omega)]
    simp only [bind, Except.bind, List.foldlM_cons, List.foldlM_nil, Wfn.rowStep]
    rw [show a + 1 + m = a + m + 1 by omega, matrix_ok w hK hp occ (show a + m + 1 < w.nspatial by omega)]
    simp only [Vec.dot, ne_eq, not_true_eq_false, if_false, range_list_sum]
    rfl

theorem cols_left (w : Wfn R) (hK : 2 ≤ w.nspatial) (hp : mpsSize w.nspatial w.dimension ≤ w.nparams) (occ : ℕ → ℕ)
    (m t r : ℕ) (h : m + t < w.nspatial) :
    (List.range m).reverse.foldlM (w.colStep occ)
      ⟨mpsDim w.nspatial w.dimension m, fun i => chain (mpsDim w.nspatial w.dimension) (mpsMat w occ) m t i r⟩ =
    .ok ⟨mpsDim w.nspatial w.dimension 0, fun i => chain (mpsDim w.nspatial w.dimension) (mpsMat w occ) 0 (t + m) i r⟩ := by
  induction m generalizing t with
  | zero => rfl
  | succ m ih =>
    rw [List.range_succ, List.reverse_append, List.reverse_singleton, List.singleton_append, List.foldlM_cons, Wfn.colStep,
      matrix_ok w hK hp occ (show m < w.nspatial by omega)]
    simp only [bind, Except.bind, Mat.dotVec, ne_eq, not_true_eq_false, if_false, range_list_sum]
    have := ih (t + 1) (by omega)
    rw [chain_cons] at this
    rw [this, show t + 1 + m = t + (m + 1) by omega]

/-- the value of `_olp_deriv` -/
theorem mpsOlpDeriv_ok (w : Wfn R) (hK : 2 ≤ w.nspatial) (hp : mpsSize w.nspatial w.dimension ≤ w.nparams) {sd : ℕ} {occ : ℕ → ℕ}
    (ho : w.occupation sd = .ok occ) {k n i j : ℕ} (hv : MpsValid w.nspatial w.dimension k n i j) :
    w.olpDeriv sd (mpsIndex w.nspatial w.dimension k n i j) = .ok (leftVec (mpsDim w.nspatial w.dimension) (mpsMat w occ) k i *
      rightVec (mpsDim w.nspatial w.dimension) (mpsMat w occ) w.nspatial k j) := by
  rw [Wfn.olpDeriv, C45_decompose w hK hv, ho]
  obtain ⟨hk, hn, hi, hj⟩ := hv
  simp only [bind, Except.bind]
  have h0 : mpsDim w.nspatial w.dimension 0 = 1 := by simp [mpsDim]
  have hright : k + 1 < w.nspatial → w.rightRow occ k j =
      .ok (some ⟨1, chain (mpsDim w.nspatial w.dimension) (mpsMat w occ) (k + 1) (w.nspatial - k - 2) j⟩) := by
    intro hl
    rw [Wfn.rightRow, if_pos (by omega), matrix_ok w hK hp occ hl]
    simp only [bind, Except.bind, pure, Except.pure, Mat.row, if_pos hj]
    rw [rows_right w hK hp occ (k + 1) (w.nspatial - (k + 2)) j (by omega)]
    have h1 : mpsDim w.nspatial w.dimension (k + 1 + (w.nspatial - (k + 2)) + 1) = 1 := by rw [mpsDim, if_pos (by omega)]
    simp only [h1]
    rw [show w.nspatial - (k + 2) = w.nspatial - k - 2 by omega]
  have hleft : ∀ m, k = m + 1 → w.leftCol occ k i =
      .ok (some ⟨1, fun x => chain (mpsDim w.nspatial w.dimension) (mpsMat w occ) 0 m x i⟩) := by
    rintro m rfl
    rw [Wfn.leftCol, if_pos (by omega), Nat.add_sub_cancel, matrix_ok w hK hp occ (show m < w.nspatial by omega)]
    simp only [bind, Except.bind, pure, Except.pure, Mat.col, if_pos hi]
    have := cols_left w hK hp occ m 0 i (by omega)
    rw [chain, zero_add] at this
    rw [this, h0]
  by_cases hl : k + 1 < w.nspatial
  · rw [hright hl]
    cases k with
    | zero =>
      rw [Wfn.leftCol, if_neg (by omega)]
      obtain rfl : i = 0 := by omega
      simp only [pure, Except.pure, itemOf, Vec.item, ne_eq, not_true_eq_false, if_false]
      rw [leftVec, rightVec, if_pos hl]
      simp
    | succ k =>
      rw [hleft k rfl]
      simp only [itemOf, castDim, if_true, bind, Except.bind, Vec.item, ne_eq, not_true_eq_false, if_false]
      rw [leftVec, rightVec, if_pos hl]
  · obtain ⟨m, hm⟩ : ∃ m, k = m + 1 := ⟨k - 1, by omega⟩
    rw [Wfn.rightRow, if_neg (by omega), hleft m hm]
    subst hm
    have h1 : mpsDim w.nspatial w.dimension (m + 1 + 1) = 1 := by rw [mpsDim, if_pos (by omega)]
    obtain rfl : j = 0 := by omega
    simp only [pure, Except.pure, itemOf, Vec.item, ne_eq, not_true_eq_false, if_false]
    rw [leftVec, rightVec, if_neg hl, if_pos rfl, mul_one]

/-- the vectors to the left and to the right do not depend on the occupation of the orbital -/
theorem vecs_congr (w : Wfn R) (hK : 2 ≤ w.nspatial) {occ occ' : ℕ → ℕ} {k i j : ℕ} (hk : k < w.nspatial)
    (hi : i < mpsDim w.nspatial w.dimension k) (hj : j < mpsDim w.nspatial w.dimension (k + 1))
    (h : ∀ k' < w.nspatial, k' ≠ k → occ k' = occ' k') :
    leftVec (mpsDim w.nspatial w.dimension) (mpsMat w occ) k i = leftVec (mpsDim w.nspatial w.dimension) (mpsMat w occ') k i ∧
    rightVec (mpsDim w.nspatial w.dimension) (mpsMat w occ) w.nspatial k j =
      rightVec (mpsDim w.nspatial w.dimension) (mpsMat w occ') w.nspatial k j := by
  have h0 : mpsDim w.nspatial w.dimension 0 = 1 := by simp [mpsDim]
  have h1 : mpsDim w.nspatial w.dimension w.nspatial = 1 := by simp [mpsDim]
  constructor
  · cases k with
    | zero => rfl
    | succ k =>
      rw [leftVec, leftVec]
      refine chain_congr _ (fun k' _ h2 x _ y _ => ?_) 0 (by omega) i (by rwa [zero_add])
      rw [mpsMat, mpsMat, h k' (by omega) (by omega)]
  · rw [rightVec, rightVec]
    split_ifs with hl
    · refine chain_congr _ (fun k' h2 h3 x _ y _ => ?_) j hj 0
        (by rw [show k + 1 + (w.nspatial - k - 2) + 1 = w.nspatial by omega, h1]; omega)
      rw [mpsMat, mpsMat, h k' (by omega) (by omega)]
    · rfl

/-- C101. `_olp_deriv(sd, p)` is the derivative with respect to parameter `p` of the overlap with the determinant that has the
occupation of the parameter in the orbital of the parameter, and the occupations of `sd` in the other orbitals. -/
theorem C101_deriv_partial (w : Wfn R) (hK : 2 ≤ w.nspatial) (hp : mpsSize w.nspatial w.dimension ≤ w.nparams) {sd sd' : ℕ}
    (hsd : sd < 2 ^ (2 * w.nspatial)) (hsd' : sd' < 2 ^ (2 * w.nspatial)) {k n i j : ℕ}
    (hv : MpsValid w.nspatial w.dimension k n i j) (hn : mpsOcc w.nspatial sd' k = n)
    (hocc : ∀ k' < w.nspatial, k' ≠ k → mpsOcc w.nspatial sd' k' = mpsOcc w.nspatial sd k') :
    ∃ x v, w.olpDeriv sd (mpsIndex w.nspatial w.dimension k n i j) = .ok x ∧
      w.overlapDeriv sd' [mpsIndex w.nspatial w.dimension k n i j] = .ok [x] ∧ w.overlap sd' = .ok v ∧
      ∀ h, ({ w with params := fun q => if q = mpsIndex w.nspatial w.dimension k n i j then w.params q + h else w.params q } :
        Wfn R).overlap sd' = .ok (v + h * x) := by
  obtain ⟨occ, h1, h2⟩ := occupation_ok w (by omega) hsd
  obtain ⟨occ', h1', h2'⟩ := occupation_ok w (by omega) hsd'
  obtain ⟨d, d1, dz, d2⟩ := derivArray_ok w hK hp h1' h2'
  obtain ⟨v, d', e1, e2, e3⟩ := C45_deriv w hK hp hsd'
  have hlt := lt_of_lt_of_le (mpsIndex_lt hK hv) hp
  have e4 := e2 [mpsIndex w.nspatial w.dimension k n i j] (by simpa using hlt)
  have hd : d' (mpsIndex w.nspatial w.dimension k n i j) = d (mpsIndex w.nspatial w.dimension k n i j) := by
    have e5 := e4
    rw [Wfn.overlapDeriv, d1] at e5
    simp only [bind, Except.bind, List.mapM_cons, if_pos hlt, List.mapM_nil, pure, Except.pure, List.map_cons, List.map_nil,
      Except.ok.injEq, List.cons.injEq, and_true] at e5
    exact e5.symm
  have hval := d2 k n i j hv
  rw [if_pos hn.symm] at hval
  obtain ⟨c1, c2⟩ := vecs_congr w hK (occ := occ) (occ' := occ') hv.1 hv.2.2.1 hv.2.2.2
    fun k' hk' hne => by rw [h2 k' hk', h2' k' hk', hocc k' hk' hne]
  refine ⟨_, v, mpsOlpDeriv_ok w hK hp h1 hv, ?_, e1, fun h => ?_⟩
  · rw [e4, c1, c2, ← hval, ← hd]
    rfl
  · rw [c1, c2, ← hval, ← hd]
    exact e3 _ hlt h

-- three spatial orbitals, bond dimension two: the second matrix, orbital not occupied, in a determinant that has it occupied
example : (⟨3, 6, 2, 32, fun i => (i : ℚ)⟩ : Wfn ℚ).olpDeriv 0b001011 (mpsIndex 3 2 1 0 0 1) = .ok 150 ∧
    (⟨3, 6, 2, 32, fun i => (i : ℚ)⟩ : Wfn ℚ).overlapDeriv 0b001001 [mpsIndex 3 2 1 0 0 1] = .ok [150] ∧
    mpsOcc 3 0b001011 1 = 1 ∧ mpsOcc 3 0b001001 1 = 0 := by decide +kernel

/-- C101. With one spatial orbital `_olp_deriv` always raises: `AttributeError` for the parameters of the matrix, `ValueError` for
others. -/
theorem C101_one_orbital (w : Wfn R) (hK : w.nspatial = 1) {sd : ℕ} (hsd : sd < 4) (p : ℕ) :
    w.olpDeriv sd p = .error (if p < 4 * w.dimension then .attributeError else .valueError) := by
  obtain ⟨occ, h1, -⟩ := occupation_ok w (by omega) (show sd < 2 ^ (2 * w.nspatial) by rw [hK]; exact hsd)
  have hs : w.matrixShape 0 = .ok (1, w.dimension) := by rw [Wfn.matrixShape, if_neg (by omega), if_pos rfl]
  have hi : w.matrixIndices 0 = .ok (0, 4 * w.dimension) := by
    rw [Wfn.matrixIndices, hs]; simp [shapeSize, bind, Except.bind, pure, Except.pure]
  rw [Wfn.olpDeriv, Wfn.decompose, hi]
  by_cases h : p < 4 * w.dimension
  · simp only [bind, Except.bind, if_pos h, pure, Except.pure, hs, zero_le, true_and]
    rw [if_neg (by simp only [shapeSize]; omega)]
    simp only [h1, Wfn.rightRow, Wfn.leftCol, hK, lt_irrefl, if_false, pure, Except.pure, itemOf, Nat.sub_self]
  · have hs1 : w.matrixShape 1 = .error .valueError := by rw [Wfn.matrixShape, if_pos (by omega)]
    simp only [bind, Except.bind, if_neg h, zero_le, true_and, hs1]

/-- C101 (disagreement). If the occupation is not that of the parameter, `_olp_deriv` is not the derivative, which is zero. -/
theorem C101_other_occupation : ∃ w : Wfn ℚ, MPS.init 2 4 (some 1) 8 (fun _ => 1) = .ok w ∧
    w.olpDeriv 0b0101 0 = .ok 1 ∧ w.overlapDeriv 0b0101 [0] = .ok [0] :=
  ⟨⟨2, 4, 1, 8, fun _ => 1⟩, by rfl, by decide +kernel, by decide +kernel⟩

end Fanpy.Props
