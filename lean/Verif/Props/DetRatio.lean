import Verif.Model.DetRatio
import Verif.Lemmas.Determinant
import Verif.Lemmas.Bits
import Verif.Lemmas.Bits2
import Verif.Props.APr2G
import Verif.Props.SdList
import Mathlib.Analysis.Calculus.Deriv.Inv
import Mathlib.Analysis.Calculus.Deriv.Mul

/-! # C39: overlaps of determinant-ratio wavefunctions and their derivatives -/

namespace Fanpy.Props
open Fanpy.Slater Fanpy.DetRatio Fanpy.Linalg Fanpy.Spec Finset

variable {R : Type} [Field R]

/-- the determinant of the columns of the `i`-th matrix that belong to the occupied orbitals -/
def ratioDet (nelec nspin sd : ℕ) (p : ℕ → R) (i : ℕ) : R :=
  Matrix.det (Matrix.of fun r j : Fin nelec =>
    p (i * (nelec * nspin) + r * nspin + ((occSet sd).sort (· ≤ ·)).getD j 0))

/-- the product of the determinants of the numerator over the product of those of the denominator -/
def ratioSpec (nelec nspin : ℕ) (mask : ℕ → Prop) [DecidablePred mask] (n sd : ℕ) (p : ℕ → R) : R :=
  (∏ i ∈ (range n).filter mask, ratioDet nelec nspin sd p i) /
    ∏ i ∈ (range n).filter (fun i => ¬ mask i), ratioDet nelec nspin sd p i

theorem prodMask_map (L : List ℕ) (d : ℕ → R) (g : ℕ → Bool) :
    prodMask (L.map d) (L.map g) = (L.map fun i => if g i then d i else 1).prod := by
  induction L with
  | nil => rfl
  | cons a L ih =>
    rw [prodMask] at ih ⊢
    simp only [List.map_cons, List.zip_cons_cons, List.filter_cons, List.prod_cons]
    cases g a <;> simp [ih]

theorem mask_eq_map (mask : List Bool) : mask = (List.range mask.length).map fun i => mask.getD i false := by
  apply List.ext_getElem (by simp)
  intro i h1 h2
  rw [List.getElem_map, List.getElem_range, List.getD_eq_getElem _ _ h1]

theorem mask_eraseIdx (mask : List Bool) (m : ℕ) (hm : m < mask.length) :
    mask.eraseIdx m = ((List.range mask.length).filter (· ≠ m)).map fun i => mask.getD i false := by
  have h1 : (List.range mask.length).filter (· ≠ m) = (List.range mask.length).eraseIdx m := by
    have := List.nodup_range (n := mask.length)
    rw [← this.erase_getElem m (by simpa using hm), this.erase_eq_filter, List.getElem_range]
    apply List.filter_congr
    intro x _
    simp [bne, Bool.beq_eq_decide_eq]
  rw [h1, ← List.eraseIdx_map, ← mask_eq_map]

theorem prod_range_if (n : ℕ) (d : ℕ → R) (g : ℕ → Bool) :
    ((List.range n).map fun i => if g i then d i else 1).prod = ∏ i ∈ (range n).filter (fun i => g i), d i := by
  rw [← List.prod_toFinset _ List.nodup_range, prod_filter, List.toFinset_range]

theorem prod_range_if_ne (n m : ℕ) (d : ℕ → R) (g : ℕ → Bool) :
    (((List.range n).filter (· ≠ m)).map fun i => if g i then d i else 1).prod =
      ∏ i ∈ ((range n).filter (fun i => g i)).erase m, d i := by
  rw [← List.prod_toFinset _ (List.nodup_range.filter _), ← prod_filter]
  apply prod_congr _ fun _ _ => rfl
  ext i
  simp
  tauto

/-- the determinants of the model -/
theorem determinant_ok (w : DetRatio.Wfn R) (hp : w.params.length = w.mask.length * (w.nelec * w.nspin)) {sd i : ℕ}
    (hi : i < w.mask.length) (hcard : (occSet sd).card = w.nelec) (hsub : ∀ k ∈ occSet sd, k < w.nspin) :
    ∃ M, w.matrix i = .ok M ∧ (∀ r < w.nelec, ∀ c < w.nspin, M r c = w.params.getD (i * (w.nelec * w.nspin) + r * w.nspin + c) 0) ∧
      w.determinant sd i = .ok (detL M (List.range w.nelec) (occIndices (some sd))) ∧
      detL M (List.range w.nelec) (occIndices (some sd)) = ratioDet w.nelec w.nspin sd (fun k => w.params.getD k 0) i := by
  have hlt : (i + 1) * (w.nelec * w.nspin) ≤ w.params.length := by
    rw [hp]; exact Nat.mul_le_mul_right _ hi
  rw [add_mul, one_mul] at hlt
  have hlen : ((w.params.drop (i * (w.nelec * w.nspin))).take (w.nelec * w.nspin)).length = w.nelec * w.nspin := by
    rw [List.length_take, List.length_drop]; omega
  have hentry : ∀ r < w.nelec, ∀ c < w.nspin,
      ((w.params.drop (i * (w.nelec * w.nspin))).take (w.nelec * w.nspin)).getD (r * w.nspin + c) 0 =
        w.params.getD (i * (w.nelec * w.nspin) + r * w.nspin + c) 0 := by
    intro r hr c hc
    have : r * w.nspin + c < w.nelec * w.nspin := by
      calc r * w.nspin + c < (r + 1) * w.nspin := by rw [add_mul, one_mul]; omega
        _ ≤ _ := Nat.mul_le_mul_right _ hr
    simp only [List.getD_eq_getElem?_getD]
    rw [List.getElem?_take_of_lt this, List.getElem?_drop]
    congr 2
    omega
  have hmat : w.matrix i = .ok fun r c =>
      ((w.params.drop (i * (w.nelec * w.nspin))).take (w.nelec * w.nspin)).getD (r * w.nspin + c) 0 := by
    rw [Wfn.matrix, if_neg (by simpa using hi)]
    exact if_neg (not_not.2 hlen)
  have hocc : (occIndices (some sd)).length = w.nelec := by rw [occIndices_eq_sort, Finset.length_sort, hcard]
  refine ⟨_, hmat, hentry, ?_, ?_⟩
  · rw [Wfn.determinant, hmat]
    simp only [bind, Except.bind]
    rw [Wfn.det, getColumns, if_pos, npDet, if_pos (by rw [List.length_range, hocc])]
    rw [List.all_eq_true]
    intro c hc
    simpa using hsub c (by rwa [occIndices_eq_sort, Finset.mem_sort] at hc)
  · rw [detL_eq (n := w.nelec) (by simp), ratioDet]
    congr 1
    ext r j
    simp only [Matrix.of_apply]
    have hj : (occIndices (some sd)).getD j 0 < w.nspin := by
      rw [List.getD_eq_getElem _ _ (by omega)]
      apply hsub
      rw [← Finset.mem_sort (· ≤ ·), ← occIndices_eq_sort]
      exact List.getElem_mem _
    rw [show (List.range w.nelec).getD r 0 = r by simp [List.getD_eq_getElem?_getD, r.2], hentry _ r.2 _ hj,
      occIndices_eq_sort]

/-- C39: the overlap is the ratio of the products of the determinants of the occupied columns. -/
theorem C39_overlap (w : DetRatio.Wfn R) (hp : w.params.length = w.mask.length * (w.nelec * w.nspin)) {sd : ℕ}
    (hcard : (occSet sd).card = w.nelec) (hsub : ∀ k ∈ occSet sd, k < w.nspin) :
    w.overlap sd = .ok (ratioSpec w.nelec w.nspin (fun i => w.mask.getD i false = true) w.mask.length sd
      fun k => w.params.getD k 0) := by
  rw [Wfn.overlap, if_neg (by rw [totalOcc_eq]; simpa using hcard), Wfn.olp,
    mapM_eq_ok (g := ratioDet w.nelec w.nspin sd fun k => w.params.getD k 0) _ (by
      intro i hi
      obtain ⟨M, _, _, h1, h2⟩ := determinant_ok w hp (List.mem_range.1 hi) hcard hsub
      rw [h1, h2])]
  simp only [bind, Except.bind, pure, Except.pure]
  congr 1
  rw [ratioSpec]
  congr 1
  · conv_lhs => rw [mask_eq_map w.mask]
    rw [List.length_map, List.length_range, prodMask_map, prod_range_if]
  · conv_lhs => rw [mask_eq_map w.mask]
    rw [List.length_map, List.length_range, List.map_map, prodMask_map, prod_range_if]
    apply prod_congr _ fun _ _ => rfl
    ext i
    simp

/-! ## Derivatives -/

/-- the matrix of index `m` -/
def ratioMat (nelec nspin : ℕ) (p : ℕ → R) (m : ℕ) : ℕ → ℕ → R := fun a b => p (m * (nelec * nspin) + a * nspin + b)

/-- the cofactor of an entry of the columns of the occupied orbitals -/
def ratioCof (nelec nspin sd : ℕ) (p : ℕ → R) (m r c : ℕ) : R :=
  (-1) ^ (List.range nelec).idxOf r * (-1) ^ (occIndices (some sd)).idxOf c *
    detL (ratioMat nelec nspin p m) ((List.range nelec).filter (· ≠ r)) ((occIndices (some sd)).filter (· ≠ c))

theorem ratioDet_eq (nelec nspin sd : ℕ) (p : ℕ → R) (i : ℕ) :
    ratioDet nelec nspin sd p i = detL (ratioMat nelec nspin p i) (List.range nelec) (occIndices (some sd)) := by
  rw [detL_eq (n := nelec) (by simp), ratioDet]
  congr 1
  ext r j
  simp only [Matrix.of_apply, ratioMat]
  rw [show (List.range nelec).getD r 0 = r by simp [List.getD_eq_getElem?_getD, r.2], occIndices_eq_sort]

theorem index_unique {nelec nspin i m a r b c : ℕ} (ha : a < nelec) (hr : r < nelec) (hb : b < nspin) (hc : c < nspin)
    (h : i * (nelec * nspin) + a * nspin + b = m * (nelec * nspin) + r * nspin + c) : i = m ∧ a = r ∧ b = c := by
  have e : ∀ x y z, x * (nelec * nspin) + y * nspin + z = z + nspin * (y + nelec * x) := by intros; ring
  rw [e, e] at h
  have h1 : (b + nspin * (a + nelec * i)) % nspin = (c + nspin * (r + nelec * m)) % nspin := by rw [h]
  rw [Nat.add_mul_mod_self_left, Nat.add_mul_mod_self_left, Nat.mod_eq_of_lt hb, Nat.mod_eq_of_lt hc] at h1
  subst h1
  have h2 : a + nelec * i = r + nelec * m := Nat.eq_of_mul_eq_mul_left (by omega) (Nat.add_left_cancel h)
  have h3 : (a + nelec * i) % nelec = (r + nelec * m) % nelec := by rw [h2]
  rw [Nat.add_mul_mod_self_left, Nat.add_mul_mod_self_left, Nat.mod_eq_of_lt ha, Nat.mod_eq_of_lt hr] at h3
  subst h3
  exact ⟨Nat.eq_of_mul_eq_mul_left (by omega) (Nat.add_left_cancel h2), rfl, rfl⟩

/-- the determinants after one parameter was changed -/
theorem ratioDet_update {nelec nspin sd : ℕ} (hcard : (occSet sd).card = nelec) (hsub : ∀ k ∈ occSet sd, k < nspin)
    (p : ℕ → R) {m r c : ℕ} (hr : r < nelec) (hc : c < nspin) (x : R) (i : ℕ) :
    ratioDet nelec nspin sd (Function.update p (m * (nelec * nspin) + r * nspin + c) x) i =
      if i = m ∧ c ∈ occSet sd then
        ratioDet nelec nspin sd p m + (x - p (m * (nelec * nspin) + r * nspin + c)) * ratioCof nelec nspin sd p m r c
      else ratioDet nelec nspin sd p i := by
  have hocc : (occIndices (some sd)).length = nelec := by rw [occIndices_eq_sort, Finset.length_sort, hcard]
  have hmem : ∀ b, b ∈ occIndices (some sd) ↔ b ∈ occSet sd := by intro b; rw [occIndices_eq_sort, Finset.mem_sort]
  have hu : ∀ a < nelec, ∀ b ∈ occSet sd,
      ratioMat nelec nspin (Function.update p (m * (nelec * nspin) + r * nspin + c) x) i a b =
        if i = m ∧ a = r ∧ b = c then x else ratioMat nelec nspin p i a b := by
    intro a ha b hb
    rw [ratioMat, ratioMat, Function.update_apply]
    by_cases h : i = m ∧ a = r ∧ b = c
    · rw [if_pos h, if_pos (by rw [h.1, h.2.1, h.2.2])]
    · rw [if_neg h, if_neg fun e => h (index_unique ha hr (hsub b hb) hc e)]
  rw [ratioDet_eq, ratioDet_eq, ratioDet_eq]
  split_ifs with h
  · obtain ⟨rfl, h⟩ := h
    rw [ratioCof, ← detL_shift (ratioMat nelec nspin p i) (by rw [List.length_range, hocc]) List.nodup_range
      (nodup_occIndices sd) (List.mem_range.2 hr) ((hmem c).2 h)]
    apply detL_congr (by rw [List.length_range, hocc])
    intro a ha b hb
    rw [hu a (List.mem_range.1 ha) b ((hmem b).1 hb)]
    split_ifs with h1 h2 h2
    · rw [h2.1, h2.2, ratioMat]; ring
    · exact absurd h1.2 h2
    · exact absurd ⟨rfl, h2⟩ h1
    · rfl
  · apply detL_congr (by rw [List.length_range, hocc])
    intro a ha b hb
    rw [hu a (List.mem_range.1 ha) b ((hmem b).1 hb), if_neg]
    rintro ⟨rfl, -, rfl⟩
    exact h ⟨rfl, (hmem b).1 hb⟩

/-- the entries of the gradient at the occupied columns -/
def ratioGrad (nelec nspin : ℕ) (mask : ℕ → Bool) (n sd : ℕ) (p : ℕ → R) (m r c : ℕ) : R :=
  let N := ∏ i ∈ ((range n).filter (fun i => mask i)).erase m, ratioDet nelec nspin sd p i
  let D := ∏ i ∈ ((range n).filter (fun i => !mask i)).erase m, ratioDet nelec nspin sd p i
  if mask m then ratioCof nelec nspin sd p m r c * N / D
  else N / D * (-1) * (ratioDet nelec nspin sd p m ^ 2)⁻¹ * ratioCof nelec nspin sd p m r c

/-- a loop that writes to an array -/
theorem foldlM_setAt {α : Type} (F : α → Except PyErr R) (idx : α → ℕ) (V : ℕ → R) {n : ℕ} :
    ∀ (L : List α) (out : List R) (T : Finset ℕ), (∀ a ∈ L, F a = .ok (V (idx a)) ∧ idx a < n) → out.length = n →
      (∀ k, out.getD k 0 = if k ∈ T then V k else 0) →
      ∃ out', L.foldlM (fun out a => do setAt out (idx a) (← F a)) out = .ok out' ∧ out'.length = n ∧
        ∀ k, out'.getD k 0 = if k ∈ T ∪ (L.map idx).toFinset then V k else 0 := by
  intro L
  induction L with
  | nil => intro out T _ h1 h2; exact ⟨out, rfl, h1, by simpa using h2⟩
  | cons a L ih =>
    intro out T hL h1 h2
    obtain ⟨ha, hi⟩ := hL a (List.mem_cons_self ..)
    obtain ⟨out', e1, e2, e3⟩ := ih (out.set (idx a) (V (idx a))) (insert (idx a) T)
      (fun b hb => hL b (List.mem_cons_of_mem _ hb)) (by rw [List.length_set, h1]) (by
        intro k
        rw [List.getD_eq_getElem?_getD, List.getElem?_set]
        by_cases hk : idx a = k
        · subst hk
          simp [h1, hi]
        · rw [if_neg hk, ← List.getD_eq_getElem?_getD, h2]
          simp [Ne.symm hk])
    refine ⟨out', ?_, e2, ?_⟩
    · rw [List.foldlM_cons, ha]
      simp only [bind, Except.bind] at e1 ⊢
      rw [setAt, if_pos (by omega)]
      exact e1
    · intro k
      rw [e3]
      congr 1
      simp

theorem entry_ok (w : DetRatio.Wfn R) (hp : w.params.length = w.mask.length * (w.nelec * w.nspin)) {sd m : ℕ}
    (hm : m < w.mask.length) (hcard : (occSet sd).card = w.nelec) (hsub : ∀ k ∈ occSet sd, k < w.nspin)
    {T : Finset ℕ} (V : ℕ → R) (hV : ∀ r < w.nelec, ∀ c ∈ occSet sd, V (m * (w.nelec * w.nspin) + r * w.nspin + c) =
      ratioGrad w.nelec w.nspin (fun i => w.mask.getD i false) w.mask.length sd (fun k => w.params.getD k 0) m r c)
    (out : List R) (h1 : out.length = w.params.length) (h2 : ∀ k, out.getD k 0 = if k ∈ T then V k else 0) :
    ∃ out', w.olpDerivStep sd out m = .ok out' ∧ out'.length = w.params.length ∧
      ∀ k, out'.getD k 0 = if k ∈ T ∪ (((range w.nelec) ×ˢ (occSet sd)).image fun rc =>
        m * (w.nelec * w.nspin) + rc.1 * w.nspin + rc.2) then V k else 0 := by
  obtain ⟨M, hM, hMe, hd1, hd2⟩ := determinant_ok w hp hm hcard hsub
  have hocc : (occIndices (some sd)).length = w.nelec := by rw [occIndices_eq_sort, Finset.length_sort, hcard]
  have hmem : ∀ b, b ∈ occIndices (some sd) ↔ b ∈ occSet sd := by intro b; rw [occIndices_eq_sort, Finset.mem_sort]
  have hold : w.det M (List.range w.nelec) (getColumns sd) =
      .ok (ratioDet w.nelec w.nspin sd (fun k => w.params.getD k 0) m) := by
    rw [Wfn.determinant, hM] at hd1
    rw [← hd2, ← hd1]
    rfl
  rw [Wfn.olpDerivStep, mapM_eq_ok (g := ratioDet w.nelec w.nspin sd fun k => w.params.getD k 0) _ (by
      intro i hi
      obtain ⟨M, _, _, h1, h2⟩ := determinant_ok w hp (List.mem_range.1 (List.mem_filter.1 hi).1) hcard hsub
      rw [h1, h2])]
  simp only [bind, Except.bind, hM, hold]
  have e1 : prodMask (((List.range w.mask.length).filter (· ≠ m)).map
        (ratioDet w.nelec w.nspin sd fun k => w.params.getD k 0)) (w.mask.eraseIdx m) =
      ∏ i ∈ ((range w.mask.length).filter (fun i => w.mask.getD i false)).erase m,
        ratioDet w.nelec w.nspin sd (fun k => w.params.getD k 0) i := by
    rw [mask_eraseIdx _ _ hm, prodMask_map, prod_range_if_ne]
  have e2 : prodMask (((List.range w.mask.length).filter (· ≠ m)).map
        (ratioDet w.nelec w.nspin sd fun k => w.params.getD k 0)) ((w.mask.eraseIdx m).map not) =
      ∏ i ∈ ((range w.mask.length).filter (fun i => !w.mask.getD i false)).erase m,
        ratioDet w.nelec w.nspin sd (fun k => w.params.getD k 0) i := by
    rw [mask_eraseIdx _ _ hm, List.map_map, prodMask_map, prod_range_if_ne]
    rfl
  rw [e1, e2]
  have hlt : (m + 1) * (w.nelec * w.nspin) ≤ w.params.length := by
    rw [hp]; exact Nat.mul_le_mul_right _ hm
  rw [add_mul, one_mul] at hlt
  obtain ⟨out', f1, f2, f3⟩ := foldlM_setAt (α := ℕ × ℕ) (fun rc => w.entry sd m M
      (∏ i ∈ ((range w.mask.length).filter (fun i => w.mask.getD i false)).erase m,
        ratioDet w.nelec w.nspin sd (fun k => w.params.getD k 0) i)
      (∏ i ∈ ((range w.mask.length).filter (fun i => !w.mask.getD i false)).erase m,
        ratioDet w.nelec w.nspin sd (fun k => w.params.getD k 0) i)
      (ratioDet w.nelec w.nspin sd (fun k => w.params.getD k 0) m) rc.1 rc.2)
    (fun rc => m * w.size + rc.1 * w.nspin + rc.2) V (n := w.params.length)
    ((List.range w.nelec).flatMap fun r => (getColumns sd).map fun c => (r, c)) out T (by
      rintro ⟨r, c⟩ hrc
      simp only [List.mem_flatMap, List.mem_range, List.mem_map, Prod.mk.injEq] at hrc
      obtain ⟨r', hr, c', hc, rfl, rfl⟩ := hrc
      have hc' := (hmem _).1 hc
      have hlt' : r' * w.nspin + c' < w.nelec * w.nspin := by
        calc r' * w.nspin + c' < (r' + 1) * w.nspin := by rw [add_mul, one_mul]; have := hsub _ hc'; omega
          _ ≤ _ := Nat.mul_le_mul_right _ hr
      refine ⟨?_, by simp only [Wfn.size]; omega⟩
      simp only [Wfn.size]
      rw [hV r' hr c' hc', Wfn.entry]
      have hlen : ((List.range w.nelec).filter (· ≠ r')).length = ((getColumns sd).filter (· ≠ c')).length := by
        have a1 := length_filter_ne (List.nodup_range (n := w.nelec)) (List.mem_range.2 hr)
        have a2 := length_filter_ne (nodup_occIndices sd) hc
        rw [List.length_range] at a1
        rw [getColumns]
        omega
      rw [Wfn.det, if_pos (by
          rw [List.all_eq_true]
          intro b hb
          simpa using hsub b ((hmem b).1 (List.mem_filter.1 hb).1)), npDet, if_pos hlen]
      simp only [bind, Except.bind, pure, Except.pure]
      have hdet : detL M ((List.range w.nelec).filter (· ≠ r')) ((getColumns sd).filter (· ≠ c')) =
          detL (ratioMat w.nelec w.nspin (fun k => w.params.getD k 0) m) ((List.range w.nelec).filter (· ≠ r'))
            ((occIndices (some sd)).filter (· ≠ c')) :=
        detL_congr hlen fun a ha b hb => hMe a (List.mem_range.1 (List.mem_filter.1 ha).1) b
          (hsub b ((hmem b).1 (List.mem_filter.1 hb).1))
      rw [hdet]
      rfl) h1 h2
  refine ⟨out', f1, f2, ?_⟩
  intro k
  rw [f3]
  congr 1
  simp only [mem_union, eq_iff_iff]
  apply or_congr_right
  simp only [getColumns, Wfn.size, List.mem_toFinset, List.mem_map, List.mem_flatMap, List.mem_range, mem_image, mem_product,
    mem_range]
  constructor
  · rintro ⟨_, ⟨r, hr, c, hc, rfl⟩, rfl⟩
    exact ⟨(r, c), ⟨hr, (hmem c).1 hc⟩, rfl⟩
  · rintro ⟨⟨r, c⟩, ⟨hr, hc⟩, rfl⟩
    exact ⟨(r, c), ⟨r, hr, c, (hmem c).2 hc, rfl⟩, rfl⟩

theorem olpDeriv_ok (w : DetRatio.Wfn R) (hp : w.params.length = w.mask.length * (w.nelec * w.nspin)) {sd : ℕ}
    (hcard : (occSet sd).card = w.nelec) (hsub : ∀ k ∈ occSet sd, k < w.nspin) (V : ℕ → R)
    (hV : ∀ m < w.mask.length, ∀ r < w.nelec, ∀ c ∈ occSet sd, V (m * (w.nelec * w.nspin) + r * w.nspin + c) =
      ratioGrad w.nelec w.nspin (fun i => w.mask.getD i false) w.mask.length sd (fun k => w.params.getD k 0) m r c) :
    ∃ out, w.olpDeriv sd = .ok out ∧ out.length = w.params.length ∧
      ∀ k, out.getD k 0 = if k ∈ (range w.mask.length ×ˢ (range w.nelec ×ˢ occSet sd)).image (fun x =>
        x.1 * (w.nelec * w.nspin) + x.2.1 * w.nspin + x.2.2) then V k else 0 := by
  have key : ∀ (L : List ℕ) (out : List R) (T : Finset ℕ), (∀ m ∈ L, m < w.mask.length) → out.length = w.params.length →
      (∀ k, out.getD k 0 = if k ∈ T then V k else 0) →
      ∃ out', L.foldlM (w.olpDerivStep sd) out = .ok out' ∧ out'.length = w.params.length ∧
        ∀ k, out'.getD k 0 = if k ∈ T ∪ (L.toFinset ×ˢ (range w.nelec ×ˢ occSet sd)).image (fun x =>
          x.1 * (w.nelec * w.nspin) + x.2.1 * w.nspin + x.2.2) then V k else 0 := by
    intro L
    induction L with
    | nil => intro out T _ h1 h2; exact ⟨out, rfl, h1, by simpa using h2⟩
    | cons m L ih =>
      intro out T hL h1 h2
      have hm := hL m (List.mem_cons_self ..)
      obtain ⟨o1, a1, a2, a3⟩ := entry_ok w hp hm hcard hsub V (hV m hm) out h1 h2
      obtain ⟨o2, b1, b2, b3⟩ := ih o1 _ (fun i hi => hL i (List.mem_cons_of_mem _ hi)) a2 a3
      refine ⟨o2, ?_, b2, ?_⟩
      · rw [List.foldlM_cons, a1]
        exact b1
      · intro k
        rw [b3]
        congr 1
        simp only [mem_union, mem_image, mem_product, List.toFinset_cons, mem_insert, eq_iff_iff, or_assoc]
        apply or_congr_right
        constructor
        · rintro (⟨⟨r, c⟩, h, rfl⟩ | ⟨⟨i, r, c⟩, h, rfl⟩)
          · exact ⟨(m, r, c), ⟨Or.inl rfl, h⟩, rfl⟩
          · exact ⟨(i, r, c), ⟨Or.inr h.1, h.2⟩, rfl⟩
        · rintro ⟨⟨i, r, c⟩, ⟨rfl | h1, h2⟩, rfl⟩
          · exact Or.inl ⟨(r, c), h2, rfl⟩
          · exact Or.inr ⟨(i, r, c), ⟨h1, h2⟩, rfl⟩
  obtain ⟨out, h1, h2, h3⟩ := key (List.range w.mask.length) (List.replicate w.params.length 0) ∅
    (fun m hm => List.mem_range.1 hm) (by simp) (by
      intro k
      simp only [notMem_empty, if_false, List.getD_eq_getElem?_getD, List.getElem?_replicate]
      split_ifs <;> rfl)
  refine ⟨out, h1, h2, ?_⟩
  intro k
  rw [h3, empty_union, List.toFinset_range]

section
variable {𝕜 : Type} [NontriviallyNormedField 𝕜]

/-- the derivative of the ratio with respect to one parameter -/
theorem hasDerivAt_ratioSpec {nelec nspin sd n : ℕ} (hcard : (occSet sd).card = nelec) (hsub : ∀ k ∈ occSet sd, k < nspin)
    (mask : ℕ → Bool) (p : ℕ → 𝕜) (hden : ∀ i < n, mask i = false → ratioDet nelec nspin sd p i ≠ 0)
    {m r c : ℕ} (hm : m < n) (hr : r < nelec) (hc : c < nspin) :
    HasDerivAt (fun x => ratioSpec nelec nspin (fun i => mask i = true) n sd
        (Function.update p (m * (nelec * nspin) + r * nspin + c) x))
      (if c ∈ occSet sd then ratioGrad nelec nspin mask n sd p m r c else 0)
      (p (m * (nelec * nspin) + r * nspin + c)) := by
  have hfilt : ∀ i, (¬ mask i = true) ↔ (!mask i) = true := by simp
  by_cases hco : c ∈ occSet sd
  · rw [if_pos hco]
    have hd : HasDerivAt (fun x => ratioDet nelec nspin sd p m +
        (x - p (m * (nelec * nspin) + r * nspin + c)) * ratioCof nelec nspin sd p m r c)
        (ratioCof nelec nspin sd p m r c) (p (m * (nelec * nspin) + r * nspin + c)) := by
      have := (((hasDerivAt_id (p (m * (nelec * nspin) + r * nspin + c))).sub_const
        (p (m * (nelec * nspin) + r * nspin + c))).mul_const (ratioCof nelec nspin sd p m r c)).const_add
        (ratioDet nelec nspin sd p m)
      simpa using this
    have hne : ∀ (s : Finset ℕ) (x : 𝕜), ∏ i ∈ s.erase m, ratioDet nelec nspin sd
        (Function.update p (m * (nelec * nspin) + r * nspin + c) x) i = ∏ i ∈ s.erase m, ratioDet nelec nspin sd p i := by
      intro s x
      apply prod_congr rfl
      intro i hi
      rw [ratioDet_update hcard hsub p hr hc, if_neg fun h => (mem_erase.1 hi).1 h.1]
    have hthis : ∀ x, ratioDet nelec nspin sd (Function.update p (m * (nelec * nspin) + r * nspin + c) x) m =
        ratioDet nelec nspin sd p m +
          (x - p (m * (nelec * nspin) + r * nspin + c)) * ratioCof nelec nspin sd p m r c := by
      intro x
      rw [ratioDet_update hcard hsub p hr hc, if_pos ⟨rfl, hco⟩]
    have hother : ∀ (q : ℕ → Prop) [DecidablePred q], ¬ q m → ∀ x : 𝕜, ∏ i ∈ (range n).filter q, ratioDet nelec nspin sd
        (Function.update p (m * (nelec * nspin) + r * nspin + c) x) i =
        ∏ i ∈ ((range n).filter q).erase m, ratioDet nelec nspin sd p i := by
      intro q _ hq x
      rw [← hne, erase_eq_of_notMem]
      simp [hq]
    have hthat : ∀ (q : ℕ → Prop) [DecidablePred q], q m → ∀ x : 𝕜, ∏ i ∈ (range n).filter q, ratioDet nelec nspin sd
        (Function.update p (m * (nelec * nspin) + r * nspin + c) x) i =
        (ratioDet nelec nspin sd p m +
          (x - p (m * (nelec * nspin) + r * nspin + c)) * ratioCof nelec nspin sd p m r c) *
        ∏ i ∈ ((range n).filter q).erase m, ratioDet nelec nspin sd p i := by
      intro q _ hq x
      rw [← hne, ← hthis, mul_prod_erase (a := m)]
      simp [hq, hm]
    simp only [ratioSpec, ratioGrad]
    have eD : (range n).filter (fun i => ¬ mask i = true) = (range n).filter (fun i => (!mask i) = true) :=
      filter_congr fun i _ => hfilt i
    simp only [eD]
    by_cases hmask : mask m = true
    · rw [if_pos hmask]
      have h1 := hthat (fun i => mask i = true) hmask
      have h2 := hother (fun i => (!mask i) = true) (by simp [hmask])
      simp only [h1, h2]
      exact (hd.mul_const _).div_const _
    · rw [if_neg hmask]
      have h1 := hother (fun i => mask i = true) hmask
      have h2 := hthat (fun i => (!mask i) = true) (by simpa using hmask)
      simp only [h1, h2]
      have hm0 : ratioDet nelec nspin sd p m ≠ 0 := hden m hm (by simpa using hmask)
      have hD0 : ∏ i ∈ ((range n).filter (fun i => (!mask i) = true)).erase m, ratioDet nelec nspin sd p i ≠ 0 := by
        rw [prod_ne_zero_iff]
        intro i hi
        simp only [mem_erase, mem_filter, mem_range] at hi
        exact hden i hi.2.1 (by simpa using hi.2.2)
      have h3 := (hd.mul_const (∏ i ∈ ((range n).filter (fun i => (!mask i) = true)).erase m,
        ratioDet nelec nspin sd p i)).fun_inv (by
          rw [sub_self, zero_mul, add_zero]
          exact mul_ne_zero hm0 hD0)
      have h4 := h3.const_mul (∏ i ∈ ((range n).filter (fun i => mask i = true)).erase m, ratioDet nelec nspin sd p i)
      simp only [div_eq_mul_inv]
      refine h4.congr_deriv ?_
      simp only [sub_self, zero_mul, add_zero]
      field_simp
  · rw [if_neg hco]
    have hne : ∀ (x : 𝕜) i, ratioDet nelec nspin sd
        (Function.update p (m * (nelec * nspin) + r * nspin + c) x) i = ratioDet nelec nspin sd p i := by
      intro x i
      rw [ratioDet_update hcard hsub p hr hc, if_neg fun h => hco h.2]
    simp only [ratioSpec, hne]
    exact hasDerivAt_const ..

/-- C39: `get_overlap(sd, deriv)` gives the partial derivatives of `get_overlap(sd)` with respect to the requested
parameters, which are zero for the columns of orbitals that are not occupied. -/
theorem C39_deriv (w : DetRatio.Wfn 𝕜) (hp : w.params.length = w.mask.length * (w.nelec * w.nspin)) {sd : ℕ}
    (hcard : (occSet sd).card = w.nelec) (hsub : ∀ k ∈ occSet sd, k < w.nspin)
    (hden : ∀ i < w.mask.length, w.mask.getD i false = false →
      ratioDet w.nelec w.nspin sd (fun k => w.params.getD k 0) i ≠ 0) :
    ∃ g : ℕ → 𝕜, (∀ deriv : List ℕ, (∀ k ∈ deriv, k < w.params.length) →
        w.overlapDeriv sd deriv = .ok (.inr (deriv.map g))) ∧
      ∀ k < w.params.length, (∃ f : 𝕜 → 𝕜, (∀ x, ({ w with params := w.params.set k x }).overlap sd = .ok (f x)) ∧
        HasDerivAt f (g k) (w.params.getD k 0)) ∧ (k % w.nspin ∉ occSet sd → g k = 0) := by
  have hsplit : ∀ k < w.params.length, ∃ m r c, m < w.mask.length ∧ r < w.nelec ∧ c < w.nspin ∧ k % w.nspin = c ∧
      k = m * (w.nelec * w.nspin) + r * w.nspin + c := by
    intro k hk
    rw [hp] at hk
    have h0 : 0 < w.nelec * w.nspin := by
      rcases Nat.eq_zero_or_pos (w.nelec * w.nspin) with h | h
      · rw [h] at hk; omega
      · exact h
    have hn : 0 < w.nspin := Nat.pos_of_mul_pos_left h0
    refine ⟨k / (w.nelec * w.nspin), (k / w.nspin) % w.nelec, k % w.nspin, ?_, ?_, Nat.mod_lt _ hn, rfl, ?_⟩
    · rw [Nat.div_lt_iff_lt_mul h0]; exact hk
    · exact Nat.mod_lt _ (Nat.pos_of_mul_pos_right h0)
    · have e1 := Nat.div_add_mod k w.nspin
      have e2 := Nat.div_add_mod (k / w.nspin) w.nelec
      rw [Nat.div_div_eq_div_mul, mul_comm w.nspin] at e2
      calc k = w.nspin * (k / w.nspin) + k % w.nspin := e1.symm
        _ = w.nspin * (w.nelec * (k / (w.nelec * w.nspin)) + k / w.nspin % w.nelec) + k % w.nspin := by rw [e2]
        _ = _ := by ring
  let V : ℕ → 𝕜 := fun k => ratioGrad w.nelec w.nspin (fun i => w.mask.getD i false) w.mask.length sd
    (fun k => w.params.getD k 0) (k / (w.nelec * w.nspin)) ((k / w.nspin) % w.nelec) (k % w.nspin)
  obtain ⟨out, h1, h2, h3⟩ := olpDeriv_ok w hp hcard hsub V (by
    intro m _ r hr c hc
    have hc' := hsub c hc
    have e : m * (w.nelec * w.nspin) + r * w.nspin + c = c + w.nspin * (r + w.nelec * m) := by ring
    have e1 : (m * (w.nelec * w.nspin) + r * w.nspin + c) % w.nspin = c := by
      rw [e, Nat.add_mul_mod_self_left, Nat.mod_eq_of_lt hc']
    have e2 : (m * (w.nelec * w.nspin) + r * w.nspin + c) / w.nspin = r + w.nelec * m := by
      rw [e, Nat.add_mul_div_left _ _ (by omega), Nat.div_eq_of_lt hc', zero_add]
    have e3 : (m * (w.nelec * w.nspin) + r * w.nspin + c) / (w.nelec * w.nspin) = m := by
      rw [mul_comm w.nelec w.nspin, ← Nat.div_div_eq_div_mul, mul_comm w.nspin w.nelec, e2,
        Nat.add_mul_div_left _ _ (by omega), Nat.div_eq_of_lt hr, zero_add]
    simp only [V, e1, e2, e3]
    rw [Nat.add_mul_mod_self_left, Nat.mod_eq_of_lt hr])
  refine ⟨fun k => out.getD k 0, ?_, ?_⟩
  · intro deriv hd
    rw [Wfn.overlapDeriv, if_neg (by rw [totalOcc_eq]; simpa using hcard), h1]
    simp only [bind, Except.bind]
    rw [mapM_eq_ok (g := fun k => out.getD k 0) deriv (by
      intro k hk
      have := hd k hk
      rw [CI.pick, List.getElem?_eq_getElem (by omega), List.getD_eq_getElem _ _ (by omega)])]
    rfl
  · intro k hk
    have hval : ∀ k < w.params.length, out.getD k 0 = if k % w.nspin ∈ occSet sd then V k else 0 := by
      intro k hk
      obtain ⟨m, r, c, hm, hr, hc, hkc, e⟩ := hsplit k hk
      rw [h3]
      congr 1
      rw [hkc, eq_iff_iff, mem_image]
      constructor
      · rintro ⟨⟨i, a, b⟩, h, he⟩
        simp only [mem_product, mem_range] at h
        rw [e] at he
        obtain ⟨-, -, rfl⟩ := index_unique h.2.1 hr (hsub b h.2.2) hc he
        exact h.2.2
      · intro h
        exact ⟨(m, r, c), by simp [hm, hr, h], e.symm⟩
    refine ⟨⟨fun x => ratioSpec w.nelec w.nspin (fun i => w.mask.getD i false = true) w.mask.length sd
      (Function.update (fun k => w.params.getD k 0) k x), ?_, ?_⟩, ?_⟩
    · intro x
      rw [C39_overlap { w with params := w.params.set k x } (by simpa using hp) hcard hsub]
      congr 2
      funext j
      rw [Function.update_apply, List.getD_eq_getElem?_getD, List.getElem?_set]
      by_cases hj : k = j
      · subst hj; simp [hk]
      · rw [if_neg hj, if_neg (Ne.symm hj), List.getD_eq_getElem?_getD]
    · obtain ⟨m, r, c, hm, hr, hc, hkc, e⟩ := hsplit k hk
      have := hasDerivAt_ratioSpec hcard hsub (fun i => w.mask.getD i false) (fun k => w.params.getD k 0) hden hm hr hc
      rw [← e] at this
      refine this.congr_deriv ?_
      show _ = out.getD k 0
      rw [hval k hk, hkc]
      congr 1
      have hn : 0 < w.nspin := by omega
      have e' : k = c + w.nspin * (r + w.nelec * m) := by rw [e]; ring
      have e2 : k / w.nspin = r + w.nelec * m := by
        rw [e', Nat.add_mul_div_left _ _ hn, Nat.div_eq_of_lt hc, zero_add]
      have e3 : k / (w.nelec * w.nspin) = m := by
        rw [mul_comm w.nelec w.nspin, ← Nat.div_div_eq_div_mul, e2,
          Nat.add_mul_div_left _ _ (by omega), Nat.div_eq_of_lt hr, zero_add]
      simp only [V, hkc, e2, e3]
      rw [Nat.add_mul_mod_self_left, Nat.mod_eq_of_lt hr]
    · intro h
      show out.getD k 0 = 0
      rw [hval k hk, if_neg h]

end

/-- C39: for another number of electrons both the overlap and its derivative are the number zero, whatever the list of
parameters. -/
theorem C39_mismatch (w : DetRatio.Wfn R) {sd : ℕ} (h : (occSet sd).card ≠ w.nelec) (deriv : List ℕ) :
    w.overlap sd = .ok 0 ∧ w.overlapDeriv sd deriv = .ok (.inl 0) := by
  have : totalOcc (some sd) ≠ w.nelec := by rw [totalOcc_eq]; simpa using h
  exact ⟨by rw [Wfn.overlap, if_pos this], by rw [Wfn.overlapDeriv, if_pos this]⟩

/-- C39: an occupied orbital outside the basis is an `IndexError`. -/
theorem C39_outside (w : DetRatio.Wfn R) (hp : w.params.length = w.mask.length * (w.nelec * w.nspin))
    (h0 : 0 < w.mask.length) {sd : ℕ} (hcard : (occSet sd).card = w.nelec) {k : ℕ} (hk : k ∈ occSet sd)
    (hout : w.nspin ≤ k) : w.overlap sd = .error .indexError := by
  rw [Wfn.overlap, if_neg (by rw [totalOcc_eq]; simpa using hcard), Wfn.olp]
  obtain ⟨n, hn⟩ : ∃ n, w.mask.length = n + 1 := ⟨w.mask.length - 1, by omega⟩
  have h1 : w.determinant sd 0 = .error .indexError := by
    rw [Wfn.determinant, Wfn.matrix, if_neg (by omega)]
    have : ((w.params.drop (0 * w.size)).take w.size).length = w.size := by
      rw [List.length_take, zero_mul, List.drop_zero, hp, hn, Wfn.size, add_mul, one_mul]
      omega
    simp only []
    rw [if_neg (not_not.2 this)]
    simp only [bind, Except.bind]
    rw [Wfn.det, if_neg]
    rw [List.all_eq_true]
    intro h
    have := h k (by rw [getColumns, occIndices_eq_sort, Finset.mem_sort]; exact hk)
    simp at this
    omega
  rw [hn, List.range_succ_eq_map, List.mapM_cons, h1]
  rfl

/-- The hypotheses are met: one electron in two orbitals, the ratio `p₀ / p₂` of the two matrices `(p₀, p₁)` and
`(p₂, p₃)` for the determinant of the first orbital. -/
example : let w : DetRatio.Wfn ℚ := ⟨1, 2, [true, false], [3, 5, 2, 7]⟩
    w.overlap 0b01 = .ok (3 / 2) ∧ w.overlapDeriv 0b01 [0, 1, 2, 3] = .ok (.inr [1 / 2, 0, -3 / 4, 0]) ∧
      w.overlap 0b11 = .ok 0 ∧ w.overlap 0b100 = .error .indexError := by decide +kernel

example : (occSet 0b01).card = 1 ∧ ∀ k ∈ occSet 0b01, k < 2 := by decide

/-! ## Construction -/

/-- C39: the constructor accepts positive numbers of electrons and an even number of orbitals, and a mask with at least one entry; without a
mask there are one numerator and one denominator. -/
theorem C39_init (nelec nspin : ℕ) (mask : Option (List Bool)) (params : List R) (w : DetRatio.Wfn R) :
    DetRatio.init nelec nspin mask params = .ok w ↔ 0 < nelec ∧ 0 < nspin ∧ nspin % 2 = 0 ∧ mask ≠ some [] ∧
      w = ⟨nelec, nspin, mask.getD [true, false], params⟩ := by
  rw [DetRatio.init, CI.checkNelec, CI.checkNspin, assignMask]
  simp only [bind, Except.bind, pure, Except.pure]
  by_cases h1 : nelec = 0
  · simp [h1]
  by_cases h2 : nspin = 0 ∨ nspin % 2 = 1
  · simp only [h1, h2, if_true, if_false, reduceCtorEq, false_iff]; omega
  simp only [h1, h2, if_false]
  have h3 : 0 < nelec ∧ 0 < nspin ∧ nspin % 2 = 0 := by omega
  rcases mask with _ | m
  · simp [h3, eq_comm]
  · rcases m with _ | ⟨b, m⟩
    · simp
    · simp [h3, eq_comm]

/-- C39: a mask without entries raises `TypeError`. -/
theorem C39_init_mask (nelec nspin : ℕ) (h : 0 < nelec ∧ 0 < nspin ∧ nspin % 2 = 0) (params : List R) :
    DetRatio.init nelec nspin (some []) params = .error .typeError := by
  rw [DetRatio.init, CI.checkNelec, CI.checkNspin, assignMask, if_neg (by omega), if_neg (by omega)]
  rfl

/-- C39: `decompose_index` is the inverse of the position of an entry of a matrix among the parameters. -/
theorem C39_decompose (nelec nspin : ℕ) :
    (∀ m r c, r < nelec → c < nspin → decomposeIndex nelec nspin (m * (nelec * nspin) + r * nspin + c) = (m, r, c)) ∧
    ∀ n k, 0 < nspin → k < n * (nelec * nspin) → ∃ m r c, decomposeIndex nelec nspin k = (m, r, c) ∧ m < n ∧ r < nelec ∧ c < nspin ∧
      m * (nelec * nspin) + r * nspin + c = k := by
  have key : ∀ r c, r < nelec → c < nspin → r * nspin + c < nelec * nspin := fun r c hr hc =>
    calc r * nspin + c < (r + 1) * nspin := by rw [add_mul, one_mul]; omega
      _ ≤ _ := Nat.mul_le_mul_right _ hr
  constructor
  · intro m r c hr hc
    have h1 := key r c hr hc
    have e : (m * (nelec * nspin) + r * nspin + c) % (nelec * nspin) = r * nspin + c := by
      rw [add_assoc, mul_comm m, Nat.mul_add_mod, Nat.mod_eq_of_lt h1]
    rw [decomposeIndex, e]
    have e2 : (m * (nelec * nspin) + r * nspin + c) / (nelec * nspin) = m := by
      rw [add_assoc, mul_comm m, Nat.mul_add_div (by omega), Nat.div_eq_of_lt h1, add_zero]
    rw [e2, mul_comm r, Nat.mul_add_div (by omega), Nat.div_eq_of_lt hc, add_zero, Nat.mul_add_mod, Nat.mod_eq_of_lt hc]
  · intro n k hn hk
    have hpos : 0 < nelec * nspin := Nat.pos_of_ne_zero fun h => by rw [h] at hk; simp at hk
    have hm := Nat.mod_lt k hpos
    refine ⟨_, _, _, rfl, (Nat.div_lt_iff_lt_mul hpos).2 hk, (Nat.div_lt_iff_lt_mul hn).2 hm, Nat.mod_lt _ hn, ?_⟩
    have e1 := Nat.div_add_mod k (nelec * nspin)
    have e2 := Nat.div_add_mod (k % (nelec * nspin)) nspin
    rw [mul_comm] at e1 e2
    omega

/-- an entry of blocks of equal lengths -/
theorem getD_blocks {α β : Type} (f : α → List β) (m : ℕ) (d : β) (a : α) : ∀ (l : List α), (∀ x ∈ l, (f x).length = m) → ∀ i < l.length, ∀ j < m,
    (l.flatMap f).getD (i * m + j) d = (f (l.getD i a)).getD j d := by
  intro l
  induction l with
  | nil => simp
  | cons x r ih =>
    intro hl i hi j hj
    have hx : (f x).length = m := hl x (by simp)
    rw [List.flatMap_cons]
    cases i with
    | zero =>
      rw [zero_mul, zero_add, List.getD_append _ _ _ _ (by omega)]
      rfl
    | succ i =>
      rw [List.getD_append_right _ _ _ _ (by rw [hx, add_mul, one_mul]; omega), hx,
        show (i + 1) * m + j - m = i * m + j by rw [add_mul, one_mul]; omega,
        ih (fun y hy => hl y (by simp [hy])) i (by simpa using hi) j hj]
      rfl

/-- the default parameters: their number, and the matrices -/
theorem defaultParams_facts {norm : List R → R} {rnd : ℕ → ℕ → R} {nelec nspin g : ℕ} (hg : ground nelec nspin = .ok g) (mask : List Bool) :
    ∃ P, defaultParams norm rnd nelec nspin mask = .ok P ∧ P.length = mask.length * (nelec * nspin) ∧
      ∀ i < mask.length, ∀ r < nelec, ∀ c < nspin, P.getD (i * (nelec * nspin) + r * nspin + c) 0 =
        if mask.getD i false then defaultMatrix (occIndices (some g)) r c
        else defaultDenominator norm rnd nelec (occIndices (some g)) r c := by
  have hlen : ∀ b : Bool, ((List.range nelec).flatMap fun r => (List.range nspin).map fun c =>
      if b then (defaultMatrix (occIndices (some g)) r c : R) else defaultDenominator norm rnd nelec (occIndices (some g)) r c).length =
        nelec * nspin := by
    intro b
    simp [List.length_flatMap]
  refine ⟨_, by rw [defaultParams, hg]; rfl, ?_, ?_⟩
  · rw [List.length_flatMap]
    simp only [hlen]
    simp
  · intro i hi r hr c hc
    rw [add_assoc, getD_blocks _ (nelec * nspin) 0 false mask (fun x _ => hlen x) i hi _
      (calc r * nspin + c < (r + 1) * nspin := by rw [add_mul, one_mul]; omega
        _ ≤ _ := Nat.mul_le_mul_right _ hr),
      getD_blocks _ nspin 0 0 (List.range nelec) (by simp) r (by simpa using hr) c hc]
    simp [List.getD_eq_getElem?_getD, hc, hr]

/-- C39: with the default parameters the overlap of the ground state is one, whatever the random numbers, and the overlaps of all other
determinants are zero if there is a numerator.  The norm is only assumed to be one for the unit vectors. -/
theorem C39_default (norm : List R → R) (rnd : ℕ → ℕ → R) (nelec nspin g : ℕ) (hg : ground nelec nspin = .ok g) (mask : List Bool)
    (hnorm : ∀ r < nelec, norm ((List.range nelec).map fun a => if a = r then 1 else 0) = 1) :
    ∃ P, defaultParams norm rnd nelec nspin mask = .ok P ∧
      (⟨nelec, nspin, mask, P⟩ : DetRatio.Wfn R).overlap g = .ok 1 ∧
      ∀ sd, (occSet sd).card = nelec → (∀ k ∈ occSet sd, k < nspin) → sd ≠ g → true ∈ mask →
        (⟨nelec, nspin, mask, P⟩ : DetRatio.Wfn R).overlap sd = .ok 0 := by
  obtain ⟨P, hP, hl, hv⟩ := defaultParams_facts (norm := norm) (rnd := rnd) hg mask
  obtain ⟨-, hb, hcard⟩ := ground_ok_facts hg
  have hsub : ∀ k ∈ occSet g, k < nspin := fun k hk => by
    rw [mem_occSet] at hk
    exact (Nat.pow_lt_pow_iff_right (by norm_num)).1 ((Nat.ge_two_pow_of_testBit hk).trans_lt hb)
  have hocc : (occIndices (some g)).length = nelec := by rw [occIndices_eq_sort, Finset.length_sort, hcard]
  have hnd : (occIndices (some g)).Nodup := nodup_occIndices g
  have hmem : ∀ j < nelec, (occIndices (some g)).getD j 0 ∈ occIndices (some g) := fun j hj => by
    rw [List.getD_eq_getElem _ _ (by omega)]; exact List.getElem_mem _
  have hoc : ∀ k, k ∈ occIndices (some g) → k ∈ occSet g := fun k hk => by rwa [occIndices_eq_sort, Finset.mem_sort] at hk
  have hinj : ∀ a < nelec, ∀ b < nelec, (occIndices (some g)).getD a 0 = (occIndices (some g)).getD b 0 ↔ a = b := by
    intro a ha b hb
    rw [List.getD_eq_getElem _ _ (by omega), List.getD_eq_getElem _ _ (by omega)]
    exact hnd.getElem_inj_iff
  have hlt : ∀ j < nelec, (occIndices (some g)).getD j 0 < nspin := fun j hj =>
    hsub _ (hoc _ (hmem j hj))
  refine ⟨P, hP, ?_, ?_⟩
  · rw [C39_overlap _ hl hcard hsub]
    congr 1
    have hone : ∀ i < mask.length, ratioDet nelec nspin g (fun k => P.getD k 0) i = 1 := by
      intro i hi
      rw [ratioDet, ← occIndices_eq_sort]
      rw [show (Matrix.of fun r j : Fin nelec => P.getD (i * (nelec * nspin) + r * nspin + (occIndices (some g)).getD j 0) 0) = 1 from ?_, Matrix.det_one]
      ext r j
      rw [Matrix.of_apply, hv i hi r r.2 _ (hlt j j.2), Matrix.one_apply]
      have e1 : ∀ a < nelec, (defaultMatrix (occIndices (some g)) a ((occIndices (some g)).getD j 0) : R) = if a = j then 1 else 0 := by
        intro a ha
        rw [defaultMatrix]
        simp only [hinj a ha j j.2]
      have e2 : (if (r : ℕ) = j then (1 : R) else 0) = if r = j then 1 else 0 := by simp [Fin.ext_iff]
      split_ifs with hm h h
      · rw [e1 r r.2, e2, if_pos h]
      · rw [e1 r r.2, e2, if_neg h]
      all_goals
        have e3 : ((List.range nelec).map fun a => if (occIndices (some g)).getD j 0 ∈ occIndices (some g) then
            (defaultMatrix (occIndices (some g)) a ((occIndices (some g)).getD j 0) : R) else rnd a ((occIndices (some g)).getD j 0)) =
            (List.range nelec).map fun a => if a = (j : ℕ) then 1 else 0 := by
          apply List.map_congr_left
          intro a ha
          rw [if_pos (hmem j j.2), e1 a (List.mem_range.1 ha)]
        rw [defaultDenominator, e3]
        rw [hnorm j j.2, div_one]
        simp [List.getD_eq_getElem?_getD, h, Fin.ext_iff]
        try simpa [Fin.ext_iff] using h
    rw [ratioSpec, prod_congr rfl fun i hi => hone i (mem_range.1 (mem_filter.1 hi).1),
      prod_congr rfl fun i hi => hone i (mem_range.1 (mem_filter.1 hi).1)]
    simp
  · intro sd hc hs hne hm
    rw [C39_overlap _ hl hc hs]
    congr 1
    obtain ⟨k, hk, hkg⟩ : ∃ k ∈ occSet sd, k ∉ occSet g := by
      by_contra h
      push Not at h
      have : occSet sd = occSet g := Finset.eq_of_subset_of_card_le h (by rw [hc, hcard])
      exact hne (occSet_injective this)
    obtain ⟨i, hi, e⟩ := List.getElem_of_mem hm
    rw [ratioSpec, prod_eq_zero (i := i) (by simp [hi, e, List.getD_eq_getElem?_getD]), zero_div]
    rw [ratioDet]
    obtain ⟨j, hj, ej⟩ := List.getElem_of_mem ((Finset.mem_sort (· ≤ ·)).2 hk)
    have hjn : j < nelec := by rwa [Finset.length_sort, hc] at hj
    apply Matrix.det_eq_zero_of_column_eq_zero ⟨j, hjn⟩
    intro r
    rw [Matrix.of_apply, List.getD_eq_getElem _ _ hj, ej, hv i hi r r.2 k (hs k hk), List.getD_eq_getElem _ _ hi, e, if_pos rfl, defaultMatrix, if_neg]
    rintro rfl
    exact hkg (hoc _ (hmem r r.2))

example : ∃ P, defaultParams (R := ℚ) (fun l => l.foldl (fun a b => a + b) 0) (fun _ _ => 1 / 2) 2 4 [true, false] = .ok P ∧
    (⟨2, 4, [true, false], P⟩ : DetRatio.Wfn ℚ).overlap 0b0101 = .ok 1 := by
  obtain ⟨P, h1, h2, -⟩ := C39_default (R := ℚ) (fun l => l.foldl (fun a b => a + b) 0) (fun _ _ => 1 / 2) 2 4 0b0101 (by decide +kernel) [true, false]
    (by decide +kernel)
  exact ⟨P, h1, h2⟩

end Fanpy.Props
