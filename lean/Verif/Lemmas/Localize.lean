import Verif.Spec.Svd
import Mathlib.Data.List.FinRange
import Mathlib.Algebra.BigOperators.Fin

/-! Lemmas on the loop of `localize` -/

namespace Fanpy.Localize
open Matrix Fanpy.Spec

theorem argmaxBy_none {α : Type} (f : α → ℝ) (l : List α) : argmaxBy f l = none ↔ l = [] := by
  cases l with
  | nil => simp [argmaxBy]
  | cons a l =>
    simp only [argmaxBy]
    split
    · simp
    · split <;> simp

theorem argmaxBy_some {α : Type} (f : α → ℝ) : ∀ (l : List α) (b : α), argmaxBy f l = some b → b ∈ l ∧ ∀ a ∈ l, f a ≤ f b := by
  intro l
  induction l with
  | nil => intro b h; simp [argmaxBy] at h
  | cons a l ih =>
    intro b h
    simp only [argmaxBy] at h
    split at h
    · rename_i hn
      have := (argmaxBy_none f l).1 hn
      subst this
      simp only [Option.some.injEq] at h
      subst h
      simp
    · rename_i c hc
      have := ih c hc
      split at h
      · rename_i hlt
        simp only [Option.some.injEq] at h
        subst h
        refine ⟨List.mem_cons_of_mem _ this.1, ?_⟩
        intro x hx
        rcases List.mem_cons.1 hx with h | h
        · subst h; exact hlt.le
        · exact this.2 x h
      · rename_i hlt
        simp only [Option.some.injEq] at h
        subst h
        refine ⟨List.mem_cons_self, ?_⟩
        intro x hx
        rcases List.mem_cons.1 hx with h | h
        · subst h; exact le_refl _
        · exact (this.2 x h).trans (not_lt.1 hlt)

theorem foldl_max (l : List ℝ) : ∀ a : ℝ, (l.foldl max a = a ∨ l.foldl max a ∈ l) ∧ a ≤ l.foldl max a ∧ ∀ x ∈ l, x ≤ l.foldl max a := by
  induction l with
  | nil => intro a; simp
  | cons b l ih =>
    intro a
    obtain ⟨h1, h2, h3⟩ := ih (max a b)
    rw [List.foldl_cons]
    refine ⟨?_, (le_max_left _ _).trans h2, ?_⟩
    · rcases h1 with h | h
      · rw [h]
        rcases le_total a b with hab | hab
        · right; rw [max_eq_right hab]; exact List.mem_cons_self
        · left; rw [max_eq_left hab]
      · right; exact List.mem_cons_of_mem _ h
    · intro x hx
      rcases List.mem_cons.1 hx with h | h
      · subst h; exact (le_max_right _ _).trans h2
      · exact h3 x h

theorem maxOf_spec (l : List ℝ) (h : l ≠ []) : maxOf l ∈ l ∧ ∀ x ∈ l, x ≤ maxOf l := by
  cases l with
  | nil => exact absurd rfl h
  | cons a l =>
    obtain ⟨h1, h2, h3⟩ := foldl_max l a
    refine ⟨?_, ?_⟩
    · rcases h1 with h | h
      · show l.foldl max a ∈ _
        rw [h]; exact List.mem_cons_self
      · exact List.mem_cons_of_mem _ h
    · intro x hx
      rcases List.mem_cons.1 hx with h | h
      · subst h; exact h2
      · exact h3 x h

theorem vecMul_dot {k n : ℕ} (a b : Fin k → ℝ) (A : Matrix (Fin k) (Fin n) ℝ) :
    (a ᵥ* A) ⬝ᵥ (b ᵥ* A) = a ⬝ᵥ ((A * Aᵀ) *ᵥ b) := by
  rw [← Matrix.mulVec_mulVec, Matrix.dotProduct_mulVec, Matrix.mulVec_transpose]

theorem vecMul_dot_orth {k n : ℕ} (a b : Fin k → ℝ) (A : Matrix (Fin k) (Fin n) ℝ) (h : A * Aᵀ = 1) :
    (a ᵥ* A) ⬝ᵥ (b ᵥ* A) = a ⬝ᵥ b := by
  rw [vecMul_dot, h, Matrix.one_mulVec]

theorem row_eq {k n : ℕ} (A : Matrix (Fin k) (Fin n) ℝ) (i : Fin k) : A i = Pi.single i 1 ᵥ* A := by
  rw [Matrix.single_one_vecMul]; rfl

variable {svd : Svd} (hs : IsSvd svd)
include hs

theorem left_orth' {k m : ℕ} (x : Matrix (Fin k) (Fin m) ℝ) : svd.left x * (svd.left x)ᵀ = 1 :=
  mul_eq_one_comm.1 (hs.left_orth x)

theorem right_orth' {k m : ℕ} (x : Matrix (Fin k) (Fin m) ℝ) : svd.right x * (svd.right x)ᵀ = 1 :=
  mul_eq_one_comm.1 (hs.right_orth x)

theorem leftT_mul {k m : ℕ} (x : Matrix (Fin k) (Fin m) ℝ) : (svd.left x)ᵀ * x =
    (Matrix.of fun (i : Fin k) (j : Fin m) => if (i : ℕ) = (j : ℕ) then (svd.sigma x).getD i 0 else 0) * svd.right x := by
  have h := congrArg ((svd.left x)ᵀ * ·) (hs.factor x)
  rw [h, ← Matrix.mul_assoc, ← Matrix.mul_assoc, hs.left_orth, Matrix.one_mul]

/-- the rows of `Uᵀ x` are orthogonal and their norms are the singular values -/
theorem gram {k m : ℕ} (x : Matrix (Fin k) (Fin m) ℝ) :
    ((svd.left x)ᵀ * x) * ((svd.left x)ᵀ * x)ᵀ = Matrix.diagonal fun i : Fin k => ((svd.sigma x).getD i 0) ^ 2 := by
  set D : Matrix (Fin k) (Fin m) ℝ := Matrix.of fun i j => if (i : ℕ) = (j : ℕ) then (svd.sigma x).getD i 0 else 0 with hD
  have h1 : (svd.left x)ᵀ * x = D * svd.right x := leftT_mul hs x
  rw [h1, Matrix.transpose_mul, Matrix.mul_assoc, ← Matrix.mul_assoc (svd.right x), right_orth' hs, Matrix.one_mul]
  ext i j
  rw [Matrix.mul_apply, Matrix.diagonal_apply]
  simp only [hD, Matrix.of_apply, Matrix.transpose_apply]
  by_cases hm : (i : ℕ) < m
  · rw [Finset.sum_eq_single (⟨i, hm⟩ : Fin m)]
    · simp only [if_true]
      by_cases hij : i = j
      · subst hij; simp [pow_two]
      · rw [if_neg hij, if_neg (fun h => hij (Fin.ext h.symm)), mul_zero]
    · intro y _ hy
      rw [if_neg, zero_mul]
      intro h
      exact hy (Fin.ext h.symm)
    · intro h; exact absurd (Finset.mem_univ _) h
  · have h0 : (svd.sigma x).getD i 0 = 0 := by
      rw [List.getD_eq_getElem?_getD, List.getElem?_eq_none]
      · rfl
      · rw [hs.length]; omega
    rw [h0]
    simp

/-- the norm of `w x` in terms of the singular values -/
theorem norm_vecMul {k m : ℕ} (x : Matrix (Fin k) (Fin m) ℝ) (w : Fin k → ℝ) :
    (w ᵥ* x) ⬝ᵥ (w ᵥ* x) = ∑ i : Fin k, ((svd.sigma x).getD i 0) ^ 2 * ((w ᵥ* svd.left x) i) ^ 2 := by
  have h1 : w ᵥ* x = (w ᵥ* svd.left x) ᵥ* ((svd.left x)ᵀ * x) := by
    rw [Matrix.vecMul_vecMul, ← Matrix.mul_assoc, left_orth' hs, Matrix.one_mul]
  rw [h1, vecMul_dot, gram hs]
  simp only [dotProduct, Matrix.mulVec_diagonal]
  refine Finset.sum_congr rfl fun i _ => ?_
  ring

theorem sigma_row {k m : ℕ} (x : Matrix (Fin k) (Fin m) ℝ) (j : Fin k) :
    ((svd.left x)ᵀ j ᵥ* x) ⬝ᵥ ((svd.left x)ᵀ j ᵥ* x) = ((svd.sigma x).getD j 0) ^ 2 := by
  have h := congrFun (congrFun (gram hs x) j) j
  rw [Matrix.diagonal_apply, if_pos rfl] at h
  rw [← h]
  have : (svd.left x)ᵀ j ᵥ* x = ((svd.left x)ᵀ * x) j := by
    rw [row_eq ((svd.left x)ᵀ * x), ← Matrix.vecMul_vecMul, ← row_eq]
  rw [this]
  rfl

theorem getD_nonneg {k m : ℕ} (x : Matrix (Fin k) (Fin m) ℝ) (i : ℕ) : 0 ≤ (svd.sigma x).getD i 0 := by
  rw [List.getD_eq_getElem?_getD]
  rcases h : (svd.sigma x)[i]? with _ | a
  · exact le_refl _
  · exact hs.nonneg x a (List.mem_of_getElem? h)

/-- no unit vector does better than the largest singular value -/
theorem norm_le {k m : ℕ} (x : Matrix (Fin k) (Fin m) ℝ) (w : Fin k → ℝ) (hw : w ⬝ᵥ w = 1) (c : ℝ)
    (hc : ∀ i, (svd.sigma x).getD i 0 ≤ c) : (w ᵥ* x) ⬝ᵥ (w ᵥ* x) ≤ c ^ 2 := by
  rw [norm_vecMul hs]
  have h1 : ∑ i, ((w ᵥ* svd.left x) i) ^ 2 = 1 := by
    have := vecMul_dot_orth w w _ (left_orth' hs x)
    rw [hw] at this
    rw [← this]
    simp only [dotProduct, pow_two]
  calc _ ≤ ∑ i : Fin k, c ^ 2 * ((w ᵥ* svd.left x) i) ^ 2 := by
        refine Finset.sum_le_sum fun i _ => mul_le_mul_of_nonneg_right ?_ (sq_nonneg _)
        exact pow_le_pow_left₀ (getD_nonneg hs x i) (hc i) 2
    _ = c ^ 2 := by rw [← Finset.mul_sum, h1, mul_one]

omit hs in
/-- one pass of the loop -/
theorem loop_step {n ns : ℕ} {m : Fin ns → ℕ} (hs : IsSvd svd) {k : ℕ} {cum : Matrix (Fin (k + 1)) (Fin n) ℝ}
    {s : (q : Fin ns) → Matrix (Fin (k + 1)) (Fin (m q)) ℝ} {res : List (Fin ns × (Fin n → ℝ))} (h : loop svd (k + 1) cum s = .ok res) :
    ∃ (p : Fin ns) (j : Fin (k + 1)) (rest : List (Fin ns × (Fin n → ℝ))), (∀ q, ∀ x ∈ svd.sigma (s q), 0 < x) ∧
      (∀ q, svd.sigma (s q) ≠ []) ∧ (j : ℕ) < (svd.sigma (s p)).length ∧
      (∀ q i, (svd.sigma (s q)).getD i 0 ≤ (svd.sigma (s p)).getD j 0) ∧
      res = (p, (svd.left (s p))ᵀ j ᵥ* cum) :: rest ∧
      loop svd k ((svd.left (s p))ᵀ.submatrix j.succAbove id * cum)
        (fun q => (svd.left (s p))ᵀ.submatrix j.succAbove id * s q) = .ok rest := by
  unfold loop at h
  split at h
  · cases h
  · rename_i h1
    split at h
    · cases h
    · rename_i h2
      split at h
      · cases h
      · rename_i p hp
        split at h
        · cases h
        · rename_i j hj
          dsimp only at h
          split at h
          · cases h
          · rename_i rest hrest
            have hj' := argmaxBy_some _ _ _ hj
            have hp' := argmaxBy_some _ _ _ hp
            have hlen := List.mem_range.1 hj'.1
            have hjk : j < k + 1 := by rw [hs.length] at hlen; omega
            have hof : Fin.ofNat (k + 1) j = ⟨j, hjk⟩ := Fin.ext (by simp [Fin.ofNat, Nat.mod_eq_of_lt hjk])
            rw [hof] at hrest h
            have hne : ∀ q, svd.sigma (s q) ≠ [] := fun q hq => h2 ⟨q, hq⟩
            refine ⟨p, ⟨j, hjk⟩, rest, ?_, hne, hlen, ?_, (Except.ok.inj h).symm, hrest⟩
            · intro q x hx
              by_contra hc
              exact h1 ⟨q, x, hx, not_lt.1 hc⟩
            · intro q i
              have hm : maxOf (svd.sigma (s p)) ≤ (svd.sigma (s p)).getD j 0 := by
                obtain ⟨i, hi, he⟩ := List.mem_iff_getElem.1 (maxOf_spec _ (hne p)).1
                have := hj'.2 i (List.mem_range.2 hi)
                rw [← he]
                simpa [List.getD_eq_getElem?_getD, hi] using this
              refine le_trans ?_ ((hp'.2 q (List.mem_finRange q)).trans hm)
              by_cases hi : i < (svd.sigma (s q)).length
              · refine (maxOf_spec _ (hne q)).2 _ ?_
                simp [List.getD_eq_getElem?_getD, hi]
              · have h0 : (svd.sigma (s q)).getD i 0 = 0 := by
                  simp [List.getD_eq_getElem?_getD, List.getElem?_eq_none (not_lt.1 hi)]
                rw [h0]
                exact hs.nonneg _ _ (maxOf_spec _ (hne q)).1

omit hs in
theorem submatrix_orth {k : ℕ} (u : Matrix (Fin (k + 1)) (Fin (k + 1)) ℝ) (h : u * uᵀ = 1) (j : Fin (k + 1)) :
    u.submatrix j.succAbove id * (u.submatrix j.succAbove id)ᵀ = 1 := by
  ext a b
  have := congrFun (congrFun h (j.succAbove a)) (j.succAbove b)
  rw [Matrix.one_apply] at this ⊢
  rw [Matrix.mul_apply] at this ⊢
  simp only [Matrix.submatrix_apply, Matrix.transpose_apply, id] at this ⊢
  rw [this]
  simp

omit hs in
/-- a vector orthogonal to one row of an orthogonal matrix is a combination of the others -/
theorem span_rest {k : ℕ} (u : Matrix (Fin (k + 1)) (Fin (k + 1)) ℝ) (h : uᵀ * u = 1) (j : Fin (k + 1)) (w : Fin (k + 1) → ℝ)
    (hw : w ⬝ᵥ u j = 0) : w = (fun i => w ⬝ᵥ u (j.succAbove i)) ᵥ* u.submatrix j.succAbove id := by
  have h1 : w = (u *ᵥ w) ᵥ* u := by
    rw [← Matrix.mulVec_transpose, Matrix.mulVec_mulVec, h, Matrix.one_mulVec]
  conv_lhs => rw [h1]
  funext x
  simp only [Matrix.vecMul, dotProduct, Matrix.mulVec, Matrix.submatrix_apply, id]
  rw [Fin.sum_univ_succAbove _ j]
  have h2 : ∑ y, u j y * w y = 0 := by
    rw [← hw]
    exact Finset.sum_congr rfl fun y _ => mul_comm _ _
  rw [h2, zero_mul, zero_add]
  refine Finset.sum_congr rfl fun i _ => ?_
  congr 1
  exact Finset.sum_congr rfl fun y _ => mul_comm _ _

/-- what the loop finds -/
theorem loop_spec {n ns : ℕ} {m : Fin ns → ℕ} (s0 : (q : Fin ns) → Matrix (Fin n) (Fin (m q)) ℝ) :
    ∀ (k : ℕ) (cum : Matrix (Fin k) (Fin n) ℝ), cum * cumᵀ = 1 → ∀ res, loop svd k cum (fun q => cum * s0 q) = .ok res →
      res.length = k ∧ (∀ e ∈ res, ∃ w, e.2 = w ᵥ* cum) ∧ (∀ e ∈ res, e.2 ⬝ᵥ e.2 = 1) ∧
      res.Pairwise (fun a b => a.2 ⬝ᵥ b.2 = 0) ∧
      ∀ (t : ℕ) (e : Fin ns × (Fin n → ℝ)), res[t]? = some e → 0 < (e.2 ᵥ* s0 e.1) ⬝ᵥ (e.2 ᵥ* s0 e.1) ∧
        ∀ w, (w ᵥ* cum) ⬝ᵥ (w ᵥ* cum) = 1 → (∀ t' < t, ∀ e' : Fin ns × (Fin n → ℝ), res[t']? = some e' → e'.2 ⬝ᵥ (w ᵥ* cum) = 0) →
          ∀ q, (w ᵥ* cum ᵥ* s0 q) ⬝ᵥ (w ᵥ* cum ᵥ* s0 q) ≤ (e.2 ᵥ* s0 e.1) ⬝ᵥ (e.2 ᵥ* s0 e.1) := by
  intro k
  induction k with
  | zero =>
    intro cum _ res h
    unfold loop at h
    have := Except.ok.inj h
    subst this
    simp
  | succ k ih =>
    intro cum hc res h
    obtain ⟨p, j, rest, hpos, hne, hjl, hmax, rfl, hrest⟩ := loop_step hs h
    set u := (svd.left (cum * s0 p))ᵀ with hu
    have huu : u * uᵀ = 1 := by rw [hu, Matrix.transpose_transpose]; exact hs.left_orth _
    have huu' : uᵀ * u = 1 := mul_eq_one_comm.1 huu
    set tr := u.submatrix j.succAbove id with htr
    have htt : tr * trᵀ = 1 := submatrix_orth u huu j
    have hcc : (tr * cum) * (tr * cum)ᵀ = 1 := by
      rw [Matrix.transpose_mul, Matrix.mul_assoc, ← Matrix.mul_assoc cum, hc, Matrix.one_mul, htt]
    have hujj : ∀ a b, u a ⬝ᵥ u b = (1 : Matrix (Fin (k + 1)) (Fin (k + 1)) ℝ) a b := by
      intro a b; rw [← huu]; rfl
    have hrest' : loop svd k (tr * cum) (fun q => (tr * cum) * s0 q) = .ok rest := by
      simp only [Matrix.mul_assoc]; exact hrest
    obtain ⟨h1, h2, h3, h4, h5⟩ := ih _ hcc rest hrest'
    have hrow : ((u j ᵥ* cum) ᵥ* s0 p) ⬝ᵥ ((u j ᵥ* cum) ᵥ* s0 p) = ((svd.sigma (cum * s0 p)).getD j 0) ^ 2 := by
      rw [Matrix.vecMul_vecMul]; exact sigma_row hs _ j
    refine ⟨by simp [h1], ?_, ?_, ?_, ?_⟩
    · intro e he
      rcases List.mem_cons.1 he with rfl | he
      · exact ⟨u j, rfl⟩
      · obtain ⟨w, hw⟩ := h2 e he
        exact ⟨w ᵥ* tr, by rw [hw, Matrix.vecMul_vecMul]⟩
    · intro e he
      rcases List.mem_cons.1 he with rfl | he
      · show (u j ᵥ* cum) ⬝ᵥ (u j ᵥ* cum) = 1
        rw [vecMul_dot_orth _ _ _ hc, hujj, Matrix.one_apply_eq]
      · exact h3 e he
    · rw [List.pairwise_cons]
      refine ⟨?_, h4⟩
      intro e he
      obtain ⟨w, hw⟩ := h2 e he
      show (u j ᵥ* cum) ⬝ᵥ e.2 = 0
      rw [hw, ← Matrix.vecMul_vecMul, vecMul_dot_orth _ _ _ hc, dotProduct_comm, ← Matrix.dotProduct_mulVec]
      have : tr *ᵥ u j = 0 := by
        funext i
        show u (j.succAbove i) ⬝ᵥ u j = 0
        rw [hujj, Matrix.one_apply_ne (Fin.succAbove_ne j i)]
      rw [this, dotProduct_zero]
    · intro t e he
      cases t with
      | zero =>
        simp only [List.getElem?_cons_zero, Option.some.injEq] at he
        subst he
        simp only
        rw [hrow]
        refine ⟨?_, ?_⟩
        · have : 0 < (svd.sigma (cum * s0 p)).getD j 0 := by
            refine hpos p _ ?_
            simp [List.getD_eq_getElem?_getD, hjl]
          positivity
        · intro w hw _ q
          rw [Matrix.vecMul_vecMul]
          rw [vecMul_dot_orth _ _ _ hc] at hw
          exact norm_le hs _ w hw _ (hmax q)
      | succ t =>
        simp only [List.getElem?_cons_succ] at he
        obtain ⟨h6, h7⟩ := h5 t e he
        refine ⟨h6, ?_⟩
        intro w hw hperp q
        have hwj : w ⬝ᵥ u j = 0 := by
          have := hperp 0 (Nat.succ_pos t) _ List.getElem?_cons_zero
          rw [vecMul_dot_orth _ _ _ hc] at this
          rw [dotProduct_comm]; exact this
        have hsp := span_rest u huu' j w hwj
        rw [← htr] at hsp
        have hwc : w ᵥ* cum = (fun i => w ⬝ᵥ u (j.succAbove i)) ᵥ* (tr * cum) := by
          conv_lhs => rw [hsp]
          rw [Matrix.vecMul_vecMul]
        rw [hwc] at hw hperp ⊢
        refine h7 _ hw ?_ q
        intro t' ht' e' he'
        exact hperp (t' + 1) (Nat.succ_lt_succ ht') e' (by rw [List.getElem?_cons_succ]; exact he')

theorem sigma_pos {k m : ℕ} (x : Matrix (Fin k) (Fin m) ℝ) (hx : ∀ w, w ᵥ* x = 0 → w = 0) : ∀ a ∈ svd.sigma x, 0 < a := by
  intro a ha
  obtain ⟨i, hi, rfl⟩ := List.mem_iff_getElem.1 ha
  have hik : i < k := by rw [hs.length] at hi; omega
  refine lt_of_le_of_ne (hs.nonneg x _ ha) ?_
  intro h0
  have h1 := sigma_row hs x ⟨i, hik⟩
  have h2 : (svd.sigma x).getD i 0 = 0 := by
    simp [List.getD_eq_getElem?_getD, hi, ← h0]
  simp only [h2] at h1
  rw [zero_pow two_ne_zero, dotProduct_self_eq_zero] at h1
  have h3 := hx _ h1
  have h4 := congrFun (congrFun (hs.left_orth x) ⟨i, hik⟩) ⟨i, hik⟩
  rw [Matrix.one_apply_eq] at h4
  have h5 : (svd.left x)ᵀ ⟨i, hik⟩ ⬝ᵥ (svd.left x)ᵀ ⟨i, hik⟩ = 1 := h4
  rw [h3] at h5
  simp at h5

/-- the loop ends without an error if no combination of the orbitals has a zero overlap with a system -/
theorem loop_ok {n ns : ℕ} {m : Fin ns → ℕ} (hns : 0 < ns) :
    ∀ (k : ℕ) (cum : Matrix (Fin k) (Fin n) ℝ) (s : (q : Fin ns) → Matrix (Fin k) (Fin (m q)) ℝ),
      (∀ q w, w ᵥ* s q = 0 → w = 0) → ∃ res, loop svd k cum s = .ok res := by
  intro k
  induction k with
  | zero => intro cum s _; exact ⟨[], rfl⟩
  | succ k ih =>
    intro cum s hx
    have hm : ∀ q, 0 < m q := by
      intro q
      by_contra hc
      have h0 := hx q (fun _ => 1) (funext fun i => absurd i.2 (by omega))
      have := congrFun h0 0
      simp at this
    unfold loop
    rw [if_neg, if_neg]
    · rcases hp : argmaxBy (fun q => maxOf (svd.sigma (s q))) (List.finRange ns) with _ | p
      · exfalso
        have h := (argmaxBy_none _ _).1 hp
        have h' : (⟨0, hns⟩ : Fin ns) ∈ List.finRange ns := List.mem_finRange _
        rw [h] at h'
        simp at h'
      · rcases hj : argmaxBy (fun i => (svd.sigma (s p)).getD i 0) (List.range (svd.sigma (s p)).length) with _ | j
        · exfalso
          have h := (argmaxBy_none _ _).1 hj
          have := hm p
          have := hs.length (s p)
          rw [List.range_eq_nil] at h
          omega
        · simp only [hj]
          obtain ⟨rest, hrest⟩ := ih (((svd.left (s p))ᵀ.submatrix (Fin.ofNat (k + 1) j).succAbove id) * cum)
            (fun q => ((svd.left (s p))ᵀ.submatrix (Fin.ofNat (k + 1) j).succAbove id) * s q) (by
              intro q w hw
              rw [← Matrix.vecMul_vecMul] at hw
              have h1 := hx q _ hw
              have h2 := submatrix_orth (svd.left (s p))ᵀ (by rw [Matrix.transpose_transpose]; exact hs.left_orth _) (Fin.ofNat (k + 1) j)
              have h3 := congrArg (· ᵥ* ((svd.left (s p))ᵀ.submatrix (Fin.ofNat (k + 1) j).succAbove id)ᵀ) h1
              simp only [Matrix.vecMul_vecMul, Matrix.zero_vecMul] at h3
              rw [h2, Matrix.vecMul_one] at h3
              exact h3)
          rw [hrest]
          exact ⟨_, rfl⟩
    · rintro ⟨q, hq⟩
      have h1 := hs.length (s q)
      have h2 := hm q
      rw [hq] at h1
      rw [List.length_nil] at h1
      omega
    · rintro ⟨q, x, hx', hle⟩
      exact absurd (sigma_pos hs (s q) (hx q) x hx') (not_lt.2 hle)

/-- the chosen system has as many functions as there are orbitals left, unless this is the last orbital -/
theorem loop_functions {n ns : ℕ} {m : Fin ns → ℕ} {k : ℕ} {cum : Matrix (Fin (k + 2)) (Fin n) ℝ}
    {s : (q : Fin ns) → Matrix (Fin (k + 2)) (Fin (m q)) ℝ} {res : List (Fin ns × (Fin n → ℝ))} (h : loop svd (k + 2) cum s = .ok res) :
    ∃ q, k + 2 ≤ m q := by
  obtain ⟨p, j, rest, hpos, hne, hjl, hmax, rfl, hrest⟩ := loop_step hs h
  refine ⟨p, ?_⟩
  by_contra hlt
  obtain ⟨_, _, _, hpos', _, _, _, _, _⟩ := loop_step hs hrest
  have hjm : (j : ℕ) < m p := by rw [hs.length] at hjl; omega
  set x' := (svd.left (s p))ᵀ.submatrix j.succAbove id * s p with hx'
  set z := svd.right (s p) ⟨j, hjm⟩ with hz
  -- `z` is in the kernel of what is left
  have hker : x' *ᵥ z = 0 := by
    have h1 : svd.right (s p) *ᵥ z = Pi.single ⟨j, hjm⟩ 1 := by
      funext i
      have := congrFun (congrFun (right_orth' hs (s p)) i) ⟨j, hjm⟩
      rw [Pi.single_apply, ← Matrix.one_apply, ← this]
      rfl
    have h2 : (svd.left (s p))ᵀ * s p = (Matrix.of fun (i : Fin (k + 2)) (j : Fin (m p)) =>
        if (i : ℕ) = (j : ℕ) then (svd.sigma (s p)).getD i 0 else 0) * svd.right (s p) := leftT_mul hs (s p)
    have h3 : x' = ((svd.left (s p))ᵀ * s p).submatrix j.succAbove id := by
      rw [hx']; rfl
    rw [h3, h2]
    funext i
    have h4 : ((((Matrix.of fun (i : Fin (k + 2)) (j : Fin (m p)) =>
        if (i : ℕ) = (j : ℕ) then (svd.sigma (s p)).getD i 0 else 0) * svd.right (s p)).submatrix j.succAbove id) *ᵥ z) i =
        (((Matrix.of fun (i : Fin (k + 2)) (j : Fin (m p)) =>
        if (i : ℕ) = (j : ℕ) then (svd.sigma (s p)).getD i 0 else 0) * svd.right (s p)) *ᵥ z) (j.succAbove i) := rfl
    rw [h4, ← Matrix.mulVec_mulVec, h1, Matrix.mulVec_single_one]
    show (if _ then _ else _) = (0 : ℝ)
    rw [if_neg]
    intro hc
    exact Fin.succAbove_ne j i (Fin.ext hc)
  have hz0 : z ⬝ᵥ z = 1 := by
    have := congrFun (congrFun (right_orth' hs (s p)) ⟨j, hjm⟩) ⟨j, hjm⟩
    rw [Matrix.one_apply_eq] at this
    exact this
  -- but its singular values are not zero
  have hv : svd.right x' *ᵥ z = 0 := by
    have h1 := congrArg ((svd.left x')ᵀ *ᵥ ·) hker
    simp only [Matrix.mulVec_mulVec, Matrix.mulVec_zero] at h1
    rw [leftT_mul hs x', ← Matrix.mulVec_mulVec] at h1
    funext i
    have hi : (i : ℕ) < k + 1 := by have := i.2; omega
    have h2 := congrFun h1 ⟨i, hi⟩
    simp only [Matrix.mulVec, dotProduct, Matrix.of_apply, Pi.zero_apply] at h2
    rw [Finset.sum_eq_single i] at h2
    · rw [if_pos rfl] at h2
      have hlen : (i : ℕ) < (svd.sigma x').length := by rw [hs.length]; have := i.2; omega
      have h3 : 0 < (svd.sigma x').getD i 0 := by
        refine hpos' p _ ?_
        simp only [List.getD_eq_getElem?_getD, List.getElem?_eq_getElem hlen, Option.getD_some]
        exact List.getElem_mem _
      rcases mul_eq_zero.1 h2 with h | h
      · exact absurd h h3.ne'
      · exact h
    · intro y _ hy
      rw [if_neg, zero_mul]
      intro hc
      exact hy (Fin.ext hc.symm)
    · intro hc; exact absurd (Finset.mem_univ _) hc
  have : z = 0 := by
    have h1 := congrArg ((svd.right x')ᵀ *ᵥ ·) hv
    simp only [Matrix.mulVec_mulVec, Matrix.mulVec_zero] at h1
    rw [hs.right_orth, Matrix.one_mulVec] at h1
    exact h1
  rw [this] at hz0
  simp at hz0

end Fanpy.Localize
