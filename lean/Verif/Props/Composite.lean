import Verif.Model.Composite
import Verif.Props.HamDeriv
import Mathlib.Analysis.Calculus.Deriv.Mul
import Mathlib.Analysis.Calculus.Deriv.Add

/-!
# C42: linear combinations and products of wavefunctions

The components are arbitrary: `v k` is the overlap of the `k`-th component with the determinant.  For the derivatives, the
`k`-th component is replaced by one whose overlap is a function `f` of a parameter `t`.
-/

namespace Fanpy.Props
open Fanpy.Slater Fanpy.Composite Finset

set_option linter.unusedSectionVars false
set_option linter.unusedSimpArgs false

variable {R : Type} [Field R]

theorem contrib_ok {wfns : List (Comp R)} {sd : ℕ} {v : ℕ → R}
    (hv : ∀ k (h : k < wfns.length), wfns[k].overlap sd = .ok (v k)) :
    contrib wfns sd = .ok ((List.range wfns.length).map v) := by
  induction wfns generalizing v with
  | nil => rfl
  | cons w ws ih =>
    rw [contrib, List.mapM_cons]
    have h0 := hv 0 (by simp)
    have h1 := ih (v := fun k => v (k + 1)) fun k h => by
      have := hv (k + 1) (by simpa using h)
      simpa using this
    rw [contrib] at h1
    rw [List.getElem_cons_zero] at h0
    simp only [h0, h1, bind, Except.bind, pure, Except.pure, List.length_cons, List.range_succ_eq_map, List.map_cons, List.map_map]
    rfl

theorem contrib_error {wfns : List (Comp R)} {sd : ℕ} {v : ℕ → R} {k : ℕ} (hk : k < wfns.length) {e : PyErr}
    (hv : ∀ i (h : i < k), wfns[i].overlap sd = .ok (v i)) (he : wfns[k].overlap sd = .error e) :
    contrib wfns sd = .error e := by
  induction wfns generalizing v k with
  | nil => simp at hk
  | cons w ws ih =>
    rw [contrib, List.mapM_cons]
    cases k with
    | zero =>
      rw [List.getElem_cons_zero] at he
      rw [he]; rfl
    | succ k =>
      have h0 := hv 0 (by omega)
      rw [List.getElem_cons_zero] at h0
      have h1 := ih (v := fun k => v (k + 1)) (k := k) (by simpa using hk) (fun i h => by
        have := hv (i + 1) (by omega)
        simpa using this) (by simpa using he)
      rw [contrib] at h1
      simp only [h0, h1, bind, Except.bind]

/-- the components with another value of the `k`-th overlap -/
def withValue (wfns : List (Comp R)) (k : ℕ) (x : R) : List (Comp R) :=
  wfns.modify k fun w => { w with overlap := fun _ => .ok x }

theorem withValue_ok {wfns : List (Comp R)} {sd k : ℕ} {x : R} {v : ℕ → R}
    (hv : ∀ i (h : i < wfns.length), i ≠ k → wfns[i].overlap sd = .ok (v i)) :
    contrib (withValue wfns k x) sd = .ok ((List.range wfns.length).map (Function.update v k x)) := by
  rw [contrib_ok (v := Function.update v k x)]
  · rw [withValue, List.length_modify]
  · intro i h
    simp only [withValue, List.getElem_modify]
    by_cases hik : k = i
    · subst hik; simp
    · rw [if_neg hik, Function.update_of_ne (Ne.symm hik)]
      exact hv i (by simpa [withValue] using h) (Ne.symm hik)

theorem indexOf_getElem {wfns : List (Comp R)} (h : (wfns.map Comp.id).Nodup) {k : ℕ} (hk : k < wfns.length) :
    indexOf wfns wfns[k].id = k := by
  have := List.Nodup.idxOf_getElem h k (by simpa using hk)
  rwa [List.getElem_map] at this

/-! ## Linear combinations -/

/-- C42: the constructor of a linear combination: the components are distinct, not a single one, and have the same number of
electrons. -/
theorem C42_lincomb_init (id nelec nspin : ℕ) (wfns : List (Comp R)) (params : Option (List R)) (w : LinComb R) :
    LinComb.init id nelec nspin wfns params = .ok w ↔
      0 < nelec ∧ 0 < nspin ∧ nspin % 2 = 0 ∧ (∀ c ∈ wfns, c.nelec = nelec) ∧ wfns.length ≠ 1 ∧ (wfns.map Comp.id).Nodup ∧
      (params = none → wfns ≠ []) ∧
      w = ⟨id, nelec, nspin, wfns, params.getD ((List.replicate wfns.length 0).set 0 1)⟩ := by
  rw [LinComb.init, CI.checkNelec, CI.checkNspin, checkWfns, hasDup]
  by_cases h1 : nelec = 0
  · simp [h1, bind, Except.bind]
  by_cases h2 : nspin = 0 ∨ nspin % 2 = 1
  · simp only [h1, h2, if_true, if_false, bind, Except.bind, reduceCtorEq, false_iff]
    omega
  have h2' : 0 < nspin ∧ nspin % 2 = 0 := by omega
  by_cases h3 : ∀ c ∈ wfns, c.nelec = nelec
  swap
  · have : wfns.any (fun w => w.nelec ≠ nelec) = true := by simpa using h3
    simp only [h1, h2, h3, this, if_true, if_false, bind, Except.bind, reduceCtorEq, false_iff]
    tauto
  have h3' : ¬ wfns.any (fun w => w.nelec ≠ nelec) = true := by simpa using h3
  by_cases h4 : wfns.length = 1
  · simp [h1, h2, h3, h3', h4, bind, Except.bind]
  by_cases h5 : (wfns.map Comp.id).Nodup
  swap
  · simp [h1, h2, h3, h3', h4, h5, bind, Except.bind]
  simp only [h1, h2, h3', h4, h5, if_false, bind, Except.bind, pure, Except.pure, not_true, decide_false, decide_true,
    Nat.pos_of_ne_zero h1, true_and, ne_eq, not_false_eq_true, Bool.false_eq_true]
  simp only [h2', true_and, eq_true h3]
  cases params with
  | some p => simp [lincombParams, eq_comm]
  | none =>
    by_cases h6 : wfns = []
    · simp [lincombParams, h6]
    · have : ¬ wfns.length = 0 := by simpa using h6
      simp [lincombParams, h6, this, eq_comm (a := w)]

/-- C42: the overlap of a linear combination is the weighted sum of the overlaps. -/
theorem C42_lincomb_partial (w : LinComb R) (hp : w.params.length = w.wfns.length) {sd : ℕ} {v : ℕ → R}
    (hv : ∀ k (h : k < w.wfns.length), w.wfns[k].overlap sd = .ok (v k)) :
    w.overlap sd = .ok (∑ k ∈ range w.wfns.length, w.params.getD k 0 * v k) := by
  rw [LinComb.overlap, contrib_ok hv]
  simp only [bind, Except.bind]
  rw [sumTimes, if_pos (by simpa using hp)]
  congr 1
  have : w.params = (List.range w.wfns.length).map fun k => w.params.getD k 0 := by
    apply List.ext_getElem
    · simpa using hp
    · intro i h1 h2
      simp [h1]
  conv_lhs => rw [this]
  rw [List.zipWith_map, List.zipWith_self, ← List.sum_toFinset _ List.nodup_range, List.toFinset_range]

/-- C42: the number of parameters is not checked by the constructor: with one parameter it multiplies all of the overlaps,
any other number is a `ValueError`. -/
theorem C42_lincomb_params (w : LinComb R) (h1 : w.wfns.length ≠ 1) (hp : w.params.length ≠ w.wfns.length) {sd : ℕ} {v : ℕ → R}
    (hv : ∀ k (h : k < w.wfns.length), w.wfns[k].overlap sd = .ok (v k)) :
    w.overlap sd = if w.params.length = 1 then .ok (w.params.headD 0 * ∑ k ∈ range w.wfns.length, v k) else .error .valueError := by
  rw [LinComb.overlap, contrib_ok hv]
  simp only [bind, Except.bind]
  rw [sumTimes, if_neg (by simpa using hp)]
  split_ifs with h2 h3
  · rw [List.map_map, ← List.sum_toFinset _ List.nodup_range, List.toFinset_range, mul_sum]
    rfl
  · simp at h3; exact absurd h3 h1
  · rfl

/-- C42: an error of a component is passed on by every method. -/
theorem C42_component_error {wfns : List (Comp R)} {sd k : ℕ} {v : ℕ → R} (hk : k < wfns.length) {e : PyErr}
    (hv : ∀ i (h : i < k), wfns[i].overlap sd = .ok (v i)) (he : wfns[k].overlap sd = .error e) :
    productOverlap wfns sd = .error e ∧ (∀ d, productDeriv wfns sd d = .error e) ∧
      ∀ w : LinComb R, w.wfns = wfns → w.overlap sd = .error e ∧ ∀ d, w.overlapDeriv sd d = .error e := by
  have := contrib_error hk hv he
  refine ⟨by rw [productOverlap, this]; rfl, fun d => by rw [productDeriv, this]; rfl, fun w hw => ⟨?_, fun d => ?_⟩⟩
  · rw [LinComb.overlap, hw, this]; rfl
  · rw [LinComb.overlapDeriv, hw, this]; rfl

theorem sum_update (n k : ℕ) (hk : k < n) (p v : ℕ → R) (x : R) : ∑ i ∈ range n, p i * Function.update v k x i =
    ∑ i ∈ (range n).erase k, p i * v i + p k * x := by
  rw [← sum_erase_add _ _ (mem_range.2 hk), Function.update_self]
  congr 1
  apply sum_congr rfl
  intro i hi
  rw [Function.update_of_ne (ne_of_mem_erase hi)]

/-- C42: derivatives of a linear combination with respect to the parameters of a component: the values are the derivatives,
one for each requested index. -/
theorem C42_lincomb_component_partial (w : LinComb ℝ) (hp : w.params.length = w.wfns.length)
    (hnd : (w.wfns.map Comp.id).Nodup) (hself : w.id ∉ w.wfns.map Comp.id) {sd : ℕ} {v : ℕ → ℝ}
    (hv : ∀ k (h : k < w.wfns.length), w.wfns[k].overlap sd = .ok (v k)) {k : ℕ} (hk : k < w.wfns.length)
    {idx : List ℕ} {ds : List ℝ} (hd : w.wfns[k].deriv sd idx = .ok ds) :
    ∃ out, w.overlapDeriv sd (w.wfns[k].id, idx) = .ok out ∧ out.length = ds.length ∧
      ∀ l (hl : l < out.length) (hl' : l < ds.length) (f : ℝ → ℝ) (t₀ : ℝ), HasDerivAt f ds[l] t₀ →
        ∃ g : ℝ → ℝ, (∀ t, ({ w with wfns := withValue w.wfns k (f t) } : LinComb ℝ).overlap sd = .ok (g t)) ∧
          HasDerivAt g out[l] t₀ := by
  have hne : w.wfns[k].id ≠ w.id := fun h => hself (h ▸ List.mem_map.2 ⟨_, List.getElem_mem hk, rfl⟩)
  have hmem : w.wfns[k].id ∈ w.id :: w.wfns.map Comp.id :=
    List.mem_cons_of_mem _ (List.mem_map.2 ⟨_, List.getElem_mem hk, rfl⟩)
  refine ⟨ds.map fun x => w.params.getD k 0 * x, ?_, by simp, ?_⟩
  · rw [LinComb.overlapDeriv, contrib_ok hv]
    simp only [bind, Except.bind, pure, Except.pure]
    rw [if_neg (not_not.2 hmem), if_neg (fun h => hne h.1), if_neg hne, indexOf_getElem hnd hk]
    simp only [List.getElem?_eq_getElem hk, List.getElem?_eq_getElem (hp ▸ hk : k < w.params.length), hd,
      List.getD_eq_getElem?_getD, Option.getD_some]
  · intro l hl hl' f t₀ hf
    refine ⟨fun t => ∑ i ∈ range w.wfns.length, w.params.getD i 0 * Function.update v k (f t) i, fun t => ?_, ?_⟩
    · have hlen : (withValue w.wfns k (f t)).length = w.wfns.length := by rw [withValue, List.length_modify]
      have := C42_lincomb_partial ({ w with wfns := withValue w.wfns k (f t) } : LinComb ℝ) (hp.trans hlen.symm) (sd := sd)
        (v := Function.update v k (f t)) fun i h => by
          simp only [withValue, List.getElem_modify]
          by_cases hik : k = i
          · subst hik; simp
          · rw [if_neg hik, Function.update_of_ne (Ne.symm hik)]
            exact hv i (hlen ▸ h)
      rw [this, hlen]
    · simp only [sum_update _ _ hk]
      rw [List.getElem_map]
      exact (hf.const_mul _).const_add _

/-- C42: derivatives of a linear combination with respect to its own coefficients: all of them are returned, whichever
indices were requested. -/
theorem C42_lincomb_own (w : LinComb R) {sd : ℕ} {v : ℕ → R}
    (hv : ∀ k (h : k < w.wfns.length), w.wfns[k].overlap sd = .ok (v k)) (idx : List ℕ) (hidx : ∀ i ∈ idx, i < w.params.length) :
    w.overlapDeriv sd (w.id, idx) = .ok ((List.range w.wfns.length).map v) := by
  rw [LinComb.overlapDeriv, contrib_ok hv]
  simp only [bind, Except.bind, pure, Except.pure]
  rw [if_neg (by simp), if_neg, if_pos trivial]
  rintro ⟨-, h⟩
  rw [List.any_eq_true] at h
  obtain ⟨i, hi, h⟩ := h
  have := hidx i hi
  simp at h
  omega

/-- C42: the values of `C42_lincomb_own` are the derivatives if all indices are requested in order. -/
theorem C42_lincomb_own_partial (w : LinComb R) (hp : w.params.length = w.wfns.length) {sd : ℕ} {v : ℕ → R}
    (hv : ∀ k (h : k < w.wfns.length), w.wfns[k].overlap sd = .ok (v k)) :
    ∃ x d, w.overlap sd = .ok x ∧ w.overlapDeriv sd (w.id, List.range w.params.length) = .ok d ∧ d.length = w.params.length ∧
      ∀ k (hk : k < d.length) (h : R),
        ({ w with params := w.params.modify k (· + h) } : LinComb R).overlap sd = .ok (x + h * d[k]) := by
  refine ⟨_, _, C42_lincomb_partial w hp hv, C42_lincomb_own w hv _ (by simp), by simp [hp], ?_⟩
  intro k hk h
  have hk' : k < w.wfns.length := by simpa using hk
  rw [C42_lincomb_partial ({ w with params := w.params.modify k (· + h) } : LinComb R) (by simpa using hp) hv]
  congr 1
  simp only [List.getElem_map, List.getElem_range]
  rw [← sum_erase_add _ _ (mem_range.2 hk'), ← sum_erase_add (range w.wfns.length) _ (mem_range.2 hk'), add_assoc]
  congr 1
  · apply sum_congr rfl
    intro i hi
    have hik : ¬ k = i := fun h => ne_of_mem_erase hi h.symm
    simp [List.getElem?_modify, hik]
  · have : k < w.params.length := hp ▸ hk'
    simp [List.getElem?_modify, this]
    ring

/-- C42 fails for the coefficients of a linear combination: a request for the second derivative only gives both. -/
theorem C42_lincomb_ignores_indices : ∃ w : LinComb ℚ,
    LinComb.init 2 2 4 [⟨0, 2, 4, fun _ => .ok 3, fun _ _ => .ok []⟩, ⟨1, 2, 4, fun _ => .ok 5, fun _ _ => .ok []⟩] none = .ok w ∧
      w.overlapDeriv 5 (2, [1]) = .ok [3, 5] :=
  ⟨⟨2, 2, 4, [⟨0, 2, 4, fun _ => .ok 3, fun _ _ => .ok []⟩, ⟨1, 2, 4, fun _ => .ok 5, fun _ _ => .ok []⟩], [1, 0]⟩,
    rfl, rfl⟩

/-- C42: an index that is no coefficient or a wavefunction that is no component is a `ValueError`. -/
theorem C42_lincomb_value_error (w : LinComb R) {sd : ℕ} {v : ℕ → R}
    (hv : ∀ k (h : k < w.wfns.length), w.wfns[k].overlap sd = .ok (v k)) (i : ℕ) (idx : List ℕ) :
    (i ∉ w.id :: w.wfns.map Comp.id → w.overlapDeriv sd (i, idx) = .error .valueError) ∧
    ((∃ j ∈ idx, w.params.length ≤ j) → w.overlapDeriv sd (w.id, idx) = .error .valueError) := by
  constructor
  · intro h
    rw [LinComb.overlapDeriv, contrib_ok hv]
    simp only [bind, Except.bind]
    exact if_pos h
  · rintro ⟨j, hj, hj'⟩
    rw [LinComb.overlapDeriv, contrib_ok hv]
    simp only [bind, Except.bind]
    rw [if_neg (by simp), if_pos]
    exact ⟨trivial, List.any_eq_true.2 ⟨j, hj, by simpa using hj'⟩⟩

/-! ## Products -/

/-- C42: the constructor of a product. -/
theorem C42_product_init (wfns ws : List (Comp R)) : productInit wfns = .ok ws ↔
    ws = wfns ∧ (wfns.map Comp.id).Nodup ∧ ∃ w0, wfns.head? = some w0 ∧ 0 < w0.nelec ∧ 0 < w0.nspin ∧ w0.nspin % 2 = 0 ∧
      ∀ w ∈ wfns, w.nelec = w0.nelec := by
  cases wfns with
  | nil => simp [productInit]
  | cons w0 l =>
    rw [productInit, CI.checkNelec, CI.checkNspin, hasDup]
    by_cases h1 : w0.nelec = 0
    · simp [h1, bind, Except.bind]
    by_cases h2 : w0.nspin = 0 ∨ w0.nspin % 2 = 1
    · simp only [h1, h2, if_true, if_false, bind, Except.bind, reduceCtorEq, false_iff]
      rintro ⟨-, -, w, hw, -, h3, h4, -⟩
      simp only [List.head?_cons, Option.some.injEq] at hw
      subst hw
      omega
    have h2' : 0 < w0.nspin ∧ w0.nspin % 2 = 0 := by omega
    by_cases h3 : ∀ c ∈ w0 :: l, c.nelec = w0.nelec
    swap
    · have : (w0 :: l).any (fun w => w.nelec ≠ w0.nelec) = true := by
        rw [List.any_eq_true]
        push Not at h3
        simpa using h3
      simp only [h1, h2, this, if_true, if_false, bind, Except.bind, reduceCtorEq, false_iff]
      rintro ⟨-, -, w, hw, -, -, -, h4⟩
      simp only [List.head?_cons, Option.some.injEq] at hw
      subst hw
      exact h3 h4
    have h3' : ¬ (w0 :: l).any (fun w => w.nelec ≠ w0.nelec) = true := by
      rw [List.any_eq_true]
      rintro ⟨c, hc, h⟩
      exact (of_decide_eq_true h) (h3 c hc)
    by_cases h5 : ((w0 :: l).map Comp.id).Nodup
    swap
    · simp only [h1, h2, h3', h5, if_false, bind, Except.bind]
      simp
    simp only [h1, h2, h3', h5, if_false, bind, Except.bind, pure, Except.pure, not_true, decide_false,
      Bool.false_eq_true, Except.ok.injEq]
    constructor
    · rintro rfl
      exact ⟨rfl, trivial, w0, rfl, Nat.pos_of_ne_zero h1, h2'.1, h2'.2, h3⟩
    · rintro ⟨rfl, -⟩; rfl

/-- C42: the overlap of a product is the product of the overlaps. -/
theorem C42_product {wfns : List (Comp R)} {sd : ℕ} {v : ℕ → R}
    (hv : ∀ k (h : k < wfns.length), wfns[k].overlap sd = .ok (v k)) :
    productOverlap wfns sd = .ok (∏ k ∈ range wfns.length, v k) := by
  rw [productOverlap, contrib_ok hv]
  simp only [bind, Except.bind, pure, Except.pure]
  rw [← List.prod_toFinset _ List.nodup_range, List.toFinset_range]

theorem take_drop_prod (n k : ℕ) (hk : k < n) (v : ℕ → R) : (((List.range n).map v).take k).prod *
    (((List.range n).map v).drop (k + 1)).prod = ∏ i ∈ (range n).erase k, v i := by
  rw [← List.map_take, ← List.map_drop, List.take_range, min_eq_left hk.le]
  have hd : (List.range n).drop (k + 1) = List.range' (k + 1) (n - (k + 1)) := by
    rw [List.range_eq_range', List.drop_range', mul_one, zero_add]
  rw [hd, ← List.prod_append, ← List.map_append]
  have hnd : (List.range k ++ List.range' (k + 1) (n - (k + 1))).Nodup := by
    refine List.Nodup.append List.nodup_range List.nodup_range' ?_
    intro a h1 h2
    rw [List.mem_range] at h1
    rw [List.mem_range'_1] at h2
    omega
  rw [← List.prod_toFinset _ hnd]
  congr 1
  ext i
  simp only [List.toFinset_append, mem_union, List.mem_toFinset, List.mem_range, List.mem_range'_1, mem_erase, mem_range]
  omega

theorem prod_update (n k : ℕ) (hk : k < n) (v : ℕ → R) (x : R) : ∏ i ∈ range n, Function.update v k x i =
    (∏ i ∈ (range n).erase k, v i) * x := by
  rw [← prod_erase_mul _ _ (mem_range.2 hk), Function.update_self]
  congr 1
  apply prod_congr rfl
  intro i hi
  rw [Function.update_of_ne (ne_of_mem_erase hi)]

/-- C42: derivatives of a product with respect to the parameters of a component: the product rule, one value for each
requested index. -/
theorem C42_product_deriv {wfns : List (Comp ℝ)} (hw : productInit wfns = .ok wfns) {sd : ℕ} {v : ℕ → ℝ}
    (hv : ∀ k (h : k < wfns.length), wfns[k].overlap sd = .ok (v k)) {k : ℕ} (hk : k < wfns.length)
    {idx : List ℕ} {ds : List ℝ} (hd : wfns[k].deriv sd idx = .ok ds) :
    ∃ out, productDeriv wfns sd (wfns[k].id, idx) = .ok out ∧ out.length = ds.length ∧
      ∀ l (hl : l < out.length) (hl' : l < ds.length) (f : ℝ → ℝ) (t₀ : ℝ), HasDerivAt f ds[l] t₀ →
        ∃ g : ℝ → ℝ, (∀ t, productOverlap (withValue wfns k (f t)) sd = .ok (g t)) ∧ HasDerivAt g out[l] t₀ := by
  have hnd := ((C42_product_init wfns wfns).1 hw).2.1
  refine ⟨productRule ((List.range wfns.length).map v) k ds, ?_, by simp [productRule], ?_⟩
  · rw [productDeriv, contrib_ok hv]
    simp only [bind, Except.bind, pure, Except.pure, indexOf_getElem hnd hk, List.getElem?_eq_getElem hk, hd]
  · intro l hl hl' f t₀ hf
    refine ⟨fun t => ∏ i ∈ range wfns.length, Function.update v k (f t) i, fun t => ?_, ?_⟩
    · have hlen : (withValue wfns k (f t)).length = wfns.length := by rw [withValue, List.length_modify]
      rw [C42_product (v := Function.update v k (f t)), hlen]
      intro i h
      simp only [withValue, List.getElem_modify]
      by_cases hik : k = i
      · subst hik; simp
      · rw [if_neg hik, Function.update_of_ne (Ne.symm hik)]
        exact hv i (hlen ▸ h)
    · simp only [prod_update _ _ hk, productRule, List.getElem_map, take_drop_prod _ _ hk]
      exact hf.const_mul _

-- three components; the second one is derivatized
example : productDeriv [⟨0, 2, 4, fun _ => .ok 3, fun _ _ => .ok []⟩, ⟨1, 2, 4, fun _ => .ok 5, fun _ l => .ok (l.map fun i => (i : ℚ))⟩,
    ⟨2, 2, 4, fun _ => .ok 7, fun _ _ => .ok []⟩] 3 (1, [4, 2]) = .ok [84, 42] := by decide +kernel

theorem mapM_mapM_ok {wfns : List (Comp R)} {sds : List ℕ} {v : ℕ → ℕ → R}
    (hv : ∀ sd ∈ sds, ∀ k (h : k < wfns.length), wfns[k].overlap sd = .ok (v k sd)) :
    (wfns.mapM fun w => sds.mapM w.overlap) = .ok ((List.range wfns.length).map fun k => sds.map (v k)) := by
  have : (List.range wfns.length).map (fun k => sds.map (v k)) = wfns.mapIdx fun k _ => sds.map (v k) := by
    apply List.ext_getElem <;> simp
  rw [this]
  clear this
  induction wfns generalizing v with
  | nil => rfl
  | cons w ws ih =>
    have h0 : ∀ sd ∈ sds, w.overlap sd = .ok (v 0 sd) := fun sd h => hv sd h 0 (by simp)
    have h1 : ∀ sd ∈ sds, ∀ k (hk : k < ws.length), ws[k].overlap sd = .ok (v (k + 1) sd) :=
      fun sd h k hk => hv sd h (k + 1) (by simpa using hk)
    rw [List.mapM_cons, mapM_eq_ok (g := v 0) sds h0, ih (v := fun k => v (k + 1)) h1]
    simp [bind, Except.bind, pure, Except.pure, List.mapIdx_cons]

/-- C42: the bulk methods agree with the single ones. -/
theorem C42_product_bulk {wfns : List (Comp R)} {sds : List ℕ} {v : ℕ → ℕ → R}
    (hv : ∀ sd ∈ sds, ∀ k (h : k < wfns.length), wfns[k].overlap sd = .ok (v k sd)) :
    productOverlaps wfns sds = sds.mapM (productOverlap wfns) ∧
      ∀ (k : ℕ) (_ : (wfns.map Comp.id).Nodup) (hk : k < wfns.length) (idx : List ℕ) (ds : ℕ → List R),
        (∀ sd ∈ sds, wfns[k].deriv sd idx = .ok (ds sd)) →
        productDerivs wfns sds (wfns[k].id, idx) = sds.mapM fun sd => productDeriv wfns sd (wfns[k].id, idx) := by
  constructor
  · rw [productOverlaps, mapM_mapM_ok hv,
      mapM_eq_ok (g := fun sd => ∏ k ∈ range wfns.length, v k sd) sds fun sd h => C42_product (hv sd h)]
    simp only [bind, Except.bind, pure, Except.pure]
    congr 1
    apply List.ext_getElem
    · simp
    · intro s hs hs'
      have hs'' : s < sds.length := by simpa using hs'
      simp only [List.getElem_map, List.getElem_range, List.map_map]
      rw [← List.prod_toFinset _ List.nodup_range, List.toFinset_range]
      apply prod_congr rfl
      intro k _
      simp [hs'']
  · intro k hnd hk idx ds hds
    have h1 : ∀ sd ∈ sds, productDeriv wfns sd (wfns[k].id, idx) =
        .ok (productRule ((List.range wfns.length).map fun i => v i sd) k (ds sd)) := by
      intro sd hsd
      rw [productDeriv, contrib_ok (v := fun i => v i sd) (hv sd hsd)]
      simp only [bind, Except.bind, pure, Except.pure, indexOf_getElem hnd hk, List.getElem?_eq_getElem hk, hds sd hsd]
    rw [mapM_eq_ok sds h1, productDerivs, mapM_mapM_ok hv]
    simp only [bind, Except.bind, pure, Except.pure, indexOf_getElem hnd hk, List.getElem?_eq_getElem hk]
    rw [mapM_eq_ok sds hds]
    simp only
    congr 1
    apply List.ext_getElem
    · simp
    · intro s hs hs'
      have hs'' : s < sds.length := by simpa using hs'
      simp only [List.getElem_map, List.getElem_range, List.map_map]
      congr 1
      · apply List.map_congr_left
        intro i _
        simp [hs'']
      · simp [hs'']

example : productOverlaps [⟨0, 2, 4, fun sd => .ok (sd : ℚ), fun _ _ => .ok []⟩, ⟨1, 2, 4, fun _ => .ok 5, fun _ _ => .ok []⟩]
    [3, 5] = .ok [15, 25] := by decide +kernel

end Fanpy.Props
