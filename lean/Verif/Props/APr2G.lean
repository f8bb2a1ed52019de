import Verif.Model.APr2G
import Verif.Props.GeminalDeriv
import Verif.Props.Borchardt
import Verif.Lemmas.PermanentEntries
import Mathlib.Analysis.Calculus.Deriv.Inv

/-! # C38: rank-2 geminals -/

namespace Fanpy.Props
open Fanpy.Slater Fanpy.Graphs Fanpy.Geminal Fanpy.Spec Fanpy.MathTools
open scoped Topology

/-- The parameters for which Borchardt's formula has no division by zero, for the given columns: the lambdas are
different, the epsilons of the columns are different, and no lambda is one of these epsilons. -/
structure APr2G.Regular (w : APr2G) (cols : List ℕ) : Prop where
  lam : ∀ a < w.ngem, ∀ b < w.ngem, a ≠ b → w.lambda a ≠ w.lambda b
  eps : ∀ a ∈ cols, ∀ b ∈ cols, a ≠ b → w.epsilon a ≠ w.epsilon b
  ne : ∀ a < w.ngem, ∀ b ∈ cols, w.lambda a ≠ w.epsilon b

/-- the wavefunction with the parameter of index `i` replaced -/
noncomputable def withParam (w : APr2G) (i : ℕ) (x : ℝ) : APr2G := { w with params := Function.update w.params i x }

theorem borchardt_eq (w : APr2G) {rows cols : List ℕ} (hr : rows.Nodup) (hc : cols.Nodup) (h1 : rows ≠ []) (h2 : cols ≠ [])
    (hlam : ∀ a ∈ rows, ∀ b ∈ rows, a ≠ b → w.lambda a ≠ w.lambda b)
    (heps : ∀ a ∈ cols, ∀ b ∈ cols, a ≠ b → w.epsilon a ≠ w.epsilon b)
    (hne : ∀ a ∈ rows, ∀ b ∈ cols, w.lambda a ≠ w.epsilon b) :
    w.borchardt rows cols = .ok (perL w.fullrank rows cols) := by
  rw [APr2G.borchardt, C21_borchardt _ _ _ none (by simp) (by simp) (by simpa using h1) (by simpa using h2)]
  · rw [perL, List.length_map, List.length_map]
    congr 1
    apply perSpec_congr
    intro i j hi hj
    rw [APr2G.fullrank, Option.getD_none]
    simp only [List.getD_eq_getElem?_getD]
    simp [hi, hj]
  · apply hr.map_on
    intro a ha b hb hab
    by_contra h
    exact hlam a ha b hb h hab
  · apply hc.map_on
    intro a ha b hb hab
    by_contra h
    exact heps a ha b hb h hab
  · intro l hl e he
    obtain ⟨a, ha, rfl⟩ := List.mem_map.1 hl
    obtain ⟨b, hb, rfl⟩ := List.mem_map.1 he
    exact hne a ha b hb

theorem r2permanent_eq (w : APr2G) {cols : List ℕ} (h : APr2G.Regular w cols) (hc : cols.Nodup) (h1 : w.ngem ≠ 0)
    (h2 : cols ≠ []) : w.permanent cols = .ok (perL w.fullrank (List.range w.ngem) cols) := by
  apply borchardt_eq w List.nodup_range hc (by simpa using h1) h2
  · intro a ha b hb
    exact h.lam a (List.mem_range.1 ha) b (List.mem_range.1 hb)
  · exact h.eps
  · intro a ha
    exact h.ne a (List.mem_range.1 ha)

theorem length_filter_ne {l : List ℕ} (hn : l.Nodup) {a : ℕ} (h : a ∈ l) : (l.filter (· ≠ a)).length = l.length - 1 := by
  have := (filter_ne_getD hn (List.idxOf_lt_length_of_mem h)).1
  rw [getD_idxOf h] at this
  omega

theorem truncated_eq (w : APr2G) {cols : List ℕ} (h : APr2G.Regular w cols) (hc : cols.Nodup)
    (hok : w.ngem = 1 ∧ cols.length = 1 ∨ 2 ≤ w.ngem ∧ 2 ≤ cols.length) {r c : ℕ} (hr : r < w.ngem) (hcm : c ∈ cols) :
    w.truncated ((List.range w.ngem).filter (· ≠ r)) (cols.filter (· ≠ c)) =
      .ok (minorL w.fullrank (List.range w.ngem) cols r c) := by
  have l1 := length_filter_ne (List.nodup_range (n := w.ngem)) (List.mem_range.2 hr)
  have l2 := length_filter_ne hc hcm
  rw [List.length_range] at l1
  rw [minorL, if_pos ⟨List.mem_range.2 hr, hcm⟩, APr2G.truncated]
  split_ifs with h0
  · rw [List.eq_nil_of_length_eq_zero (h0.1.trans h0.2), List.eq_nil_of_length_eq_zero h0.2, perL_nil]
  · apply borchardt_eq w (List.nodup_range.filter _) (hc.filter _)
    · intro h; have := congrArg List.length h; simp only [List.length_nil] at this; omega
    · intro h; have := congrArg List.length h; simp only [List.length_nil] at this; omega
    · intro a ha b hb
      exact h.lam a (List.mem_range.1 (List.mem_of_mem_filter ha)) b (List.mem_range.1 (List.mem_of_mem_filter hb))
    · intro a ha b hb
      exact h.eps a (List.mem_of_mem_filter ha) b (List.mem_of_mem_filter hb)
    · intro a ha b hb
      exact h.ne a (List.mem_range.1 (List.mem_of_mem_filter ha)) b (List.mem_of_mem_filter hb)

theorem foldlM_add {f : ℝ → ℕ → Except PyErr ℝ} {g : ℕ → ℝ} : ∀ (l : List ℕ) (v : ℝ),
    (∀ v, ∀ a ∈ l, f v a = .ok (v + g a)) → l.foldlM f v = .ok (v + (l.map g).sum) := by
  intro l
  induction l with
  | nil => intro v _; simp [pure, Except.pure]
  | cons a l ih =>
    intro v h
    rw [List.foldlM_cons, h v a (List.mem_cons_self ..)]
    simp only [bind, Except.bind]
    rw [ih _ fun v b hb => h v b (List.mem_cons_of_mem _ hb), List.map_cons, List.sum_cons, add_assoc]

theorem permanentDeriv_lambda (w : APr2G) {cols : List ℕ} (h : APr2G.Regular w cols) (hc : cols.Nodup)
    (hok : w.ngem = 1 ∧ cols.length = 1 ∨ 2 ≤ w.ngem ∧ 2 ≤ cols.length) {r : ℕ} (hr : r < w.ngem) (hr2 : r < w.nelec / 2) :
    w.permanentDeriv cols r = .ok (cols.map fun c => -w.zeta c / (w.lambda r - w.epsilon c) ^ 2 *
      minorL w.fullrank (List.range w.ngem) cols r c).sum := by
  rw [APr2G.permanentDeriv, if_neg (by omega), if_pos hr2, foldlM_add (g := fun c =>
    -w.zeta c / (w.lambda r - w.epsilon c) ^ 2 * minorL w.fullrank (List.range w.ngem) cols r c), zero_add]
  intro v c hcm
  have l1 := length_filter_ne (List.nodup_range (n := w.ngem)) (List.mem_range.2 hr)
  have l2 := length_filter_ne hc hcm
  rw [List.length_range] at l1
  simp only [APr2G.lambdaStep]
  rw [if_neg (by omega), truncated_eq w h hc hok hr hcm]
  rfl

theorem permanentDeriv_column (w : APr2G) {cols : List ℕ} (h : APr2G.Regular w cols) (hc : cols.Nodup)
    (hok : w.ngem = 1 ∧ cols.length = 1 ∨ 2 ≤ w.ngem ∧ 2 ≤ cols.length) {i : ℕ} (h1 : w.nelec / 2 ≤ i)
    (h2 : i < w.ngem + 2 * w.norbpair) {c : ℕ} (hic : (((i : ℤ) - w.ngem) % w.norbpair).toNat = c) :
    w.permanentDeriv cols i = .ok (if c ∈ cols then ((List.range w.ngem).map fun r =>
      (if w.ngem ≤ i ∧ i < w.ngem + w.norbpair then w.zeta c / (w.lambda r - w.epsilon c) ^ 2
        else 1 / (w.lambda r - w.epsilon c)) * minorL w.fullrank (List.range w.ngem) cols r c).sum else 0) := by
  rw [APr2G.permanentDeriv, if_neg (by omega), if_neg (by omega)]
  simp only [hic]
  by_cases hcm : c ∈ cols
  · have l2 := length_filter_ne hc hcm
    have l0 : cols.length ≠ 0 := by omega
    rw [if_neg (by omega), if_pos hcm, foldlM_add (g := fun r =>
      (if w.ngem ≤ i ∧ i < w.ngem + w.norbpair then w.zeta c / (w.lambda r - w.epsilon c) ^ 2
        else 1 / (w.lambda r - w.epsilon c)) * minorL w.fullrank (List.range w.ngem) cols r c), zero_add]
    intro v r hr
    simp only [APr2G.columnStep]
    rw [truncated_eq w h hc hok (List.mem_range.1 hr) hcm]
    rfl
  · rw [if_neg hcm, if_pos]
    rw [List.filter_eq_self.2]
    intro a ha
    simp only [ne_eq, decide_eq_true_eq]
    rintro rfl
    exact hcm ha

/-! ## The partial derivatives -/

theorem hasDerivAt_lambda (w : APr2G) {cols : List ℕ} (h : APr2G.Regular w cols) (hc : cols.Nodup) (hlt : ∀ c ∈ cols, c < w.norbpair)
    {r : ℕ} (hr : r < w.ngem) :
    HasDerivAt (fun x => perL (withParam w r x).fullrank (List.range w.ngem) cols)
      (cols.map fun c => -w.zeta c / (w.lambda r - w.epsilon c) ^ 2 *
        minorL w.fullrank (List.range w.ngem) cols r c).sum (w.params r) := by
  have hself : withParam w r (w.params r) = w := by rw [withParam, Function.update_eq_self]
  have := hasDerivAt_perL (fun x => (withParam w r x).fullrank) (fun a c => -w.zeta c / (w.lambda a - w.epsilon c) ^ 2)
    (w.params r) (rows := List.range w.ngem) List.nodup_range hc (cols.map fun c => (r, c))
    (hc.map fun a b hab => (Prod.mk.inj hab).2) ?_ ?_ ?_
  · rw [hself, List.map_map] at this
    exact this
  · intro p hp q hq
    obtain ⟨_, -, rfl⟩ := List.mem_map.1 hp
    obtain ⟨_, -, rfl⟩ := List.mem_map.1 hq
    exact Or.inl rfl
  · intro x a ha b hb hab
    have har : a ≠ r := by
      rintro rfl
      exact hab (List.mem_map.2 ⟨b, hb, rfl⟩)
    have hbl := hlt b hb
    simp only [hself]
    simp only [APr2G.fullrank, APr2G.zeta, APr2G.lambda, APr2G.epsilon, withParam, APr2G.norbpair]
    rw [Function.update_of_ne (by omega), Function.update_of_ne har, Function.update_of_ne (by omega)]
  · intro p hp
    obtain ⟨c, hcm, rfl⟩ := List.mem_map.1 hp
    have hne := sub_ne_zero.2 (h.ne r hr c hcm)
    have hf : (fun x => (withParam w r x).fullrank r c) = fun x => w.zeta c / (x - w.epsilon c) := by
      funext x
      simp only [APr2G.fullrank, APr2G.zeta, APr2G.lambda, APr2G.epsilon, withParam, APr2G.norbpair]
      rw [Function.update_of_ne (by omega), Function.update_self, Function.update_of_ne (by omega)]
    simp only [hf]
    have h1 := (((hasDerivAt_id (w.params r)).sub_const (w.epsilon c)).inv hne).const_mul (w.zeta c)
    simp only [APr2G.lambda, div_eq_mul_inv] at h1 ⊢
    refine h1.congr_deriv ?_
    simp only [id]
    ring

theorem hasDerivAt_column (w : APr2G) {cols : List ℕ} (hc : cols.Nodup) {i c : ℕ} (D : ℕ → ℝ)
    (hout : ∀ x, ∀ a < w.ngem, ∀ b ∈ cols, b ≠ c → (withParam w i x).fullrank a b = w.fullrank a b)
    (hd : ∀ a < w.ngem, c ∈ cols → HasDerivAt (fun x => (withParam w i x).fullrank a c) (D a) (w.params i)) :
    HasDerivAt (fun x => perL (withParam w i x).fullrank (List.range w.ngem) cols)
      (if c ∈ cols then ((List.range w.ngem).map fun r => D r *
        minorL w.fullrank (List.range w.ngem) cols r c).sum else 0) (w.params i) := by
  have hself : withParam w i (w.params i) = w := by rw [withParam, Function.update_eq_self]
  by_cases hcm : c ∈ cols
  · rw [if_pos hcm]
    have := hasDerivAt_perL (fun x => (withParam w i x).fullrank) (fun a _ => D a)
      (w.params i) (rows := List.range w.ngem) List.nodup_range hc ((List.range w.ngem).map fun r => (r, c))
      (List.nodup_range.map fun a b hab => (Prod.mk.inj hab).1) ?_ ?_ ?_
    · rw [hself, List.map_map] at this
      exact this
    · intro p hp q hq
      obtain ⟨_, -, rfl⟩ := List.mem_map.1 hp
      obtain ⟨_, -, rfl⟩ := List.mem_map.1 hq
      exact Or.inr rfl
    · intro x a ha b hb hab
      simp only [hself]
      apply hout x a (List.mem_range.1 ha) b hb
      rintro rfl
      exact hab (List.mem_map.2 ⟨a, ha, rfl⟩)
    · intro p hp
      obtain ⟨a, ha, rfl⟩ := List.mem_map.1 hp
      exact hd a (List.mem_range.1 ha) hcm
  · rw [if_neg hcm]
    have : (fun x => perL (withParam w i x).fullrank (List.range w.ngem) cols) =
        fun _ => perL w.fullrank (List.range w.ngem) cols := by
      funext x
      apply perL_congr
      intro a ha b hb
      apply hout x a (List.mem_range.1 ha) b hb
      rintro rfl
      exact hcm hb
    rw [this]
    exact hasDerivAt_const _ _

theorem toNat_emod {i g n c : ℕ} (hc : c < n) (hi : i = g + c ∨ i = g + n + c) : (((i : ℤ) - g) % n).toNat = c := by
  rcases hi with rfl | rfl
  · push_cast
    rw [add_sub_cancel_left, Int.emod_eq_of_lt (by omega) (by omega), Int.toNat_natCast]
  · push_cast
    rw [show ((g : ℤ) + n + c - g) = c + n by ring, Int.add_emod_right, Int.emod_eq_of_lt (by omega) (by omega),
      Int.toNat_natCast]

theorem hasDerivAt_permanent (w : APr2G) {cols : List ℕ} (h : APr2G.Regular w cols) (hc : cols.Nodup)
    (hlt : ∀ c ∈ cols, c < w.norbpair) (hok : w.ngem = 1 ∧ cols.length = 1 ∨ 2 ≤ w.ngem ∧ 2 ≤ cols.length)
    (hp : w.nelec / 2 ≤ w.ngem) {i : ℕ} (hi : i < w.ngem + 2 * w.norbpair) (hi2 : i < w.nelec / 2 ∨ w.ngem ≤ i) :
    ∃ d, w.permanentDeriv cols i = .ok d ∧
      HasDerivAt (fun x => perL (withParam w i x).fullrank (List.range w.ngem) cols) d (w.params i) := by
  by_cases h1 : i < w.nelec / 2
  · exact ⟨_, permanentDeriv_lambda w h hc hok (by omega) h1, hasDerivAt_lambda w h hc hlt (by omega)⟩
  have h3 : w.ngem ≤ i := by omega
  by_cases h2 : i < w.ngem + w.norbpair
  · obtain ⟨c, rfl⟩ : ∃ c, i = w.ngem + c := ⟨i - w.ngem, by omega⟩
    refine ⟨_, permanentDeriv_column w h hc hok (by omega) hi (toNat_emod (c := c) (by omega) (Or.inl rfl)), ?_⟩
    apply hasDerivAt_column w hc
    · intro x a ha b hb hbc
      have hbl := hlt b hb
      simp only [APr2G.fullrank, APr2G.zeta, APr2G.lambda, APr2G.epsilon, withParam, APr2G.norbpair] at *
      rw [Function.update_of_ne (by omega), Function.update_of_ne (by omega), Function.update_of_ne (by omega)]
    · intro a ha hcm
      rw [if_pos ⟨h3, h2⟩]
      have hne := sub_ne_zero.2 (h.ne a ha c hcm)
      have hf : (fun x => (withParam w (w.ngem + c) x).fullrank a c) = fun x => w.zeta c / (w.lambda a - x) := by
        funext x
        simp only [APr2G.fullrank, APr2G.zeta, APr2G.lambda, APr2G.epsilon, withParam, APr2G.norbpair] at *
        rw [Function.update_of_ne (by omega), Function.update_of_ne (by omega), Function.update_self]
      rw [hf]
      have h1 := (((hasDerivAt_id (w.params (w.ngem + c))).const_sub (w.lambda a)).inv hne).const_mul (w.zeta c)
      simp only [APr2G.epsilon, div_eq_mul_inv] at h1 ⊢
      refine h1.congr_deriv ?_
      simp only [id]
      ring
  · obtain ⟨c, rfl⟩ : ∃ c, i = w.ngem + w.norbpair + c := ⟨i - w.ngem - w.norbpair, by omega⟩
    refine ⟨_, permanentDeriv_column w h hc hok (by omega) hi (toNat_emod (c := c) (by omega) (Or.inr rfl)), ?_⟩
    apply hasDerivAt_column w hc
    · intro x a ha b hb hbc
      have hbl := hlt b hb
      simp only [APr2G.fullrank, APr2G.zeta, APr2G.lambda, APr2G.epsilon, withParam, APr2G.norbpair] at *
      rw [Function.update_of_ne (by omega), Function.update_of_ne (by omega), Function.update_of_ne (by omega)]
    · intro a ha hcm
      rw [if_neg (by omega)]
      have hf : (fun x => (withParam w (w.ngem + w.norbpair + c) x).fullrank a c) =
          fun x => x / (w.lambda a - w.epsilon c) := by
        funext x
        simp only [APr2G.fullrank, APr2G.zeta, APr2G.lambda, APr2G.epsilon, withParam, APr2G.norbpair] at *
        rw [Function.update_self, Function.update_of_ne (by omega), Function.update_of_ne (by omega)]
      rw [hf]
      exact (hasDerivAt_id _).div_const _

/-- Parameters stay regular when one of them changes a little. -/
theorem regular_eventually (w : APr2G) {cols : List ℕ} (h : APr2G.Regular w cols) (i : ℕ) :
    ∀ᶠ x in 𝓝 (w.params i), APr2G.Regular (withParam w i x) cols := by
  have hself : withParam w i (w.params i) = w := by rw [withParam, Function.update_eq_self]
  have hcont : ∀ k, Continuous fun x => Function.update w.params i x k := by
    intro k
    by_cases hk : k = i
    · subst hk; simp only [Function.update_self]; exact continuous_id
    · simp only [Function.update_of_ne hk]; exact continuous_const
  have hev : ∀ k l, w.params k ≠ w.params l →
      ∀ᶠ x in 𝓝 (w.params i), Function.update w.params i x k ≠ Function.update w.params i x l := by
    intro k l hkl
    have h0 := (((hcont k).sub (hcont l)).tendsto (w.params i)).eventually_ne (b₂ := 0) (by
      simpa only [Pi.sub_apply, Function.update_eq_self, sub_ne_zero] using hkl)
    filter_upwards [h0] with x hx
    exact sub_ne_zero.1 hx
  have e1 : ∀ᶠ x in 𝓝 (w.params i), ∀ a ∈ Finset.range w.ngem, ∀ b ∈ Finset.range w.ngem, a ≠ b →
      (withParam w i x).lambda a ≠ (withParam w i x).lambda b := by
    rw [Filter.eventually_all_finset]; intro a ha
    rw [Filter.eventually_all_finset]; intro b hb
    rw [Filter.eventually_all]; intro hab
    exact hev _ _ (h.lam a (Finset.mem_range.1 ha) b (Finset.mem_range.1 hb) hab)
  have e2 : ∀ᶠ x in 𝓝 (w.params i), ∀ a ∈ cols.toFinset, ∀ b ∈ cols.toFinset, a ≠ b →
      (withParam w i x).epsilon a ≠ (withParam w i x).epsilon b := by
    rw [Filter.eventually_all_finset]; intro a ha
    rw [Filter.eventually_all_finset]; intro b hb
    rw [Filter.eventually_all]; intro hab
    exact hev _ _ (h.eps a (List.mem_toFinset.1 ha) b (List.mem_toFinset.1 hb) hab)
  have e3 : ∀ᶠ x in 𝓝 (w.params i), ∀ a ∈ Finset.range w.ngem, ∀ b ∈ cols.toFinset,
      (withParam w i x).lambda a ≠ (withParam w i x).epsilon b := by
    rw [Filter.eventually_all_finset]; intro a ha
    rw [Filter.eventually_all_finset]; intro b hb
    exact hev _ _ (h.ne a (Finset.mem_range.1 ha) b (List.mem_toFinset.1 hb))
  filter_upwards [e1, e2, e3] with x h1 h2 h3
  exact ⟨fun a ha b hb => h1 a (Finset.mem_range.2 ha) b (Finset.mem_range.2 hb),
    fun a ha b hb => h2 a (List.mem_toFinset.2 ha) b (List.mem_toFinset.2 hb),
    fun a ha b hb => h3 a (Finset.mem_range.2 ha) b (List.mem_toFinset.2 hb)⟩

/-- C38. `compute_permanent(col_inds)` is the permanent of the rank-2 matrix `zeta_j / (lambda_i - epsilon_j)`, near the
parameters too, and `compute_permanent(col_inds, deriv)` is its partial derivative with respect to the parameter
`deriv`.  Excluded: the lambdas of the geminals beyond the number of pairs (`C38_extra_geminal`), and one column with
several geminals (`C38_one_pair`). -/
theorem C38_permanent_partial (w : APr2G) (cols : List ℕ) (hc : cols.Nodup) (hlt : ∀ c ∈ cols, c < w.norbpair)
    (h : APr2G.Regular w cols) (hok : w.ngem = 1 ∧ cols.length = 1 ∨ 2 ≤ w.ngem ∧ 2 ≤ cols.length)
    (hp : w.nelec / 2 ≤ w.ngem) (i : ℕ) (hi : i < w.ngem + 2 * w.norbpair) (hi2 : i < w.nelec / 2 ∨ w.ngem ≤ i) :
    ∃ (f : ℝ → ℝ) (d : ℝ), (∀ᶠ x in 𝓝 (w.params i), (withParam w i x).permanent cols = .ok (f x)) ∧
      (∀ x, f x = perL (fun a b => (withParam w i x).zeta b / ((withParam w i x).lambda a - (withParam w i x).epsilon b))
        (List.range w.ngem) cols) ∧
      w.permanentDeriv cols i = .ok d ∧ HasDerivAt f d (w.params i) := by
  obtain ⟨d, h1, h2⟩ := hasDerivAt_permanent w h hc hlt hok hp hi hi2
  refine ⟨_, d, ?_, fun x => rfl, h1, h2⟩
  filter_upwards [regular_eventually w h i] with x hx
  exact r2permanent_eq _ hx hc (show w.ngem ≠ 0 by omega) (by rintro rfl; simp at hok)

/-! ## Overlaps -/

/-- the `APIG` wavefunction with the matrix of the rank-2 wavefunction -/
noncomputable def toApig (w : APr2G) : Geminal.Wfn ℝ := ⟨.apig w.pairs, w.nelec, w.nspin, w.ngem, w.fullrank⟩

/-- the columns of a scheme -/
def colsOf (w : APr2G) (o : Scheme × ℤ) : List ℕ := o.1.map fun p => w.pairs.idxOf p

theorem r2colInd_ok (w : APr2G) {l : List (ℕ × ℕ)} (h : ∀ p ∈ l, p ∈ w.pairs) :
    l.mapM (dictColInd w.pairs) = .ok (l.map fun p => w.pairs.idxOf p) := by
  apply mapM_eq_ok
  intro p hp
  rw [dictColInd, if_pos (h p hp)]

theorem colsOf_ok (w : APr2G) {k : ℕ} {o : Scheme × ℤ} (h1 : ∀ p ∈ o.1, p ∈ w.pairs) (h2 : o.1.length = k)
    (h3 : o.1.Nodup) : (colsOf w o).Nodup ∧ (∀ c ∈ colsOf w o, c < w.norbpair) ∧ (colsOf w o).length = k := by
  refine ⟨?_, ?_, by rw [colsOf, List.length_map, h2]⟩
  · apply h3.map_on
    intro a ha b hb hab
    exact (List.idxOf_inj (h1 a ha)).1 hab
  · intro c hc
    obtain ⟨p, hp, rfl⟩ := List.mem_map.1 hc
    exact List.idxOf_lt_length_of_mem (h1 p hp)

/-- Parameters that are regular for all columns. -/
abbrev APr2G.RegularAll (w : APr2G) : Prop := APr2G.Regular w (List.range w.norbpair)

theorem APr2G.RegularAll.of (w : APr2G) (h : APr2G.RegularAll w) {cols : List ℕ} (hlt : ∀ c ∈ cols, c < w.norbpair) :
    APr2G.Regular w cols :=
  ⟨h.lam, fun a ha b hb => h.eps a (List.mem_range.2 (hlt a ha)) b (List.mem_range.2 (hlt b hb)),
    fun a ha b hb => h.ne a ha b (List.mem_range.2 (hlt b hb))⟩

/-- the value of the overlap for the schemes `gen` -/
noncomputable def genSum (w : APr2G) (P : ℕ → ℕ → ℝ) (gen : List (Scheme × ℤ)) : ℝ :=
  (gen.map fun o => (o.2 : ℝ) * if o.1.length = 0 then 0 else perL P (List.range w.ngem) (colsOf w o)).sum

theorem r2_overlap_gen (w : APr2G) (h : APr2G.RegularAll w) (hg : w.ngem ≠ 0) {sd k : ℕ} (hk : k ≠ 0)
    {gen : List (Scheme × ℤ)} (hgen : w.orbpairs (occIndices (some sd)) = .ok gen) (hok : GenOK (toApig w) k gen) :
    w.overlap sd = .ok (genSum w w.fullrank gen) := by
  rw [APr2G.overlap, hgen]
  simp only [bind, Except.bind]
  rcases hok with rfl | hok
  · simp [genSum, APr2G.olpStep, pure, Except.pure, bind, Except.bind]
  · have hfold : ∀ (l : List (Scheme × ℤ)) (acc : ℝ × ℕ), (∀ o ∈ l, o ∈ gen) →
        l.foldlM w.olpStep acc = .ok (acc.1 + genSum w w.fullrank l, acc.2 + l.length) := by
      intro l
      induction l with
      | nil => intro acc _; simp [genSum, pure, Except.pure]
      | cons o l ih =>
        intro acc hl
        obtain ⟨h1, h2, h3⟩ := hok o (hl o (List.mem_cons_self ..))
        obtain ⟨c1, c2, c3⟩ := colsOf_ok w h1 h2 h3
        rw [List.foldlM_cons, APr2G.olpStep, if_neg (by omega), r2colInd_ok w h1]
        simp only [bind, Except.bind]
        rw [← colsOf, r2permanent_eq w (APr2G.RegularAll.of w h c2) c1 hg (by intro h; rw [h] at c3; simp at c3; omega)]
        simp only [pure, Except.pure]
        rw [ih _ fun o ho => hl o (List.mem_cons_of_mem _ ho)]
        simp only [genSum, List.map_cons, List.sum_cons, List.length_cons]
        rw [if_neg (by omega), add_assoc, add_assoc, add_comm 1]
    rw [hfold gen _ fun o ho => ho]
    simp only [pure, Except.pure, zero_add]
    rcases gen with - | ⟨o, gen⟩
    · simp [genSum]
    · simp

/-- the value of `compute_permanent(cols, i)` -/
noncomputable def derivVal (w : APr2G) (cols : List ℕ) (i : ℕ) : ℝ :=
  match w.permanentDeriv cols i with
  | .ok d => d
  | .error _ => 0

theorem foldlM_r2derivStep (w : APr2G) (cols : List ℕ) (s : ℤ) : ∀ (l : List ℕ) (out : ℕ → ℝ), l.Nodup →
    (∀ i ∈ l, w.permanentDeriv cols i = .ok (derivVal w cols i)) →
    l.foldlM (w.derivStep cols s) out = .ok fun i => out i + if i ∈ l then s * derivVal w cols i else 0 := by
  intro l
  induction l with
  | nil => intro out _ _; simp [pure, Except.pure]
  | cons j l ih =>
    intro out hn h
    rw [List.nodup_cons] at hn
    rw [List.foldlM_cons, APr2G.derivStep, h j (List.mem_cons_self ..)]
    simp only [bind, Except.bind, pure, Except.pure]
    rw [ih _ hn.2 fun i hi => h i (List.mem_cons_of_mem _ hi)]
    congr 1
    funext i
    rw [bump]
    by_cases hi : i = j
    · subst hi
      rw [if_pos rfl, if_neg hn.1, if_pos (List.mem_cons_self ..), add_zero]
    · rw [if_neg hi]
      simp only [List.mem_cons, hi, false_or]

theorem r2_deriv_gen (w : APr2G) (h : APr2G.RegularAll w) {sd k : ℕ} (hk : k ≠ 0) (hg : w.ngem = k) (hn : w.nelec = 2 * k)
    {gen : List (Scheme × ℤ)} (hgen : w.orbpairs (occIndices (some sd)) = .ok gen) (hok : GenOK (toApig w) k gen) :
    ∃ d : ℕ → ℝ, w.olpDeriv sd = .ok d ∧ ∀ i < w.ngem + 2 * w.norbpair,
      HasDerivAt (fun x => genSum w (withParam w i x).fullrank gen) (d i) (w.params i) := by
  rcases hok with rfl | hok
  · refine ⟨fun _ => 0, ?_, ?_⟩
    · rw [APr2G.olpDeriv, hgen]
      simp [bind, Except.bind, pure, Except.pure, APr2G.olpDerivStep]
    · intro i _
      simp only [genSum, List.map_cons, List.map_nil, List.sum_cons, List.sum_nil, List.length_nil, if_true, mul_zero,
        add_zero]
      exact hasDerivAt_const _ _
  · have hD : ∀ o ∈ gen, ∀ i < w.ngem + 2 * w.norbpair,
        w.permanentDeriv (colsOf w o) i = .ok (derivVal w (colsOf w o) i) ∧
        HasDerivAt (fun x => perL (withParam w i x).fullrank (List.range w.ngem) (colsOf w o))
          (derivVal w (colsOf w o) i) (w.params i) := by
      intro o ho i hi
      obtain ⟨h1, h2, h3⟩ := hok o ho
      obtain ⟨c1, c2, c3⟩ := colsOf_ok w h1 h2 h3
      obtain ⟨d, hd1, hd2⟩ := hasDerivAt_permanent w (APr2G.RegularAll.of w h c2) c1 c2 (by omega) (by omega) hi (by omega)
      have : derivVal w (colsOf w o) i = d := by rw [derivVal, hd1]
      rw [this]
      exact ⟨hd1, hd2⟩
    have hstep : ∀ o ∈ gen, ∀ out : ℕ → ℝ, ∃ out', w.olpDerivStep out o = .ok out' ∧
        ∀ i < w.ngem + 2 * w.norbpair, out' i = out i + o.2 * derivVal w (colsOf w o) i := by
      intro o ho out
      obtain ⟨h1, h2, h3⟩ := hok o ho
      obtain ⟨c1, c2, c3⟩ := colsOf_ok w h1 h2 h3
      rw [APr2G.olpDerivStep, if_neg (by omega), r2colInd_ok w h1]
      simp only [bind, Except.bind]
      rw [← colsOf, foldlM_r2derivStep]
      · refine ⟨_, rfl, ?_⟩
        intro i hi
        split_ifs with hm
        · rfl
        · have hm' : w.ngem ≤ i ∧ ∀ c ∈ colsOf w o, i ≠ w.ngem + c ∧ i ≠ w.ngem + w.norbpair + c := by
            simp only [List.mem_append, List.mem_range, List.mem_flatMap, List.mem_cons, List.not_mem_nil, or_false,
              not_or, not_exists, not_and, not_lt] at hm
            refine ⟨hm.1, fun c hc => ?_⟩
            have := hm.2 c hc
            omega
          obtain ⟨c, hcl, hic⟩ : ∃ c < w.norbpair, i = w.ngem + c ∨ i = w.ngem + w.norbpair + c := by
            by_cases hlt : i < w.ngem + w.norbpair
            · exact ⟨i - w.ngem, by omega, by omega⟩
            · exact ⟨i - w.ngem - w.norbpair, by omega, by omega⟩
          have hcm : c ∉ colsOf w o := by
            intro hc
            have := hm'.2 c hc
            omega
          have h5 := permanentDeriv_column w (APr2G.RegularAll.of w h c2) c1 (by omega) (by omega) hi
            (toNat_emod hcl hic)
          rw [if_neg hcm] at h5
          rw [derivVal, h5, mul_zero]
      · rw [List.nodup_append]
        refine ⟨List.nodup_range, ?_, ?_⟩
        · rw [List.nodup_flatMap]
          refine ⟨fun c hc => ?_, ?_⟩
          · have := c2 c hc
            rw [List.nodup_cons]
            refine ⟨?_, List.nodup_singleton _⟩
            rw [List.mem_singleton]
            omega
          · apply c1.imp_of_mem
            intro a b ha hb hab x hx hy
            have := c2 a ha
            have := c2 b hb
            simp only [List.mem_cons, List.not_mem_nil, or_false] at hx hy
            omega
        · intro a ha b hb
          rw [List.mem_range] at ha
          obtain ⟨c, -, hb⟩ := List.mem_flatMap.1 hb
          simp only [List.mem_cons, List.not_mem_nil, or_false] at hb
          omega
      · intro i hi
        apply (hD o ho i _).1
        rcases List.mem_append.1 hi with hi | hi
        · rw [List.mem_range] at hi; omega
        · obtain ⟨c, hc, hi⟩ := List.mem_flatMap.1 hi
          have := c2 c hc
          simp only [List.mem_cons, List.not_mem_nil, or_false] at hi
          omega
    have hfold : ∀ (l : List (Scheme × ℤ)) (out : ℕ → ℝ), (∀ o ∈ l, o ∈ gen) → ∃ out', l.foldlM w.olpDerivStep out = .ok out' ∧
        ∀ i < w.ngem + 2 * w.norbpair, out' i = out i + (l.map fun o => (o.2 : ℝ) * derivVal w (colsOf w o) i).sum := by
      intro l
      induction l with
      | nil => intro out _; exact ⟨out, rfl, fun i _ => by simp⟩
      | cons o l ih =>
        intro out hl
        obtain ⟨o1, a1, a2⟩ := hstep o (hl o (List.mem_cons_self ..)) out
        obtain ⟨o2, b1, b2⟩ := ih o1 fun o ho => hl o (List.mem_cons_of_mem _ ho)
        refine ⟨o2, ?_, ?_⟩
        · rw [List.foldlM_cons, a1]; exact b1
        · intro i hi
          rw [b2 i hi, a2 i hi, List.map_cons, List.sum_cons, add_assoc]
    obtain ⟨d, hd1, hd2⟩ := hfold gen (fun _ => 0) fun o ho => ho
    refine ⟨d, ?_, ?_⟩
    · rw [APr2G.olpDeriv, hgen]; exact hd1
    · intro i hi
      rw [hd2 i hi, zero_add]
      have : ∀ l : List (Scheme × ℤ), (∀ o ∈ l, o ∈ gen) → HasDerivAt (fun x => genSum w (withParam w i x).fullrank l)
          (l.map fun o => (o.2 : ℝ) * derivVal w (colsOf w o) i).sum (w.params i) := by
        intro l
        induction l with
        | nil => intro _; simpa [genSum] using hasDerivAt_const (w.params i) (0 : ℝ)
        | cons o l ih =>
          intro hl
          have h2 := (hok o (hl o (List.mem_cons_self ..))).2.1
          simp only [genSum, List.map_cons, List.sum_cons]
          simp only [show ¬ o.1.length = 0 by omega, if_false]
          exact ((hD o (hl o (List.mem_cons_self ..)) i hi).2.const_mul _).fun_add
            (ih fun o ho => hl o (List.mem_cons_of_mem _ ho))
      exact this gen fun o ho => ho

theorem toApig_overlap (w : APr2G) (he : w.nspin % 2 = 0) (hg : w.ngem ≠ 0) {sd k : ℕ} (hk : k ≠ 0)
    {gen : List (Scheme × ℤ)} (hgen : w.orbpairs (occIndices (some sd)) = .ok gen) (hok : GenOK (toApig w) k gen) :
    (toApig w).overlap sd = .ok (genSum w w.fullrank gen) := by
  rcases hok with rfl | hok
  · rw [overlap_nil (toApig w) hgen]
    simp [genSum]
  · rw [Geminal.Wfn.overlap, show (toApig w).orbpairs (occIndices (some sd)) = .ok gen from hgen]
    simp only [bind, Except.bind]
    rw [foldlM_olpStep (toApig w) he hg hk gen (0, 0) fun o ho => ⟨(hok o ho).1, (hok o ho).2.1⟩]
    simp only [pure, Except.pure, zero_add]
    have : (gen.map fun o => (o.2 : ℝ) * perSpec (toApig w).ngem k fun i j =>
        (toApig w).params i ((columns (toApig w).kind (toApig w).nspin).idxOf (o.1.getD j (0, 0)))).sum =
        genSum w w.fullrank gen := by
      rw [genSum]
      congr 1
      apply List.map_congr_left
      intro o ho
      have h2 := (hok o ho).2.1
      rw [if_neg (by omega), perL, List.length_range, colsOf, List.length_map, h2]
      congr 1
      apply perSpec_congr
      intro i j hi hj
      have hi : i < w.ngem := hi
      rw [List.getD_eq_getElem _ _ (by omega), List.getD_eq_getElem _ _ (by simpa using hi),
        List.getD_eq_getElem _ _ (by simpa [h2] using hj), List.getElem_map, List.getElem_range]
      rfl
    rw [this]
    rcases gen with - | ⟨o, gen⟩
    · simp [genSum]
    · simp

theorem apr2g_init_ok {nelec nspin : ℕ} {ngem : Option ℕ} {op : Option (List (ℕ × ℕ))} {params : ℕ → ℝ} {w : APr2G}
    (hw : APr2G.init nelec nspin ngem op params = .ok w) :
    (nelec ≠ 0 ∧ nelec % 2 = 0 ∧ nspin % 2 = 0 ∧ nelec / 2 ≤ ngem.getD (nelec / 2)) ∧
    ∃ pairs, apigOrbpairs nspin op = .ok pairs ∧ w = ⟨nelec, nspin, ngem.getD (nelec / 2), pairs, params⟩ ∧
      ∀ i < w.ngem, ∀ j < w.norbpair, w.lambda i ≠ w.epsilon j := by
  have hg : ∃ g, Geminal.Wfn.init (.apig []) nelec nspin ngem op (fun _ _ => (0 : ℝ)) = .ok g := by
    rw [APr2G.init] at hw
    rw [Geminal.Wfn.init]
    rcases h1 : Geminal.checkNelec nelec with e | u
    · rw [h1] at hw; cases hw
    rcases h2 : CI.checkNspin nspin with e | u
    · rw [h1, h2] at hw; cases hw
    rcases h3 : assignNgem nelec ngem with e | g
    · rw [h1, h2, h3] at hw; cases hw
    rcases h4 : apigOrbpairs nspin op with e | pairs
    · rw [h1, h2, h3, h4] at hw; cases hw
    exact ⟨⟨.apig pairs, nelec, nspin, g, fun _ _ => 0⟩, by simp [assignOrbpairs, h4, bind, Except.bind, pure, Except.pure]⟩
  obtain ⟨g, hg⟩ := hg
  obtain ⟨⟨h1, h2, h3, h4, h5⟩, kind', hk, -⟩ := (geminal_init_ok ..).1 hg
  refine ⟨⟨h1, h2, h4, h5⟩, ?_⟩
  rcases hp : apigOrbpairs nspin op with e | pairs
  · simp [assignOrbpairs, hp, bind, Except.bind] at hk
  refine ⟨pairs, rfl, ?_⟩
  have hn : Geminal.checkNelec nelec = .ok () := by
    simp [Geminal.checkNelec, CI.checkNelec, h1, h2, bind, Except.bind, pure, Except.pure]
  have hs : CI.checkNspin nspin = .ok () := by
    simp [CI.checkNspin, h3, h4]
  have ha : assignNgem nelec ngem = .ok (ngem.getD (nelec / 2)) := by rw [assignNgem, if_neg (by omega)]
  rw [APr2G.init, hn, hs, ha, hp] at hw
  simp only [bind, Except.bind, APr2G.checkParams] at hw
  split_ifs at hw with hc
  obtain rfl := Except.ok.inj hw
  refine ⟨rfl, ?_⟩
  intro i hi j hj h0
  refine hc ⟨i, hi, j, hj, ?_⟩
  rw [h0, sub_self, abs_zero]
  norm_num

/-- C38. The overlaps of a rank-2 wavefunction are those of the `APIG` wavefunction with the matrix
`zeta_j / (lambda_i - epsilon_j)` (see C34), if the lambdas are different and the epsilons are different. -/
theorem C38_overlap (nelec nspin : ℕ) (ngem : Option ℕ) (op : Option (List (ℕ × ℕ))) (params : ℕ → ℝ) (w : APr2G)
    (hw : APr2G.init nelec nspin ngem op params = .ok w)
    (hlam : ∀ a < w.ngem, ∀ b < w.ngem, a ≠ b → w.lambda a ≠ w.lambda b)
    (heps : ∀ a < w.norbpair, ∀ b < w.norbpair, a ≠ b → w.epsilon a ≠ w.epsilon b)
    (sd : ℕ) (hc : (occSet sd).card = nelec) :
    ∃ v, w.overlap sd = .ok v ∧
      (⟨.apig w.pairs, nelec, nspin, w.ngem, fun i j => w.zeta j / (w.lambda i - w.epsilon j)⟩ : Geminal.Wfn ℝ).overlap sd =
        .ok v := by
  obtain ⟨⟨h1, h2, h3, h4⟩, pairs, hp, hw', hne⟩ := apr2g_init_ok hw
  obtain ⟨-, hnd, -⟩ := apigOrbpairs_ok hp
  have hreg : APr2G.RegularAll w := ⟨hlam, fun a ha b hb => heps a (List.mem_range.1 ha) b (List.mem_range.1 hb),
    fun a ha b hb => hne a ha b (List.mem_range.1 hb)⟩
  have hn : w.nelec = nelec := by rw [hw']
  have hs : w.nspin = nspin := by rw [hw']
  have hg : w.ngem = ngem.getD (nelec / 2) := by rw [hw']
  have hpp : w.pairs = pairs := by rw [hw']
  obtain ⟨gen, hgen, hok⟩ := gen_apig (toApig w) (pairs := pairs) (by rw [toApig, hpp]) hnd (sd := sd) (k := nelec / 2)
    (by rw [toApig]; simp only; omega) (by rw [toApig]; simp only; omega)
  refine ⟨_, r2_overlap_gen w hreg (by omega) (by omega) hgen hok, ?_⟩
  have := toApig_overlap w (by omega) (by omega) (by omega) hgen hok
  rw [toApig, hn, hs] at this
  exact this

/-- C38. `get_overlap(sd, deriv)` is the list of the partial derivatives of the overlap, when the number of geminals is
the number of pairs of electrons (the default). -/
theorem C38_deriv_partial (nelec nspin : ℕ) (ngem : Option ℕ) (op : Option (List (ℕ × ℕ))) (params : ℕ → ℝ) (w : APr2G)
    (hw : APr2G.init nelec nspin ngem op params = .ok w) (hg : w.ngem = nelec / 2)
    (hlam : ∀ a < w.ngem, ∀ b < w.ngem, a ≠ b → w.lambda a ≠ w.lambda b)
    (heps : ∀ a < w.norbpair, ∀ b < w.norbpair, a ≠ b → w.epsilon a ≠ w.epsilon b)
    (sd : ℕ) (hc : (occSet sd).card = nelec) :
    ∃ (f : ℕ → ℝ → ℝ) (d : ℕ → ℝ),
      (∀ deriv : List ℕ, (∀ i ∈ deriv, i < w.ngem + 2 * w.norbpair) → w.overlapDeriv sd deriv = .ok (deriv.map d)) ∧
      ∀ i < w.ngem + 2 * w.norbpair,
        (∀ᶠ x in 𝓝 (params i), (withParam w i x).overlap sd = .ok (f i x)) ∧ HasDerivAt (f i) (d i) (params i) := by
  obtain ⟨⟨h1, h2, h3, h4⟩, pairs, hp, hw', hne⟩ := apr2g_init_ok hw
  obtain ⟨-, hnd, -⟩ := apigOrbpairs_ok hp
  have hreg : APr2G.RegularAll w := ⟨hlam, fun a ha b hb => heps a (List.mem_range.1 ha) b (List.mem_range.1 hb),
    fun a ha b hb => hne a ha b (List.mem_range.1 hb)⟩
  have hn : w.nelec = nelec := by rw [hw']
  have hpp : w.pairs = pairs := by rw [hw']
  have hpar : w.params = params := by rw [hw']
  obtain ⟨gen, hgen, hok⟩ := gen_apig (toApig w) (pairs := pairs) (by rw [toApig, hpp]) hnd (sd := sd) (k := nelec / 2)
    (by rw [toApig]; simp only; omega) (by rw [toApig]; simp only; omega)
  obtain ⟨d, hd1, hd2⟩ := r2_deriv_gen w hreg (k := nelec / 2) (by omega) hg (by omega) hgen hok
  refine ⟨fun i x => genSum w (withParam w i x).fullrank gen, d, ?_, ?_⟩
  · intro deriv hi
    rw [APr2G.overlapDeriv, hd1]
    simp only [bind, Except.bind]
    apply mapM_eq_ok
    intro i hm
    rw [if_pos (hi i hm)]
  · intro i hi
    rw [← hpar]
    refine ⟨?_, hd2 i hi⟩
    filter_upwards [regular_eventually w hreg i] with x hx
    exact r2_overlap_gen (withParam w i x) hx (show w.ngem ≠ 0 by omega) (k := nelec / 2) (by omega) hgen hok

/-- C38. An index that is not one of a parameter is an error. -/
theorem C38_index (w : APr2G) (cols : List ℕ) (i : ℕ) (hi : w.ngem + 2 * w.norbpair ≤ i) :
    w.permanentDeriv cols i = .error .valueError := by
  rw [APr2G.permanentDeriv, if_pos (by omega)]

/-- C38. Parameters with a lambda equal to an epsilon are refused. -/
theorem C38_refused (nelec nspin : ℕ) (ngem : Option ℕ) (op : Option (List (ℕ × ℕ))) (params : ℕ → ℝ) (w : APr2G)
    (hw : APr2G.init nelec nspin ngem op params = .ok w) (i j : ℕ) (hi : i < w.ngem) (hj : j < w.norbpair) :
    params i ≠ params (w.ngem + j) := by
  obtain ⟨-, pairs, -, hw', hne⟩ := apr2g_init_ok hw
  have hpar : w.params = params := by rw [hw']
  rw [← hpar]
  exact hne i hi j hj

theorem borchardt_no_columns (l : List ℝ) : permanentBorchardt l [] [] none = .error .indexError := by
  simp only [permanentBorchardt]
  rw [if_neg (by simp), if_neg (by simp), if_pos]
  split_ifs with h
  · rfl
  · simpa using h

/-- C38 fails for one pair in several geminals: the derivative is an error. -/
theorem C38_one_pair (w : APr2G) (c : ℕ) (hn : w.nelec / 2 = 1) (hg : 2 ≤ w.ngem) :
    w.permanentDeriv [c] 0 = .error .indexError := by
  have l1 := length_filter_ne (List.nodup_range (n := w.ngem)) (a := 0) (List.mem_range.2 (by omega))
  rw [List.length_range] at l1
  have l2 : [c].filter (· ≠ c) = [] := by simp
  rw [APr2G.permanentDeriv, if_neg (by omega), if_pos (by omega), List.foldlM_cons]
  simp only [APr2G.lambdaStep]
  rw [l2, if_neg (by rw [l1]; simp only [List.length_cons, List.length_nil]; omega), APr2G.truncated,
    if_neg (by rw [l1]; simp only [List.length_nil]; omega), APr2G.borchardt]
  simp only [List.map_nil]
  rw [borchardt_no_columns]
  rfl

theorem perL_pos (P : ℕ → ℕ → ℝ) {rows cols : List ℕ} (hl : cols.length ≤ rows.length)
    (h : ∀ a ∈ rows, ∀ b ∈ cols, 0 < P a b) : 0 < perL P rows cols := by
  rw [perL_tall P hl]
  have : Nonempty (Fin cols.length ↪ Fin rows.length) := ⟨Fin.castLEEmb hl⟩
  apply Finset.sum_pos _ Finset.univ_nonempty
  intro e _
  apply Finset.prod_pos
  intro j _
  exact h _ (List.get_mem _ _) _ (List.get_mem _ _)

/-- two pairs in three geminals: the lambdas are 1, 2, 3, the epsilons 0, -1, -2 and the zetas 1 -/
noncomputable def exampleR2 (ngem : ℕ) : APr2G :=
  ⟨4, 6, ngem, [(0, 3), (1, 4), (2, 5)], fun i => if i < ngem then i + 1 else if i < ngem + 3 then ngem - i else 1⟩

theorem exampleR2_lambda {ngem a : ℕ} (h : a < (exampleR2 ngem).ngem) : (exampleR2 ngem).lambda a = a + 1 := by
  have h : a < ngem := h
  simp [exampleR2, APr2G.lambda, h]

theorem exampleR2_epsilon {ngem b : ℕ} (h : b < 3) : (exampleR2 ngem).epsilon b = -b := by
  simp [exampleR2, APr2G.epsilon, h]

theorem exampleR2_zeta {ngem b : ℕ} : (exampleR2 ngem).zeta b = 1 := by
  simp [exampleR2, APr2G.zeta, APr2G.norbpair, show ¬ ngem + 3 + b < ngem by omega]

theorem exampleR2_regular (ngem : ℕ) : APr2G.Regular (exampleR2 ngem) (List.range 3) := by
  refine ⟨?_, ?_, ?_⟩
  · intro a ha b hb hab h
    rw [exampleR2_lambda ha, exampleR2_lambda hb] at h
    exact hab (by exact_mod_cast add_right_cancel h)
  · intro a ha b hb hab h
    rw [exampleR2_epsilon (List.mem_range.1 ha), exampleR2_epsilon (List.mem_range.1 hb)] at h
    exact hab (by exact_mod_cast neg_injective h)
  · intro a ha b hb h
    rw [exampleR2_lambda ha, exampleR2_epsilon (List.mem_range.1 hb)] at h
    have : (0 : ℝ) ≤ a := by positivity
    have : (0 : ℝ) ≤ b := by positivity
    linarith

theorem exampleR2_init (ngem : ℕ) (h : 2 ≤ ngem) : APr2G.init 4 6 (some ngem) none (exampleR2 ngem).params = .ok (exampleR2 ngem) := by
  have hp : apigOrbpairs 6 none = .ok [(0, 3), (1, 4), (2, 5)] := by decide +kernel
  have ha : assignNgem 4 (some ngem) = .ok ngem := by
    rw [assignNgem, if_neg (by simp only [Option.getD_some]; omega)]; rfl
  rw [APr2G.init, show Geminal.checkNelec 4 = .ok () from rfl, show CI.checkNspin 6 = .ok () from rfl, ha, hp]
  simp only [bind, Except.bind]
  rw [show (⟨4, 6, ngem, [(0, 3), (1, 4), (2, 5)], (exampleR2 ngem).params⟩ : APr2G) = exampleR2 ngem from rfl,
    APr2G.checkParams, if_neg]
  rintro ⟨i, hi, j, hj, hij⟩
  rw [exampleR2_lambda hi, exampleR2_epsilon hj] at hij
  have h1 : (0 : ℝ) ≤ i := by positivity
  have h2 : (0 : ℝ) ≤ j := by positivity
  have h3 := le_abs_self ((i : ℝ) + 1 - -j)
  have h4 : (1e-9 : ℝ) < 1 := by norm_num
  linarith

/-- C38 fails for the lambdas of the geminals beyond the number of pairs: two pairs in three geminals.  The derivative with
respect to the last lambda is given as zero, and it is not. -/
theorem C38_extra_geminal : ∃ (w : APr2G) (d : ℝ), APr2G.init 4 6 (some 3) none w.params = .ok w ∧
    APr2G.Regular w [0, 1] ∧ w.permanentDeriv [0, 1] 2 = .ok 0 ∧ d ≠ 0 ∧
    HasDerivAt (fun x => perL (fun a b => (withParam w 2 x).zeta b / ((withParam w 2 x).lambda a - (withParam w 2 x).epsilon b))
      (List.range 3) [0, 1]) d (w.params 2) := by
  have hreg : APr2G.Regular (exampleR2 3) [0, 1] := APr2G.RegularAll.of _ (exampleR2_regular 3) (by
    intro c hc
    simp only [List.mem_cons, List.not_mem_nil, or_false] at hc
    show c < 3
    omega)
  have hlt : ∀ c ∈ [0, 1], c < (exampleR2 3).norbpair := by
    intro c hc
    simp only [List.mem_cons, List.not_mem_nil, or_false] at hc
    show c < 3
    omega
  refine ⟨exampleR2 3, _, exampleR2_init 3 (by norm_num), hreg, ?_, ?_, hasDerivAt_lambda _ hreg (by simp) hlt (r := 2) (by
    show 2 < 3; norm_num)⟩
  · rw [permanentDeriv_column (exampleR2 3) hreg (by simp) (Or.inr ⟨by show 2 ≤ 3; norm_num, by simp⟩)
      (by show 4 / 2 ≤ 2; norm_num) (by show 2 < 3 + 2 * 3; norm_num) (c := 2) (by decide +kernel), if_neg (by simp)]
  · have hm : ∀ c ∈ [0, 1], 0 < minorL (exampleR2 3).fullrank (List.range (exampleR2 3).ngem) [0, 1] 2 c := by
      intro c hc
      rw [minorL, if_pos ⟨List.mem_range.2 (by show 2 < 3; norm_num), hc⟩]
      apply perL_pos
      · rw [length_filter_ne (by simp) hc, length_filter_ne List.nodup_range (List.mem_range.2 (by show 2 < 3; norm_num))]
        simp [exampleR2]
      · intro a ha b hb
        have ha' : a < 3 := List.mem_range.1 (List.mem_of_mem_filter ha)
        have hb' : b < 3 := hlt b (List.mem_of_mem_filter hb)
        rw [APr2G.fullrank, exampleR2_zeta, exampleR2_lambda ha', exampleR2_epsilon hb']
        have h1 : (0 : ℝ) ≤ a := by positivity
        have h2 : (0 : ℝ) ≤ b := by positivity
        apply div_pos one_pos
        linarith
    have h0 := hm 0 (by simp)
    have h1 := hm 1 (by simp)
    simp only [List.map_cons, List.map_nil, List.sum_cons, List.sum_nil]
    rw [exampleR2_zeta, exampleR2_zeta, exampleR2_lambda (by show 2 < 3; norm_num), exampleR2_epsilon (by norm_num),
      exampleR2_epsilon (by norm_num)]
    apply ne_of_lt
    norm_num
    linarith

/-- The hypotheses of `C38_permanent_partial` are met: two pairs in two geminals, every parameter. -/
example (i : ℕ) (hi : i < 8) : ∃ d, (exampleR2 2).permanentDeriv [0, 2] i = .ok d := by
  have hlt : ∀ c ∈ [0, 2], c < (exampleR2 2).norbpair := by
    intro c hc
    simp only [List.mem_cons, List.not_mem_nil, or_false] at hc
    show c < 3
    omega
  obtain ⟨f, d, -, -, h, -⟩ := C38_permanent_partial (exampleR2 2) [0, 2] (by simp) hlt
    (APr2G.RegularAll.of _ (exampleR2_regular 2) hlt) (Or.inr ⟨le_refl 2, by simp⟩) (le_refl 2) i hi (by
      show i < 2 ∨ 2 ≤ i; omega)
  exact ⟨d, h⟩

/-- The hypotheses of `C38_overlap` and `C38_deriv_partial` are met: orbitals 0, 1, 3, 4. -/
example : ∃ v d, (exampleR2 2).overlap 27 = .ok v ∧ (exampleR2 2).overlapDeriv 27 [0, 3, 7] = .ok d := by
  have hreg := exampleR2_regular 2
  have hc : (occSet 27).card = 4 := by decide +kernel
  obtain ⟨v, hv, -⟩ := C38_overlap 4 6 (some 2) none _ _ (exampleR2_init 2 le_rfl) hreg.lam
    (fun a ha b hb => hreg.eps a (List.mem_range.2 ha) b (List.mem_range.2 hb)) 27 hc
  obtain ⟨f, d, hd, -⟩ := C38_deriv_partial 4 6 (some 2) none _ _ (exampleR2_init 2 le_rfl) rfl hreg.lam
    (fun a ha b hb => hreg.eps a (List.mem_range.2 ha) b (List.mem_range.2 hb)) 27 hc
  exact ⟨v, _, hv, hd [0, 3, 7] (by
    intro i hi
    simp only [List.mem_cons, List.not_mem_nil, or_false] at hi
    show i < 2 + 2 * 3
    omega)⟩

end Fanpy.Props
