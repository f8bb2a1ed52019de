import Mathlib.Data.Rat.Floor
import Mathlib.MeasureTheory.Measure.Lebesgue.Basic
import Mathlib.MeasureTheory.Constructions.BorelSpace.Order
import Mathlib.Tactic.NormNum
import Verif.Lemmas.Alias

/-!
# C76: the alias sampler draws from the given distribution

The statements are about the weights `pvec` that the caller passes and about the numbers that
`Alias.__call__` returns, not about the tables.
-/

namespace Fanpy.Props

open MeasureTheory Fanpy.Alias

theorem aliasIndex {n : Nat} (hn : 0 < n) (u : ℝ) (hu : u ∈ Set.Ico (0 : ℝ) 1) (i : Nat) :
    ⌊u * (n : ℝ)⌋.toNat = i ↔ u ∈ Set.Ico ((i : ℝ) / n) (((i : ℝ) + 1) / n) := by
  have hn' : (0 : ℝ) < n := by exact_mod_cast hn
  have h0 : 0 ≤ ⌊u * (n : ℝ)⌋ := Int.floor_nonneg.mpr (mul_nonneg hu.1 hn'.le)
  rw [Set.mem_Ico, div_le_iff₀ hn', lt_div_iff₀ hn']
  have : ⌊u * (n : ℝ)⌋.toNat = i ↔ ⌊u * (n : ℝ)⌋ = (i : ℤ) := by omega
  rw [this, Int.floor_eq_iff]
  simp

theorem aliasIndex_lt {K : Type} [Field K] [LinearOrder K] [IsStrictOrderedRing K] [FloorRing K]
    {n : Nat} (hn : 0 < n) (u : K) (hu : 0 ≤ u ∧ u < 1) : ⌊u * (n : K)⌋.toNat < n := by
  have hn' : (0 : K) < n := by exact_mod_cast hn
  have h1 : ⌊u * (n : K)⌋ < (n : ℤ) := by
    rw [Int.floor_lt]
    push_cast
    nlinarith [hu.2]
  omega

theorem aliasSlice (c : ℝ) (hc : 0 ≤ c ∧ c ≤ 1) (a b : Option Nat) (j : Nat) :
    volume {v : ℝ | v ∈ Set.Ico (0 : ℝ) 1 ∧ (if c < v then a else b) = some j}
      = ENNReal.ofReal ((if b = some j then c else 0) + (if a = some j then 1 - c else 0)) := by
  have hset : {v : ℝ | v ∈ Set.Ico (0 : ℝ) 1 ∧ (if c < v then a else b) = some j}
      = (if b = some j then Set.Icc 0 c ∩ Set.Ico 0 1 else ∅)
        ∪ (if a = some j then Set.Ioo c 1 else ∅) := by
    ext v
    rw [Set.mem_union]
    constructor
    · rintro ⟨hv, h⟩
      by_cases hcv : c < v
      · rw [if_pos hcv] at h
        right; rw [if_pos h]; exact ⟨hcv, hv.2⟩
      · rw [if_neg hcv] at h
        left; rw [if_pos h]; exact ⟨⟨hv.1, not_lt.mp hcv⟩, hv⟩
    · rintro (h | h)
      · by_cases hb : b = some j
        · rw [if_pos hb] at h
          exact ⟨h.2, by rw [if_neg (not_lt.mpr h.1.2)]; exact hb⟩
        · rw [if_neg hb] at h; exact absurd h (Set.notMem_empty _)
      · by_cases ha : a = some j
        · rw [if_pos ha] at h
          exact ⟨⟨hc.1.trans h.1.le, h.2⟩, by rw [if_pos h.1]; exact ha⟩
        · rw [if_neg ha] at h; exact absurd h (Set.notMem_empty _)
  rw [hset, measure_union]
  · rw [ENNReal.ofReal_add]
    · congr 1
      · split_ifs
        · apply le_antisymm
          · refine (measure_mono Set.inter_subset_left).trans ?_
            rw [Real.volume_Icc, sub_zero]
          · refine le_trans ?_ (measure_mono (s := Set.Ico 0 c) ?_)
            · rw [Real.volume_Ico, sub_zero]
            · intro v hv; exact ⟨⟨hv.1, hv.2.le⟩, hv.1, hv.2.trans_le hc.2⟩
        · simp
      · split_ifs
        · rw [Real.volume_Ioo]
        · simp
    · split_ifs; exacts [hc.1, le_rfl]
    · split_ifs
      · linarith [hc.2]
      · exact le_rfl
  · rw [Set.disjoint_left]
    intro v h1 h2
    split_ifs at h1 h2 <;> simp_all
    linarith
  · split_ifs
    · exact measurableSet_Ioo
    · exact MeasurableSet.empty

/-- **C76.**  For every vector of nonnegative weights that are not all zero, the pairs of random
numbers `(u, v)` in the unit square for which a draw returns the index `j` have the area
`pvec[j] / sum(pvec)`: uniform random numbers give the distribution of the weights exactly. -/
theorem C76_distribution (pvec : List ℝ) (hp : ∀ x ∈ pvec, 0 ≤ x) (hs : 0 < pvec.sum)
    (j : Nat) (hj : j < pvec.length) :
    volume {uv : ℝ × ℝ | uv.1 ∈ Set.Ico (0 : ℝ) 1 ∧ uv.2 ∈ Set.Ico (0 : ℝ) 1 ∧
      draw (init pvec) uv.1 uv.2 = some j} = ENNReal.ofReal (pvec.getD j 0 / pvec.sum) := by
  have hf := init_final pvec hp hs
  have hn : 0 < pvec.length := by omega
  have hn' : (0 : ℝ) < pvec.length := by exact_mod_cast hn
  have htn : (init pvec).n = pvec.length := rfl
  generalize hc : (init pvec).cvec = c at hf
  generalize hiv : (init pvec).ivec = iv at hf
  have hset : {uv : ℝ × ℝ | uv.1 ∈ Set.Ico (0 : ℝ) 1 ∧ uv.2 ∈ Set.Ico (0 : ℝ) 1 ∧
      draw (init pvec) uv.1 uv.2 = some j}
      = ⋃ i ∈ Finset.range pvec.length,
          Set.Ico ((i : ℝ) / pvec.length) (((i : ℝ) + 1) / pvec.length) ×ˢ
          {v : ℝ | v ∈ Set.Ico (0 : ℝ) 1 ∧ (if c i < v then iv i else some i) = some j} := by
    ext ⟨u, v⟩
    simp only [Set.mem_iUnion, Set.mem_prod, Finset.mem_range, exists_prop]
    constructor
    · rintro ⟨hu, hv, hd⟩
      refine ⟨⌊u * (pvec.length : ℝ)⌋.toNat, aliasIndex_lt hn u ⟨hu.1, hu.2⟩,
        (aliasIndex hn u hu _).mp rfl, hv, ?_⟩
      rw [draw, htn, hc, hiv] at hd
      exact hd
    · rintro ⟨i, hi, hui, hv, hd⟩
      have hi' : ((i : ℝ) + 1) ≤ pvec.length := by exact_mod_cast hi
      have hu : u ∈ Set.Ico (0 : ℝ) 1 :=
        ⟨le_trans (by positivity) hui.1, hui.2.trans_le ((div_le_one hn').mpr hi')⟩
      refine ⟨hu, hv, ?_⟩
      rw [draw, htn, hc, hiv]
      have := (aliasIndex hn u hu i).mpr hui
      simp only [this]
      exact hd
  rw [hset, measure_biUnion_finset]
  · have : ∀ i ∈ Finset.range pvec.length,
        volume (Set.Ico ((i : ℝ) / pvec.length) (((i : ℝ) + 1) / pvec.length) ×ˢ
          {v : ℝ | v ∈ Set.Ico (0 : ℝ) 1 ∧ (if c i < v then iv i else some i) = some j})
        = ENNReal.ofReal ((1 / pvec.length) *
          ((if some i = some j then c i else 0) + (if iv i = some j then 1 - c i else 0))) := by
      intro i hi
      rw [Measure.volume_eq_prod, Measure.prod_prod, aliasSlice _ (hf.unit i (Finset.mem_range.mp hi)),
        Real.volume_Ico, ENNReal.ofReal_mul (by positivity)]
      congr 2
      rw [← sub_div]; congr 1; ring
    rw [Finset.sum_congr rfl this, ← ENNReal.ofReal_sum_of_nonneg]
    · congr 1
      rw [← Finset.mul_sum, Finset.sum_add_distrib]
      have h1 : ∑ i ∈ Finset.range pvec.length, (if some i = some j then c i else 0) = c j := by
        simp only [Option.some.injEq]
        rw [Finset.sum_ite_eq']
        simp [hj]
      rw [h1, hf.mass j hj]
      field_simp
    · intro i hi
      have := hf.unit i (Finset.mem_range.mp hi)
      apply mul_nonneg (by positivity)
      apply add_nonneg
      · split_ifs; exacts [this.1, le_rfl]
      · split_ifs
        · linarith [this.2]
        · exact le_rfl
  · intro a _ b _ hab
    rw [Function.onFun, Set.disjoint_left]
    rintro ⟨u, v⟩ h1 h2
    apply hab
    have h1' := h1.1
    have h2' := h2.1
    simp only [Set.mem_Ico, div_le_iff₀ hn', lt_div_iff₀ hn'] at h1' h2'
    have e1 : (a : ℝ) < b + 1 := h1'.1.trans_lt h2'.2
    have e2 : (b : ℝ) < a + 1 := h2'.1.trans_lt h1'.2
    have e1' : a < b + 1 := by exact_mod_cast e1
    have e2' : b < a + 1 := by exact_mod_cast e2
    omega
  · intro i _
    refine measurableSet_Ico.prod ?_
    have : {v : ℝ | v ∈ Set.Ico (0 : ℝ) 1 ∧ (if c i < v then iv i else some i) = some j}
        = Set.Ico 0 1 ∩ ((Set.Ioi (c i) ∩ {_v | iv i = some j}) ∪
            (Set.Iic (c i) ∩ {_v | some i = some j})) := by
      ext v
      simp only [Set.mem_inter_iff, Set.mem_union, Set.mem_Ioi, Set.mem_Iic, Set.mem_ofPred_eq]
      by_cases h : c i < v
      · simp [h]
      · simp [h, not_lt.mp h]
    rw [this]
    exact measurableSet_Ico.inter ((measurableSet_Ioi.inter (MeasurableSet.const _)).union
      (measurableSet_Iic.inter (MeasurableSet.const _)))

section
variable {K : Type} [Field K] [LinearOrder K] [IsStrictOrderedRing K] [FloorRing K]

/-- **C76.**  A draw never reads an entry of the index table that was not written: every pair of
numbers in `[0, 1)` gives an index of the weight vector. -/
theorem C76_defined (pvec : List K) (hp : ∀ x ∈ pvec, 0 ≤ x) (hs : 0 < pvec.sum) (u v : K)
    (hu : 0 ≤ u ∧ u < 1) (hv : 0 ≤ v ∧ v < 1) :
    ∃ j < pvec.length, draw (init pvec) u v = some j := by
  have hf := init_final pvec hp hs
  have hn : 0 < pvec.length := by
    rcases pvec with _ | ⟨a, l⟩
    · simp at hs
    · simp
  have hi := aliasIndex_lt hn u hu
  rw [draw]
  change ∃ j < pvec.length, (if (init pvec).cvec ⌊u * (pvec.length : K)⌋.toNat < v then
    (init pvec).ivec ⌊u * (pvec.length : K)⌋.toNat else _) = some j
  split_ifs with h
  · cases hiv : (init pvec).ivec ⌊u * (pvec.length : K)⌋.toNat with
    | none =>
      rw [hf.written _ hi hiv] at h
      exact absurd hv.2 (not_lt.mpr h.le)
    | some g => exact ⟨g, hf.target _ hi g hiv, rfl⟩
  · exact ⟨_, hi, rfl⟩

/-- **C76.**  An index with weight zero is drawn only if the second random number is exactly
zero. -/
theorem C76_support_partial (pvec : List K) (hp : ∀ x ∈ pvec, 0 ≤ x) (hs : 0 < pvec.sum) (u v : K)
    (hu : 0 ≤ u ∧ u < 1) (hv : 0 < v ∧ v < 1) (j : Nat) (hd : draw (init pvec) u v = some j) :
    0 < pvec.getD j 0 := by
  have hf := init_final pvec hp hs
  have hn : 0 < pvec.length := by
    rcases pvec with _ | ⟨a, l⟩
    · simp at hs
    · simp
  have hi := aliasIndex_lt hn u hu
  obtain ⟨j', hj', hd'⟩ := C76_defined pvec hp hs u v hu ⟨hv.1.le, hv.2⟩
  obtain rfl : j' = j := by rw [hd] at hd'; exact (Option.some.inj hd').symm
  have hnn : ∀ i ∈ Finset.range pvec.length,
      0 ≤ (if (init pvec).ivec i = some j' then 1 - (init pvec).cvec i else 0) := by
    intro i hi
    have := hf.unit i (Finset.mem_range.mp hi)
    split_ifs
    · linarith [this.2]
    · exact le_rfl
  have hpos : 0 < pvec.getD j' 0 * ((pvec.length : K) / pvec.sum) := by
    rw [← hf.mass j' hj']
    rw [draw] at hd
    change (if (init pvec).cvec ⌊u * (pvec.length : K)⌋.toNat < v then
      (init pvec).ivec ⌊u * (pvec.length : K)⌋.toNat else _) = some j' at hd
    split_ifs at hd with h
    · have h1 := Finset.single_le_sum hnn (Finset.mem_range.mpr hi)
      rw [if_pos hd] at h1
      have := (hf.unit j' hj').1
      linarith [hv.2]
    · have hij := Option.some.inj hd
      change ⌊u * (pvec.length : K)⌋.toNat = j' at hij
      rw [hij] at h
      have := Finset.sum_nonneg hnn
      linarith [not_lt.mp h, hv.1]
  by_contra hle
  have : pvec.getD j' 0 * ((pvec.length : K) / pvec.sum) ≤ 0 :=
    mul_nonpos_of_nonpos_of_nonneg (not_lt.mp hle) (div_nonneg (Nat.cast_nonneg _) hs.le)
  linarith

omit [IsStrictOrderedRing K] in
/-- The draws of a stream of admissible random numbers: distinct, drawn, and in number `m`. -/
theorem call_spec (pvec : List K) (m : Nat) : ∀ (st : List (K × K)) (acc out : List Nat),
    call (init pvec) m st acc = some out → acc.Nodup → acc.length ≤ m →
    out.Pairwise (· ≤ ·) ∧ out.Nodup ∧ out.length = m ∧
      ∀ x ∈ out, x ∈ acc ∨ ∃ uv ∈ st, draw (init pvec) uv.1 uv.2 = some x := by
  have hfin : ∀ acc out : List Nat, ¬ acc.length < m → acc.mergeSort (· ≤ ·) = out → acc.Nodup →
      acc.length ≤ m → out.Pairwise (· ≤ ·) ∧ out.Nodup ∧ out.length = m ∧ ∀ x ∈ out, x ∈ acc := by
    intro acc out h1 h2 h3 h4
    subst h2
    refine ⟨?_, (List.mergeSort_perm acc _).symm.nodup h3, by rw [List.length_mergeSort]; omega, ?_⟩
    · have := List.pairwise_mergeSort (le := fun a b : Nat => decide (a ≤ b))
        (by intro a b c; simp only [decide_eq_true_eq]; omega)
        (by intro a b; simp only [Bool.or_eq_true, decide_eq_true_eq]; omega) acc
      exact this.imp (by simp)
    · intro x hx; exact (List.mergeSort_perm acc _).mem_iff.mp hx
  intro st
  induction st with
  | nil =>
    intro acc out h hnd hlen
    rw [call] at h
    split_ifs at h with hm
    obtain ⟨a, b, c, d⟩ := hfin acc out hm (Option.some.inj h) hnd hlen
    exact ⟨a, b, c, fun x hx => Or.inl (d x hx)⟩
  | cons uv st ih =>
    intro acc out h hnd hlen
    obtain ⟨u, v⟩ := uv
    rw [call] at h
    by_cases hm : acc.length < m
    · rw [if_pos hm] at h
      cases hd : draw (init pvec) u v with
      | none => rw [hd] at h; cases h
      | some y =>
        rw [hd] at h
        simp only at h
        by_cases hy : y ∈ acc
        · rw [if_pos hy] at h
          obtain ⟨a, b, c, d⟩ := ih acc out h hnd hlen
          refine ⟨a, b, c, fun x hx => (d x hx).imp_right ?_⟩
          rintro ⟨uv, h1, h2⟩; exact ⟨uv, List.mem_cons_of_mem _ h1, h2⟩
        · rw [if_neg hy] at h
          obtain ⟨a, b, c, d⟩ := ih (y :: acc) out h (List.nodup_cons.mpr ⟨hy, hnd⟩)
            (by simp only [List.length_cons]; omega)
          refine ⟨a, b, c, fun x hx => ?_⟩
          rcases d x hx with hx | ⟨uv, h1, h2⟩
          · rcases List.mem_cons.mp hx with rfl | hx
            · exact Or.inr ⟨(u, v), by simp, hd⟩
            · exact Or.inl hx
          · exact Or.inr ⟨uv, List.mem_cons_of_mem _ h1, h2⟩
    · rw [if_neg hm] at h
      obtain ⟨a, b, c, d⟩ := hfin acc out hm (Option.some.inj h) hnd hlen
      exact ⟨a, b, c, fun x hx => Or.inl (d x hx)⟩

/-- **C76.**  What `Alias.__call__(m)` returns: `m` distinct indices in increasing order, all
of them indices of the weight vector with a positive weight. -/
theorem C76_call_partial (pvec : List K) (hp : ∀ x ∈ pvec, 0 ≤ x) (hs : 0 < pvec.sum) (m : Nat)
    (st : List (K × K)) (hst : ∀ uv ∈ st, (0 ≤ uv.1 ∧ uv.1 < 1) ∧ (0 < uv.2 ∧ uv.2 < 1))
    (out : List Nat) (h : call (init pvec) m st [] = some out) :
    out.Pairwise (· < ·) ∧ out.length = m ∧ ∀ x ∈ out, x < pvec.length ∧ 0 < pvec.getD x 0 := by
  obtain ⟨a, b, c, d⟩ := call_spec pvec m st [] out h List.nodup_nil (by simp)
  refine ⟨?_, c, ?_⟩
  · exact (a.and b).imp (fun h => lt_of_le_of_ne h.1 h.2)
  · intro x hx
    rcases d x hx with h | ⟨uv, h1, h2⟩
    · simp at h
    · have hpos := C76_support_partial pvec hp hs uv.1 uv.2 (hst uv h1).1 (hst uv h1).2 x h2
      refine ⟨?_, hpos⟩
      by_contra hge
      rw [List.getD_eq_default _ _ (not_lt.mp hge)] at hpos
      exact lt_irrefl _ hpos

/-- **C76.**  Asking for more indices than there are positive weights never returns, whatever
the random numbers in `(0, 1)` are. -/
theorem C76_endless (pvec : List K) (hp : ∀ x ∈ pvec, 0 ≤ x) (hs : 0 < pvec.sum) (m : Nat)
    (hm : ((List.range pvec.length).filter (fun i => 0 < pvec.getD i 0)).length < m)
    (st : List (K × K)) (hst : ∀ uv ∈ st, (0 ≤ uv.1 ∧ uv.1 < 1) ∧ (0 < uv.2 ∧ uv.2 < 1)) :
    call (init pvec) m st [] = none := by
  cases h : call (init pvec) m st [] with
  | none => rfl
  | some out =>
    obtain ⟨a, b, c⟩ := C76_call_partial pvec hp hs m st hst out h
    have hnd : out.Nodup := a.imp (fun h => ne_of_lt h)
    have hsub : out ⊆ (List.range pvec.length).filter (fun i => 0 < pvec.getD i 0) := by
      intro x hx
      simp only [List.mem_filter, List.mem_range, decide_eq_true_eq]
      exact c x hx
    have := (hnd.subperm hsub).length_le
    omega

end

/-- **C76.**  Every index with a positive weight can be drawn, by random numbers in `(0, 1)`. -/
theorem C76_reach (pvec : List ℝ) (hp : ∀ x ∈ pvec, 0 ≤ x) (hs : 0 < pvec.sum) (j : Nat)
    (hj : j < pvec.length) (hpos : 0 < pvec.getD j 0) :
    ∃ u v : ℝ, (0 ≤ u ∧ u < 1) ∧ (0 < v ∧ v < 1) ∧ draw (init pvec) u v = some j := by
  by_contra hno
  push Not at hno
  have hsub : {uv : ℝ × ℝ | uv.1 ∈ Set.Ico (0 : ℝ) 1 ∧ uv.2 ∈ Set.Ico (0 : ℝ) 1 ∧
      draw (init pvec) uv.1 uv.2 = some j} ⊆ Set.univ ×ˢ {0} := by
    rintro ⟨u, v⟩ ⟨hu, hv, hd⟩
    refine ⟨Set.mem_univ _, ?_⟩
    by_contra hv0
    exact hno u v ⟨hu.1, hu.2⟩ ⟨lt_of_le_of_ne hv.1 (Ne.symm hv0), hv.2⟩ hd
  have h1 := C76_distribution pvec hp hs j hj
  have h2 : volume {uv : ℝ × ℝ | uv.1 ∈ Set.Ico (0 : ℝ) 1 ∧ uv.2 ∈ Set.Ico (0 : ℝ) 1 ∧
      draw (init pvec) uv.1 uv.2 = some j} = 0 := by
    refine measure_mono_null hsub ?_
    rw [Measure.volume_eq_prod, Measure.prod_prod]
    simp
  rw [h1, ENNReal.ofReal_eq_zero] at h2
  have : 0 < pvec.getD j 0 / pvec.sum := div_pos hpos hs
  linarith

theorem init_zero_one : (init ([0, 1] : List ℚ)).cvec 0 = 0 ∧ (init ([0, 1] : List ℚ)).cvec 1 = 1 ∧
    (init ([0, 1] : List ℚ)).ivec 0 = some 1 := by
  have h : init ([0, 1] : List ℚ) = ⟨2, Function.update (fun i => ([0, 1] : List ℚ).getD i 0 *
      ((2 : ℕ) / ([0, 1] : List ℚ).sum)) 1 1, Function.update (fun _ => none) 0 (some 1)⟩ := by
    simp [init, sortInto, List.range_succ]
    norm_num [populate]
  rw [h]
  norm_num [Function.update]

/-- **C76, disagreement.**  The comparison `rand() > cvec[i]` is strict, so that the random number
`0.0`, which `np.random.rand` can return, draws an index whose weight is zero. -/
theorem C76_zero_weight_drawn :
    draw (init ([0, 1] : List ℚ)) 0 0 = some 0 ∧ ([0, 1] : List ℚ).getD 0 0 = 0 := by
  refine ⟨?_, rfl⟩
  obtain ⟨h0, -, -⟩ := init_zero_one
  rw [draw]
  norm_num [h0]

/-- **C76, disagreement.**  Building the sampler from an array of floats overwrites that array:
a caller that passes the weights `[1.0, 3.0]` is left with `[0.5, 1.0]`.  An array of integers is
not changed. -/
theorem C76_overwrites :
    callerArray true ([1, 3] : List ℚ) = [1/2, 1] ∧ callerArray false ([1, 3] : List ℚ) = [1, 3] := by
  refine ⟨?_, rfl⟩
  have h : (init ([1, 3] : List ℚ)).cvec = Function.update (fun i => ([1, 3] : List ℚ).getD i 0 *
      ((2 : ℕ) / ([1, 3] : List ℚ).sum)) 1 1 := by
    simp [init, sortInto, List.range_succ]
    norm_num [populate]
  rw [callerArray, if_pos rfl, h]
  norm_num [List.range_succ, Function.update]

/-- The hypotheses of the C76 theorems hold for weights with a zero, a small and a large entry. -/
example : (∀ x ∈ ([0, 1, 5] : List ℚ), 0 ≤ x) ∧ 0 < ([0, 1, 5] : List ℚ).sum ∧
    ((List.range 3).filter (fun i => 0 < ([0, 1, 5] : List ℚ).getD i 0)).length = 2 := by
  refine ⟨by simp, by norm_num, by decide +kernel⟩

end Fanpy.Props
