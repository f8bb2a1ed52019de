import Verif.Model.EigPower
import Mathlib.Analysis.Matrix.Spectrum
import Mathlib.Data.List.Sort
import Mathlib.Data.List.GetD
import Mathlib.Tactic.Linarith
import Mathlib.Tactic.Ring

/-! # C99: powers of symmetric matrices -/

namespace Fanpy.Props
open Fanpy.EigPower Finset

/-- What is assumed of numpy: `np.linalg.eigh` gives an orthonormal basis of eigenvectors of the symmetric matrix with the
same lower triangle, and `np.argsort` gives the indices in increasing order. -/
structure Numpy.Sound (np : Numpy) : Prop where
  orth : ∀ n a i j, i < n → j < n → ∑ r ∈ range n, (np.eigh n a).2 r i * (np.eigh n a).2 r j = if i = j then 1 else 0
  decomp : ∀ n a r c, r < n → c ≤ r → a r c = ∑ i ∈ range n, (np.eigh n a).1 i * (np.eigh n a).2 r i * (np.eigh n a).2 c i
  perm : ∀ l, (np.argsort l).Perm (List.range l.length)
  sorted : ∀ l, ((np.argsort l).map fun i => l.getD i 0).Pairwise (· ≤ ·)

/-! ## Such functions exist -/

theorem exists_eigh (n : ℕ) (a : ℕ → ℕ → ℝ) : ∃ e : (ℕ → ℝ) × (ℕ → ℕ → ℝ),
    (∀ i j, i < n → j < n → ∑ r ∈ range n, e.2 r i * e.2 r j = if i = j then 1 else 0) ∧
    ∀ r c, r < n → c ≤ r → a r c = ∑ i ∈ range n, e.1 i * e.2 r i * e.2 c i := by
  let A : Matrix (Fin n) (Fin n) ℝ := fun r c => a (max r c) (min r c)
  have hA : A.IsHermitian := by
    ext r c
    show star (A c r) = A r c
    simp only [A, star_trivial, max_comm, min_comm]
  let U : Matrix (Fin n) (Fin n) ℝ := hA.eigenvectorUnitary
  have hU : star U * U = 1 := (Matrix.mem_unitaryGroup_iff').1 hA.eigenvectorUnitary.2
  have hs : A = U * Matrix.diagonal hA.eigenvalues * star U := by
    have := hA.spectral_theorem
    rw [Unitary.conjStarAlgAut_apply] at this
    simpa using this
  refine ⟨(fun i => if h : i < n then hA.eigenvalues ⟨i, h⟩ else 0,
    fun r i => if h : r < n ∧ i < n then U ⟨r, h.1⟩ ⟨i, h.2⟩ else 0), ?_, ?_⟩
  · intro i j hi hj
    have := congrFun (congrFun hU ⟨i, hi⟩) ⟨j, hj⟩
    rw [Matrix.mul_apply, Matrix.one_apply] at this
    rw [Finset.sum_range]
    simp only [Fin.is_lt, true_and, hi, hj, dif_pos]
    simpa [Matrix.star_apply, Fin.ext_iff] using this
  · intro r c hr hc
    have hc' : c < n := by omega
    have := congrFun (congrFun hs ⟨r, hr⟩) ⟨c, hc'⟩
    rw [Matrix.mul_apply] at this
    rw [Finset.sum_range]
    simp only [A, Fin.is_lt, hr, hc', true_and, and_true, dif_pos, Matrix.mul_diagonal] at this ⊢
    rw [show max r c = r by omega, show min r c = c by omega] at this
    rw [this]
    apply Finset.sum_congr rfl
    intro i _
    rw [Matrix.star_apply, star_trivial]
    ring

theorem exists_argsort (l : List ℝ) : ∃ p : List ℕ, p.Perm (List.range l.length) ∧ (p.map fun i => l.getD i 0).Pairwise (· ≤ ·) := by
  refine ⟨(List.range l.length).insertionSort fun i j => l.getD i 0 ≤ l.getD j 0, List.perm_insertionSort _ _, ?_⟩
  rw [List.pairwise_map]
  haveI : Std.Total fun i j : ℕ => l.getD i 0 ≤ l.getD j 0 := ⟨fun i j => le_total _ _⟩
  haveI : IsTrans ℕ fun i j : ℕ => l.getD i 0 ≤ l.getD j 0 := ⟨fun i j k => le_trans⟩
  exact List.pairwise_insertionSort _ _

/-- The hypothesis of the theorems below is met, before and after numpy 1.13. -/
theorem sound_exists (b : Bool) : ∃ np : Numpy, np.minus = b ∧ Numpy.Sound np := by
  choose e h1 h2 using exists_eigh
  choose p h3 h4 using exists_argsort
  exact ⟨⟨b, e, p⟩, rfl, ⟨h1, h2, h3, h4⟩⟩

/-! ## What `eigh` returns -/

/-- C99. Since numpy 1.13 neither function returns anything: `eigh` raises `TypeError` for every square matrix. -/
theorem C99_raises (np : Numpy) (h : np.minus = false) (matrix : Obj) (threshold k ts : ℝ) :
    (∀ n a, matrix = .array [n, n] a → EigPower.eigh np matrix threshold = .error (.py .typeError)) ∧
    (¬ (∃ n a, matrix = .array [n, n] a) → EigPower.eigh np matrix threshold = .error .orthogonalization) ∧
    ∃ e, powerSymmetric np matrix k threshold ts = .error e := by
  have h1 : ∀ n a, matrix = .array [n, n] a → EigPower.eigh np matrix threshold = .error (.py .typeError) := by
    rintro n a rfl
    simp [EigPower.eigh, checkSquare, countDiscarded, h, bind, Except.bind]
  have h2 : ¬ (∃ n a, matrix = .array [n, n] a) → checkSquare matrix = .error .orthogonalization := by
    intro hm
    rw [checkSquare.eq_def]
    split
    · rfl
    · next m n a =>
      rw [if_pos]
      rintro rfl
      exact hm ⟨_, _, rfl⟩
    · rfl
  refine ⟨h1, fun hm => by rw [EigPower.eigh, h2 hm]; rfl, ?_⟩
  by_cases hm : ∃ n a, matrix = .array [n, n] a
  · obtain ⟨n, a, e⟩ := hm
    rw [powerSymmetric, h1 n a e, e]
    simp only [checkSquare, ne_eq, not_true_eq_false, if_false, bind, Except.bind]
    cases checkSymm n a ts <;> exact ⟨_, rfl⟩
  · rw [powerSymmetric, h2 hm]
    exact ⟨_, rfl⟩

section
variable {np : Numpy} (hs : Numpy.Sound np) (hm : np.minus = true)
include hs hm

/-- the pairs are those of the eigenvalues that are kept, in some order -/
theorem eigh_perm (n : ℕ) (a : ℕ → ℕ → ℝ) (t : ℝ) : ∃ l, EigPower.eigh np (.array [n, n] a) t = .ok l ∧
    l.Perm ((keptIndices n (np.eigh n a).1 t).map fun i => ((np.eigh n a).1 i, fun r => (np.eigh n a).2 r i)) ∧
    (l.map Prod.fst).Pairwise (· ≥ ·) := by
  refine ⟨(np.argsort ((keptIndices n (np.eigh n a).1 t).map (np.eigh n a).1)).reverse.map fun s =>
    ((np.eigh n a).1 ((keptIndices n (np.eigh n a).1 t).getD s 0), fun r => (np.eigh n a).2 r ((keptIndices n (np.eigh n a).1 t).getD s 0)),
    by simp only [EigPower.eigh, checkSquare, countDiscarded, hm, bind, Except.bind, pure, Except.pure, ne_eq, not_true_eq_false,
      if_false, if_true], ?_, ?_⟩
  · set K := keptIndices n (np.eigh n a).1 t
    have hp := hs.perm (K.map (np.eigh n a).1)
    rw [List.length_map] at hp
    have h1 : ((np.argsort (K.map (np.eigh n a).1)).reverse.map fun s => K.getD s 0).Perm K := by
      refine (((List.reverse_perm _).trans hp).map _).trans ?_
      apply List.Perm.of_eq
      apply List.ext_getElem
      · simp
      · intro i h1 h2
        rw [List.getElem_map, List.getElem_range, List.getD_eq_getElem _ _ h2]
    have h2 := h1.map fun i => ((np.eigh n a).1 i, fun r => (np.eigh n a).2 r i)
    rw [List.map_map] at h2
    exact h2
  · rw [List.map_map, List.pairwise_map, List.pairwise_reverse]
    have h3 := hs.sorted ((keptIndices n (np.eigh n a).1 t).map (np.eigh n a).1)
    rw [List.pairwise_map] at h3
    refine h3.imp_of_mem ?_
    intro i j hi hj hij
    have hp := hs.perm ((keptIndices n (np.eigh n a).1 t).map (np.eigh n a).1)
    have hi' := List.mem_range.1 (hp.subset hi)
    have hj' := List.mem_range.1 (hp.subset hj)
    rw [List.getD_eq_getElem _ _ hi', List.getD_eq_getElem _ _ hj', List.getElem_map, List.getElem_map] at hij
    rw [List.length_map] at hi' hj'
    simp only [Function.comp, ge_iff_le]
    rw [List.getD_eq_getElem _ _ hi', List.getD_eq_getElem _ _ hj']
    exact hij

end

/-- the sum over the pairs -/
theorem sum_pairs {l : List (ℝ × (ℕ → ℝ))} {n : ℕ} {E : ℕ → ℝ} {V : ℕ → ℕ → ℝ} {t : ℝ}
    (h : l.Perm ((keptIndices n E t).map fun i => (E i, fun r => V r i))) (f : ℝ × (ℕ → ℝ) → ℝ) :
    (l.map f).sum = ∑ i ∈ range n with t < |E i|, f (E i, fun r => V r i) := by
  rw [(h.map f).sum_eq, List.map_map, keptIndices]
  rw [← List.sum_toFinset _ (List.nodup_range.filter _)]
  apply Finset.sum_congr
  · ext i; simp
  · intro i _; rfl

theorem rows_orth {n : ℕ} {V : ℕ → ℕ → ℝ}
    (h : ∀ i j, i < n → j < n → ∑ r ∈ range n, V r i * V r j = if i = j then 1 else 0) {r c : ℕ} (hr : r < n) (hc : c < n) :
    ∑ i ∈ range n, V r i * V c i = if r = c then 1 else 0 := by
  let U : Matrix (Fin n) (Fin n) ℝ := fun i j => V i j
  have h1 : U.transpose * U = 1 := by
    ext i j
    rw [Matrix.mul_apply, Matrix.one_apply]
    have := h i j i.2 j.2
    rw [Finset.sum_range] at this
    simp only [Matrix.transpose_apply, U, Fin.ext_iff]
    exact this
  have h2 := mul_eq_one_comm.1 h1
  have h3 := congrFun (congrFun h2 ⟨r, hr⟩) ⟨c, hc⟩
  rw [Matrix.mul_apply, Matrix.one_apply] at h3
  rw [Finset.sum_range]
  simp only [Matrix.transpose_apply, U, Fin.ext_iff] at h3
  exact h3

/-- C99. Before numpy 1.13: `eigh` of a square matrix gives the eigenvalues larger than the threshold, in decreasing order,
with orthonormal eigenvectors of the symmetric matrix that has the same lower triangle. -/
theorem C99_eigh_partial {np : Numpy} (hs : Numpy.Sound np) (hm : np.minus = true) (n : ℕ) (a : ℕ → ℕ → ℝ) (t : ℝ) :
    ∃ l, EigPower.eigh np (.array [n, n] a) t = .ok l ∧ (l.map Prod.fst).Pairwise (· ≥ ·) ∧
      (∀ p ∈ l, t < |p.1| ∧ ∑ r ∈ range n, p.2 r * p.2 r = 1 ∧
        ∀ r < n, ∑ c ∈ range n, a (max r c) (min r c) * p.2 c = p.1 * p.2 r) ∧
      l.Pairwise fun p q => ∑ r ∈ range n, p.2 r * q.2 r = 0 := by
  obtain ⟨l, h1, h2, h3⟩ := eigh_perm hs hm n a t
  refine ⟨l, h1, h3, ?_, ?_⟩
  · intro p hp
    obtain ⟨i, hi, rfl⟩ := List.mem_map.1 (h2.subset hp)
    obtain ⟨hi, ht⟩ := List.mem_filter.1 hi
    rw [List.mem_range] at hi
    refine ⟨by simpa using ht, ?_, fun r hr => ?_⟩
    · have := hs.orth n a i i hi hi
      simpa using this
    · simp only
      have hd : ∀ c ∈ range n, a (max r c) (min r c) * (np.eigh n a).2 c i =
          ∑ j ∈ range n, (np.eigh n a).1 j * (np.eigh n a).2 r j * ((np.eigh n a).2 c j * (np.eigh n a).2 c i) := by
        intro c hc
        rw [Finset.mem_range] at hc
        rw [hs.decomp n a (max r c) (min r c) (by omega) (by omega), Finset.sum_mul]
        apply Finset.sum_congr rfl
        intro j _
        rcases le_total r c with h | h
        · rw [max_eq_right h, min_eq_left h]; ring
        · rw [max_eq_left h, min_eq_right h]; ring
      rw [Finset.sum_congr rfl hd, Finset.sum_comm]
      simp only [← Finset.mul_sum]
      rw [Finset.sum_congr rfl (g := fun j => if j = i then (np.eigh n a).1 j * (np.eigh n a).2 r j else 0)]
      · rw [Finset.sum_ite_eq' (range n) i, if_pos (Finset.mem_range.2 hi)]
      · intro j hj
        rw [hs.orth n a j i (Finset.mem_range.1 hj) hi]
        simp
  · have hsymm : ∀ p q : ℝ × (ℕ → ℝ), ∑ r ∈ range n, p.2 r * q.2 r = 0 → ∑ r ∈ range n, q.2 r * p.2 r = 0 := by
      intro p q h
      rw [← h]
      exact Finset.sum_congr rfl fun _ _ => mul_comm _ _
    refine h2.symm.pairwise ?_ (@fun p q h => hsymm p q h)
    rw [List.pairwise_map]
    refine (List.nodup_range.filter _ : (keptIndices n (np.eigh n a).1 t).Nodup).imp_of_mem ?_
    intro i j hi hj hij
    have hi' := List.mem_range.1 (List.mem_of_mem_filter hi)
    have hj' := List.mem_range.1 (List.mem_of_mem_filter hj)
    rw [hs.orth n a i j hi' hj', if_neg hij]

/-! ## Powers -/

/-- C99. The errors of `power_symmetric`, before numpy 1.13. -/
theorem C99_power_errors {np : Numpy} (hs : Numpy.Sound np) (hm : np.minus = true) (k te ts : ℝ) :
    powerSymmetric np .other k te ts = .error .orthogonalization ∧
    (∀ shape a, ¬ (∃ n, shape = [n, n]) → powerSymmetric np (.array shape a) k te ts = .error .orthogonalization) ∧
    (∀ a, powerSymmetric np (.array [0, 0] a) k te ts = .error (.py .valueError)) ∧
    ∀ n a, n ≠ 0 →
      ((∃ r < n, ∃ c < n, ts < |a c r - a r c|) → powerSymmetric np (.array [n, n] a) k te ts = .error .orthogonalization) ∧
      ((∀ r < n, ∀ c < n, |a c r - a r c| ≤ ts) →
        ∃ l, EigPower.eigh np (.array [n, n] a) te = .ok l ∧
          ((∃ z : ℤ, k = z) ∨ (∀ p ∈ l, 0 ≤ p.1) → powerSymmetric np (.array [n, n] a) k te ts =
            .ok fun r c => (l.map fun p => p.2 r * p.1 ^ k * p.2 c).sum) ∧
          ((¬ ∃ z : ℤ, k = z) → (∃ p ∈ l, p.1 < 0) → powerSymmetric np (.array [n, n] a) k te ts = .error .orthogonalization)) := by
  refine ⟨rfl, ?_, ?_, ?_⟩
  · intro shape a h
    have : checkSquare (.array shape a) = .error .orthogonalization := by
      rw [checkSquare.eq_def]
      split
      · rfl
      · next m n a' h' =>
        injection h' with h1 h2
        subst h1
        rw [if_pos]
        rintro rfl
        exact h ⟨_, rfl⟩
      · rfl
    rw [powerSymmetric, this]
    rfl
  · intro a
    simp [powerSymmetric, checkSquare, checkSymm, bind, Except.bind]
  · intro n a hn
    constructor
    · intro h
      simp only [powerSymmetric, checkSquare, ne_eq, not_true_eq_false, if_false, bind, Except.bind]
      rw [checkSymm, if_neg hn, if_pos h]
    · intro h
      obtain ⟨l, h1, -⟩ := eigh_perm hs hm n a te
      refine ⟨l, h1, ?_, ?_⟩
      · intro hk
        simp only [powerSymmetric, checkSquare, ne_eq, not_true_eq_false, if_false, bind, Except.bind]
        rw [checkSymm, if_neg hn, if_neg (by push Not; exact h), h1]
        simp only
        rw [if_neg]
        · rfl
        · rintro ⟨h2, p, hp, h3⟩
          rcases hk with hk | hk
          · exact h2 hk
          · exact absurd (hk p hp) (by linarith)
      · intro hk hp
        simp only [powerSymmetric, checkSquare, ne_eq, not_true_eq_false, if_false, bind, Except.bind]
        rw [checkSymm, if_neg hn, if_neg (by push Not; exact h), h1]
        simp only
        rw [if_pos ⟨hk, hp⟩]

/-- when the power is defined, and its entries -/
theorem power_ok {np : Numpy} (hs : Numpy.Sound np) (hm : np.minus = true) {n : ℕ} {a : ℕ → ℕ → ℝ} {k te ts : ℝ} {X : ℕ → ℕ → ℝ} :
    powerSymmetric np (.array [n, n] a) k te ts = .ok X ↔
      n ≠ 0 ∧ (∀ r < n, ∀ c < n, |a c r - a r c| ≤ ts) ∧
      ((∃ z : ℤ, k = z) ∨ ∀ i < n, te < |(np.eigh n a).1 i| → 0 ≤ (np.eigh n a).1 i) ∧
      X = fun r c => ∑ i ∈ range n with te < |(np.eigh n a).1 i|, (np.eigh n a).2 r i * (np.eigh n a).1 i ^ k * (np.eigh n a).2 c i := by
  obtain ⟨-, -, h0, h⟩ := C99_power_errors hs hm k te ts
  by_cases hn : n = 0
  · subst hn
    rw [h0]
    simp
  obtain ⟨e1, e2⟩ := h n a hn
  by_cases hsy : ∀ r < n, ∀ c < n, |a c r - a r c| ≤ ts
  swap
  · have : ∃ r < n, ∃ c < n, ts < |a c r - a r c| := by push Not at hsy; exact hsy
    rw [e1 this]
    simp only [reduceCtorEq, false_iff]
    rintro ⟨-, h2, -⟩
    exact hsy h2
  obtain ⟨l, h1, h2, h3⟩ := e2 hsy
  obtain ⟨l', h1', h4, -⟩ := eigh_perm hs hm n a te
  obtain rfl : l = l' := by rw [h1] at h1'; injection h1'
  have hneg : (∀ p ∈ l, 0 ≤ p.1) ↔ ∀ i < n, te < |(np.eigh n a).1 i| → 0 ≤ (np.eigh n a).1 i := by
    constructor
    · intro h i hi ht
      exact h _ (h4.symm.subset (List.mem_map.2 ⟨i, List.mem_filter.2 ⟨List.mem_range.2 hi, by simpa using ht⟩, rfl⟩))
    · intro h p hp
      obtain ⟨i, hi, rfl⟩ := List.mem_map.1 (h4.subset hp)
      obtain ⟨hi, ht⟩ := List.mem_filter.1 hi
      exact h i (List.mem_range.1 hi) (by simpa using ht)
  have hX : (fun r c => (l.map fun p : ℝ × (ℕ → ℝ) => p.2 r * p.1 ^ k * p.2 c).sum) = fun r c =>
      ∑ i ∈ range n with te < |(np.eigh n a).1 i|, (np.eigh n a).2 r i * (np.eigh n a).1 i ^ k * (np.eigh n a).2 c i := by
    funext r c
    rw [sum_pairs h4]
  by_cases hc : (∃ z : ℤ, k = z) ∨ ∀ p ∈ l, 0 ≤ p.1
  · rw [h2 hc, hX, ← hneg]
    constructor
    · intro h
      injection h with h
      exact ⟨hn, hsy, hc, h.symm⟩
    · rintro ⟨-, -, -, rfl⟩
      rfl
  · rw [← hneg]
    rw [not_or] at hc
    rw [h3 hc.1 (by have := hc.2; push Not at this; exact this)]
    simp only [reduceCtorEq, false_iff]
    rintro ⟨-, -, h5, -⟩
    exact (not_or.2 hc) h5

/-- C99. The powers are symmetric, and the product of two powers is the power with the sum of the exponents. -/
theorem C99_power_add {np : Numpy} (hs : Numpy.Sound np) (hm : np.minus = true) (n : ℕ) (a : ℕ → ℕ → ℝ) (k l te ts : ℝ)
    (hte : 0 ≤ te) (X Y : ℕ → ℕ → ℝ) (hX : powerSymmetric np (.array [n, n] a) k te ts = .ok X)
    (hY : powerSymmetric np (.array [n, n] a) l te ts = .ok Y) :
    (∀ r c, X r c = X c r) ∧
    ∃ Z, powerSymmetric np (.array [n, n] a) (k + l) te ts = .ok Z ∧ ∀ r c, ∑ j ∈ range n, X r j * Y j c = Z r c := by
  rw [power_ok hs hm] at hX hY
  obtain ⟨hn, hsy, hk, rfl⟩ := hX
  obtain ⟨-, -, hl, rfl⟩ := hY
  set E := (np.eigh n a).1
  set V := (np.eigh n a).2
  set K := (range n).filter fun i => te < |E i|
  constructor
  · intro r c
    exact Finset.sum_congr rfl fun _ _ => by ring
  have hkl : (∃ z : ℤ, k + l = z) ∨ ∀ i < n, te < |E i| → 0 ≤ E i := by
    rcases hk with ⟨z, rfl⟩ | hk
    · rcases hl with ⟨z', rfl⟩ | hl
      · exact Or.inl ⟨z + z', by push_cast; rfl⟩
      · exact Or.inr hl
    · exact Or.inr hk
  refine ⟨_, (power_ok hs hm).2 ⟨hn, hsy, hkl, rfl⟩, fun r c => ?_⟩
  have hpow : ∀ i ∈ K, E i ^ k * E i ^ l = E i ^ (k + l) := by
    intro i hi
    obtain ⟨hi, ht⟩ := Finset.mem_filter.1 hi
    rw [Finset.mem_range] at hi
    have h0 : E i ≠ 0 := by
      intro h
      rw [h, abs_zero] at ht
      linarith
    rcases lt_or_gt_of_ne h0 with h | h
    · rcases hk with ⟨z, rfl⟩ | hk
      · rcases hl with ⟨z', rfl⟩ | hl
        · rw [← Int.cast_add, Real.rpow_intCast, Real.rpow_intCast, Real.rpow_intCast, zpow_add₀ h0]
        · exact absurd (hl i hi ht) (by linarith)
      · exact absurd (hk i hi ht) (by linarith)
    · rw [Real.rpow_add h]
  simp only [Finset.sum_mul_sum]
  rw [Finset.sum_comm]
  have inner : ∀ i ∈ K, ∑ j ∈ range n, ∑ i' ∈ K, V r i * E i ^ k * V j i * (V j i' * E i' ^ l * V c i') =
      V r i * E i ^ (k + l) * V c i := by
    intro i hi
    rw [Finset.sum_comm]
    have : ∀ i' ∈ K, ∑ j ∈ range n, V r i * E i ^ k * V j i * (V j i' * E i' ^ l * V c i') =
        if i' = i then V r i * E i ^ k * (E i' ^ l * V c i') else 0 := by
      intro i' hi'
      have ho := hs.orth n a i i' (Finset.mem_range.1 (Finset.mem_filter.1 hi).1) (Finset.mem_range.1 (Finset.mem_filter.1 hi').1)
      have e : ∀ j ∈ range n, V r i * E i ^ k * V j i * (V j i' * E i' ^ l * V c i') =
          V r i * E i ^ k * (E i' ^ l * V c i') * (V j i * V j i') := fun j _ => by ring
      rw [Finset.sum_congr rfl e, ← Finset.mul_sum, ho]
      by_cases h : i = i'
      · subst h; simp
      · rw [if_neg h, if_neg (Ne.symm h), mul_zero]
    rw [Finset.sum_congr rfl this, Finset.sum_ite_eq' K i, if_pos hi, ← hpow i hi]
    ring
  exact Finset.sum_congr rfl inner

/-- C99. The first power is the matrix, up to the two thresholds. -/
theorem C99_power_one {np : Numpy} (hs : Numpy.Sound np) (hm : np.minus = true) (n : ℕ) (a : ℕ → ℕ → ℝ) (te ts : ℝ) (hte : 0 ≤ te)
    (hn : n ≠ 0) (hsy : ∀ r < n, ∀ c < n, |a c r - a r c| ≤ ts) :
    ∃ X, powerSymmetric np (.array [n, n] a) 1 te ts = .ok X ∧ ∀ r < n, ∀ c < n, |X r c - a r c| ≤ te + ts := by
  refine ⟨_, (power_ok hs hm).2 ⟨hn, hsy, Or.inl ⟨1, by simp⟩, rfl⟩, fun r hr c hc => ?_⟩
  set E := (np.eigh n a).1 with hE
  set V := (np.eigh n a).2 with hV
  have hlow : a (max r c) (min r c) = ∑ i ∈ range n, V r i * E i * V c i := by
    rw [hs.decomp n a (max r c) (min r c) (by omega) (by omega)]
    apply Finset.sum_congr rfl
    intro j _
    rcases le_total r c with h | h
    · rw [max_eq_right h, min_eq_left h]; ring
    · rw [max_eq_left h, min_eq_right h]; ring
  have hclose : |a (max r c) (min r c) - a r c| ≤ ts := by
    rcases le_total r c with h | h
    · rw [max_eq_right h, min_eq_left h]; exact hsy r hr c hc
    · rw [max_eq_left h, min_eq_right h, sub_self, abs_zero]
      have := hsy r hr c hc
      exact (abs_nonneg _).trans this
  simp only [Real.rpow_one]
  have hsplit := Finset.sum_filter_add_sum_filter_not (range n) (fun i => te < |E i|) (fun i => V r i * E i * V c i)
  rw [← hlow] at hsplit
  have hrest : |∑ i ∈ range n with ¬ te < |E i|, V r i * E i * V c i| ≤ te := by
    refine (Finset.abs_sum_le_sum_abs _ _).trans ?_
    have hb : ∀ i ∈ (range n).filter (fun i => ¬ te < |E i|), |V r i * E i * V c i| ≤ te * ((V r i * V r i + V c i * V c i) / 2) := by
      intro i hi
      have ht := not_lt.1 (Finset.mem_filter.1 hi).2
      rw [abs_mul, abs_mul]
      have h1 : |V r i| * |V c i| ≤ (V r i * V r i + V c i * V c i) / 2 := by
        have := sq_nonneg (|V r i| - |V c i|)
        have e1 := abs_mul_abs_self (V r i)
        have e2 := abs_mul_abs_self (V c i)
        nlinarith
      have h2 : 0 ≤ |V r i| * |V c i| := by positivity
      calc |V r i| * |E i| * |V c i| = |E i| * (|V r i| * |V c i|) := by ring
        _ ≤ te * (|V r i| * |V c i|) := mul_le_mul_of_nonneg_right ht h2
        _ ≤ _ := mul_le_mul_of_nonneg_left h1 hte
    refine (Finset.sum_le_sum hb).trans ?_
    rw [← Finset.mul_sum]
    have hall : ∑ i ∈ range n with ¬ te < |E i|, (V r i * V r i + V c i * V c i) / 2 ≤ 1 := by
      calc _ ≤ ∑ i ∈ range n, (V r i * V r i + V c i * V c i) / 2 := by
            apply Finset.sum_le_sum_of_subset_of_nonneg (Finset.filter_subset _ _)
            intro i _ _
            have := mul_self_nonneg (V r i)
            have := mul_self_nonneg (V c i)
            linarith
        _ = 1 := by
            rw [← Finset.sum_div, Finset.sum_add_distrib, rows_orth (hs.orth n a) hr hr, rows_orth (hs.orth n a) hc hc]
            norm_num
    calc _ ≤ te * 1 := mul_le_mul_of_nonneg_left hall hte
      _ = te := mul_one te
  have e : (∑ i ∈ range n with te < |E i|, V r i * E i * V c i) - a r c =
      (a (max r c) (min r c) - a r c) - ∑ i ∈ range n with ¬ te < |E i|, V r i * E i * V c i := by linarith
  rw [e]
  refine (abs_sub _ _).trans ?_
  linarith

/-- C99. If no eigenvalue is discarded, the power zero is the identity. -/
theorem C99_power_zero {np : Numpy} (hs : Numpy.Sound np) (hm : np.minus = true) (n : ℕ) (a : ℕ → ℕ → ℝ) (te ts : ℝ)
    (hn : n ≠ 0) (hsy : ∀ r < n, ∀ c < n, |a c r - a r c| ≤ ts) (l : List (ℝ × (ℕ → ℝ)))
    (hl : EigPower.eigh np (.array [n, n] a) te = .ok l) (hlen : l.length = n) :
    ∃ X, powerSymmetric np (.array [n, n] a) 0 te ts = .ok X ∧ ∀ r < n, ∀ c < n, X r c = if r = c then 1 else 0 := by
  refine ⟨_, (power_ok hs hm).2 ⟨hn, hsy, Or.inl ⟨0, by simp⟩, rfl⟩, fun r hr c hc => ?_⟩
  obtain ⟨l', h1', h4, -⟩ := eigh_perm hs hm n a te
  obtain rfl : l = l' := by rw [hl] at h1'; injection h1'
  have hall : ∀ i ∈ range n, te < |(np.eigh n a).1 i| := by
    have h5 := h4.length_eq
    rw [hlen, List.length_map, keptIndices] at h5
    intro i hi
    have h6 : (List.range n).filter (fun i => decide (te < |(np.eigh n a).1 i|)) = List.range n :=
      List.filter_sublist.eq_of_length (by rw [← h5, List.length_range])
    have := List.filter_eq_self.1 h6 i (List.mem_range.2 (Finset.mem_range.1 hi))
    simpa using this
  rw [← rows_orth (hs.orth n a) hr hc]
  rw [Finset.filter_true_of_mem hall]
  simp

/-- C99. The symmetric orthogonalization: for a symmetric matrix with eigenvalues larger than the threshold, the power
`-1/2` gives `X * M * X = 1`. -/
theorem C99_inverse_sqrt_partial {np : Numpy} (hs : Numpy.Sound np) (hm : np.minus = true) (n : ℕ) (a : ℕ → ℕ → ℝ) (te ts : ℝ) (hte : 0 ≤ te)
    (hts : 0 ≤ ts) (hn : n ≠ 0) (hsy : ∀ r < n, ∀ c < n, a c r = a r c) (l : List (ℝ × (ℕ → ℝ)))
    (hl : EigPower.eigh np (.array [n, n] a) te = .ok l) (hlen : l.length = n) (hpos : ∀ p ∈ l, 0 < p.1) :
    ∃ X, powerSymmetric np (.array [n, n] a) (-1 / 2) te ts = .ok X ∧
      ∀ r < n, ∀ c < n, ∑ i ∈ range n, (∑ j ∈ range n, X r j * a j i) * X i c = if r = c then 1 else 0 := by
  have hsy' : ∀ r < n, ∀ c < n, |a c r - a r c| ≤ ts := fun r hr c hc => by rw [hsy r hr c hc, sub_self, abs_zero]; exact hts
  obtain ⟨l', h1', h4, -⟩ := eigh_perm hs hm n a te
  obtain rfl : l = l' := by rw [hl] at h1'; injection h1'
  have hnn : ∀ i < n, te < |(np.eigh n a).1 i| → 0 ≤ (np.eigh n a).1 i := fun i hi ht =>
    (hpos _ (h4.symm.subset (List.mem_map.2 ⟨i, List.mem_filter.2 ⟨List.mem_range.2 hi, by simpa using ht⟩, rfl⟩))).le
  obtain ⟨X, hX⟩ : ∃ X, powerSymmetric np (.array [n, n] a) (-1 / 2) te ts = .ok X :=
    ⟨_, (power_ok hs hm).2 ⟨hn, hsy', Or.inr hnn, rfl⟩⟩
  have hall : ∀ i ∈ range n, te < |(np.eigh n a).1 i| := by
    have h5 := h4.length_eq
    rw [hlen, List.length_map, keptIndices] at h5
    intro i hi
    have h6 : (List.range n).filter (fun i => decide (te < |(np.eigh n a).1 i|)) = List.range n :=
      List.filter_sublist.eq_of_length (by rw [← h5, List.length_range])
    have := List.filter_eq_self.1 h6 i (List.mem_range.2 (Finset.mem_range.1 hi))
    simpa using this
  have hone : ∃ M, powerSymmetric np (.array [n, n] a) 1 te ts = .ok M ∧ ∀ r < n, ∀ c < n, M r c = a r c := by
    refine ⟨_, (power_ok hs hm).2 ⟨hn, hsy', Or.inl ⟨1, by simp⟩, rfl⟩, fun r hr c hc => ?_⟩
    rw [Finset.filter_true_of_mem hall]
    simp only [Real.rpow_one]
    rcases le_total c r with h | h
    · rw [hs.decomp n a r c hr h]
      exact Finset.sum_congr rfl fun _ _ => by ring
    · rw [hsy c hc r hr, hs.decomp n a c r hc h]
      exact Finset.sum_congr rfl fun _ _ => by ring
  obtain ⟨M, hM, hMa⟩ := hone
  obtain ⟨-, Z, hZ, hXM⟩ := C99_power_add hs hm n a (-1 / 2) 1 te ts hte X M hX hM
  obtain ⟨-, W, hW, hZX⟩ := C99_power_add hs hm n a (-1 / 2 + 1) (-1 / 2) te ts hte Z X hZ hX
  obtain ⟨I, hI, hI'⟩ := C99_power_zero hs hm n a te ts hn hsy' l hl hlen
  rw [show (-1 / 2 + 1 + -1 / 2 : ℝ) = 0 by norm_num, hI] at hW
  injection hW with hW
  refine ⟨X, hX, fun r hr c hc => ?_⟩
  rw [← hI' r hr c hc, hW, ← hZX r c]
  apply Finset.sum_congr rfl
  intro i hi
  congr 1
  rw [← hXM r i]
  apply Finset.sum_congr rfl
  intro j hj
  rw [hMa j (Finset.mem_range.1 hj) i (Finset.mem_range.1 hi)]

/-- a case: the matrix with the entry 4 -/
example {np : Numpy} (hs : Numpy.Sound np) (hm : np.minus = true) :
    ∃ X, powerSymmetric np (.array [1, 1] fun _ _ => 4) 1 (1 / 2) 0 = .ok X ∧ |X 0 0 - 4| ≤ 1 / 2 + 0 := by
  obtain ⟨X, h1, h2⟩ := C99_power_one hs hm 1 (fun _ _ => 4) (1 / 2) 0 (by norm_num) (by norm_num) (by simp)
  exact ⟨X, h1, h2 0 (by norm_num) 0 (by norm_num)⟩

/-- a case of the hypotheses of `C99_inverse_sqrt_partial` -/
example {np : Numpy} (hs : Numpy.Sound np) (hm : np.minus = true) :
    ∃ l, EigPower.eigh np (.array [1, 1] fun _ _ => 4) (1 / 2) = .ok l ∧ l.length = 1 ∧ ∀ p ∈ l, 0 < p.1 := by
  obtain ⟨l, h1, h2, -⟩ := eigh_perm hs hm 1 (fun _ _ => 4) (1 / 2)
  have ho := hs.orth 1 (fun _ _ => 4) 0 0 (by norm_num) (by norm_num)
  have hd := hs.decomp 1 (fun _ _ => 4) 0 0 (by norm_num) le_rfl
  rw [Finset.sum_range_one] at ho hd
  rw [if_pos rfl] at ho
  have hE : (np.eigh 1 fun _ _ => 4).1 0 = 4 := by rw [mul_assoc, ho, mul_one] at hd; exact hd.symm
  have hk : keptIndices 1 (np.eigh 1 fun _ _ => 4).1 (1 / 2) = [0] := by
    rw [keptIndices, List.range_one, List.filter_cons_of_pos (by rw [hE]; norm_num), List.filter_nil]
  rw [hk] at h2
  refine ⟨l, h1, by rw [h2.length_eq]; rfl, fun p hp => ?_⟩
  have := h2.subset hp
  simp only [List.map_cons, List.map_nil, List.mem_singleton] at this
  rw [this, hE]
  norm_num

end Fanpy.Props
