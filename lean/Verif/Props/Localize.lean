import Verif.Lemmas.Localize
import Mathlib.Tactic.FinCases
import Mathlib.Data.List.Sort

/-! # Property C111: localization of orbitals -/

namespace Fanpy.Props
open Fanpy.Localize Fanpy.Spec Matrix

namespace Localize

theorem perm_systems {α : Type} {ns : ℕ} (r : List (Fin ns × α)) :
    ((List.finRange ns).flatMap fun q => r.filter fun e => e.1 = q).Perm r := by
  classical
  rw [List.perm_iff_count]
  intro a
  rw [List.count_flatMap]
  have : ((List.count a) ∘ fun q => r.filter fun e => decide (e.1 = q)) = fun q => if a.1 = q then r.count a else 0 := by
    funext q
    simp only [Function.comp]
    split
    · rename_i h
      exact List.count_filter (by simpa using h)
    · rename_i h
      refine List.count_eq_zero.2 ?_
      intro hm
      exact h (by simpa using (List.mem_filter.1 hm).2)
  rw [this, ← List.ofFn_eq_map, List.sum_ofFn]
  simp

theorem block_some {svd : Svd} {n ns : ℕ} {m : Fin ns → ℕ} {s : (q : Fin ns) → Matrix (Fin n) (Fin (m q)) ℝ}
    {r : List (Fin ns × (Fin n → ℝ))} (h : localizeBlock svd s = .ok r) :
    ∃ g, loop svd n (1 : Matrix (Fin n) (Fin n) ℝ) (fun q => (1 : Matrix (Fin n) (Fin n) ℝ) * s q) = .ok g ∧ g ≠ [] ∧
      r = (List.finRange ns).flatMap fun q => g.filter fun e => e.1 = q := by
  unfold localizeBlock at h
  simp only [Matrix.one_mul]
  split at h
  · cases h
  · cases h
  · rename_i g hne hg
    exact ⟨g, hg, fun h => hne h, (Except.ok.inj h).symm⟩

theorem columns_orth {n ns : ℕ} (r : List (Fin ns × (Fin n → ℝ))) (hl : r.length = n) (h1 : ∀ e ∈ r, e.2 ⬝ᵥ e.2 = 1)
    (h2 : r.Pairwise (fun a b => a.2 ⬝ᵥ b.2 = 0)) : (columns r)ᵀ * columns r = 1 := by
  have hcol : ∀ (a : Fin n) (i : Fin n), columns r i a = (r[(a : ℕ)]'(by rw [hl]; exact a.2)).2 i := by
    intro a i
    simp only [columns, List.getElem?_eq_getElem (show (a : ℕ) < r.length by rw [hl]; exact a.2)]
  ext a b
  have : ((columns r)ᵀ * columns r) a b = (r[(a : ℕ)]'(by rw [hl]; exact a.2)).2 ⬝ᵥ (r[(b : ℕ)]'(by rw [hl]; exact b.2)).2 := by
    rw [Matrix.mul_apply]
    simp only [Matrix.transpose_apply, hcol, dotProduct]
  rw [this, Matrix.one_apply]
  split
  · rename_i hab
    subst hab
    exact h1 _ (List.getElem_mem _)
  · rename_i hab
    rw [List.pairwise_iff_getElem] at h2
    rcases Nat.lt_or_gt_of_ne (fun h => hab (Fin.ext h)) with h | h
    · exact h2 _ _ _ _ h
    · rw [dotProduct_comm]; exact h2 _ _ _ _ h

end Localize
open Localize

/-- **The orbitals of one block (method `svd`).**  There are as many localized orbitals as orbitals; the columns are orthonormal; they are
sorted by systems; and they are, up to this sorting, found one by one in the following order: among all unit vectors orthogonal to the
ones found before and among all systems, the new one has the largest overlap with the functions of a system, namely its own. -/
theorem C111_block {svd : Svd} (hs : IsSvd svd) {n ns : ℕ} {m : Fin ns → ℕ} (s : (q : Fin ns) → Matrix (Fin n) (Fin (m q)) ℝ)
    (r : List (Fin ns × (Fin n → ℝ))) (h : localizeBlock svd s = .ok r) :
    r.length = n ∧ 0 < n ∧ (columns r)ᵀ * columns r = 1 ∧ (r.map Prod.fst).Pairwise (· ≤ ·) ∧
    ∃ g : List (Fin ns × (Fin n → ℝ)), r.Perm g ∧ (∀ q, r.filter (fun e => e.1 = q) = g.filter (fun e => e.1 = q)) ∧
      ∀ (t : ℕ) (e : Fin ns × (Fin n → ℝ)), g[t]? = some e → 0 < (e.2 ᵥ* s e.1) ⬝ᵥ (e.2 ᵥ* s e.1) ∧
        ∀ x : Fin n → ℝ, x ⬝ᵥ x = 1 → (∀ t' < t, ∀ e' : Fin ns × (Fin n → ℝ), g[t']? = some e' → e'.2 ⬝ᵥ x = 0) →
          ∀ q, (x ᵥ* s q) ⬝ᵥ (x ᵥ* s q) ≤ (e.2 ᵥ* s e.1) ⬝ᵥ (e.2 ᵥ* s e.1) := by
  obtain ⟨g, hg, hne, rfl⟩ := block_some h
  obtain ⟨h1, _, h3, h4, h5⟩ := loop_spec hs s n 1 (by simp) g hg
  have hp := perm_systems g
  refine ⟨by rw [hp.length_eq, h1], ?_, ?_, ?_, g, hp, ?_, ?_⟩
  · rcases Nat.eq_zero_or_pos n with h0 | h0
    · exact absurd (List.length_eq_zero_iff.1 (h1.trans h0)) hne
    · exact h0
  · refine columns_orth _ (by rw [hp.length_eq, h1]) (fun e he => h3 e (hp.mem_iff.1 he)) ?_
    refine (hp.pairwise_iff ?_).2 h4
    intro a b hab
    rw [dotProduct_comm]; exact hab
  · rw [List.map_flatMap, List.pairwise_flatMap]
    refine ⟨?_, ?_⟩
    · intro q _
      rw [List.pairwise_map]
      refine List.pairwise_of_forall_mem_list ?_
      intro a ha b hb
      have ha' : a.1 = q := by simpa using (List.mem_filter.1 ha).2
      have hb' : b.1 = q := by simpa using (List.mem_filter.1 hb).2
      rw [ha', hb']
    · refine List.Pairwise.imp ?_ (List.pairwise_lt_finRange ns)
      intro q q' hlt a ha b hb
      obtain ⟨x, hx, rfl⟩ := List.mem_map.1 ha
      obtain ⟨y, hy, rfl⟩ := List.mem_map.1 hb
      have hx' : x.1 = q := by simpa using (List.mem_filter.1 hx).2
      have hy' : y.1 = q' := by simpa using (List.mem_filter.1 hy).2
      rw [hx', hy']
      exact hlt.le
  · intro q
    rw [List.filter_flatMap]
    have : (fun q' => List.filter (fun e : Fin ns × (Fin n → ℝ) => decide (e.1 = q)) (g.filter fun e => decide (e.1 = q'))) =
        fun q' => if q' = q then g.filter (fun e => decide (e.1 = q)) else [] := by
      funext q'
      rw [List.filter_filter]
      split
      · rename_i hq; subst hq; simp
      · rename_i hq
        rw [List.filter_eq_nil_iff]
        intro a _ ha
        simp only [Bool.and_eq_true, decide_eq_true_eq] at ha
        exact hq (ha.2.symm.trans ha.1)
    rw [this]
    have key : ∀ l : List (Fin ns), l.Nodup → l.flatMap (fun q' => if q' = q then g.filter (fun e => decide (e.1 = q)) else []) =
        if q ∈ l then g.filter (fun e => decide (e.1 = q)) else [] := by
      intro l
      induction l with
      | nil => simp
      | cons a l ih =>
        intro hnd
        rw [List.nodup_cons] at hnd
        rw [List.flatMap_cons, ih hnd.2]
        by_cases ha : a = q
        · subst ha
          simp [hnd.1]
        · simp [ha, Ne.symm ha, eq_comm]
    rw [key _ (List.nodup_finRange ns), if_pos (List.mem_finRange q)]
  · intro t e he
    obtain ⟨h6, h7⟩ := h5 t e he
    refine ⟨h6, ?_⟩
    intro x hx hperp q
    have := h7 x (by simpa using hx) (by simpa using hperp) q
    simpa using this

/-- **Success.**  There is no error if no combination of the orbitals is orthogonal to all functions of a system. -/
theorem C111_succeeds {svd : Svd} (hs : IsSvd svd) {n ns : ℕ} {m : Fin ns → ℕ} (s : (q : Fin ns) → Matrix (Fin n) (Fin (m q)) ℝ)
    (hn : 0 < n) (hns : 0 < ns) (hx : ∀ q w, w ᵥ* s q = 0 → w = 0) : ∃ r, localizeBlock svd s = .ok r := by
  obtain ⟨g, hg⟩ := loop_ok hs hns n (1 : Matrix (Fin n) (Fin n) ℝ) s hx
  unfold localizeBlock
  rw [hg]
  rcases g with _ | ⟨a, g⟩
  · exfalso
    have hg' : loop svd n (1 : Matrix (Fin n) (Fin n) ℝ) (fun q => (1 : Matrix (Fin n) (Fin n) ℝ) * s q) = .ok [] := by
      simp only [Matrix.one_mul]; exact hg
    have := (loop_spec hs s n 1 (by simp) [] hg').1
    simp at this
    omega
  · exact ⟨_, rfl⟩

/-- **No orbitals.**  A block without orbitals (for example a molecule without virtual orbitals) raises. -/
theorem C111_empty (svd : Svd) {ns : ℕ} {m : Fin ns → ℕ} (s : (q : Fin ns) → Matrix (Fin 0) (Fin (m q)) ℝ) :
    localizeBlock svd s = .error .valueError := rfl

/-- **Disagreement: systems with few functions.**  In exact arithmetic, a block of at least two orbitals with more orbitals than every
system has functions always raises: after one orbital is found, a singular value of its system is zero and the assertion fails. -/
theorem C111_exhausted {svd : Svd} (hs : IsSvd svd) {n ns : ℕ} {m : Fin ns → ℕ} (s : (q : Fin ns) → Matrix (Fin n) (Fin (m q)) ℝ)
    (hn : 2 ≤ n) (hm : ∀ q, m q < n) : ∃ e, localizeBlock svd s = .error e := by
  rcases h : localizeBlock svd s with e | r
  · exact ⟨e, rfl⟩
  · exfalso
    obtain ⟨g, hg, _, _⟩ := block_some h
    obtain ⟨k, rfl⟩ : ∃ k, n = k + 2 := ⟨n - 2, by omega⟩
    obtain ⟨q, hq⟩ := loop_functions hs hg
    have := hm q
    omega

/-- **The transformation (method `svd`).**  It is orthogonal and does not mix occupied and virtual orbitals; every orbital has a system;
and `nelecs` has the number of occupied orbitals of each system, so that the sum is the number of occupied orbitals. -/
theorem C111_svd {svd : Svd} (hs : IsSvd svd) {o v ns : ℕ} {m : Fin ns → ℕ} (so : (q : Fin ns) → Matrix (Fin o) (Fin (m q)) ℝ)
    (sv : (q : Fin ns) → Matrix (Fin v) (Fin (m q)) ℝ) (t : Matrix (Fin o ⊕ Fin v) (Fin o ⊕ Fin v) ℝ) (inds ne : List ℕ)
    (h : svdMethod svd so sv = .ok (t, inds, ne)) :
    tᵀ * t = 1 ∧ t * tᵀ = 1 ∧ (∀ i j, t (.inl i) (.inr j) = 0 ∧ t (.inr j) (.inl i) = 0) ∧ inds.length = o + v ∧ (∀ q ∈ inds, q < ns) ∧
      ne.length = ns ∧ (∀ q, q < ns → ne.getD q 0 = (inds.take o).count q) ∧ ne.sum = o := by
  unfold svdMethod at h
  rcases hro : localizeBlock svd so with e | ro
  · rw [hro] at h; cases h
  · rcases hrv : localizeBlock svd sv with e | rv
    · rw [hro, hrv] at h; cases h
    · rw [hro, hrv] at h
      have h := Except.ok.inj h
      simp only [Prod.mk.injEq] at h
      obtain ⟨rfl, rfl, rfl⟩ := h
      obtain ⟨h1, _, h2, _⟩ := C111_block hs so ro hro
      obtain ⟨h3, _, h4, _⟩ := C111_block hs sv rv hrv
      have horth : (fromBlocks (columns ro) 0 0 (columns rv))ᵀ * fromBlocks (columns ro) 0 0 (columns rv) = 1 := by
        rw [Matrix.fromBlocks_transpose, Matrix.fromBlocks_multiply, h2, h4]
        simp
      refine ⟨horth, mul_eq_one_comm.1 horth, ?_, by simp [h1, h3], ?_, by simp [nelecs], ?_, ?_⟩
      · intro i j; exact ⟨rfl, rfl⟩
      · intro q hq
        rcases List.mem_append.1 hq with hq | hq <;>
        · obtain ⟨e, _, rfl⟩ := List.mem_map.1 hq
          exact e.1.2
      · intro q hq
        have htake : (ro.map (fun e => (e.1 : ℕ)) ++ rv.map (fun e => (e.1 : ℕ))).take o = ro.map (fun e => (e.1 : ℕ)) := by
          rw [List.take_append_of_le_length (by simp [h1]), List.take_of_length_le (by simp [h1])]
        rw [htake]
        simp [nelecs, List.getD_eq_getElem?_getD, hq]
      · have key : ∀ l : List ℕ, (∀ x ∈ l, x < ns) → (nelecs ns l).sum = l.length := by
          intro l hl
          have : ((Finset.range ns).sum fun i => l.count i) = l.length := by
            have hsub : l.toFinset ⊆ Finset.range ns := by
              intro x hx
              exact Finset.mem_range.2 (hl x (List.mem_toFinset.1 hx))
            rw [← Finset.sum_subset hsub]
            · exact List.sum_toFinset_count_eq_length l
            · intro x _ hx
              exact List.count_eq_zero.2 (fun h => hx (List.mem_toFinset.2 h))
          rw [← this, nelecs, Finset.sum_range, ← List.sum_ofFn, List.ofFn_eq_map]
          rw [← List.map_coe_finRange_eq_range, List.map_map]
          rfl
        rw [key _ ?_, List.length_map, h1]
        intro x hx
        obtain ⟨e, _, rfl⟩ := List.mem_map.1 hx
        exact e.1.2

/-- **Error or result.**  The method `svd` has a result exactly if both blocks have one. -/
theorem C111_svd_iff {svd : Svd} {o v ns : ℕ} {m : Fin ns → ℕ} (so : (q : Fin ns) → Matrix (Fin o) (Fin (m q)) ℝ)
    (sv : (q : Fin ns) → Matrix (Fin v) (Fin (m q)) ℝ) :
    (∃ x, svdMethod svd so sv = .ok x) ↔ (∃ r, localizeBlock svd so = .ok r) ∧ ∃ r, localizeBlock svd sv = .ok r := by
  unfold svdMethod
  rcases hro : localizeBlock svd so with e | ro
  · simp
  · rcases hrv : localizeBlock svd sv with e | rv
    · simp
    · simp

/-- **The transformed integrals.**  Every index is transformed with the same matrix. -/
theorem C111_rotation {ι : Type} [Fintype ι] (t : Matrix ι ι ℝ) (one : Matrix ι ι ℝ) (two : ι → ι → ι → ι → ℝ) (a b c d : ι) :
    rotateOne t one a b = ∑ i, ∑ j, t i a * t j b * one i j ∧
    rotateTwo t two a b c d = ∑ i, ∑ j, ∑ k, ∑ l, t i a * t j b * t k c * t l d * two i j k l := by
  constructor
  · simp only [rotateOne, Matrix.mul_apply, Matrix.transpose_apply, Finset.sum_mul]
    rw [Finset.sum_comm]
    refine Finset.sum_congr rfl fun i _ => Finset.sum_congr rfl fun j _ => ?_
    ring
  · simp only [rotateTwo, Finset.sum_mul]
    have h1 : ∀ f : ι → ι → ι → ι → ℝ, (∑ l, ∑ k, ∑ j, ∑ i, f i j k l) = ∑ i, ∑ j, ∑ k, ∑ l, f i j k l := by
      intro f
      calc (∑ l, ∑ k, ∑ j, ∑ i, f i j k l) = ∑ l, ∑ k, ∑ i, ∑ j, f i j k l :=
            Finset.sum_congr rfl fun l _ => Finset.sum_congr rfl fun k _ => Finset.sum_comm
        _ = ∑ l, ∑ i, ∑ k, ∑ j, f i j k l := Finset.sum_congr rfl fun l _ => Finset.sum_comm
        _ = ∑ i, ∑ l, ∑ k, ∑ j, f i j k l := Finset.sum_comm
        _ = ∑ i, ∑ j, ∑ k, ∑ l, f i j k l := by
            refine Finset.sum_congr rfl fun i _ => ?_
            calc (∑ l, ∑ k, ∑ j, f i j k l) = ∑ l, ∑ j, ∑ k, f i j k l := Finset.sum_congr rfl fun l _ => Finset.sum_comm
              _ = ∑ j, ∑ l, ∑ k, f i j k l := Finset.sum_comm
              _ = _ := Finset.sum_congr rfl fun j _ => Finset.sum_comm
    rw [h1 fun i j k l => two i j k l * t i a * t j b * t k c * t l d]
    refine Finset.sum_congr rfl fun i _ => Finset.sum_congr rfl fun j _ => Finset.sum_congr rfl fun k _ =>
      Finset.sum_congr rfl fun l _ => ?_
    ring

/-- **Disagreement: notation of the result.**  The array is in chemists' notation, `result[i, k, j, l]` being the transformed integral
`⟨ij|kl⟩`, with or without localization; the documentation says physicists' notation. -/
theorem C111_notation {ι : Type} [Fintype ι] (t : Matrix ι ι ℝ) (two : ι → ι → ι → ι → ℝ) (i j k l : ι) :
    toChemist two i k j l = two i j k l ∧ rotateTwo t (toChemist two) i k j l = rotateTwo t two i j k l := by
  refine ⟨rfl, ?_⟩
  rw [(C111_rotation t t _ i k j l).2, (C111_rotation t t _ i j k l).2]
  refine Finset.sum_congr rfl fun a _ => ?_
  rw [Finset.sum_comm]
  refine Finset.sum_congr rfl fun b _ => Finset.sum_congr rfl fun c _ => Finset.sum_congr rfl fun d _ => ?_
  simp only [toChemist]
  ring

/-- **The Hartree-Fock energy.**  The closed-shell energy of the occupied orbitals does not change under the transformation. -/
theorem C111_energy_partial {o v : ℕ} (t one : Matrix (Fin o ⊕ Fin v) (Fin o ⊕ Fin v) ℝ)
    (two : Fin o ⊕ Fin v → Fin o ⊕ Fin v → Fin o ⊕ Fin v → Fin o ⊕ Fin v → ℝ) (horth : tᵀ * t = 1)
    (hb : ∀ i j, t (.inl i) (.inr j) = 0 ∧ t (.inr j) (.inl i) = 0) :
    2 * ∑ i : Fin o, rotateOne t one (.inl i) (.inl i) + ∑ i : Fin o, ∑ j : Fin o,
      (2 * rotateTwo t two (.inl i) (.inl j) (.inl i) (.inl j) - rotateTwo t two (.inl i) (.inl j) (.inl j) (.inl i)) =
    2 * ∑ i : Fin o, one (.inl i) (.inl i) + ∑ i : Fin o, ∑ j : Fin o,
      (2 * two (.inl i) (.inl j) (.inl i) (.inl j) - two (.inl i) (.inl j) (.inl j) (.inl i)) := by
  have horth' : t * tᵀ = 1 := mul_eq_one_comm.1 horth
  set A : Fin o → Fin o → ℝ := fun i a => t (.inl i) (.inl a) with hA
  have hAA : ∀ i j, ∑ a, A i a * A j a = if i = j then 1 else 0 := by
    intro i j
    have h := congrFun (congrFun horth' (.inl i)) (.inl j)
    rw [Matrix.mul_apply, Fintype.sum_sum_type] at h
    simp only [Matrix.transpose_apply, (hb _ _).1, mul_zero, Finset.sum_const_zero, add_zero, Matrix.one_apply,
      Sum.inl.injEq] at h
    exact h
  have h1 : ∀ a b : Fin o, rotateOne t one (.inl a) (.inl b) = ∑ i, ∑ j, A i a * A j b * one (.inl i) (.inl j) := by
    intro a b
    rw [(C111_rotation t one two (.inl a) (.inl b) (.inl a) (.inl b)).1]
    simp only [Fintype.sum_sum_type, (hb _ _).2, mul_zero, zero_mul, Finset.sum_const_zero, add_zero, hA]
  have h2 : ∀ a b c d : Fin o, rotateTwo t two (.inl a) (.inl b) (.inl c) (.inl d) =
      ∑ i, ∑ j, ∑ k, ∑ l, A i a * A j b * A k c * A l d * two (.inl i) (.inl j) (.inl k) (.inl l) := by
    intro a b c d
    rw [(C111_rotation t one two _ _ _ _).2]
    simp only [Fintype.sum_sum_type, (hb _ _).2, mul_zero, zero_mul, Finset.sum_const_zero, add_zero, hA]
  have h3 : ∑ a : Fin o, rotateOne t one (.inl a) (.inl a) = ∑ i : Fin o, one (.inl i) (.inl i) := by
    simp only [h1]
    rw [Finset.sum_comm]
    refine Finset.sum_congr rfl fun i _ => ?_
    rw [Finset.sum_comm]
    simp only [← Finset.sum_mul, hAA]
    simp
  have h4 : ∑ a : Fin o, ∑ b : Fin o, rotateTwo t two (.inl a) (.inl b) (.inl a) (.inl b) =
      ∑ i : Fin o, ∑ j : Fin o, two (.inl i) (.inl j) (.inl i) (.inl j) := by
    simp only [h2]
    calc _ = ∑ i : Fin o, ∑ j : Fin o, ∑ k : Fin o, ∑ l : Fin o, (∑ a, A i a * A k a) * (∑ b, A j b * A l b) *
          two (.inl i) (.inl j) (.inl k) (.inl l) := by
          simp only [Finset.sum_mul]
          calc (∑ a, ∑ b, ∑ i, ∑ j, ∑ k, ∑ l, A i a * A j b * A k a * A l b * two (.inl i) (.inl j) (.inl k) (.inl l)) =
                ∑ a, ∑ i, ∑ j, ∑ k, ∑ l, ∑ b, A i a * A j b * A k a * A l b * two (.inl i) (.inl j) (.inl k) (.inl l) := by
                refine Finset.sum_congr rfl fun a _ => ?_
                rw [Finset.sum_comm]; refine Finset.sum_congr rfl fun i _ => ?_
                rw [Finset.sum_comm]; refine Finset.sum_congr rfl fun j _ => ?_
                rw [Finset.sum_comm]; refine Finset.sum_congr rfl fun k _ => ?_
                rw [Finset.sum_comm]
            _ = ∑ i, ∑ j, ∑ k, ∑ l, ∑ a, ∑ b, A i a * A j b * A k a * A l b * two (.inl i) (.inl j) (.inl k) (.inl l) := by
                rw [Finset.sum_comm]; refine Finset.sum_congr rfl fun i _ => ?_
                rw [Finset.sum_comm]; refine Finset.sum_congr rfl fun j _ => ?_
                rw [Finset.sum_comm]; refine Finset.sum_congr rfl fun k _ => ?_
                rw [Finset.sum_comm]
            _ = _ := by
                refine Finset.sum_congr rfl fun i _ => Finset.sum_congr rfl fun j _ => Finset.sum_congr rfl fun k _ =>
                  Finset.sum_congr rfl fun l _ => Finset.sum_congr rfl fun a _ => ?_
                rw [Finset.mul_sum, Finset.sum_mul]
                refine Finset.sum_congr rfl fun b _ => ?_
                ring
      _ = _ := by
          simp only [hAA]
          refine Finset.sum_congr rfl fun i _ => Finset.sum_congr rfl fun j _ => ?_
          simp
  have h5 : ∑ a : Fin o, ∑ b : Fin o, rotateTwo t two (.inl a) (.inl b) (.inl b) (.inl a) =
      ∑ i : Fin o, ∑ j : Fin o, two (.inl i) (.inl j) (.inl j) (.inl i) := by
    simp only [h2]
    calc _ = ∑ i : Fin o, ∑ j : Fin o, ∑ k : Fin o, ∑ l : Fin o, (∑ a, A i a * A l a) * (∑ b, A j b * A k b) *
          two (.inl i) (.inl j) (.inl k) (.inl l) := by
          simp only [Finset.sum_mul]
          calc (∑ a, ∑ b, ∑ i, ∑ j, ∑ k, ∑ l, A i a * A j b * A k b * A l a * two (.inl i) (.inl j) (.inl k) (.inl l)) =
                ∑ a, ∑ i, ∑ j, ∑ k, ∑ l, ∑ b, A i a * A j b * A k b * A l a * two (.inl i) (.inl j) (.inl k) (.inl l) := by
                refine Finset.sum_congr rfl fun a _ => ?_
                rw [Finset.sum_comm]; refine Finset.sum_congr rfl fun i _ => ?_
                rw [Finset.sum_comm]; refine Finset.sum_congr rfl fun j _ => ?_
                rw [Finset.sum_comm]; refine Finset.sum_congr rfl fun k _ => ?_
                rw [Finset.sum_comm]
            _ = ∑ i, ∑ j, ∑ k, ∑ l, ∑ a, ∑ b, A i a * A j b * A k b * A l a * two (.inl i) (.inl j) (.inl k) (.inl l) := by
                rw [Finset.sum_comm]; refine Finset.sum_congr rfl fun i _ => ?_
                rw [Finset.sum_comm]; refine Finset.sum_congr rfl fun j _ => ?_
                rw [Finset.sum_comm]; refine Finset.sum_congr rfl fun k _ => ?_
                rw [Finset.sum_comm]
            _ = _ := by
                refine Finset.sum_congr rfl fun i _ => Finset.sum_congr rfl fun j _ => Finset.sum_congr rfl fun k _ =>
                  Finset.sum_congr rfl fun l _ => Finset.sum_congr rfl fun a _ => ?_
                rw [Finset.mul_sum, Finset.sum_mul]
                refine Finset.sum_congr rfl fun b _ => ?_
                ring
      _ = _ := by
          simp only [hAA]
          refine Finset.sum_congr rfl fun i _ => Finset.sum_congr rfl fun j _ => ?_
          simp
  simp only [Finset.sum_sub_distrib, ← Finset.mul_sum, h3, h4, h5]

/-- **The formula of the printed energy.**  With an array in physicists' notation it is the energy of the determinant of doubly occupied
orbitals: a sum over occupied spin orbitals, with exchange between those of the same spin. -/
theorem C111_printed_formula {o v : ℕ} (one : Matrix (Fin o ⊕ Fin v) (Fin o ⊕ Fin v) ℝ)
    (two : Fin o ⊕ Fin v → Fin o ⊕ Fin v → Fin o ⊕ Fin v → Fin o ⊕ Fin v → ℝ) :
    printedEnergy one two = ∑ a : Fin o × Bool, one (.inl a.1) (.inl a.1) +
      1 / 2 * ∑ a : Fin o × Bool, ∑ b : Fin o × Bool, (two (.inl a.1) (.inl b.1) (.inl a.1) (.inl b.1) -
        if a.2 = b.2 then two (.inl a.1) (.inl b.1) (.inl b.1) (.inl a.1) else 0) := by
  simp only [printedEnergy, Fintype.sum_prod_type, Fintype.sum_bool, if_true, reduceCtorEq, if_false, Finset.mul_sum,
    ← Finset.sum_add_distrib]
  refine Finset.sum_congr rfl fun i _ => ?_
  congr 1
  · ring
  · refine Finset.sum_congr rfl fun j _ => ?_
    ring

/-- **Disagreement: the printed energy.**  The printed "computed hf electronic energy" applies the formula for physicists' notation to the
array in chemists' notation.  With the integrals `⟨12|12⟩ = ⟨21|21⟩ = 1` of two occupied orbitals it is 0 and the energy is 4. -/
theorem C111_printed_disagrees :
    ∃ two : Fin 2 ⊕ Fin 0 → Fin 2 ⊕ Fin 0 → Fin 2 ⊕ Fin 0 → Fin 2 ⊕ Fin 0 → ℝ,
      printedEnergy 0 (toChemist two) = 0 ∧ printedEnergy 0 two = 4 := by
  refine ⟨fun i j k l => if i = k ∧ j = l ∧ i ≠ j then 1 else 0, ?_, ?_⟩
  · simp only [printedEnergy, toChemist, Fin.sum_univ_two]
    simp
  · simp only [printedEnergy, Fin.sum_univ_two]
    simp
    norm_num

namespace Localize

theorem frob_sub {n : ℕ} (x q : Matrix (Fin n) (Fin n) ℝ) (hq : qᵀ * q = 1) :
    ∑ i, ∑ j, (x i j - q i j) ^ 2 = ∑ i, ∑ j, (x i j) ^ 2 - 2 * (qᵀ * x).trace + n := by
  have h1 : (qᵀ * x).trace = ∑ i, ∑ j, x i j * q i j := by
    simp only [Matrix.trace, Matrix.diag_apply, Matrix.mul_apply, Matrix.transpose_apply]
    rw [Finset.sum_comm]
    exact Finset.sum_congr rfl fun i _ => Finset.sum_congr rfl fun j _ => mul_comm _ _
  have h2 : ∑ i, ∑ j, (q i j) ^ 2 = n := by
    have : (qᵀ * q).trace = n := by rw [hq]; simp
    rw [← this]
    simp only [Matrix.trace, Matrix.diag_apply, Matrix.mul_apply, Matrix.transpose_apply]
    rw [Finset.sum_comm]
    exact Finset.sum_congr rfl fun i _ => Finset.sum_congr rfl fun j _ => pow_two _
  rw [h1, ← h2, Finset.mul_sum, ← Finset.sum_sub_distrib, ← Finset.sum_add_distrib]
  refine Finset.sum_congr rfl fun i _ => ?_
  rw [Finset.mul_sum, ← Finset.sum_sub_distrib, ← Finset.sum_add_distrib]
  refine Finset.sum_congr rfl fun j _ => ?_
  ring

theorem diag_le_one {n : ℕ} (w : Matrix (Fin n) (Fin n) ℝ) (hw : wᵀ * w = 1) (i : Fin n) : w i i ≤ 1 := by
  have h := congrFun (congrFun hw i) i
  rw [Matrix.mul_apply, Matrix.one_apply_eq] at h
  simp only [Matrix.transpose_apply] at h
  have h2 : w i i * w i i ≤ ∑ j, w j i * w j i :=
    Finset.single_le_sum (f := fun j => w j i * w j i) (fun j _ => mul_self_nonneg _) (Finset.mem_univ i)
  rw [h] at h2
  nlinarith

end Localize
open Localize

/-- **The closest orthogonal matrix.**  Of a square matrix, it is orthogonal and no other orthogonal matrix has a smaller distance (root of
the sum of squares); of a matrix that is not square, the product does not exist. -/
theorem C111_closest {svd : Svd} (hs : IsSvd svd) {a b : ℕ} (x : Matrix (Fin a) (Fin b) ℝ) :
    (a ≠ b → closest svd x = .error .valueError) ∧
    (∀ h : a = b, ∃ y, closest svd x = .ok y ∧ yᵀ * y = 1 ∧ ∀ q : Matrix (Fin a) (Fin a) ℝ, qᵀ * q = 1 →
      ∑ i, ∑ j, (x i (Fin.cast h j) - y i j) ^ 2 ≤ ∑ i, ∑ j, (x i (Fin.cast h j) - q i j) ^ 2) := by
  constructor
  · intro h
    unfold closest
    rw [dif_neg h]
  · intro h
    subst h
    have hy : closest svd x = .ok (svd.left x * svd.right x) := by
      unfold closest
      rw [dif_pos rfl]
      rfl
    refine ⟨_, hy, ?_, ?_⟩
    · rw [Matrix.transpose_mul, Matrix.mul_assoc, ← Matrix.mul_assoc (svd.left x)ᵀ, hs.left_orth, Matrix.one_mul, hs.right_orth]
    · intro q hq
      simp only [Fin.cast_eq_self]
      have horth : (svd.left x * svd.right x)ᵀ * (svd.left x * svd.right x) = 1 := by
        rw [Matrix.transpose_mul, Matrix.mul_assoc, ← Matrix.mul_assoc (svd.left x)ᵀ, hs.left_orth, Matrix.one_mul, hs.right_orth]
      rw [frob_sub x _ horth, frob_sub x q hq]
      set D : Matrix (Fin a) (Fin a) ℝ := Matrix.diagonal fun i => (svd.sigma x).getD i 0 with hD
      have hx : x = svd.left x * D * svd.right x := by
        have h := hs.factor x
        have hd : (Matrix.of fun (i : Fin a) (j : Fin a) => if (i : ℕ) = (j : ℕ) then (svd.sigma x).getD i 0 else 0) = D := by
          ext i j
          rw [hD, Matrix.diagonal_apply, Matrix.of_apply]
          simp only [Fin.ext_iff]
        rw [hd] at h
        exact h
      have htr : ∀ z : Matrix (Fin a) (Fin a) ℝ, (zᵀ * x).trace = ∑ i : Fin a, (svd.sigma x).getD i 0 * (svd.right x * zᵀ * svd.left x) i i := by
        intro z
        have h1 : (zᵀ * x).trace = (D * (svd.right x * zᵀ * svd.left x)).trace := by
          have h2 : zᵀ * x = zᵀ * svd.left x * D * svd.right x := by
            have := congrArg (zᵀ * ·) hx
            simpa only [Matrix.mul_assoc] using this
          rw [h2, Matrix.trace_mul_comm, ← Matrix.mul_assoc, Matrix.trace_mul_comm]
          simp only [Matrix.mul_assoc]
        rw [h1, Matrix.trace]
        refine Finset.sum_congr rfl fun i _ => ?_
        rw [Matrix.diag_apply, hD, Matrix.diagonal_mul]
      have hqq : q * qᵀ = 1 := mul_eq_one_comm.1 hq
      have hw : (svd.right x * qᵀ * svd.left x)ᵀ * (svd.right x * qᵀ * svd.left x) = 1 := by
        simp only [Matrix.transpose_mul, Matrix.transpose_transpose]
        calc (svd.left x)ᵀ * (q * (svd.right x)ᵀ) * (svd.right x * qᵀ * svd.left x) =
            (svd.left x)ᵀ * (q * (((svd.right x)ᵀ * svd.right x) * qᵀ)) * svd.left x := by simp only [Matrix.mul_assoc]
          _ = 1 := by rw [hs.right_orth, Matrix.one_mul, hqq, Matrix.mul_one, hs.left_orth]
      have h1 : ((svd.left x * svd.right x)ᵀ * x).trace = ∑ i : Fin a, (svd.sigma x).getD i 0 := by
        rw [htr]
        have h2 : svd.right x * (svd.left x * svd.right x)ᵀ * svd.left x = 1 := by
          rw [Matrix.transpose_mul, ← Matrix.mul_assoc, right_orth' hs, Matrix.one_mul, hs.left_orth]
        rw [h2]
        simp
      have h3 : (qᵀ * x).trace ≤ ((svd.left x * svd.right x)ᵀ * x).trace := by
        rw [h1, htr]
        refine Finset.sum_le_sum fun i _ => ?_
        have h4 := diag_le_one _ hw i
        have h5 := getD_nonneg hs x i
        nlinarith
      linarith

namespace Localize

theorem sorted_perm {l : ℕ} (w : Fin l → ℝ) : (sortedByWeight w).Perm (List.finRange l) := by
  classical
  unfold sortedByWeight
  exact (List.reverse_perm _).trans (List.mergeSort_perm _ _)

theorem sorted_pairwise {l : ℕ} (w : Fin l → ℝ) : (sortedByWeight w).Pairwise (fun i j => w j ≤ w i) := by
  classical
  unfold sortedByWeight
  rw [List.pairwise_reverse]
  have := List.pairwise_mergeSort (le := fun i j => decide (w i ≤ w j)) (by intro a b c; simp; exact le_trans) (by intro a b; simp; exact le_total _ _)
    (List.finRange l)
  exact this.imp (by intro a b h; simpa using h)

end Localize
open Localize

/-- **The other methods: when.**  There is a result exactly if PySCF gives as many localized orbitals as there are molecular orbitals; with
fewer (the intrinsic atomic orbitals of a basis that is not minimal) a `ValueError` is raised. -/
theorem C111_other_iff {svd : Svd} (hs : IsSvd svd) {o v l : ℕ} (olpO : Matrix (Fin o) (Fin l) ℝ) (olpV : Matrix (Fin v) (Fin l) ℝ)
    (nsystems : ℕ) : ((∃ x, otherMethod svd olpO olpV nsystems = .ok x) ↔ l = o + v) ∧
      (l ≠ o + v → otherMethod svd olpO olpV nsystems = .error .valueError) := by
  have hl : (sortedByWeight fun i => (olpOᵀ * olpO) i i).length = l := by
    rw [(sorted_perm _).length_eq, List.length_finRange]
  have h1 := C111_closest hs (olpO.submatrix id ((sortedByWeight fun i => (olpOᵀ * olpO) i i).take o).get)
  have h2 := C111_closest hs (olpV.submatrix id ((sortedByWeight fun i => (olpOᵀ * olpO) i i).drop o).get)
  have key : l ≠ o + v → otherMethod svd olpO olpV nsystems = .error .valueError := by
    intro hne
    unfold otherMethod
    dsimp only
    by_cases ho : o ≤ l
    · have ho' : o = ((sortedByWeight fun i => (olpOᵀ * olpO) i i).take o).length := by rw [List.length_take, hl]; omega
      obtain ⟨y, hy, _⟩ := h1.2 ho'
      rw [hy]
      dsimp only
      rw [h2.1 (by rw [List.length_drop, hl]; omega)]
    · rw [h1.1 (by rw [List.length_take, hl]; omega)]
  refine ⟨⟨?_, ?_⟩, key⟩
  · rintro ⟨x, hx⟩
    by_contra hne
    rw [key hne] at hx
    cases hx
  · intro h
    unfold otherMethod
    dsimp only
    obtain ⟨y, hy, _⟩ := h1.2 (by rw [List.length_take, hl]; omega)
    obtain ⟨z, hz, _⟩ := h2.2 (by rw [List.length_drop, hl]; omega)
    rw [hy]
    dsimp only
    rw [hz]
    exact ⟨_, rfl⟩

/-- **The other methods: what.**  The transformation is orthogonal and does not mix occupied and virtual orbitals; the localized orbitals
taken as occupied are those with the largest weights in the occupied space; and, in disagreement with the method `svd`, `nelecs` of a
number `q` is 1 if the localized orbital number `q` is taken as occupied and 0 otherwise, whatever the systems are. -/
theorem C111_other {svd : Svd} (hs : IsSvd svd) {o v l : ℕ} (olpO : Matrix (Fin o) (Fin l) ℝ) (olpV : Matrix (Fin v) (Fin l) ℝ)
    (nsystems : ℕ) (t : Matrix (Fin o ⊕ Fin v) (Fin o ⊕ Fin v) ℝ) (occ : List (Fin l)) (ne : List ℕ)
    (h : otherMethod svd olpO olpV nsystems = .ok (t, occ, ne)) :
    tᵀ * t = 1 ∧ t * tᵀ = 1 ∧ (∀ i j, t (.inl i) (.inr j) = 0 ∧ t (.inr j) (.inl i) = 0) ∧ occ.length = o ∧ occ.Nodup ∧
    (∀ i ∈ occ, ∀ j ∉ occ, ∑ x, (olpO x j) ^ 2 ≤ ∑ x, (olpO x i) ^ 2) ∧ ne.length = nsystems ∧
    ∀ q, q < nsystems → ne.getD q 0 = if q ∈ occ.map (fun i : Fin l => (i : ℕ)) then 1 else 0 := by
  have hlo : l = o + v := (C111_other_iff hs olpO olpV nsystems).1.1 ⟨_, h⟩
  have hl : (sortedByWeight fun i => (olpOᵀ * olpO) i i).length = l := by
    rw [(sorted_perm _).length_eq, List.length_finRange]
  obtain ⟨y, hy, hyo, _⟩ := (C111_closest hs (olpO.submatrix id ((sortedByWeight fun i => (olpOᵀ * olpO) i i).take o).get)).2
    (by rw [List.length_take, hl]; omega)
  obtain ⟨z, hz, hzo, _⟩ := (C111_closest hs (olpV.submatrix id ((sortedByWeight fun i => (olpOᵀ * olpO) i i).drop o).get)).2
    (by rw [List.length_drop, hl]; omega)
  unfold otherMethod at h
  dsimp only at h
  rw [hy] at h
  dsimp only at h
  rw [hz] at h
  have h := Except.ok.inj h
  simp only [Prod.mk.injEq] at h
  obtain ⟨rfl, rfl, rfl⟩ := h
  have horth : (fromBlocks y 0 0 z)ᵀ * fromBlocks y 0 0 z = 1 := by
    rw [Matrix.fromBlocks_transpose, Matrix.fromBlocks_multiply, hyo, hzo]
    simp
  have hnd : (sortedByWeight fun i => (olpOᵀ * olpO) i i).Nodup := (sorted_perm _).nodup_iff.2 (List.nodup_finRange l)
  have hnd' := List.Nodup.sublist (List.take_sublist o _) hnd
  refine ⟨horth, mul_eq_one_comm.1 horth, fun i j => ⟨rfl, rfl⟩, by rw [List.length_take, hl]; omega, hnd', ?_, by simp [nelecs], ?_⟩
  · intro i hi j hj
    have hw : ∀ a, (olpOᵀ * olpO) a a = ∑ x, (olpO x a) ^ 2 := by
      intro a
      rw [Matrix.mul_apply]
      exact Finset.sum_congr rfl fun x _ => (pow_two _).symm
    rw [← hw, ← hw]
    have hp := sorted_pairwise fun i => (olpOᵀ * olpO) i i
    rw [← List.take_append_drop o (sortedByWeight fun i => (olpOᵀ * olpO) i i), List.pairwise_append] at hp
    refine hp.2.2 i hi j ?_
    have : j ∈ sortedByWeight fun i => (olpOᵀ * olpO) i i := (sorted_perm _).mem_iff.2 (List.mem_finRange j)
    rw [← List.take_append_drop o (sortedByWeight fun i => (olpOᵀ * olpO) i i)] at this
    exact (List.mem_append.1 this).resolve_left hj
  · intro q hq
    have hnd2 : (((sortedByWeight fun i => (olpOᵀ * olpO) i i).take o).map fun i : Fin l => (i : ℕ)).Nodup :=
      hnd'.map (fun a b h => Fin.ext h)
    have h1 : (nelecs nsystems (((sortedByWeight fun i => (olpOᵀ * olpO) i i).take o).map fun i : Fin l => (i : ℕ))).getD q 0 =
        (((sortedByWeight fun i => (olpOᵀ * olpO) i i).take o).map fun i : Fin l => (i : ℕ)).count q := by
      simp [nelecs, List.getD_eq_getElem?_getD, hq]
    rw [h1, List.Nodup.count hnd2]

/-! The assumption on `np.linalg.svd` can be met, and there are then results. -/

example : ∃ svd : Svd, IsSvd svd ∧
    (∃ x, svdMethod svd (o := 2) (v := 1) (ns := 1) (m := fun _ => 2) (fun _ => !![1, 2; 3, 4]) (fun _ => !![1, 1]) = .ok x) ∧
    (∃ e, svdMethod svd (o := 2) (v := 1) (ns := 2) (m := fun _ => 1) (fun _ => !![1; 3]) (fun _ => !![1]) = .error e) ∧
    (∃ x, otherMethod svd (!![1, 2; 3, 4]) (Matrix.of ![] : Matrix (Fin 0) (Fin 2) ℝ) 3 = .ok x) := by
  obtain ⟨svd, hs⟩ := exists_isSvd
  refine ⟨svd, hs, ?_, ?_, ?_⟩
  · rw [C111_svd_iff]
    refine ⟨C111_succeeds hs _ (by norm_num) (by norm_num) ?_, C111_succeeds hs _ (by norm_num) (by norm_num) ?_⟩
    · intro q w hw
      have h0 := congrFun hw 0
      have h1 := congrFun hw 1
      simp [Matrix.vecMul, dotProduct, Fin.sum_univ_two] at h0 h1
      funext i
      fin_cases i
      · show w 0 = 0; linarith
      · show w 1 = 0; linarith
    · intro q w hw
      have h0 := congrFun hw 0
      simp [Matrix.vecMul, dotProduct] at h0
      funext i
      fin_cases i
      exact h0
  · obtain ⟨e, he⟩ := C111_exhausted hs (n := 2) (ns := 2) (m := fun _ => 1) (fun _ => !![1; 3]) (by norm_num) (by intro q; norm_num)
    refine ⟨e, ?_⟩
    unfold svdMethod
    rw [he]
  · rw [(C111_other_iff hs _ _ _).1]

example : ∃ t : Matrix (Fin 2 ⊕ Fin 1) (Fin 2 ⊕ Fin 1) ℝ, tᵀ * t = 1 ∧ t ≠ 1 ∧
    ∀ i j, t (.inl i) (.inr j) = 0 ∧ t (.inr j) (.inl i) = 0 := by
  refine ⟨fromBlocks !![0, 1; -1, 0] 0 0 1, ?_, ?_, fun i j => ⟨rfl, rfl⟩⟩
  · rw [Matrix.fromBlocks_transpose, Matrix.fromBlocks_multiply]
    have : (!![0, 1; -1, 0] : Matrix (Fin 2) (Fin 2) ℝ)ᵀ * !![0, 1; -1, 0] = 1 := by
      ext i j
      fin_cases i <;> fin_cases j <;> simp [Matrix.mul_apply, Fin.sum_univ_two]
    rw [this]
    simp
  · intro h
    have := congrFun (congrFun h (.inl 0)) (.inl 0)
    simp at this

end Fanpy.Props
