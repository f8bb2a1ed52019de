import Verif.Spec.Transform
import Verif.Lemmas.Determinant
import Verif.Lemmas.Geminal
import Mathlib.Tactic.LinearCombination

/-! # Wavefunctions in transformed orbitals -/

namespace Fanpy.Spec
open Finset Fanpy.Linalg Fanpy.Slater

variable {R : Type} [CommRing R]

/-! ## The transformed creation operators anticommute -/

theorem creRot_apply (n : ℕ) (u : ℕ → ℕ → R) (a : ℕ) (v : Fock R) : creRot n u a v = ∑ i ∈ range n, u i a • creOp i v := by
  simp [creRot, LinearMap.sum_apply]

theorem creOp_creRot (n : ℕ) (u : ℕ → ℕ → R) (a j : ℕ) (v : Fock R) :
    creOp j (creRot n u a v) = - creRot n u a (creOp j v) := by
  rw [creRot_apply, creRot_apply, map_sum, ← sum_neg_distrib]
  apply sum_congr rfl
  intro i _
  rw [map_smul, eq_neg_of_add_eq_zero_left (car_cre j i v), smul_neg]

theorem creRot_creRot (n : ℕ) (u : ℕ → ℕ → R) (a b : ℕ) (v : Fock R) :
    creRot n u a (creRot n u b v) = - creRot n u b (creRot n u a v) := by
  rw [creRot_apply n u a, creRot_apply n u a v, map_sum, ← sum_neg_distrib]
  apply sum_congr rfl
  intro i _
  rw [creOp_creRot, map_smul, smul_neg]

theorem creOp_creOp_self (i : ℕ) (v : Fock R) : creOp i (creOp i v) = 0 := by
  suffices h : (creOp i ∘ₗ creOp i : Fock R →ₗ[R] Fock R) = 0 from LinearMap.congr_fun h v
  apply Finsupp.lhom_ext
  intro s c
  simp only [LinearMap.comp_apply, creOp_single, LinearMap.zero_apply]
  by_cases hi : i ∈ s <;> simp [hi]

theorem creRot_self (n : ℕ) (u : ℕ → ℕ → R) (a : ℕ) (v : Fock R) : creRot n u a (creRot n u a v) = 0 := by
  induction n with
  | zero => simp [creRot_apply]
  | succ n ih =>
    have e : ∀ w : Fock R, creRot (n + 1) u a w = creRot n u a w + u n a • creOp n w := by
      intro w
      rw [creRot_apply, creRot_apply, sum_range_succ]
    rw [e, e, map_add, map_add, ih, map_smul, map_smul, creOp_creRot, creOp_creOp_self]
    simp

theorem foldr_creRot_mem {n : ℕ} {u : ℕ → ℕ → R} {l : List ℕ} {j : ℕ} (hj : j ∈ l) (v : Fock R) :
    creRot n u j (l.foldr (fun a v => creRot n u a v) v) = 0 := by
  induction l with
  | nil => simp at hj
  | cons a l ih =>
    rw [List.foldr_cons]
    rcases List.mem_cons.1 hj with rfl | h
    · exact creRot_self ..
    · rw [creRot_creRot, ih h, map_zero, neg_zero]

theorem foldr_creRot_insert {n : ℕ} {u : ℕ → ℕ → R} {l : List ℕ} (hl : l.Pairwise (· < ·)) {j : ℕ} (hj : j ∉ l) (v : Fock R) :
    creRot n u j (l.foldr (fun a v => creRot n u a v) v) =
      (((-1) ^ (l.filter (· < j)).length : ℤ) : R) • (l.orderedInsert (· ≤ ·) j).foldr (fun a v => creRot n u a v) v := by
  induction l with
  | nil => simp
  | cons a l ih =>
    rw [List.pairwise_cons] at hl
    have haj : j ≠ a := fun h => hj (by simp [h])
    rcases lt_or_gt_of_ne haj with h | h
    · have hf : (a :: l).filter (· < j) = [] := by
        rw [List.filter_eq_nil_iff]
        intro b hb
        rcases List.mem_cons.1 hb with rfl | hb
        · simp; omega
        · have := hl.1 b hb; simp; omega
      rw [hf, List.orderedInsert_cons, if_pos h.le]
      simp
    · rw [List.orderedInsert_cons, if_neg (by omega), List.foldr_cons, List.foldr_cons, creRot_creRot,
        ih hl.2 (fun hm => hj (by simp [hm])), List.filter_cons_of_pos (by simpa using h), map_smul, List.length_cons, pow_succ]
      simp

theorem sort_insert {S : Finset ℕ} {j : ℕ} (hj : j ∉ S) :
    (insert j S).sort (· ≤ ·) = (S.sort (· ≤ ·)).orderedInsert (· ≤ ·) j := by
  apply List.Perm.eq_of_pairwise' (r := (· ≤ ·))
  · exact pairwise_sort _ _
  · exact List.Pairwise.orderedInsert _ _ (pairwise_sort _ _)
  · rw [List.perm_ext_iff_of_nodup (sort_nodup _ _)]
    · intro a
      simp [List.mem_orderedInsert]
    · rw [(List.perm_orderedInsert _ _ _).nodup_iff, List.nodup_cons]
      exact ⟨by simpa using hj, sort_nodup _ _⟩

theorem sort_lt (S : Finset ℕ) : (S.sort (· ≤ ·)).Pairwise (· < ·) := (sortedLT_sort S).pairwise

theorem filter_sort_length (S : Finset ℕ) (j : ℕ) : ((S.sort (· ≤ ·)).filter (· < j)).length = #{k ∈ S | k < j} := by
  rw [← List.toFinset_card_of_nodup ((sort_nodup _ _).filter _)]
  congr 1
  ext k; simp

/-- A transformed creation operator acting on a determinant of the transformed orbitals. -/
theorem creRot_rotState (A : ℕ → ℕ → R) (n : ℕ) (S : Finset ℕ) (j : ℕ) : creRot n (fun j i => A i j) j (rotState A n S) =
    if j ∈ S then 0 else ((phase S j : ℤ) : R) • rotState A n (insert j S) := by
  rw [rotState]
  split_ifs with h
  · exact foldr_creRot_mem (by simpa using h) _
  · rw [foldr_creRot_insert (sort_lt S) (by simpa using h), rotState, sort_insert h, filter_sort_length, phase]

/-- the linear map that replaces the orbitals by the transformed orbitals -/
noncomputable def rotMap (A : ℕ → ℕ → R) (n : ℕ) : Fock R →ₗ[R] Fock R := Finsupp.linearCombination R (rotState A n)

theorem rotMap_ket (A : ℕ → ℕ → R) (n : ℕ) (S : Finset ℕ) : rotMap A n (ket S) = rotState A n S := by
  rw [rotMap, ket, Finsupp.linearCombination_single, one_smul]

theorem rotMap_creOp (A : ℕ → ℕ → R) (n : ℕ) (j : ℕ) (v : Fock R) :
    rotMap A n (creOp j v) = creRot n (fun j i => A i j) j (rotMap A n v) := by
  suffices h : (rotMap A n ∘ₗ creOp j : Fock R →ₗ[R] Fock R) = creRot n (fun j i => A i j) j ∘ₗ rotMap A n from
    LinearMap.congr_fun h v
  apply Finsupp.lhom_ext
  intro s c
  simp only [LinearMap.comp_apply, creOp_single]
  rw [rotMap, Finsupp.linearCombination_single, map_smul, creRot_rotState]
  split_ifs with h
  · simp
  · rw [Finsupp.linearCombination_single, smul_smul]

/-- transforming twice multiplies the matrices -/
theorem rotMap_rotState (A B : ℕ → ℕ → R) (m n : ℕ) (S : Finset ℕ) :
    rotMap B n (rotState A m S) = rotState (matMul m A B) n S := by
  rw [rotState, rotState]
  induction S.sort (· ≤ ·) with
  | nil => simp [rotMap_ket, rotState]
  | cons a l ih =>
    rw [List.foldr_cons, List.foldr_cons, ← ih, creRot_apply, creRot_apply, map_sum]
    simp only [map_smul, rotMap_creOp, creRot_apply, matMul, smul_sum, sum_smul, smul_smul]
    rw [sum_comm]

/-! ## Expansion in minors -/

theorem getD_lt {l : List ℕ} {k : ℕ} (hk : k < l.length) : l.getD k 0 = l[k] := List.getD_eq_getElem _ _ hk

theorem sort_getD_skip (T : Finset ℕ) {k : ℕ} (hk : k < #T) {j : ℕ} (hj : (T.sort (· ≤ ·)).getD k 0 = j) (i : ℕ) :
    ((T.erase j).sort (· ≤ ·)).getD i 0 = (T.sort (· ≤ ·)).getD (Fanpy.Props.skip k i) 0 := by
  have e : (T.erase j).sort (· ≤ ·) = (T.sort (· ≤ ·)).eraseIdx k := by
    have hk' : k < (T.sort (· ≤ ·)).length := by simpa using hk
    have hj' : (T.sort (· ≤ ·))[k] = j := by rw [← hj, getD_lt hk']
    apply List.Perm.eq_of_pairwise' (r := (· ≤ ·))
    · exact pairwise_sort _ _
    · exact (pairwise_sort _ _).sublist (List.eraseIdx_sublist _ _)
    · rw [List.perm_ext_iff_of_nodup (sort_nodup _ _) ((sort_nodup _ _).sublist (List.eraseIdx_sublist _ _))]
      intro a
      rw [mem_sort, mem_erase, List.mem_eraseIdx_iff_getElem]
      constructor
      · rintro ⟨h1, h2⟩
        obtain ⟨b, hb, rfl⟩ := List.mem_iff_getElem.1 ((mem_sort (· ≤ ·)).2 h2)
        refine ⟨b, hb, ?_, rfl⟩
        rintro rfl
        exact h1 hj'
      · rintro ⟨b, hb, hbk, rfl⟩
        refine ⟨fun h => hbk ?_, (mem_sort (· ≤ ·)).1 (List.getElem_mem hb)⟩
        rw [← hj'] at h
        exact (List.Nodup.getElem_inj_iff (sort_nodup _ _)).1 h
  rw [e, List.getD_eq_getElem?_getD, List.getD_eq_getElem?_getD, List.getElem?_eraseIdx, Fanpy.Props.skip]
  split_ifs <;> rfl

theorem sort_rank (T : Finset ℕ) {k : ℕ} (hk : k < #T) : #{i ∈ T | i < (T.sort (· ≤ ·)).getD k 0} = k := by
  have hk' : k < (T.sort (· ≤ ·)).length := by simpa using hk
  have hs := sort_lt T
  rw [List.pairwise_iff_getElem] at hs
  have hinj := fun a b (ha : a < (T.sort (· ≤ ·)).length) (hb : b < (T.sort (· ≤ ·)).length) =>
    List.Nodup.getElem_inj_iff (sort_nodup T (· ≤ ·)) (hi := ha) (hj := hb)
  have : {i ∈ T | i < (T.sort (· ≤ ·)).getD k 0} = (range k).image fun b => (T.sort (· ≤ ·)).getD b 0 := by
    ext i
    rw [mem_filter, mem_image, ← mem_sort (· ≤ ·) (s := T), List.mem_iff_getElem]
    have e : (T.sort (· ≤ ·)).getD k 0 = (T.sort (· ≤ ·))[k] := getD_lt hk'
    rw [e]
    constructor
    · rintro ⟨⟨b, hb, rfl⟩, hlt⟩
      refine ⟨b, mem_range.2 ?_, getD_lt hb⟩
      by_contra hn
      rcases Nat.lt_or_ge k b with h | h
      · have := hs k b hk' hb h; omega
      · have : k = b := by omega
        subst this; omega
    · rintro ⟨b, hb, rfl⟩
      rw [mem_range] at hb
      have hb' : b < (T.sort (· ≤ ·)).length := hb.trans hk'
      refine ⟨⟨b, hb', (getD_lt hb').symm⟩, ?_⟩
      have e : (T.sort (· ≤ ·)).getD b 0 = (T.sort (· ≤ ·))[b] := getD_lt hb'
      rw [e]
      exact hs b k hb' hk' hb
  rw [this, card_image_of_injOn, card_range]
  intro a ha b hb hab
  simp only [coe_range, Set.mem_Iio] at ha hb
  have ha' : a < (T.sort (· ≤ ·)).length := ha.trans hk'
  have hb' : b < (T.sort (· ≤ ·)).length := hb.trans hk'
  simp only [List.getD_eq_getElem?_getD, List.getElem?_eq_getElem ha', List.getElem?_eq_getElem hb', Option.getD_some] at hab
  exact (hinj a b ha' hb').1 hab

theorem detL_laplace (A : ℕ → ℕ → R) (r : ℕ) (rs : List ℕ) (T : Finset ℕ) (hT : #T = rs.length + 1) :
    detL A (r :: rs) (T.sort (· ≤ ·)) = ∑ j ∈ T, ((phase T j : ℤ) : R) * A r j * detL A rs ((T.erase j).sort (· ≤ ·)) := by
  rw [detL, show (r :: rs).length = rs.length + 1 from rfl, Matrix.det_succ_row_zero]
  have hsum : ∀ g : ℕ → R, ∑ j ∈ T, g j = ∑ k : Fin (rs.length + 1), g ((T.sort (· ≤ ·)).getD k 0) := by
    intro g
    rw [← sum_range (fun k => g ((T.sort (· ≤ ·)).getD k 0))]
    symm
    apply sum_bij fun k _ => (T.sort (· ≤ ·)).getD k 0
    · intro k hk
      have hk' : k < (T.sort (· ≤ ·)).length := by simpa [hT] using hk
      have e : (T.sort (· ≤ ·)).getD k 0 = (T.sort (· ≤ ·))[k] := getD_lt hk'
      rw [e]
      exact (mem_sort (· ≤ ·)).1 (List.getElem_mem hk')
    · intro a ha b hb hab
      have ha' : a < #T := by simpa [hT] using ha
      have hb' : b < #T := by simpa [hT] using hb
      rw [← sort_rank T ha', ← sort_rank T hb', hab]
    · intro j hj
      obtain ⟨k, hk, rfl⟩ := List.mem_iff_getElem.1 ((mem_sort (· ≤ ·)).2 hj)
      exact ⟨k, by simpa [hT] using hk, getD_lt hk⟩
    · intro k _; rfl
  rw [hsum]
  apply sum_congr rfl
  intro k _
  have hk : (k : ℕ) < #T := by rw [hT]; exact k.2
  have e1 : ((phase T ((T.sort (· ≤ ·)).getD k 0) : ℤ) : R) = (-1) ^ (k : ℕ) := by
    rw [phase, sort_rank T hk]; simp
  rw [e1, detL]
  congr 1
  congr 1
  ext a b
  simp only [Matrix.submatrix_apply, Matrix.of_apply]
  rw [sort_getD_skip T hk rfl, Fanpy.Props.succAbove_val]
  rfl

/-- the transformed creation operators, with the old orbitals at `off, off + 1, …` -/
noncomputable def creOff (off n : ℕ) (A : ℕ → ℕ → R) (i : ℕ) (v : Fock R) : Fock R := ∑ j ∈ range n, A i j • creOp (j + off) v

/-- a product of transformed creation operators in terms of minors -/
theorem foldr_creOff (A : ℕ → ℕ → R) (off n : ℕ) (rows : List ℕ) (B : Finset ℕ) (hB : ∀ b ∈ B, off + n ≤ b) :
    rows.foldr (creOff off n A) (ket B) = ∑ T ∈ powersetCard rows.length (range n),
      detL A rows (T.sort (· ≤ ·)) • (ket (T.map (addRightEmbedding off) ∪ B) : Fock R) := by
  induction rows with
  | nil =>
    simp [detL]
  | cons r rs ih =>
    rw [List.foldr_cons, ih, creOff]
    have h1 : ∀ j ∈ range n, ∀ T ∈ powersetCard rs.length (range n),
        creOp (j + off) (ket (T.map (addRightEmbedding off) ∪ B) : Fock R) =
          if j ∈ T then 0 else ((phase T j : ℤ) : R) • ket ((insert j T).map (addRightEmbedding off) ∪ B) := by
      intro j hj T hT
      rw [mem_range] at hj
      have hm : j + off ∈ T.map (addRightEmbedding off) ∪ B ↔ j ∈ T := by
        rw [mem_union, mem_map]
        constructor
        · rintro (⟨k, hk, h⟩ | h)
          · have : k = j := by simpa using h
            rwa [← this]
          · have := hB _ h; omega
        · intro h; exact Or.inl ⟨j, h, rfl⟩
      rw [ket, creOp_single]
      simp only [hm]
      split_ifs with h
      · rfl
      · have e1 : insert (j + off) (T.map (addRightEmbedding off) ∪ B) = (insert j T).map (addRightEmbedding off) ∪ B := by
          rw [map_insert, insert_union]; rfl
        have e2 : phase (T.map (addRightEmbedding off) ∪ B) (j + off) = phase T j := by
          rw [phase, phase]
          congr 1
          have : {k ∈ T.map (addRightEmbedding off) ∪ B | k < j + off} = ({k ∈ T | k < j}).map (addRightEmbedding off) := by
            ext k
            simp only [mem_filter, mem_union, mem_map, addRightEmbedding_apply]
            constructor
            · rintro ⟨⟨a, ha, rfl⟩ | h, hk⟩
              · exact ⟨a, ⟨ha, by omega⟩, rfl⟩
              · have := hB _ h; omega
            · rintro ⟨a, ⟨ha, h⟩, rfl⟩
              exact ⟨Or.inl ⟨a, ha, rfl⟩, by omega⟩
          rw [this, card_map]
        rw [e1, e2, ket, Finsupp.smul_single, one_mul, smul_eq_mul, mul_one]
    simp only [map_sum, map_smul]
    have h2 : ∀ j ∈ range n, A r j • ∑ T ∈ powersetCard rs.length (range n), detL A rs (T.sort (· ≤ ·)) •
        creOp (j + off) (ket (T.map (addRightEmbedding off) ∪ B) : Fock R) =
        ∑ T ∈ powersetCard rs.length (range n) with j ∉ T, (((phase T j : ℤ) : R) * A r j * detL A rs (T.sort (· ≤ ·))) •
          (ket ((insert j T).map (addRightEmbedding off) ∪ B) : Fock R) := by
      intro j hj
      rw [smul_sum, sum_filter]
      apply sum_congr rfl
      intro T hT
      rw [h1 j hj T hT]
      by_cases h : j ∈ T
      · simp [h]
      · simp only [h, if_false, not_false_eq_true, if_true, smul_smul]
        congr 1; ring
    rw [sum_congr rfl h2, sum_sigma']
    have h3 : ∀ T ∈ powersetCard (r :: rs).length (range n), detL A (r :: rs) (T.sort (· ≤ ·)) •
        (ket (T.map (addRightEmbedding off) ∪ B) : Fock R) =
        ∑ j ∈ T, (((phase T j : ℤ) : R) * A r j * detL A rs ((T.erase j).sort (· ≤ ·))) •
          (ket (T.map (addRightEmbedding off) ∪ B) : Fock R) := by
      intro T hT
      rw [mem_powersetCard] at hT
      rw [detL_laplace A r rs T hT.2, sum_smul]
    rw [sum_congr rfl h3, sum_sigma']
    apply sum_bij' (fun x _ => (⟨insert x.1 x.2, x.1⟩ : Σ _ : Finset ℕ, ℕ)) fun x _ => (⟨x.2, x.1.erase x.2⟩ : Σ _ : ℕ, Finset ℕ)
    · rintro ⟨j, T⟩ h
      simp only [mem_sigma, mem_range, mem_filter, mem_powersetCard] at h ⊢
      refine ⟨⟨?_, ?_⟩, mem_insert_self _ _⟩
      · intro k hk
        rcases mem_insert.1 hk with rfl | hk
        · exact mem_range.2 h.1
        · exact h.2.1.1 hk
      · rw [card_insert_of_notMem h.2.2, h.2.1.2]; rfl
    · rintro ⟨T, j⟩ h
      simp only [mem_sigma, mem_range, mem_filter, mem_powersetCard] at h ⊢
      refine ⟨mem_range.1 (h.1.1 h.2), ⟨fun k hk => h.1.1 (mem_of_mem_erase hk), ?_⟩, notMem_erase _ _⟩
      rw [card_erase_of_mem h.2, h.1.2]; rfl
    · rintro ⟨j, T⟩ h
      simp only [mem_sigma, mem_filter] at h
      simp [erase_insert h.2.2]
    · rintro ⟨T, j⟩ h
      simp only [mem_sigma] at h
      simp [insert_erase h.2]
    · rintro ⟨j, T⟩ h
      simp only [mem_sigma, mem_filter] at h
      simp only [erase_insert h.2.2]
      have : phase (insert j T) j = phase T j := by rw [phase_insert]; simp
      rw [this]

/-- the value of a wavefunction with the coefficients `f` -/
noncomputable def evalF (f : Finset ℕ → R) : Fock R →ₗ[R] R := Finsupp.linearCombination R f

theorem evalF_ket (f : Finset ℕ → R) (S : Finset ℕ) : evalF f (ket S) = f S := by
  rw [evalF, ket, Finsupp.linearCombination_single, one_smul]

theorem minor_eq_detL (A : ℕ → ℕ → R) {S T : Finset ℕ} (h : #T = #S) : minor A S T = detL A (S.sort (· ≤ ·)) (T.sort (· ≤ ·)) := by
  rw [minor, dif_pos h, Fanpy.Props.detL_eq (n := #S) (by simp)]
  congr 1
  ext i j
  simp only [Matrix.of_apply]
  rw [orderEmbOfFin_apply, orderEmbOfFin_apply, List.getD_eq_getElem _ _ (by simp), List.getD_eq_getElem _ _ (by simp [h])]
  rfl

/-- The sum over minors is the second-quantized transformation of the orbitals. -/
theorem transform_eq (A : ℕ → ℕ → R) (n : ℕ) (f : Finset ℕ → R) (S : Finset ℕ) :
    transform A n f S = evalF f (rotState A n S) := by
  have e : (fun a v => creRot n (fun j i => A i j) a v : ℕ → Fock R → Fock R) = creOff 0 n A := by
    funext a v
    rw [creRot_apply, creOff]
    rfl
  rw [transform, rotState, e, foldr_creOff A 0 n _ ∅ (by simp), map_sum, length_sort]
  apply sum_congr rfl
  intro T hT
  rw [mem_powersetCard] at hT
  have : T.map (addRightEmbedding 0) ∪ ∅ = T := by
    ext k; simp
  rw [map_smul, this, evalF_ket, smul_eq_mul, minor_eq_detL A hT.2]

/-- Cauchy–Binet: transforming twice multiplies the matrices. -/
theorem transform_transform (A B : ℕ → ℕ → R) (m n : ℕ) (f : Finset ℕ → R) (S : Finset ℕ) :
    transform A m (transform B n f) S = transform (matMul m A B) n f S := by
  have h : transform B n f = fun T => evalF f (rotState B n T) := funext fun T => transform_eq B n f T
  have h2 : (evalF (transform B n f) : Fock R →ₗ[R] R) = evalF f ∘ₗ rotMap B n := by
    apply Finsupp.lhom_ext
    intro s c
    rw [LinearMap.comp_apply, evalF, rotMap, Finsupp.linearCombination_single, Finsupp.linearCombination_single, map_smul, h]
  rw [transform_eq A m, h2, LinearMap.comp_apply, rotMap_rotState, transform_eq]

/-! ## Separate transformations of the alpha and beta orbitals -/

theorem transform_congr {A B : ℕ → ℕ → R} {n : ℕ} {f g : Finset ℕ → R} {S : Finset ℕ} (h : ∀ i ∈ S, ∀ j < n, A i j = B i j)
    (hf : ∀ T ⊆ range n, #T = #S → f T = g T) : transform A n f S = transform B n g S := by
  rw [transform, transform]
  apply sum_congr rfl
  intro T hT
  rw [mem_powersetCard] at hT
  rw [hf T hT.1 hT.2, minor, minor, dif_pos hT.2, dif_pos hT.2]
  congr 2
  ext i j
  exact h _ (orderEmbOfFin_mem ..) _ (mem_range.1 (hT.1 (orderEmbOfFin_mem ..)))

theorem sort_union_map {Sa Sb : Finset ℕ} {r : ℕ} (h : ∀ i ∈ Sa, i < r) :
    (Sa ∪ Sb.map (addRightEmbedding r)).sort (· ≤ ·) = Sa.sort (· ≤ ·) ++ (Sb.sort (· ≤ ·)).map (· + r) := by
  apply List.Perm.eq_of_pairwise' (r := (· ≤ ·))
  · exact pairwise_sort _ _
  · rw [List.pairwise_append]
    refine ⟨pairwise_sort _ _, ?_, ?_⟩
    · rw [List.pairwise_map]
      exact (pairwise_sort _ _).imp fun hab => by simpa using hab
    · intro a ha b hb
      rw [mem_sort] at ha
      obtain ⟨c, _, rfl⟩ := List.mem_map.1 hb
      have := h a ha; omega
  · rw [List.perm_ext_iff_of_nodup (sort_nodup _ _)]
    · intro a
      simp
    · rw [List.nodup_append]
      refine ⟨sort_nodup _ _, (sort_nodup _ _).map (add_left_injective r), ?_⟩
      rintro a ha b hb rfl
      rw [mem_sort] at ha
      obtain ⟨c, _, rfl⟩ := List.mem_map.1 hb
      have := h _ ha; omega

theorem rotState_blockDiag (A B : ℕ → ℕ → R) (r m : ℕ) {Sa Sb : Finset ℕ} (h : ∀ i ∈ Sa, i < r) :
    rotState (blockDiag r m A B) (m + m) (Sa ∪ Sb.map (addRightEmbedding r)) =
      (Sa.sort (· ≤ ·)).foldr (creOff 0 m A) ((Sb.sort (· ≤ ·)).foldr (creOff m m B) (ket ∅)) := by
  rw [rotState, sort_union_map h, List.foldr_append, List.foldr_map]
  have h1 : ∀ v : Fock R, ∀ a, creRot (m + m) (fun j i => blockDiag r m A B i j) (a + r) v = creOff m m B a v := by
    intro v a
    rw [creRot_apply, creOff, sum_range_add]
    rw [sum_eq_zero (s := range m), zero_add]
    · apply sum_congr rfl
      intro j _
      simp only [blockDiag, show ¬ a + r < r by omega, show ¬ m + j < m by omega, if_false]
      rw [show a + r - r = a by omega, show m + j - m = j by omega, add_comm m j]
    · intro j hj
      simp only [blockDiag, show ¬ a + r < r by omega, mem_range.1 hj, if_false, if_true, zero_smul]
  have h2 : ∀ v : Fock R, ∀ a < r, creRot (m + m) (fun j i => blockDiag r m A B i j) a v = creOff 0 m A a v := by
    intro v a ha
    rw [creRot_apply, creOff, sum_range_add]
    rw [sum_eq_zero (s := range m) (f := fun x => blockDiag r m A B a (m + x) • creOp (m + x) v), add_zero]
    · apply sum_congr rfl
      intro j hj
      simp only [blockDiag, ha, mem_range.1 hj, if_true]
      rfl
    · intro j hj
      simp only [blockDiag, ha, show ¬ m + j < m by omega, if_false, if_true, zero_smul]
  have h3 : (Sb.sort (· ≤ ·)).foldr (fun a v => creRot (m + m) (fun j i => blockDiag r m A B i j) (a + r) v) (ket ∅ : Fock R) =
      (Sb.sort (· ≤ ·)).foldr (creOff m m B) (ket ∅) := by
    congr 1
    funext a v
    exact h1 v a
  rw [h3]
  have hs : ∀ a ∈ Sa.sort (· ≤ ·), a < r := fun a ha => h a ((mem_sort _).1 ha)
  generalize (Sb.sort (· ≤ ·)).foldr (creOff m m B) (ket ∅) = v
  generalize Sa.sort (· ≤ ·) = l at hs
  induction l with
  | nil => rfl
  | cons a l ih =>
    rw [List.foldr_cons, List.foldr_cons, ih (fun b hb => hs b (List.mem_cons_of_mem _ hb)), h2 _ _ (hs a List.mem_cons_self)]

theorem creOff_add (off n : ℕ) (A : ℕ → ℕ → R) (i : ℕ) (v w : Fock R) :
    creOff off n A i (v + w) = creOff off n A i v + creOff off n A i w := by
  simp [creOff, sum_add_distrib]

theorem creOff_smul (off n : ℕ) (A : ℕ → ℕ → R) (i : ℕ) (c : R) (v : Fock R) :
    creOff off n A i (c • v) = c • creOff off n A i v := by
  simp only [creOff, map_smul, smul_sum]
  exact sum_congr rfl fun j _ => smul_comm ..

theorem foldr_creOff_sum {ι : Type} (off n : ℕ) (A : ℕ → ℕ → R) (rows : List ℕ) (t : Finset ι) (c : ι → R) (v : ι → Fock R) :
    rows.foldr (creOff off n A) (∑ x ∈ t, c x • v x) = ∑ x ∈ t, c x • rows.foldr (creOff off n A) (v x) := by
  induction rows with
  | nil => rfl
  | cons r rs ih =>
    rw [List.foldr_cons, ih]
    simp only [creOff, map_sum, map_smul, smul_sum, List.foldr_cons]
    rw [sum_comm]
    exact sum_congr rfl fun x _ => sum_congr rfl fun j _ => smul_comm ..

/-- Transforming the alpha and beta orbitals separately. -/
theorem transform_blockDiag (A B : ℕ → ℕ → R) (r m : ℕ) (f : Finset ℕ → R) {Sa Sb : Finset ℕ} (h : ∀ i ∈ Sa, i < r) :
    transform (blockDiag r m A B) (m + m) f (Sa ∪ Sb.map (addRightEmbedding r)) =
      transform A m (fun Ta => transform B m (fun Tb => f (Ta ∪ Tb.map (addRightEmbedding m))) Sb) Sa := by
  rw [transform_eq, rotState_blockDiag A B r m h, foldr_creOff B m m _ ∅ (by simp), foldr_creOff_sum]
  have h1 : ∀ Tb ∈ powersetCard (Sb.sort (· ≤ ·)).length (range m),
      (Sa.sort (· ≤ ·)).foldr (creOff 0 m A) (ket (Tb.map (addRightEmbedding m) ∪ ∅) : Fock R) =
      ∑ Ta ∈ powersetCard #Sa (range m), detL A (Sa.sort (· ≤ ·)) (Ta.sort (· ≤ ·)) •
        (ket (Ta ∪ Tb.map (addRightEmbedding m)) : Fock R) := by
    intro Tb _
    rw [foldr_creOff A 0 m _ _ (by simp), length_sort]
    apply sum_congr rfl
    intro Ta _
    congr 2
    ext k; simp
  simp only [map_sum, map_smul]
  rw [length_sort, transform]
  simp only [transform, mul_sum]
  rw [sum_comm]
  apply sum_congr rfl
  intro Tb hTb
  rw [h1 Tb (by rwa [length_sort]), map_sum, smul_sum]
  apply sum_congr rfl
  intro Ta hTa
  rw [mem_powersetCard] at hTa hTb
  rw [map_smul, evalF_ket, smul_eq_mul, smul_eq_mul, minor_eq_detL A hTa.2, minor_eq_detL B hTb.2]
  ring

/-! ## Rotation of two orbitals -/

theorem rotState_fixed {A : ℕ → ℕ → R} {n : ℕ} {S : Finset ℕ} (hS : S ⊆ range n) (h : ∀ i ∈ S, ∀ j < n, A i j = if i = j then 1 else 0) :
    rotState A n S = ket S := by
  have h1 : ∀ a ∈ S, ∀ v : Fock R, creRot n (fun j i => A i j) a v = creOp a v := by
    intro a ha v
    rw [creRot_apply, sum_eq_single a]
    · rw [h a ha a (mem_range.1 (hS ha)), if_pos rfl, one_smul]
    · intro b hb hba
      rw [h a ha b (mem_range.1 hb), if_neg (Ne.symm hba), zero_smul]
    · intro hn; exact absurd (hS ha) hn
  have h2 : ∀ l : List ℕ, (∀ a ∈ l, a ∈ S) → l.foldr (fun a v => creRot n (fun j i => A i j) a v) (ket ∅ : Fock R) =
      l.foldr (fun i v => creOp i v) (ket ∅) := by
    intro l hl
    induction l with
    | nil => rfl
    | cons a l ih =>
      rw [List.foldr_cons, List.foldr_cons, ih (fun b hb => hl b (List.mem_cons_of_mem _ hb)), h1 a (hl a List.mem_cons_self)]
  rw [rotState, h2 _ (fun a ha => (mem_sort _).1 ha), cre_vac, if_pos (sort_nodup _ _), sort_toFinset,
    listSign_sorted (sort_lt S), ket, Int.cast_one]

/-- the sign of moving a particle from `p` to `q` -/
def moveSign (S : Finset ℕ) (p q : ℕ) : ℤ := (-1) ^ #{k ∈ S | (p < k ∧ k ≤ q) ∨ (q ≤ k ∧ k < p)}

theorem phase_mul_phase {S : Finset ℕ} {p q : ℕ} (hp : p ∈ S) (hq : q ∉ S) :
    phase (S.erase p) p * phase (S.erase p) q = moveSign S p q := by
  have hpq : p ≠ q := fun h => hq (h ▸ hp)
  rw [phase, phase, moveSign, ← pow_add]
  rcases lt_or_gt_of_ne hpq with h | h
  · have e : #{k ∈ S.erase p | k < q} = #{k ∈ S.erase p | k < p} + #{k ∈ S | (p < k ∧ k ≤ q) ∨ (q ≤ k ∧ k < p)} := by
      rw [← card_union_of_disjoint]
      · congr 1
        ext k
        simp only [mem_filter, mem_erase, mem_union]
        constructor
        · rintro ⟨⟨h1, h2⟩, h3⟩
          rcases lt_or_gt_of_ne h1 with h4 | h4
          · exact Or.inl ⟨⟨h1, h2⟩, h4⟩
          · exact Or.inr ⟨h2, Or.inl ⟨h4, h3.le⟩⟩
        · rintro (⟨⟨h1, h2⟩, h3⟩ | ⟨h2, h3⟩)
          · exact ⟨⟨h1, h2⟩, by omega⟩
          · have : k ≠ q := fun e => hq (e ▸ h2)
            exact ⟨⟨by omega, h2⟩, by omega⟩
      · rw [disjoint_left]
        intro k hk hk'
        simp only [mem_filter] at hk hk'
        omega
    rw [e, ← add_assoc, pow_add, ← two_mul, pow_mul]
    simp
  · have e : #{k ∈ S.erase p | k < p} = #{k ∈ S.erase p | k < q} + #{k ∈ S | (p < k ∧ k ≤ q) ∨ (q ≤ k ∧ k < p)} := by
      rw [← card_union_of_disjoint]
      · congr 1
        ext k
        simp only [mem_filter, mem_erase, mem_union]
        constructor
        · rintro ⟨⟨h1, h2⟩, h3⟩
          rcases Nat.lt_or_ge k q with h4 | h4
          · exact Or.inl ⟨⟨h1, h2⟩, h4⟩
          · exact Or.inr ⟨h2, Or.inr ⟨h4, h3⟩⟩
        · rintro (⟨⟨h1, h2⟩, h3⟩ | ⟨h2, h3⟩)
          · exact ⟨⟨h1, h2⟩, by omega⟩
          · have : k ≠ q := fun e => hq (e ▸ h2)
            exact ⟨⟨by omega, h2⟩, by omega⟩
      · rw [disjoint_left]
        intro k hk hk'
        simp only [mem_filter] at hk hk'
        omega
    rw [e, add_right_comm, ← two_mul, pow_add, pow_mul]
    simp

/-- the rotation of the orbitals `p` and `q` -/
def rotTwo (c s : R) (p q : ℕ) (f : Finset ℕ → R) (S : Finset ℕ) : R :=
  if p ∈ S then
    if q ∈ S then f S else c * f S + (moveSign S p q : R) * s * f (insert q (S.erase p))
  else if q ∈ S then c * f S - (moveSign S q p : R) * s * f (insert p (S.erase q))
  else f S

theorem creRot_givens_left {c s : R} {p q n : ℕ} (hp : p < n) (hq : q < n) (hpq : p ≠ q) (v : Fock R) :
    creRot n (fun j i => givens c s p q i j) p v = c • creOp p v + s • creOp q v := by
  rw [creRot_apply, sum_eq_add_of_mem p q (mem_range.2 hp) (mem_range.2 hq) hpq]
  · simp [givens, hpq.symm]
  · intro j _ hj
    simp [givens, hj.1, hj.2, Ne.symm hj.1]

theorem creRot_givens_right {c s : R} {p q n : ℕ} (hp : p < n) (hq : q < n) (hpq : p ≠ q) (v : Fock R) :
    creRot n (fun j i => givens c s p q i j) q v = -s • creOp p v + c • creOp q v := by
  rw [creRot_apply, sum_eq_add_of_mem p q (mem_range.2 hp) (mem_range.2 hq) hpq]
  · simp [givens, hpq.symm]
  · intro j _ hj
    simp [givens, hj.1, hj.2, Ne.symm hj.2]

theorem rotState_insert (A : ℕ → ℕ → R) (n : ℕ) {S : Finset ℕ} {j : ℕ} (hj : j ∉ S) :
    rotState A n (insert j S) = ((phase S j : ℤ) : R) • creRot n (fun j i => A i j) j (rotState A n S) := by
  rw [creRot_rotState, if_neg hj, smul_smul, ← Int.cast_mul, phase_sq]
  simp

theorem transform_givens {c s : R} (hcs : c ^ 2 + s ^ 2 = 1) {p q n : ℕ} (hp : p < n) (hq : q < n) (hpq : p ≠ q) (f : Finset ℕ → R)
    {S : Finset ℕ} (hS : S ⊆ range n) : transform (givens c s p q) n f S = rotTwo c s p q f S := by
  have hfix : ∀ T ⊆ range n, p ∉ T → q ∉ T → rotState (givens c s p q) n T = ket T := by
    intro T hT h1 h2
    apply rotState_fixed hT
    intro i hi j _
    have hip : i ≠ p := fun h => h1 (h ▸ hi)
    have hiq : i ≠ q := fun h => h2 (h ▸ hi)
    simp only [givens, hip, hiq, if_false]
    split_ifs <;> simp_all
  rw [transform_eq, rotTwo]
  by_cases h1 : p ∈ S <;> by_cases h2 : q ∈ S
  · simp only [h1, h2, if_true]
    set T := (S.erase p).erase q with hT
    have e1 : S.erase p = insert q T := (insert_erase (mem_erase.2 ⟨hpq.symm, h2⟩)).symm
    have e2 : S = insert p (insert q T) := by rw [← e1, insert_erase h1]
    have hTp : p ∉ T := by simp [T]
    have hTq : q ∉ T := by simp [T]
    have hTn : T ⊆ range n := fun k hk => hS (mem_of_mem_erase (mem_of_mem_erase hk))
    have hpi : p ∉ insert q T := by simp [hTp, hpq]
    rw [e2, rotState_insert _ _ hpi, rotState_insert _ _ hTq, hfix T hTn hTp hTq, map_smul, creRot_givens_right hp hq hpq,
      creRot_givens_left hp hq hpq]
    simp only [map_add, map_smul, creOp_creOp_self, smul_zero, zero_add, add_zero]
    have hc : creOp q (creOp p (ket T : Fock R)) = -creOp p (creOp q (ket T)) := eq_neg_of_add_eq_zero_left (car_cre q p (ket T))
    rw [hc, ← evalF_ket f (insert p (insert q T))]
    have e3 : (ket (insert p (insert q T)) : Fock R) =
        ((phase (insert q T) p : ℤ) : R) • ((phase T q : ℤ) : R) • creOp p (creOp q (ket T)) := by
      rw [ket, ket, creOp_single, if_neg hTq, creOp_single, if_neg hpi, Finsupp.smul_single, Finsupp.smul_single]
      congr 1
      have a1 : ((phase T q : ℤ) : R) * (phase T q : ℤ) = 1 := by rw [← Int.cast_mul, phase_sq]; simp
      have a2 : ((phase (insert q T) p : ℤ) : R) * (phase (insert q T) p : ℤ) = 1 := by rw [← Int.cast_mul, phase_sq]; simp
      simp only [smul_eq_mul]
      linear_combination (-1 : R) * a1 * ((phase (insert q T) p : ℤ) : R) ^ 2 - a2
    rw [e3]
    simp only [map_smul, map_neg, smul_eq_mul]
    linear_combination (((phase (insert q T) p : ℤ) : R) * ((phase T q : ℤ) : R) * evalF f (creOp p (creOp q (ket T)))) * hcs
  · simp only [h1, h2, if_true, if_false]
    have hT1 : p ∉ S.erase p := notMem_erase _ _
    have hT2 : q ∉ S.erase p := fun h => h2 (mem_of_mem_erase h)
    have e : rotState (givens c s p q) n S = rotState (givens c s p q) n (insert p (S.erase p)) := by rw [insert_erase h1]
    rw [e, rotState_insert _ _ hT1, hfix _ (fun k hk => hS (mem_of_mem_erase hk)) hT1 hT2, creRot_givens_left hp hq hpq, ket,
      creOp_single, creOp_single, if_neg hT1, if_neg hT2, ← phase_mul_phase h1 h2, insert_erase h1]
    have a1 : ((phase (S.erase p) p : ℤ) : R) * (phase (S.erase p) p : ℤ) = 1 := by rw [← Int.cast_mul, phase_sq]; simp
    simp only [evalF, map_smul, map_add, Finsupp.linearCombination_single, smul_eq_mul]
    push_cast
    linear_combination c * f S * a1
  · simp only [h1, h2, if_true, if_false]
    have hT1 : q ∉ S.erase q := notMem_erase _ _
    have hT2 : p ∉ S.erase q := fun h => h1 (mem_of_mem_erase h)
    have e : rotState (givens c s p q) n S = rotState (givens c s p q) n (insert q (S.erase q)) := by rw [insert_erase h2]
    rw [e, rotState_insert _ _ hT1, hfix _ (fun k hk => hS (mem_of_mem_erase hk)) hT2 hT1, creRot_givens_right hp hq hpq, ket,
      creOp_single, creOp_single, if_neg hT1, if_neg hT2, ← phase_mul_phase h2 h1, insert_erase h2]
    have a1 : ((phase (S.erase q) q : ℤ) : R) * (phase (S.erase q) q : ℤ) = 1 := by rw [← Int.cast_mul, phase_sq]; simp
    simp only [evalF, map_smul, map_add, Finsupp.linearCombination_single, smul_eq_mul]
    push_cast
    linear_combination c * f S * a1
  · simp only [h1, h2, if_false]
    rw [hfix S hS h1 h2, evalF_ket]

end Fanpy.Spec
