import Verif.Spec.Geminal
import Verif.Lemmas.Sign
import Verif.Lemmas.Matching
import Mathlib.Algebra.BigOperators.Fin
import Mathlib.Data.Fin.Tuple.Basic
import Mathlib.Logic.Equiv.Fin.Basic
import Mathlib.Data.Fintype.Perm

/-! # Coefficients of products of geminals -/

namespace Fanpy.Spec
open Fanpy.Graphs

variable {R : Type*} [CommRing R]

/-- `a†_{i_1} a†_{i_2} ⋯ |vac⟩` -/
theorem cre_vac (l : List ℕ) : l.foldr (fun i v => creOp i v) (ket ∅ : Fock R) =
    if l.Nodup then Finsupp.single l.toFinset ((listSign l : ℤ) : R) else 0 := by
  induction l with
  | nil => simp [listSign, ket]
  | cons a l ih =>
    rw [List.foldr_cons, ih]
    by_cases hn : l.Nodup
    · rw [if_pos hn, creOp_single]
      by_cases ha : a ∈ l
      · rw [if_pos (by simpa using ha), if_neg (by simp [ha])]
      · rw [if_neg (by simpa using ha), if_pos (List.nodup_cons.2 ⟨ha, hn⟩), List.toFinset_cons]
        congr 1
        rw [listSign, ← Int.cast_mul, mul_comm]
        congr 2
        rw [phase, ← List.prod_toFinset _ hn, ← Finset.prod_filter_mul_prod_filter_not _ (· < a)]
        rw [Finset.prod_congr rfl (g := fun _ => (-1 : ℤ)) (fun x hx => by simp [(Finset.mem_filter.1 hx).2]),
          Finset.prod_const, Finset.prod_congr (g := fun _ => (1 : ℤ)) rfl
            (fun x hx => by simp only [if_neg (Finset.mem_filter.1 hx).2]), Finset.prod_const_one, mul_one]
    · rw [if_neg hn, if_neg (by simp [hn]), map_zero]

theorem gemOp_fin (pairs : List (ℕ × ℕ)) (w : ℕ → R) (v : Fock R) :
    gemOp pairs w v = ∑ c : Fin pairs.length, w c • creOp (pairs.get c).1 (creOp (pairs.get c).2 v) := by
  rw [gemOp, LinearMap.sum_apply, Finset.sum_range]
  apply Finset.sum_congr rfl
  intro c _
  simp

theorem gemProd_expand (pairs : List (ℕ × ℕ)) (C : ℕ → ℕ → R) (k : ℕ) (r : Fin k → ℕ) :
    gemProd pairs C (List.ofFn r) = ∑ f : Fin k → Fin pairs.length, (∏ i, C (r i) (f i)) •
      (flatPairs (List.ofFn fun i => pairs.get (f i))).foldr (fun i v => creOp i v) (ket ∅) := by
  induction k with
  | zero => simp [gemProd, flatPairs]
  | succ k ih =>
    rw [List.ofFn_succ, gemProd, List.foldr_cons, ← gemProd, ih, gemOp_fin,
      ← (Fin.consEquiv fun _ : Fin (k + 1) => Fin pairs.length).sum_comp, Fintype.sum_prod_type]
    apply Finset.sum_congr rfl
    intro c _
    rw [map_sum, map_sum, Finset.smul_sum]
    apply Finset.sum_congr rfl
    intro f _
    rw [map_smul, map_smul, smul_smul, Fin.prod_univ_succ, List.ofFn_succ, flatPairs_cons]
    simp [Fin.consEquiv]

/-- exchanging pairs does not change the sign -/
theorem listSign_flatPairs_perm {S T : Scheme} (h : S.Perm T) (hn : (flatPairs S).Nodup) :
    listSign (flatPairs S) = listSign (flatPairs T) := by
  induction h with
  | nil => rfl
  | cons p h ih =>
    rw [flatPairs_cons] at hn ⊢
    have hp : (flatPairs _).Perm (flatPairs _) := List.Perm.flatMap_right (fun p : ℕ × ℕ => [p.1, p.2]) h
    rw [flatPairs_cons]
    rw [listSign, listSign, ih hn.of_cons.of_cons, listSign, listSign]
    congr 1
    · exact ((hp.cons p.2).map _).prod_eq
    · congr 1; exact (hp.map _).prod_eq
  | swap p q S =>
    simp only [flatPairs_cons, List.nodup_cons, List.mem_cons, not_or] at hn ⊢
    obtain ⟨a, b⟩ := p; obtain ⟨c, d⟩ := q
    simp only at hn ⊢
    simp only [listSign, List.map_cons, List.prod_cons]
    have e : ∀ x y : ℕ, x ≠ y → (if x < y then (-1 : ℤ) else 1) = -(if y < x then (-1 : ℤ) else 1) := by
      intro x y h
      rcases lt_or_gt_of_ne h with h | h
      · rw [if_pos h, if_neg (by omega)]
      · rw [if_neg (by omega), if_pos h]; rfl
    rw [e a c (by tauto), e a d (by tauto), e b c (by tauto), e b d (by tauto)]
    ring
  | trans h1 h2 ih1 ih2 =>
    rw [ih1 hn, ih2 ((List.Perm.nodup_iff (List.Perm.flatMap_right (fun p : ℕ × ℕ => [p.1, p.2]) h1)).1 hn)]

/-- The schemes `out` are the ways to write the set `s` with the given pairs, each listed once and with its sign. -/
structure Covers (pairs : List (ℕ × ℕ)) (s : Finset ℕ) (k : ℕ) (out : List (Scheme × ℤ)) : Prop where
  sub : ∀ o ∈ out, ∀ p ∈ o.1, p ∈ pairs
  flat : ∀ o ∈ out, (flatPairs o.1).Nodup
  occ : ∀ o ∈ out, (flatPairs o.1).toFinset = s
  len : ∀ o ∈ out, o.1.length = k
  sign : ∀ o ∈ out, o.2 = listSign (flatPairs o.1)
  once : (out.map fun o => o.1.toFinset).Nodup
  all : ∀ S : Scheme, (∀ p ∈ S, p ∈ pairs) → (flatPairs S).Nodup → (flatPairs S).toFinset = s →
    ∃ o ∈ out, o.1.toFinset = S.toFinset

theorem nodup_of_flatPairs {S : Scheme} (h : (flatPairs S).Nodup) : S.Nodup := by
  induction S with
  | nil => simp
  | cons p S ih =>
    rw [flatPairs_cons, List.nodup_cons] at h
    rw [List.nodup_cons]
    refine ⟨fun hp => h.1 ?_, ih h.2.of_cons⟩
    rw [List.mem_cons]; right
    rw [flatPairs, List.mem_flatMap]
    exact ⟨p, hp, by simp⟩

theorem gemProd_coeff {pairs : List (ℕ × ℕ)} (hp : pairs.Nodup) (C : ℕ → ℕ → R) {s : Finset ℕ} {k : ℕ}
    {out : List (Scheme × ℤ)} (h : Covers pairs s k out) (r : Fin k → ℕ) :
    gemProd pairs C (List.ofFn r) s = (out.map fun o => (o.2 : R) * ∑ σ : Equiv.Perm (Fin k),
      ∏ i, C (r i) (pairs.idxOf (o.1.getD (σ i) (0, 0)))).sum := by
  have hout : out.Nodup := List.Nodup.of_map _ h.once
  rw [← List.sum_toFinset _ hout, gemProd_expand, Finsupp.finsetSum_apply]
  simp_rw [Finsupp.smul_apply, cre_vac, Finset.mul_sum]
  rw [← Finset.sum_product']
  have hlt : ∀ o ∈ out, ∀ i : Fin k, pairs.idxOf (o.1.getD i (0, 0)) < pairs.length := by
    intro o ho i
    apply List.idxOf_lt_length_of_mem
    apply h.sub o ho
    rw [List.getD_eq_getElem _ _ (by rw [h.len o ho]; exact i.2)]
    exact List.getElem_mem _
  have hget : ∀ (o : Scheme × ℤ) (ho : o ∈ out) (σ : Equiv.Perm (Fin k)),
      (List.ofFn fun i => pairs.get ⟨pairs.idxOf (o.1.getD (σ i) (0, 0)), hlt o ho (σ i)⟩).Perm o.1 := by
    intro o ho σ
    have e1 : o.1 = List.ofFn fun i : Fin k => o.1.getD i (0, 0) := by
      apply List.ext_getElem
      · simp [h.len o ho]
      · intro n h1 h2; simp [h1]
    conv_rhs => rw [e1]
    have e2 : (fun i => pairs.get ⟨pairs.idxOf (o.1.getD (σ i) (0, 0)), hlt o ho (σ i)⟩) =
        (fun i : Fin k => o.1.getD i (0, 0)) ∘ σ := by
      funext i; simp [List.get_eq_getElem]
    rw [e2]
    exact Equiv.Perm.ofFn_comp_perm σ _
  have hval : ∀ (o : Scheme × ℤ) (ho : o ∈ out) (σ : Equiv.Perm (Fin k)),
      (o.2 : R) * ∏ i, C (r i) (pairs.idxOf (o.1.getD (σ i) (0, 0))) =
      (∏ i, C (r i) (pairs.idxOf (o.1.getD (σ i) (0, 0)))) •
        (if (flatPairs (List.ofFn fun i => pairs.get ⟨pairs.idxOf (o.1.getD (σ i) (0, 0)), hlt o ho (σ i)⟩)).Nodup then
          Finsupp.single (flatPairs (List.ofFn fun i =>
              pairs.get ⟨pairs.idxOf (o.1.getD (σ i) (0, 0)), hlt o ho (σ i)⟩)).toFinset
            ((listSign (flatPairs (List.ofFn fun i =>
              pairs.get ⟨pairs.idxOf (o.1.getD (σ i) (0, 0)), hlt o ho (σ i)⟩)) : ℤ) : R) else 0) s := by
    intro o ho σ
    have p1 := hget o ho σ
    have p2 : (flatPairs (List.ofFn fun i => pairs.get ⟨pairs.idxOf (o.1.getD (σ i) (0, 0)), hlt o ho (σ i)⟩)).Perm
        (flatPairs o.1) := List.Perm.flatMap_right (fun p : ℕ × ℕ => [p.1, p.2]) p1
    rw [if_pos ((List.Perm.nodup_iff p2).2 (h.flat o ho)), Finsupp.single_apply, if_pos, h.sign o ho,
      listSign_flatPairs_perm p1 ((List.Perm.nodup_iff p2).2 (h.flat o ho)), smul_eq_mul, mul_comm]
    rw [← h.occ o ho]
    exact List.toFinset_eq_of_perm _ _ p2
  symm
  apply Finset.sum_bij_ne_zero
    (fun x hx _ => fun i => (⟨pairs.idxOf (x.1.1.getD (x.2 i) (0, 0)),
      hlt x.1 (by simpa using (Finset.mem_product.1 hx).1) (x.2 i)⟩ : Fin pairs.length))
  · intro _ _ _; exact Finset.mem_univ _
  · rintro ⟨o, σ⟩ hx - ⟨o', σ'⟩ hx' - he
    have ho : o ∈ out := by simpa using (Finset.mem_product.1 hx).1
    have ho' : o' ∈ out := by simpa using (Finset.mem_product.1 hx').1
    have p1 := hget o ho σ
    have p2 := hget o' ho' σ'
    have he' := fun i => congrFun he i
    simp only at he'
    simp_rw [he'] at p1
    have : o = o' := List.inj_on_of_nodup_map h.once ho ho' (List.toFinset_eq_of_perm _ _ (p1.symm.trans p2))
    subst this
    congr 1
    ext i
    have := he' i
    rw [Fin.mk.injEq] at this
    have e3 : ∀ j : Fin k, o.1.getD j (0, 0) = pairs.getD (pairs.idxOf (o.1.getD j (0, 0))) (0, 0) := by
      intro j; rw [List.getD_eq_getElem _ _ (hlt o ho j)]; simp
    have e4 : o.1.getD (σ i) (0, 0) = o.1.getD (σ' i) (0, 0) := by
      rw [e3, this, ← e3]
    rw [List.getD_eq_getElem _ _ (by rw [h.len o ho]; exact (σ i).2),
      List.getD_eq_getElem _ _ (by rw [h.len o ho]; exact (σ' i).2)] at e4
    exact ((nodup_of_flatPairs (h.flat o ho)).getElem_inj_iff).1 e4
  · intro f _ hf
    by_cases hn : (flatPairs (List.ofFn fun i => pairs.get (f i))).Nodup
    · rw [if_pos hn, Finsupp.single_apply] at hf
      by_cases hs : (flatPairs (List.ofFn fun i => pairs.get (f i))).toFinset = s
      · obtain ⟨o, ho, hoT⟩ := h.all _ (fun p hp' => by
          obtain ⟨i, rfl⟩ := (List.mem_ofFn' _ _).1 hp'
          exact List.get_mem _ _) hn hs
        have hTn := nodup_of_flatPairs hn
        have hmem : ∀ i, pairs.get (f i) ∈ o.1 := by
          intro i
          rw [← List.mem_toFinset, hoT, List.mem_toFinset]
          exact (List.mem_ofFn' _ _).2 ⟨i, rfl⟩
        let σ0 : Fin k → Fin k := fun i => ⟨o.1.idxOf (pairs.get (f i)), by
          rw [← h.len o ho]; exact List.idxOf_lt_length_of_mem (hmem i)⟩
        have hinj : Function.Injective σ0 := by
          intro i j hij
          have e := congrArg Fin.val hij
          have e' : pairs.get (f i) = pairs.get (f j) := (List.idxOf_inj (hmem i)).1 e
          exact (List.nodup_ofFn.1 hTn) e'
        let σ : Equiv.Perm (Fin k) := Equiv.ofBijective σ0 (Finite.injective_iff_bijective.1 hinj)
        have hσ : ∀ i, o.1.getD (σ i) (0, 0) = pairs.get (f i) := by
          intro i
          have hl : o.1.idxOf (pairs.get (f i)) < o.1.length := List.idxOf_lt_length_of_mem (hmem i)
          change o.1.getD (o.1.idxOf (pairs.get (f i))) (0, 0) = _
          rw [List.getD_eq_getElem _ _ hl]; exact List.getElem_idxOf hl
        have hf' : (fun i => (⟨pairs.idxOf (o.1.getD (σ i) (0, 0)), hlt o ho (σ i)⟩ : Fin pairs.length)) = f := by
          funext i
          apply Fin.ext
          simp only [hσ]
          exact hp.idxOf_getElem _ _
        refine ⟨(o, σ), by simpa using ho, ?_, hf'⟩
        rw [hval o ho σ]
        have e1 : (fun i => pairs.get ⟨pairs.idxOf (o.1.getD (σ i) (0, 0)), hlt o ho (σ i)⟩) =
            fun i => pairs.get (f i) := funext fun i => congrArg pairs.get (congrFun hf' i)
        have e2 : ∀ i, pairs.idxOf (o.1.getD (σ i) (0, 0)) = f i := fun i => congrArg Fin.val (congrFun hf' i)
        rw [e1, if_pos hn, Finsupp.single_apply]
        simp_rw [e2]
        exact hf
      · exact absurd (by rw [if_neg hs, smul_zero]) hf
    · exact absurd (by rw [if_neg hn]; simp) hf
  · rintro ⟨o, σ⟩ hx -
    exact hval o (by simpa using (Finset.mem_product.1 hx).1) σ

/-- an injection is a set of values together with an arrangement of them -/
theorem sum_subsets_perms (n k : ℕ) (F : (Fin k → ℕ) → R) :
    ∑ S ∈ (Finset.range n).powersetCard k, ∑ σ : Equiv.Perm (Fin k), F (fun j => (S.sort (· ≤ ·)).getD (σ j) 0) =
      ∑ e : Fin k ↪ Fin n, F fun j => e j := by
  rw [← Finset.sum_product']
  have hlen : ∀ S ∈ (Finset.range n).powersetCard k, (S.sort (· ≤ ·)).length = k := by
    intro S hS; rw [Finset.length_sort]; exact (Finset.mem_powersetCard.1 hS).2
  have hmem : ∀ S ∈ (Finset.range n).powersetCard k, ∀ j : Fin k, (S.sort (· ≤ ·)).getD j 0 ∈ S := by
    intro S hS j
    rw [← Finset.mem_sort (· ≤ ·), List.getD_eq_getElem _ _ (by rw [hlen S hS]; exact j.2)]
    exact List.getElem_mem _
  have hlt : ∀ S ∈ (Finset.range n).powersetCard k, ∀ j : Fin k, (S.sort (· ≤ ·)).getD j 0 < n := by
    intro S hS j
    exact Finset.mem_range.1 ((Finset.mem_powersetCard.1 hS).1 (hmem S hS j))
  have hinj : ∀ S ∈ (Finset.range n).powersetCard k, ∀ i j : Fin k,
      (S.sort (· ≤ ·)).getD i 0 = (S.sort (· ≤ ·)).getD j 0 → i = j := by
    intro S hS i j h
    rw [List.getD_eq_getElem _ _ (by rw [hlen S hS]; exact i.2),
      List.getD_eq_getElem _ _ (by rw [hlen S hS]; exact j.2)] at h
    exact Fin.ext (((Finset.sort_nodup S (· ≤ ·)).getElem_inj_iff).1 h)
  have himg : ∀ S (hS : S ∈ (Finset.range n).powersetCard k) (σ : Equiv.Perm (Fin k)),
      Finset.univ.image (fun j => (S.sort (· ≤ ·)).getD (σ j) 0) = S := by
    intro S hS σ
    apply Finset.eq_of_subset_of_card_le
    · intro x hx
      obtain ⟨j, -, rfl⟩ := Finset.mem_image.1 hx
      exact hmem S hS _
    · rw [Finset.card_image_of_injective _ (fun i j h => σ.injective (hinj S hS _ _ h)), Finset.card_univ,
        Fintype.card_fin, (Finset.mem_powersetCard.1 hS).2]
  apply Finset.sum_bij
    (fun (x : Finset ℕ × Equiv.Perm (Fin k)) hx => (⟨fun j => ⟨(x.1.sort (· ≤ ·)).getD (x.2 j) 0, hlt x.1 (Finset.mem_product.1 hx).1 (x.2 j)⟩, by
      intro i j h
      exact x.2.injective (hinj x.1 (Finset.mem_product.1 hx).1 _ _ (congrArg Fin.val h))⟩ : Fin k ↪ Fin n))
  · intro _ _; exact Finset.mem_univ _
  · rintro ⟨S, σ⟩ hS ⟨T, τ⟩ hT he
    have he' : ∀ j, (S.sort (· ≤ ·)).getD (σ j) 0 = (T.sort (· ≤ ·)).getD (τ j) 0 := fun j =>
      congrArg Fin.val (DFunLike.congr_fun he j)
    have : S = T := by
      rw [← himg S (Finset.mem_product.1 hS).1 σ, ← himg T (Finset.mem_product.1 hT).1 τ]
      simp_rw [he']
    subst this
    congr 1
    ext1 j
    exact hinj S (Finset.mem_product.1 hS).1 _ _ (he' j)
  · intro e _
    have hc : (Finset.univ.image fun j => (e j : ℕ)).card = k := by
      rw [Finset.card_image_of_injective _ (fun i j h => e.injective (Fin.ext h)), Finset.card_univ, Fintype.card_fin]
    have hS : (Finset.univ.image fun j => (e j : ℕ)) ∈ (Finset.range n).powersetCard k := by
      rw [Finset.mem_powersetCard]
      refine ⟨?_, hc⟩
      intro x hx
      obtain ⟨j, -, rfl⟩ := Finset.mem_image.1 hx
      exact Finset.mem_range.2 (e j).2
    generalize hSd : (Finset.univ.image fun j => (e j : ℕ)) = S at *
    have hm : ∀ j, (e j : ℕ) ∈ S.sort (· ≤ ·) := by
      intro j; rw [Finset.mem_sort, ← hSd]; exact Finset.mem_image_of_mem _ (Finset.mem_univ _)
    let σ0 : Fin k → Fin k := fun j => ⟨(S.sort (· ≤ ·)).idxOf (e j : ℕ), by
      exact lt_of_lt_of_eq (List.idxOf_lt_length_of_mem (hm j)) (hlen S hS)⟩
    have hσ0 : Function.Injective σ0 := by
      intro i j h
      exact e.injective (Fin.ext ((List.idxOf_inj (hm i)).1 (congrArg Fin.val h)))
    refine ⟨(S, Equiv.ofBijective σ0 (Finite.injective_iff_bijective.1 hσ0)), by simp [hS], ?_⟩
    ext j
    change (S.sort (· ≤ ·)).getD ((S.sort (· ≤ ·)).idxOf (e j : ℕ)) 0 = e j
    rw [List.getD_eq_getElem _ _ (List.idxOf_lt_length_of_mem (hm j))]
    exact List.getElem_idxOf _
  · rintro ⟨S, σ⟩ _
    rfl

/-- only determinants of `2 k` electrons occur -/
theorem gemState_card (pairs : List (ℕ × ℕ)) (C : ℕ → ℕ → R) (n k : ℕ) {s : Finset ℕ} (h : s.card ≠ 2 * k) :
    gemState pairs C n k s = 0 := by
  rw [gemState, Finsupp.finsetSum_apply]
  apply Finset.sum_eq_zero
  intro S hS
  have hl : (S.sort (· ≤ ·)).length = k := by rw [Finset.length_sort]; exact (Finset.mem_powersetCard.1 hS).2
  have e1 : S.sort (· ≤ ·) = List.ofFn fun i : Fin k => (S.sort (· ≤ ·)).getD i 0 := by
    apply List.ext_getElem
    · rw [List.length_ofFn, hl]
    · intro m h1 h2; rw [List.getElem_ofFn, List.getD_eq_getElem _ _ h1]
  rw [e1, gemProd_expand, Finsupp.finsetSum_apply]
  apply Finset.sum_eq_zero
  intro f _
  rw [Finsupp.smul_apply, cre_vac]
  split_ifs with hn
  · rw [Finsupp.single_apply, if_neg, smul_zero]
    intro hs
    apply h
    rw [← hs, List.toFinset_card_of_nodup hn, flatPairs, List.length_flatMap]
    simp [mul_comm, Function.comp_def]
  · simp

/-- The coefficient of a determinant in the geminal state is the signed sum over the pairing schemes of the permanents
of the matrix of the columns of the pairs. -/
theorem gemState_coeff {pairs : List (ℕ × ℕ)} (hp : pairs.Nodup) (C : ℕ → ℕ → R) {s : Finset ℕ} {k : ℕ}
    {out : List (Scheme × ℤ)} (h : Covers pairs s k out) (n : ℕ) :
    gemState pairs C n k s = (out.map fun o => (o.2 : R) * ∑ e : Fin k ↪ Fin n,
      ∏ j, C (e j) (pairs.idxOf (o.1.getD j (0, 0)))).sum := by
  have hout : out.Nodup := List.Nodup.of_map _ h.once
  rw [gemState, Finsupp.finsetSum_apply, ← List.sum_toFinset _ hout]
  have h1 : ∀ S ∈ (Finset.range n).powersetCard k, gemProd pairs C (S.sort (· ≤ ·)) s =
      ∑ o ∈ out.toFinset, (o.2 : R) * ∑ σ : Equiv.Perm (Fin k),
        ∏ j, C ((S.sort (· ≤ ·)).getD (σ j) 0) (pairs.idxOf (o.1.getD j (0, 0))) := by
    intro S hS
    have hl : (S.sort (· ≤ ·)).length = k := by rw [Finset.length_sort]; exact (Finset.mem_powersetCard.1 hS).2
    have e1 : S.sort (· ≤ ·) = List.ofFn fun i : Fin k => (S.sort (· ≤ ·)).getD i 0 := by
      apply List.ext_getElem
      · rw [List.length_ofFn, hl]
      · intro m h1 h2; rw [List.getElem_ofFn, List.getD_eq_getElem _ _ h1]
    conv_lhs => rw [e1]
    rw [gemProd_coeff hp C h, ← List.sum_toFinset _ hout]
    apply Finset.sum_congr rfl
    intro o _
    congr 1
    rw [← Equiv.sum_comp (Equiv.inv (Equiv.Perm (Fin k)))]
    apply Finset.sum_congr rfl
    intro σ _
    rw [← Equiv.prod_comp σ]
    simp
  rw [Finset.sum_congr rfl h1, Finset.sum_comm]
  apply Finset.sum_congr rfl
  intro o _
  rw [← Finset.mul_sum, ← sum_subsets_perms n k
    (fun x => ∏ j, C (x j) (pairs.idxOf (o.1.getD j (0, 0))))]

end Fanpy.Spec
