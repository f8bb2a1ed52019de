import Verif.Spec.Blocks
import Verif.Lemmas.Geminal

/-! # Coefficients of products of quasiparticles with an even number of electrons -/

namespace Fanpy.Spec

open Fanpy.Slater

variable {R : Type*} [CommRing R]

theorem creProd_apply (l : List ℕ) (v : Fock R) : creProd l v = l.foldr (fun i v => creOp i v) v := by
  induction l with
  | nil => rfl
  | cons a l ih => rw [List.foldr_cons, ← ih]; rfl

theorem blockOp_fin (subsets : List (List ℕ)) (w : ℕ → R) (v : Fock R) :
    blockOp subsets w v = ∑ c : Fin subsets.length, w c • creProd (subsets.get c) v := by
  rw [blockOp, LinearMap.sum_apply, Finset.sum_range]
  apply Finset.sum_congr rfl
  intro c _
  simp

theorem blockProd_expand (subsets : List (List ℕ)) (C : ℕ → ℕ → R) (k : ℕ) (r : Fin k → ℕ) :
    blockProd subsets C (List.ofFn r) = ∑ f : Fin k → Fin subsets.length, (∏ i, C (r i) (f i)) •
      ((List.ofFn fun i => subsets.get (f i)).flatten).foldr (fun i v => creOp i v) (ket ∅) := by
  induction k with
  | zero => simp [blockProd]
  | succ k ih =>
    rw [List.ofFn_succ, blockProd, List.foldr_cons, ← blockProd, ih, blockOp_fin,
      ← (Fin.consEquiv fun _ : Fin (k + 1) => Fin subsets.length).sum_comp, Fintype.sum_prod_type]
    apply Finset.sum_congr rfl
    intro c _
    rw [map_sum, Finset.smul_sum]
    apply Finset.sum_congr rfl
    intro f _
    rw [map_smul, smul_smul, Fin.prod_univ_succ, List.ofFn_succ, List.flatten_cons, List.foldr_append, creProd_apply]
    simp [Fin.consEquiv]

theorem crossSign_comm {l m : List ℕ} (h : ∀ x ∈ l, x ∉ m) : crossSign l m = (-1) ^ (l.length * m.length) * crossSign m l := by
  induction l with
  | nil => simp [crossSign]
  | cons a l ih =>
    have hl := ih fun x hx => h x (List.mem_cons_of_mem _ hx)
    have ha : ∀ y ∈ m, a ≠ y := fun y hy e => h a (List.mem_cons_self ..) (e ▸ hy)
    have h1 : crossSign [a] m = (-1) ^ m.length * crossSign m [a] := by
      clear hl ih h
      induction m with
      | nil => simp [crossSign]
      | cons b m ih =>
        have e : crossSign [a] [b] = - crossSign [b] [a] := by
          have := ha b (List.mem_cons_self ..)
          simp only [crossSign, List.map_cons, List.map_nil, List.prod_cons, List.prod_nil, mul_one]
          rcases lt_or_gt_of_ne this with h | h
          · rw [if_neg (by omega), if_pos h]; rfl
          · rw [if_pos h, if_neg (by omega)]
        rw [← List.singleton_append (x := b), crossSign_append_right, crossSign_append_left (l := [b]),
          ih fun y hy => ha y (List.mem_cons_of_mem _ hy), e]
        simp [pow_succ]
        ring
    rw [← List.singleton_append, crossSign_append_left, crossSign_append_right, hl, h1]
    simp only [List.length_append, List.length_singleton]
    rw [show (1 + l.length) * m.length = m.length + l.length * m.length by ring, pow_add]
    ring

/-- exchanging blocks of even length does not change the sign -/
theorem listSign_flatten_perm {S T : List (List ℕ)} (h : S.Perm T) (he : ∀ b ∈ S, Even b.length) (hn : S.flatten.Nodup) :
    listSign S.flatten = listSign T.flatten := by
  induction h with
  | nil => rfl
  | cons p h ih =>
    rw [List.flatten_cons] at hn ⊢
    rw [List.flatten_cons, listSign_append, listSign_append, ih (fun b hb => he b (List.mem_cons_of_mem _ hb))
      (List.nodup_append.1 hn).2.1, crossSign_perm_right _ h.flatten]
  | swap p q S =>
    simp only [List.flatten_cons] at hn ⊢
    rw [listSign_append, listSign_append, listSign_append, listSign_append]
    have hd : ∀ x ∈ q, x ∉ p := by
      intro x hx hp
      have := (List.nodup_append.1 hn).2.2 x hx x (List.mem_append_left _ hp)
      exact this rfl
    rw [crossSign_append_right, crossSign_append_right, crossSign_comm hd]
    have : Even (q.length * p.length) := (he q (by simp)).mul_right _
    rw [this.neg_one_pow]
    ring
  | trans h1 h2 ih1 ih2 =>
    rw [ih1 he hn, ih2 (fun b hb => he b (h1.mem_iff.2 hb)) ((List.Perm.nodup_iff h1.flatten).1 hn)]

/-- The lists `out` are the ways to write the set `s` with the given subsets, each listed once. -/
structure BlockCovers (subsets : List (List ℕ)) (s : Finset ℕ) (k : ℕ) (out : List (List (List ℕ))) : Prop where
  sub : ∀ o ∈ out, ∀ p ∈ o, p ∈ subsets
  flat : ∀ o ∈ out, o.flatten.Nodup
  occ : ∀ o ∈ out, o.flatten.toFinset = s
  len : ∀ o ∈ out, o.length = k
  once : (out.map fun o => o.toFinset).Nodup
  all : ∀ S : List (List ℕ), (∀ p ∈ S, p ∈ subsets) → S.flatten.Nodup → S.flatten.toFinset = s →
    ∃ o ∈ out, o.toFinset = S.toFinset

theorem nodup_of_flatten {S : List (List ℕ)} (h0 : ∀ b ∈ S, b ≠ []) (h : S.flatten.Nodup) : S.Nodup := by
  induction S with
  | nil => simp
  | cons p S ih =>
    rw [List.flatten_cons, List.nodup_append] at h
    rw [List.nodup_cons]
    refine ⟨fun hp => ?_, ih (fun b hb => h0 b (List.mem_cons_of_mem _ hb)) h.2.1⟩
    obtain ⟨x, hx⟩ := List.exists_mem_of_ne_nil p (h0 p (List.mem_cons_self ..))
    exact h.2.2 x hx x (List.mem_flatten.2 ⟨p, hp, hx⟩) rfl

theorem blockProd_coeff {subsets : List (List ℕ)} (hp : subsets.Nodup) (hev : ∀ b ∈ subsets, Even b.length)
    (h0 : ∀ b ∈ subsets, b ≠ []) (C : ℕ → ℕ → R) {s : Finset ℕ} {k : ℕ}
    {out : List (List (List ℕ))} (h : BlockCovers subsets s k out) (r : Fin k → ℕ) :
    blockProd subsets C (List.ofFn r) s = (out.map fun o => ((listSign o.flatten : ℤ) : R) * ∑ σ : Equiv.Perm (Fin k),
      ∏ i, C (r i) (subsets.idxOf (o.getD (σ i) []))).sum := by
  have hout : out.Nodup := List.Nodup.of_map _ h.once
  rw [← List.sum_toFinset _ hout, blockProd_expand, Finsupp.finsetSum_apply]
  simp_rw [Finsupp.smul_apply, cre_vac, Finset.mul_sum]
  rw [← Finset.sum_product']
  have hlt : ∀ o ∈ out, ∀ i : Fin k, subsets.idxOf (o.getD i []) < subsets.length := by
    intro o ho i
    apply List.idxOf_lt_length_of_mem
    apply h.sub o ho
    rw [List.getD_eq_getElem _ _ (by rw [h.len o ho]; exact i.2)]
    exact List.getElem_mem _
  have hget : ∀ (o : List (List ℕ)) (ho : o ∈ out) (σ : Equiv.Perm (Fin k)),
      (List.ofFn fun i => subsets.get ⟨subsets.idxOf (o.getD (σ i) []), hlt o ho (σ i)⟩).Perm o := by
    intro o ho σ
    have e1 : o = List.ofFn fun i : Fin k => o.getD i [] := by
      apply List.ext_getElem
      · simp [h.len o ho]
      · intro n h1 h2; simp [h1]
    conv_rhs => rw [e1]
    have e2 : (fun i => subsets.get ⟨subsets.idxOf (o.getD (σ i) []), hlt o ho (σ i)⟩) =
        (fun i : Fin k => o.getD i []) ∘ σ := by
      funext i; simp [List.get_eq_getElem]
    rw [e2]
    exact Equiv.Perm.ofFn_comp_perm σ _
  have hval : ∀ (o : List (List ℕ)) (ho : o ∈ out) (σ : Equiv.Perm (Fin k)),
      ((listSign o.flatten : ℤ) : R) * ∏ i, C (r i) (subsets.idxOf (o.getD (σ i) [])) =
      (∏ i, C (r i) (subsets.idxOf (o.getD (σ i) []))) •
        (if ((List.ofFn fun i => subsets.get ⟨subsets.idxOf (o.getD (σ i) []), hlt o ho (σ i)⟩).flatten).Nodup then
          Finsupp.single ((List.ofFn fun i =>
              subsets.get ⟨subsets.idxOf (o.getD (σ i) []), hlt o ho (σ i)⟩).flatten).toFinset
            ((listSign ((List.ofFn fun i =>
              subsets.get ⟨subsets.idxOf (o.getD (σ i) []), hlt o ho (σ i)⟩).flatten) : ℤ) : R) else 0) s := by
    intro o ho σ
    have p1 := hget o ho σ
    have p2 := p1.flatten
    rw [if_pos ((List.Perm.nodup_iff p2).2 (h.flat o ho)), Finsupp.single_apply, if_pos,
      listSign_flatten_perm p1 (fun b hb => hev b (h.sub o ho b (p1.mem_iff.1 hb)))
        ((List.Perm.nodup_iff p2).2 (h.flat o ho)), smul_eq_mul, mul_comm]
    rw [← h.occ o ho]
    exact List.toFinset_eq_of_perm _ _ p2
  symm
  apply Finset.sum_bij_ne_zero
    (fun x hx _ => fun i => (⟨subsets.idxOf (x.1.getD (x.2 i) []),
      hlt x.1 (by simpa using (Finset.mem_product.1 hx).1) (x.2 i)⟩ : Fin subsets.length))
  · intro _ _ _; exact Finset.mem_univ _
  · rintro ⟨o, σ⟩ hx - ⟨o', σ'⟩ hx' - he
    have ho : o ∈ out := by simpa using (Finset.mem_product.1 hx).1
    have ho' : o' ∈ out := by simpa using (Finset.mem_product.1 hx').1
    have p1 := hget o ho σ
    have p2 := hget o' ho' σ'
    have he' := fun i => congrFun he i
    simp only at he'
    simp_rw [he'] at p1
    have : o = o' := List.inj_on_of_nodup_map h.once ho ho' (List.toFinset_eq_of_perm _ _ (p1.symm.trans p2))
    subst this
    congr 1
    ext i
    have := he' i
    rw [Fin.mk.injEq] at this
    have e3 : ∀ j : Fin k, o.getD j [] = subsets.getD (subsets.idxOf (o.getD j [])) [] := by
      intro j; rw [List.getD_eq_getElem _ _ (hlt o ho j)]; simp
    have e4 : o.getD (σ i) [] = o.getD (σ' i) [] := by
      rw [e3, this, ← e3]
    rw [List.getD_eq_getElem _ _ (by rw [h.len o ho]; exact (σ i).2),
      List.getD_eq_getElem _ _ (by rw [h.len o ho]; exact (σ' i).2)] at e4
    exact ((nodup_of_flatten (fun b hb => h0 b (h.sub o ho b hb)) (h.flat o ho)).getElem_inj_iff).1 e4
  · intro f _ hf
    by_cases hn : ((List.ofFn fun i => subsets.get (f i)).flatten).Nodup
    · rw [if_pos hn, Finsupp.single_apply] at hf
      by_cases hs : ((List.ofFn fun i => subsets.get (f i)).flatten).toFinset = s
      · have hsub : ∀ p ∈ List.ofFn fun i => subsets.get (f i), p ∈ subsets := fun p hp' => by
          obtain ⟨i, rfl⟩ := (List.mem_ofFn' _ _).1 hp'
          exact List.get_mem _ _
        obtain ⟨o, ho, hoT⟩ := h.all _ hsub hn hs
        have hTn := nodup_of_flatten (fun b hb => h0 b (hsub b hb)) hn
        have hmem : ∀ i, subsets.get (f i) ∈ o := by
          intro i
          rw [← List.mem_toFinset, hoT, List.mem_toFinset]
          exact (List.mem_ofFn' _ _).2 ⟨i, rfl⟩
        let σ0 : Fin k → Fin k := fun i => ⟨o.idxOf (subsets.get (f i)), by
          rw [← h.len o ho]; exact List.idxOf_lt_length_of_mem (hmem i)⟩
        have hinj : Function.Injective σ0 := by
          intro i j hij
          have e := congrArg Fin.val hij
          have e' : subsets.get (f i) = subsets.get (f j) := (List.idxOf_inj (hmem i)).1 e
          exact (List.nodup_ofFn.1 hTn) e'
        let σ : Equiv.Perm (Fin k) := Equiv.ofBijective σ0 (Finite.injective_iff_bijective.1 hinj)
        have hσ : ∀ i, o.getD (σ i) [] = subsets.get (f i) := by
          intro i
          have hl : o.idxOf (subsets.get (f i)) < o.length := List.idxOf_lt_length_of_mem (hmem i)
          change o.getD (o.idxOf (subsets.get (f i))) [] = _
          rw [List.getD_eq_getElem _ _ hl]; exact List.getElem_idxOf hl
        have hf' : (fun i => (⟨subsets.idxOf (o.getD (σ i) []), hlt o ho (σ i)⟩ : Fin subsets.length)) = f := by
          funext i
          apply Fin.ext
          simp only [hσ]
          exact hp.idxOf_getElem _ _
        refine ⟨(o, σ), by simpa using ho, ?_, hf'⟩
        rw [hval o ho σ]
        have e1 : (fun i => subsets.get ⟨subsets.idxOf (o.getD (σ i) []), hlt o ho (σ i)⟩) =
            fun i => subsets.get (f i) := funext fun i => congrArg subsets.get (congrFun hf' i)
        have e2 : ∀ i, subsets.idxOf (o.getD (σ i) []) = f i := fun i => congrArg Fin.val (congrFun hf' i)
        rw [e1, if_pos hn, Finsupp.single_apply]
        simp_rw [e2]
        exact hf
      · exact absurd (by rw [if_neg hs, smul_zero]) hf
    · exact absurd (by rw [if_neg hn]; simp) hf
  · rintro ⟨o, σ⟩ hx -
    exact hval o (by simpa using (Finset.mem_product.1 hx).1) σ

end Fanpy.Spec
