import Verif.Lemmas.Sign

/-! # Properties C08–C10: permutation signs and the fermionic sign -/

namespace Fanpy.Props
open Fanpy.Slater Fanpy.Spec

/-- C08. For the sequence `f (σ 0), f (σ 1), …` (every sequence of distinct indices has this form, see
`C08_every_sequence`), `sign_perm` with increasing order returns the signature of `σ`, with or without the sorted
sequence being supplied; with decreasing order it does so for the reversed sequence. -/
theorem C08_sign_perm {n : ℕ} (f : Fin n → ℕ) (hf : StrictMono f) (σ : Equiv.Perm (Fin n)) :
    signPerm (List.ofFn fun k => f (σ k)) none false = .ok (Equiv.Perm.sign σ : ℤ) ∧
    signPerm (List.ofFn fun k => f (σ k)) (some (List.ofFn f)) false = .ok (Equiv.Perm.sign σ : ℤ) ∧
    signPerm (List.ofFn fun k => f (σ k)).reverse none true = .ok (Equiv.Perm.sign σ : ℤ) ∧
    signPerm (List.ofFn fun k => f (σ k)).reverse (some (List.ofFn f)) true = .ok (Equiv.Perm.sign σ : ℤ) := by
  have hnd : (List.ofFn fun k => f (σ k)).Nodup :=
    List.nodup_ofFn.2 (fun a b h => σ.injective (hf.injective h))
  have hperm : (List.ofFn f).Perm (List.ofFn fun k => f (σ k)) := (σ.ofFn_comp_perm f).symm
  have hinc : strictlyIncreasing (List.ofFn f) = true := by
    rw [strictlyIncreasing_iff]; exact (List.sortedLT_ofFn_iff.2 hf).pairwise
  refine ⟨?_, ?_, ?_, ?_⟩
  · rw [signPerm_false _ hnd, listSign_ofFn f hf]
  · simp only [signPerm, hinc, Bool.not_true, Bool.false_eq_true, if_false]
    rw [signPermOuter_perm _ _ hnd hperm, listSign_ofFn f hf]
  · rw [signPerm_true _ (List.nodup_reverse.2 hnd), List.reverse_reverse, listSign_ofFn f hf]
  · simp only [signPerm, hinc, Bool.not_true, Bool.false_eq_true, if_false, if_true, List.reverse_reverse]
    rw [signPermOuter_perm _ _ hnd hperm, listSign_ofFn f hf]

/-- Every sequence of distinct indices is covered by `C08_sign_perm`. -/
theorem C08_every_sequence (l : List ℕ) (h : l.Nodup) :
    ∃ (f : Fin l.length → ℕ) (σ : Equiv.Perm (Fin l.length)), StrictMono f ∧ l = List.ofFn fun k => f (σ k) := by
  have hc : l.toFinset.card = l.length := List.toFinset_card_of_nodup h
  let e := l.toFinset.orderIsoOfFin hc
  have hm : ∀ k : Fin l.length, l[k] ∈ l.toFinset := fun k => List.mem_toFinset.2 (List.getElem_mem _)
  let g : Fin l.length → Fin l.length := fun k => e.symm ⟨l[k], hm k⟩
  have hg : Function.Injective g := by
    intro a b hab
    have h1 := congrArg Subtype.val (e.symm.injective hab)
    exact Fin.ext ((List.Nodup.getElem_inj_iff h).1 h1)
  refine ⟨fun k => (e k : ℕ), Equiv.ofBijective g (Finite.injective_iff_bijective.1 hg), ?_, ?_⟩
  · intro a b hab; exact e.strictMono hab
  · apply List.ext_getElem
    · simp
    · intro i h1 h2
      simp [g]

/-- C08. Exchanging two entries flips the sign. -/
theorem C08_swap (l m r : List ℕ) (a b : ℕ) (dec : Bool) (h : (l ++ a :: m ++ b :: r).Nodup) :
    ∃ s : ℤ, signPerm (l ++ a :: m ++ b :: r) none dec = .ok s ∧
      signPerm (l ++ b :: m ++ a :: r) none dec = .ok (-s) := by
  have hp : (l ++ b :: m ++ a :: r).Perm (l ++ a :: m ++ b :: r) := by
    rw [List.perm_iff_count]; intro x
    simp only [List.count_append, List.count_cons]; omega
  have h' : (l ++ b :: m ++ a :: r).Nodup := hp.nodup_iff.2 h
  have hs : ∀ (l m r : List ℕ) (a b : ℕ), (l ++ a :: m ++ b :: r).Nodup → (a :: m ++ [b]).Nodup := by
    intro l m r a b h
    have : List.Sublist (a :: m ++ [b]) (l ++ a :: m ++ b :: r) := by
      have e : l ++ a :: m ++ b :: r = l ++ ((a :: m ++ [b]) ++ r) := by simp
      rw [e]
      exact (List.sublist_append_left _ _).trans (List.sublist_append_right _ _)
    exact h.sublist this
  cases dec
  · refine ⟨listSign (l ++ a :: m ++ b :: r), signPerm_false _ h, ?_⟩
    rw [signPerm_false _ h', listSign_swap l m r a b (hs l m r a b h), neg_neg]
  · refine ⟨listSign (l ++ a :: m ++ b :: r).reverse, signPerm_true _ h, ?_⟩
    rw [signPerm_true _ h']
    have e1 : (l ++ a :: m ++ b :: r).reverse = r.reverse ++ b :: m.reverse ++ a :: l.reverse := by simp
    have e2 : (l ++ b :: m ++ a :: r).reverse = r.reverse ++ a :: m.reverse ++ b :: l.reverse := by simp
    have h3 : (r.reverse ++ b :: m.reverse ++ a :: l.reverse).Nodup := by rw [← e1]; exact List.nodup_reverse.2 h
    rw [e1, e2, listSign_swap _ _ _ b a (hs _ _ _ b a h3), neg_neg]

/-- C08. A supplied `ordered_set` is rejected exactly when it is not strictly increasing. -/
theorem C08_rejects (l o : List ℕ) (dec : Bool) :
    signPerm l (some o) dec = .error .valueError ↔ ¬ o.Pairwise (· < ·) := by
  rw [← strictlyIncreasing_iff]
  cases h : strictlyIncreasing o <;> simp [signPerm, h]

example : signPerm [3, 1, 2] none false = .ok 1 ∧ signPerm [3, 1, 2] none true = .ok (-1) ∧
    signPerm [3, 1] (some [3, 1]) true = .error .valueError := by
  rw [signPerm_false _ (by decide), signPerm_true _ (by decide)]; decide

/-- C09. `sign_swap` raises exactly if the starting orbital is empty (or the determinant is `None`), and otherwise is
`-1` to the number of electrons passed over. -/
theorem C09_sign_swap (sd p q : ℕ) :
    (sd.testBit p = false → signSwap (some sd) p q = .error .valueError) ∧
    (sd.testBit p = true → signSwap (some sd) p q = .ok ((-1) ^ ((occSet sd).filter
      (fun k => (p < k ∧ k ≤ q) ∨ (q ≤ k ∧ k < p))).card)) ∧
    signSwap none p q = .error .valueError := by
  refine ⟨fun h => by simp [signSwap, h], fun h => ?_, rfl⟩
  simp only [signSwap, occ_some, h, Bool.not_true, Bool.false_eq_true, if_false]
  rw [neg_one_pow_mod]
  congr 2
  split_ifs with hpq
  · rw [count_drop_take]
    congr 1
    apply Finset.filter_congr
    intro k _; omega
  · rw [count_drop_take]
    congr 1
    apply Finset.filter_congr
    intro k _; omega

/-- C09. There and back: if the target orbital is empty, moving the electron and moving it back give the same sign. -/
theorem C09_symmetric (sd sd' p q : ℕ) (h : create (annihilate (some sd) [p]) [q] = some sd') :
    ∃ s, signSwap (some sd) p q = .ok s ∧ signSwap (some sd') q p = .ok s := by
  cases h1 : annihilate (some sd) [p] with
  | none => rw [h1] at h; simp at h
  | some m =>
    rw [h1] at h
    obtain ⟨-, ha, hm⟩ := annihilate_eq_some_iff.1 h1
    obtain ⟨-, hc, hs⟩ := create_eq_some_iff.1 h
    have hp := ha p (by simp)
    have hq : sd'.testBit q = true := by rw [← mem_occSet, hs]; simp
    refine ⟨_, (C09_sign_swap sd p q).2.1 hp, ?_⟩
    rw [(C09_sign_swap sd' q p).2.1 hq]
    congr 2
    have hmq := hc q (by simp)
    by_cases hpq : p = q
    · subst hpq
      have e : ∀ k, ¬ ((p < k ∧ k ≤ p) ∨ (p ≤ k ∧ k < p)) := by intro k; omega
      simp only [e, Finset.filter_false]
    · have hcard : ((occSet sd').filter (fun k => (q < k ∧ k ≤ p) ∨ (p ≤ k ∧ k < q))) =
          ((occSet sd).filter (fun k => (p < k ∧ k ≤ q) ∨ (q ≤ k ∧ k < p))) := by
        ext k
        rw [hs, hm]
        have hsq : sd.testBit q = false := by
          rw [Bool.eq_false_iff, ne_eq, ← mem_occSet]
          intro hh
          have : q ∈ occSet m := by rw [hm]; simp [hh, Ne.symm hpq]
          rw [mem_occSet, hmq] at this; cases this
        simp only [Finset.mem_filter, Finset.mem_union, Finset.mem_sdiff, List.mem_toFinset, List.mem_singleton,
          mem_occSet]
        by_cases hkq : k = q
        · subst hkq; simp [hsq]
        · by_cases hkp : k = p
          · subst hkp; simp [hkq]
          · simp only [hkp, hkq]
            constructor
            · rintro ⟨h1 | h1, h2⟩
              · exact ⟨h1.1, by omega⟩
              · exact absurd h1 id
            · rintro ⟨h1, h2⟩; exact ⟨Or.inl ⟨h1, id⟩, by omega⟩
      rw [hcard]

example : signSwap (some 0b10110) 1 3 = .ok (-1) ∧ signSwap (some 0b10110) 4 0 = .ok 1 ∧
    signSwap (some 0b10110) 0 3 = .error .valueError := by decide

/-- C10. `sign_excite` is the fermionic sign: applying the annihilators and then the creators (each in the given
order) to the Fock state of `sd` gives `sign_excite` times the state of the excited determinant; the sign is `±1`;
and the function raises exactly when the operator string kills the state. -/
theorem C10_sign_excite (R : Type*) [CommRing R] (sd : ℕ) (anns cres : List ℕ) :
    (∃ (s : ℤ) (sd' : ℕ), signExcite (some sd) anns cres = .ok s ∧ (s = 1 ∨ s = -1) ∧
      create (annihilate (some sd) anns) cres = some sd' ∧
      creString cres (annString anns (ket (occSet sd) : Fock R)) = (s : R) • ket (occSet sd')) ∨
    (signExcite (some sd) anns cres = .error .valueError ∧
      create (annihilate (some sd) anns) cres = none ∧
      creString cres (annString anns (ket (occSet sd) : Fock R)) = 0) := by
  have hk : (ket (occSet sd) : Fock R) = Finsupp.single (occSet sd) ((1 : ℤ) : R) := by simp [ket]
  rw [hk]
  rcases signExciteAnn_spec (R := R) sd anns 1 with ⟨s, m, h1, h2, h3, h4⟩ | ⟨h1, h2, h3⟩
  · rw [h2, h3]
    simp only [signExcite, h1, bind, Except.bind]
    rcases signExciteCre_spec (R := R) m cres s with ⟨t, sd', g1, g2, g3, g4⟩ | ⟨g1, g2, g3⟩
    · left
      refine ⟨t, sd', g1, ?_, g2, ?_⟩
      · rcases h4 with rfl | rfl <;> rcases g4 with rfl | rfl <;> simp
      · rw [g3, ket]; simp
    · right; exact ⟨g1, g2, g3⟩
  · right
    rw [h2, h3]
    simp [signExcite, h1, bind, Except.bind]

/-- C10, corollary for `excite` with equal numbers of annihilators and creators: it fails with `None` exactly when
`sign_excite` raises. -/
theorem C10_excite_none_iff (sd : ℕ) (a c : List ℕ) (h : a.length = c.length) :
    (excite (some sd) (a ++ c) = .ok none) ↔ signExcite (some sd) a c = .error .valueError := by
  have h0 : excite (some sd) (a ++ c) = .ok (create (annihilate (some sd) a) c) := by
    have h1 : (a ++ c).length / 2 = a.length := by simp; omega
    have h2 : ¬ ((a ++ c).length % 2 ≠ 0) := by simp; omega
    simp only [excite, if_neg h2, h1, List.take_left, List.drop_left]
  rw [h0]
  rcases C10_sign_excite ℤ sd a c with ⟨s, sd', h1, -, h2, -⟩ | ⟨h1, h2, -⟩
  · rw [h1, h2]; simp
  · rw [h1, h2]; simp

/-- C10. The operators used in `C10_sign_excite` satisfy the canonical anticommutation relations. -/
theorem C10_car (R : Type*) [CommRing R] (i j : ℕ) (v : Fock R) :
    annOp i (annOp j v) + annOp j (annOp i v) = 0 ∧ creOp i (creOp j v) + creOp j (creOp i v) = 0 ∧
    annOp i (creOp j v) + creOp j (annOp i v) = if i = j then v else 0 :=
  ⟨car_ann i j v, car_cre i j v, car_ann_cre i j v⟩

/-- C10. On `None` the function raises unless both lists are empty, where it returns `1`. -/
theorem C10_none (a c : List ℕ) :
    signExcite none a c = if a = [] ∧ c = [] then .ok 1 else .error .valueError := by
  cases a with
  | nil =>
    cases c with
    | nil => rfl
    | cons i c => simp [signExcite, signExciteAnn, signExciteCre, bind, Except.bind, create]
  | cons i a => simp [signExcite, signExciteAnn, bind, Except.bind]

example : signExcite (some 0b0111) [0, 1] [4, 3] = .ok 1 ∧ signExcite (some 0b0111) [1] [3] = .ok (-1) ∧
    signExcite (some 0b0111) [3] [4] = .error .valueError := by decide

end Fanpy.Props
