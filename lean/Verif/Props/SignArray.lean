import Verif.Lemmas.Bulk

/-! # Property C13: `sign_excite_array` -/

namespace Fanpy.Props
open Fanpy.Slater Fanpy.Spec

/-- `table[occs[k]] = k` -/
theorem indexTable_getElem? (occs : List ℕ) (nspin : ℕ) (hn : occs.Nodup) (hlt : ∀ o ∈ occs, o < nspin)
    (k : ℕ) (hk : k < occs.length) : (indexTable occs nspin)[occs[k]]? = some k := by
  have key : ∀ (l : List ℕ) (s : ℕ) (arr : List ℕ), l.Nodup → (∀ o ∈ l, o < arr.length) →
      (∀ (j : ℕ) (hj : j < l.length),
        ((l.zipIdx s).foldl (fun arr p => arr.set p.1 p.2) arr)[l[j]]? = some (s + j)) ∧
      (∀ x, x ∉ l → ((l.zipIdx s).foldl (fun arr p => arr.set p.1 p.2) arr)[x]? = arr[x]?) := by
    intro l
    induction l with
    | nil => intro s arr _ _; simp
    | cons o l ih =>
      intro s arr hn hlt
      rw [List.nodup_cons] at hn
      have hl : ∀ o' ∈ l, o' < (arr.set o s).length := fun o' h => by
        rw [List.length_set]; exact hlt o' (by simp [h])
      obtain ⟨h1, h2⟩ := ih (s + 1) (arr.set o s) hn.2 hl
      rw [List.zipIdx_cons, List.foldl_cons]
      constructor
      · intro j hj
        cases j with
        | zero =>
          simp only [List.getElem_cons_zero]
          rw [h2 o hn.1, List.getElem?_set_self (hlt o (by simp))]; simp
        | succ j =>
          simp only [List.getElem_cons_succ]
          rw [h1 j (by simpa using hj)]; congr 1; omega
      · intro x hx
        simp only [List.mem_cons, not_or] at hx
        rw [h2 x hx.2, List.getElem?_set_ne (Ne.symm hx.1)]
  have := (key occs 0 (List.replicate nspin 0) hn (by simpa using hlt)).1 k hk
  rw [Nat.zero_add] at this
  exact this

/-- the row of `shared_indices` after the orbitals in `rem` have been annihilated -/
def sharedRow (occs rem : List ℕ) : List ℤ := occs.map (fun o => if o ∈ rem then (-1 : ℤ) else (o : ℤ))

theorem sharedRow_set {occs rem : List ℕ} (hn : occs.Nodup) (k : ℕ) (hk : k < occs.length) :
    (sharedRow occs rem).set k (-1) = sharedRow occs (occs[k] :: rem) := by
  apply List.ext_getElem
  · simp [sharedRow]
  · intro i h1 h2
    rw [List.getElem_set]
    simp only [sharedRow, List.getElem_map, List.mem_cons]
    simp only [sharedRow, List.length_map, List.length_set] at h1
    by_cases hik : k = i
    · subst hik; simp
    · have : occs[i] ≠ occs[k] := fun h => hik ((List.Nodup.getElem_inj_iff hn).1 h).symm
      simp [hik, this]

theorem countP_sharedRow {occs rem : List ℕ} {m : ℕ} (hn : occs.Nodup)
    (hm : ∀ x, m.testBit x = true ↔ x ∈ occs ∧ x ∉ rem) (a : ℕ) :
    (sharedRow occs rem).countP (fun x => decide ((a : ℤ) < x)) = ((occSet m).filter (a < ·)).card := by
  have : (occSet m).filter (a < ·) = (occs.filter (fun o => decide (o ∉ rem ∧ a < o))).toFinset := by
    ext x; simp only [Finset.mem_filter, mem_occSet, hm, List.toFinset_filter, List.mem_toFinset, decide_eq_true_eq]
    tauto
  rw [this, List.toFinset_card_of_nodup (hn.filter _), ← List.countP_eq_length_filter, sharedRow, List.countP_map]
  apply List.countP_congr
  intro o _
  simp only [Function.comp, decide_eq_true_eq]
  by_cases ho : o ∈ rem
  · simp [ho]
  · simp [ho]

/-- `∑_{k < M} (n - 1 - k)` -/
def tri : ℕ → ℕ → ℕ
  | _, 0 => 0
  | n, M + 1 => (n - 1) + tri (n - 1) M

theorem card_split (S : Finset ℕ) (a : ℕ) :
    S.card = (S.filter (· < a)).card + (if a ∈ S then 1 else 0) + (S.filter (a < ·)).card := by
  have h : S = S.filter (· < a) ∪ (if a ∈ S then {a} else ∅) ∪ S.filter (a < ·) := by
    ext x
    by_cases ha : a ∈ S
    · simp only [ha, if_true, Finset.mem_union, Finset.mem_filter, Finset.mem_singleton]
      constructor
      · intro hx
        rcases lt_trichotomy x a with h | h | h <;> simp [hx, h]
      · rintro ((h | h) | h)
        · exact h.1
        · rw [h]; exact ha
        · exact h.1
    · simp only [ha, if_false, Finset.mem_union, Finset.mem_filter, Finset.notMem_empty, or_false]
      constructor
      · intro hx
        rcases lt_trichotomy x a with h | h | h
        · simp [hx, h]
        · subst h; exact absurd hx ha
        · simp [hx, h]
      · rintro (h | h) <;> exact h.1
  conv_lhs => rw [h]
  rw [Finset.card_union_of_disjoint, Finset.card_union_of_disjoint]
  · split_ifs <;> simp
  · rw [Finset.disjoint_left]; intro x hx; split_ifs
    · simp at hx ⊢; omega
    · simp
  · rw [Finset.disjoint_left]; intro x hx hx'
    simp only [Finset.mem_union, Finset.mem_filter] at hx hx'
    rcases hx with hx | hx
    · omega
    · split_ifs at hx
      · simp at hx; omega
      · simp at hx

theorem arrayAnn_spec (occs : List ℕ) (nspin : ℕ) (hn : occs.Nodup) (hlt : ∀ o ∈ occs, o < nspin)
    (anns : List ℕ) (rem : List ℕ) (m : ℕ) (hm : ∀ x, m.testBit x = true ↔ x ∈ occs ∧ x ∉ rem)
    (hnd : anns.Nodup) (hocc : ∀ a ∈ anns, m.testBit a = true) (j : ℕ) (c : ℤ) :
    ∃ (j' : ℕ) (s : ℤ) (m' : ℕ),
      arrayAnn (indexTable occs nspin) anns (sharedRow occs rem) j = .ok (sharedRow occs (anns.reverse ++ rem), j') ∧
      signExciteAnn (some m) anns c = .ok (s, some m') ∧
      (∀ x, m'.testBit x = true ↔ x ∈ occs ∧ x ∉ anns.reverse ++ rem) ∧
      (occSet m').card + anns.length = (occSet m).card ∧
      s * (-1) ^ j' = c * (-1) ^ j * (-1) ^ (tri (occSet m).card anns.length) := by
  induction anns generalizing rem m j c with
  | nil => exact ⟨j, c, m, rfl, rfl, by simpa using hm, by simp, by simp [tri]⟩
  | cons a as ih =>
    rw [List.nodup_cons] at hnd
    have hma := hocc a (by simp)
    obtain ⟨ha1, ha2⟩ := (hm a).1 hma
    obtain ⟨k, hk, rfl⟩ := List.mem_iff_getElem.1 ha1
    have hm' : ∀ x, (m ^^^ (1 <<< occs[k])).testBit x = true ↔ x ∈ occs ∧ x ∉ occs[k] :: rem := by
      intro x
      rw [← mem_occSet, occSet_xor_of_mem hma, Finset.mem_erase, mem_occSet, hm]
      simp only [List.mem_cons, not_or]; tauto
    have hocc' : ∀ b ∈ as, (m ^^^ (1 <<< occs[k])).testBit b = true := by
      intro b hb
      rw [← mem_occSet, occSet_xor_of_mem hma, Finset.mem_erase, mem_occSet]
      exact ⟨fun h => hnd.1 (h ▸ hb), hocc b (by simp [hb])⟩
    obtain ⟨j', s, m', e1, e2, e3, e4, e5⟩ := ih (occs[k] :: rem) (m ^^^ (1 <<< occs[k])) hm' hnd.2 hocc'
      (j + (sharedRow occs rem).countP (fun x => decide ((occs[k] : ℤ) < x))) (c * phase (occSet m) occs[k])
    have hcard : (occSet (m ^^^ (1 <<< occs[k]))).card + 1 = (occSet m).card := by
      rw [occSet_xor_of_mem hma, Finset.card_erase_add_one (mem_occSet.2 hma)]
    refine ⟨j', s, m', ?_, ?_, ?_, ?_, ?_⟩
    · rw [arrayAnn, indexTable_getElem? occs nspin hn hlt k hk]
      simp only [sharedRow_set hn k hk]
      rw [e1]; simp
    · rw [signExciteAnn_cons _ _ hma, e2]
    · intro x; rw [e3]; simp
    · rw [List.length_cons]; omega
    · rw [e5, countP_sharedRow hn hm, List.length_cons, tri]
      have h1 := card_split (occSet m) occs[k]
      rw [if_pos (mem_occSet.2 hma)] at h1
      have h2 : (occSet (m ^^^ (1 <<< occs[k]))).card = (occSet m).card - 1 := by omega
      have h3 : (occSet m).card - 1 =
          ((occSet m).filter (· < occs[k])).card + ((occSet m).filter (occs[k] < ·)).card := by omega
      rw [h2]
      generalize tri ((occSet m).card - 1) as.length = T
      rw [h3, phase, pow_add, pow_add, pow_add]; ring

theorem signExciteCre_decreasing (m0 : ℕ) (d : List ℕ) (hd : d.Pairwise (· > ·)) (m : ℕ)
    (hm : ∀ x ∈ d, m0.testBit x = false ∧ m.testBit x = false ∧ ∀ y, y < x → m.testBit y = m0.testBit y) (c : ℤ) :
    signExciteCre (some m) d c = .ok (c * (d.map (fun x => phase (occSet m0) x)).prod) := by
  induction d generalizing m c with
  | nil => simp [signExciteCre]
  | cons x d ih =>
    rw [List.pairwise_cons] at hd
    obtain ⟨-, h2, h3⟩ := hm x (by simp)
    rw [signExciteCre_cons _ _ h2, ih hd.2]
    · have hp : phase (occSet m) x = phase (occSet m0) x := by
        unfold phase
        congr 2
        ext y; simp only [Finset.mem_filter, mem_occSet]
        constructor
        · rintro ⟨h, hy⟩; exact ⟨by rw [← h3 y hy, h], hy⟩
        · rintro ⟨h, hy⟩; exact ⟨by rw [h3 y hy, h], hy⟩
      rw [hp, List.map_cons, List.prod_cons, mul_assoc]
    · intro y hy
      have hyx : y < x := hd.1 y hy
      obtain ⟨g1, g2, g3⟩ := hm y (by simp [hy])
      refine ⟨g1, ?_, ?_⟩
      · rw [testBit_or_shift, g2]; simp; omega
      · intro z hz
        rw [testBit_or_shift, g3 z hz]; simp; omega

/-- C13. For rows of distinct occupied annihilators and of increasing creators that are free after the
annihilation, in equal numbers, every entry of `sign_excite_array` is `sign_excite` with the creators reversed
(the documented operator order). -/
theorem C13_sign_excite_array_partial (sd : ℕ) (occs : List ℕ) (anns cres : List (List ℕ)) (nspin M : ℕ)
    (hn : occs.Nodup) (hlt : ∀ o ∈ occs, o < nspin) (hsd : ∀ x, sd.testBit x = true ↔ x ∈ occs)
    (ha : ∀ row ∈ anns, row.length = M ∧ row.Nodup ∧ ∀ a ∈ row, a ∈ occs)
    (hc : ∀ row ∈ cres, row.length = M ∧ row.Pairwise (· < ·))
    (hfree : ∀ r ∈ anns, ∀ r' ∈ cres, ∀ c ∈ r', c ∈ occs → c ∈ r) :
    ∃ out, signExciteArray occs anns cres nspin = .ok out ∧
      out.map (fun l => l.map (Except.ok (ε := PyErr))) =
        anns.map (fun r => cres.map (fun r' => signExcite (some sd) r r'.reverse)) := by
  have hany : ¬ (occs.any (fun o => decide (o ≥ nspin)) = true) := by
    simp only [List.any_eq_true, decide_eq_true_eq, not_exists, not_and]
    intro o ho; have := hlt o ho; omega
  simp only [signExciteArray, if_neg hany]
  -- one row
  have hrow : ∀ r ∈ anns, ∃ l : List ℤ,
      (do
        let (shared, jumps) ← arrayAnn (indexTable occs nspin) r (occs.map (fun (o : ℕ) => (o : ℤ))) 0
        return cres.map (arrayEntry shared jumps) : Except PyErr (List ℤ)) = .ok l ∧
      l.map (Except.ok (ε := PyErr)) = cres.map (fun r' => signExcite (some sd) r r'.reverse) := by
    intro r hr
    obtain ⟨hlen, hnd, hmem⟩ := ha r hr
    have hshared : occs.map (fun (o : ℕ) => (o : ℤ)) = sharedRow occs [] := by simp [sharedRow]
    obtain ⟨j', s, m', e1, e2, e3, e4, e5⟩ := arrayAnn_spec occs nspin hn hlt r [] sd (by simpa using hsd) hnd
      (fun a h => (hsd a).2 (hmem a h)) 0 1
    refine ⟨cres.map (arrayEntry (sharedRow occs (r.reverse ++ [])) j'), ?_, ?_⟩
    · rw [hshared]
      simp only [e1, bind, Except.bind, pure, Except.pure]
    · rw [List.map_map]
      apply List.map_congr_left
      intro r' hr'
      obtain ⟨hlen', hs'⟩ := hc r' hr'
      have hfr : ∀ x ∈ r', m'.testBit x = false := by
        intro x hx
        rw [Bool.eq_false_iff, ne_eq, e3]
        rintro ⟨h1, h2⟩
        exact h2 (by simpa using hfree r hr r' hr' x hx h1)
      have hcre : signExciteCre (some m') r'.reverse s =
          .ok (s * (r'.reverse.map (fun x => phase (occSet m') x)).prod) := by
        apply signExciteCre_decreasing m' _ (List.pairwise_reverse.2 hs') m'
        intro x hx
        have := hfr x (List.mem_reverse.1 hx)
        exact ⟨this, this, fun _ _ => rfl⟩
      simp only [Function.comp, signExcite, e2, bind, Except.bind, hcre]
      congr 1
      -- compare jumps over larger orbitals with phases over smaller ones
      have hprod : (-1 : ℤ) ^ arrayCre (sharedRow occs (r.reverse ++ [])) r' =
          (-1) ^ (r'.length * (occSet m').card) * (r'.reverse.map (fun x => phase (occSet m') x)).prod := by
        rw [((List.reverse_perm r').map _).prod_eq]
        have hcount : ∀ x ∈ r', (-1 : ℤ) ^ (sharedRow occs (r.reverse ++ [])).countP
            (fun y => decide (y > (x : ℤ))) = (-1) ^ (occSet m').card * phase (occSet m') x := by
          intro x hx
          rw [countP_sharedRow hn e3 x]
          have h1 := card_split (occSet m') x
          rw [if_neg (by rw [mem_occSet, hfr x hx]; simp)] at h1
          rw [h1, phase, pow_add, pow_add]
          have : ((-1 : ℤ) ^ ((occSet m').filter (· < x)).card) * (-1) ^ ((occSet m').filter (· < x)).card = 1 := by
            rw [← mul_pow]; simp
          simp only [pow_zero, mul_one]
          linear_combination (-(-1 : ℤ) ^ ((occSet m').filter (x < ·)).card) * this
        unfold arrayCre
        clear hcre hlen' hs' hr' hfr
        induction r' with
        | nil => simp
        | cons x xs ih =>
          rw [List.map_cons, List.sum_cons, pow_add, hcount x (by simp),
            ih (fun y hy => hcount y (by simp [hy])), List.map_cons, List.prod_cons, List.length_cons,
            Nat.succ_mul, pow_add]
          ring
      rw [arrayEntry, pow_add, hprod]
      have hs2 : s * s = 1 := by
        have h0 := congrArg (fun z => z * z) e5
        simp only [pow_zero, mul_one, one_mul] at h0
        have h3 : ∀ k : ℕ, ((-1 : ℤ) ^ k) * (-1) ^ k = 1 := fun k => by rw [← mul_pow]; simp
        have h4 := h3 j'
        have h5 := h3 (tri (occSet sd).card r.length)
        linear_combination h0 + h5 - (s * s) * h4
      have hj : (-1 : ℤ) ^ j' = s * (-1) ^ (tri (occSet sd).card r.length) := by
        simp only [pow_zero, mul_one, one_mul] at e5
        linear_combination s * e5 - (-1 : ℤ) ^ j' * hs2
      rw [hj]
      -- the remaining factors cancel
      have htri : ∀ (M' n : ℕ), M' ≤ n → (-1 : ℤ) ^ (tri n M') * (-1) ^ (M' * (n - M')) * (-1) ^ (M' / 2 % 2) = 1 := by
        intro M'
        have par : ∀ (M' n : ℕ), M' ≤ n → (tri n M' + M' * (n - M') + M' / 2 % 2) % 2 = 0 := by
          intro M'
          have ht : ∀ (M' n : ℕ), M' ≤ n → 2 * tri n M' = M' * (2 * n - 1 - M') := by
            intro M'
            induction M' with
            | zero => intro n _; simp [tri]
            | succ M' ih =>
              intro n hM
              rw [tri, Nat.mul_add, ih (n - 1) (by omega)]
              obtain ⟨q, rfl⟩ : ∃ q, n = M' + 1 + q := ⟨n - (M' + 1), by omega⟩
              rw [show M' + 1 + q - 1 = M' + q by omega, show 2 * (M' + q) - 1 - M' = M' + 2 * q - 1 by omega,
                show 2 * (M' + 1 + q) - 1 - (M' + 1) = M' + 2 * q by omega]
              rcases Nat.eq_zero_or_pos M' with h0 | h0
              · subst h0; ring
              · obtain ⟨p, rfl⟩ : ∃ p, M' = p + 1 := ⟨M' - 1, by omega⟩
                rw [show p + 1 + 2 * q - 1 = p + 2 * q by omega]; ring
          intro n hM
          obtain ⟨q, rfl⟩ : ∃ q, n = M' + q := ⟨n - M', by omega⟩
          have h2 := ht M' (M' + q) hM
          rw [show M' + q - M' = q by omega]
          rw [show 2 * (M' + q) - 1 - M' = M' + 2 * q - 1 by omega] at h2
          rcases Nat.eq_zero_or_pos M' with h0 | h0
          · subst h0; simp at h2 ⊢; omega
          obtain ⟨p, rfl⟩ : ∃ p, M' = p + 1 := ⟨M' - 1, by omega⟩
          rw [show p + 1 + 2 * q - 1 = p + 2 * q by omega] at h2
          -- 2 tri = (p+1)(p+2q); total = tri + (p+1) q + ...; 2(tri + (p+1)q) = (p+1)(p+4q)
          obtain ⟨u, hu | hu⟩ := Nat.even_or_odd' p
          · subst hu
            have : tri (2 * u + 1 + q) (2 * u + 1) = (2 * u + 1) * (u + q) := by
              have : 2 * tri (2 * u + 1 + q) (2 * u + 1) = 2 * ((2 * u + 1) * (u + q)) := by rw [h2]; ring
              omega
            rw [this]
            have e : (2 * u + 1) * (u + q) + (2 * u + 1) * q = 2 * (u * u + 2 * u * q + q) + u := by ring
            rw [e]; omega
          · subst hu
            have : tri (2 * u + 1 + 1 + q) (2 * u + 1 + 1) = (u + 1) * (2 * u + 1 + 2 * q) := by
              have : 2 * tri (2 * u + 1 + 1 + q) (2 * u + 1 + 1) = 2 * ((u + 1) * (2 * u + 1 + 2 * q)) := by
                rw [h2]; ring
              omega
            rw [this]
            have e : (u + 1) * (2 * u + 1 + 2 * q) + (2 * u + 1 + 1) * q = 2 * (u * u + u + 2 * (u + 1) * q) + (u + 1) := by
              ring
            rw [e]; omega
        intro n hM
        rw [← pow_add, ← pow_add]
        exact Even.neg_one_pow (Nat.even_iff.2 (par M' n hM))
      have hcM : (occSet m').card = (occSet sd).card - M := by omega
      have := htri M (occSet sd).card (by omega)
      rw [hlen, hlen', hcM]
      linear_combination (s * (r'.reverse.map (fun x => phase (occSet m') x)).prod) * this
  clear hfree ha
  induction anns with
  | nil => exact ⟨[], rfl, rfl⟩
  | cons r rs ih =>
    obtain ⟨l, h1, h2⟩ := hrow r (by simp)
    obtain ⟨out, g1, g2⟩ := ih (fun r' h => hrow r' (by simp [h]))
    refine ⟨l :: out, ?_, ?_⟩
    · rw [List.mapM_cons, h1, g1]; rfl
    · rw [List.map_cons, List.map_cons, g2, h2]

/-- C13, disagreement: with different numbers of annihilators and creators (which the documented shapes allow) the
array function counts electrons from the other end and the sign differs from `sign_excite`. -/
theorem C13_unequal_numbers_differ :
    signExciteArray [0, 1] [[0]] [[]] 2 = .ok [[-1]] ∧ signExcite (some 0b11) [0] [] = .ok 1 := by decide

example : signExciteArray [0, 1, 2] [[0, 1], [0, 2]] [[3, 4]] 5 = .ok [[1], [-1]] ∧
    signExcite (some 0b111) [0, 1] [4, 3] = .ok 1 := by decide

/-- `shared_indices_remove_one_index` lists, for each position, the remaining entries in order. -/
theorem C13_shared_indices (l : List ℕ) :
    sharedIndicesRemoveOne l = (List.range l.length).map (fun i => l.eraseIdx i) := by
  have key : ∀ (l : List ℕ) (s i : ℕ),
      ((l.zipIdx s).filter (fun p => decide (p.2 ≠ s + i))).map Prod.fst = l.eraseIdx i := by
    intro l
    induction l with
    | nil => simp
    | cons x l ih =>
      intro s i
      rw [List.zipIdx_cons, List.filter_cons]
      cases i with
      | zero =>
        simp only [Nat.add_zero, ne_eq, not_true, decide_false, Bool.false_eq_true, if_false, List.eraseIdx_cons_zero]
        have : (l.zipIdx (s + 1)).filter (fun p => decide (¬ p.2 = s)) = l.zipIdx (s + 1) := by
          rw [List.filter_eq_self]
          intro p hp
          have := List.mem_zipIdx hp
          simp; omega
        rw [this]; simp
      | succ i =>
        have hne : s ≠ s + (i + 1) := by omega
        simp only [ne_eq, hne, not_false_eq_true, decide_true, if_true, List.map_cons, List.eraseIdx_cons_succ]
        rw [← ih (s + 1) i, show s + 1 + i = s + (i + 1) by omega]
  unfold sharedIndicesRemoveOne
  apply List.map_congr_left
  intro i _
  have := key l 0 i
  rw [Nat.zero_add] at this
  exact this

/-- `spatial_to_spin_indices` is the elementwise `spin_index` (and raises when any of them does). -/
theorem C13_spatial_to_spin (l : List ℤ) (n : ℤ) (hl : l ≠ []) (b : Bool) :
    spatialToSpinIndices l n b = l.mapM (fun i => spinIndex i n (!b)) := by
  unfold spatialToSpinIndices
  by_cases hn : n > 0
  · rw [if_neg (by simpa using hn)]
    clear hl
    induction l with
    | nil => cases b <;> rfl
    | cons i l ih =>
      have hn' : ¬ n ≤ 0 := by omega
      rw [List.mapM_cons]
      by_cases hi : 0 ≤ i ∧ i < n
      · have : spinIndex i n (!b) = .ok (if b then i + n else i) := by
          simp only [spinIndex, if_neg hn', if_neg (not_not.2 hi)]; cases b <;> rfl
        rw [this, ← ih]
        by_cases hall : (l.all fun i => decide (0 ≤ i ∧ i < n)) = true
        · have h2 : ((i :: l).all fun i => decide (0 ≤ i ∧ i < n)) = true := by
            rw [List.all_cons, hall]; simpa using hi
          rw [if_neg (not_not.2 h2), if_neg (not_not.2 hall)]
          cases b <;> rfl
        · have h2 : ¬ ((i :: l).all fun i => decide (0 ≤ i ∧ i < n)) = true := by
            rw [List.all_cons]; intro h; exact hall (by simp only [Bool.and_eq_true] at h; exact h.2)
          rw [if_pos h2, if_pos hall]; rfl
      · have : spinIndex i n (!b) = .error .valueError := by simp only [spinIndex, if_neg hn', if_pos hi]
        rw [this]
        have h2 : ¬ ((i :: l).all fun i => decide (0 ≤ i ∧ i < n)) = true := by
          rw [List.all_cons]; simp only [Bool.and_eq_true, decide_eq_true_eq]; exact fun h => hi h.1
        rw [if_pos h2]; rfl
  · have hn' : n ≤ 0 := by omega
    rw [if_pos (by simpa using hn)]
    cases l with
    | nil => exact absurd rfl hl
    | cons i l =>
      rw [List.mapM_cons]
      simp only [spinIndex, if_pos hn']; rfl

end Fanpy.Props
