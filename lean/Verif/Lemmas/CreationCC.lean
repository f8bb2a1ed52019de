import Verif.Model.CreationCC
import Verif.Lemmas.GeminalCovers
import Verif.Props.Geminal

/-! Lemmas on the creation-operator coupled cluster wavefunction. -/

namespace Fanpy.CreationCC
open Fanpy.Spec Fanpy.Slater Fanpy.Graphs Fanpy.It Fanpy.Geminal Fanpy.Lemmas Fanpy.Props

theorem signInner_eq (x : ℕ) (l : List ℕ) (s : ℤ) : signInner x l s = s * (l.map fun b => if b < x then (-1 : ℤ) else 1).prod := by
  induction l generalizing s with
  | nil => simp [signInner]
  | cons y l ih =>
    rw [signInner, ih, List.map_cons, List.prod_cons]
    by_cases h : y < x <;> simp [h]

theorem signOuter_eq (l : List ℕ) (s : ℤ) : signOuter l s = s * listSign l := by
  induction l generalizing s with
  | nil => simp [signOuter, listSign]
  | cons y l ih => rw [signOuter, ih, signInner_eq, listSign, mul_assoc]

theorem getSign_eq (S : List (ℕ × ℕ)) : getSign S = listSign (flatPairs S) := by rw [getSign, signOuter_eq, one_mul]

theorem mem_indexPairs {n : ℕ} {p : ℕ × ℕ} : p ∈ indexPairs n ↔ p.1 < p.2 ∧ p.2 < n := by
  rw [indexPairs, List.mem_map]
  constructor
  · rintro ⟨c, hc, rfl⟩
    obtain ⟨hs, hl⟩ := mem_comb.1 hc
    match c, hl with
    | [x, y], _ =>
      have h1 := List.pairwise_lt_range.sublist hs
      have h2 := hs.subset (show y ∈ [x, y] by simp)
      simp at h1 h2 ⊢
      exact ⟨h1, h2⟩
  · rintro ⟨h1, h2⟩
    refine ⟨[p.1, p.2], mem_comb.2 ⟨?_, rfl⟩, rfl⟩
    have hsub : [p.1, p.2].Sublist (List.range n) := by
      apply List.sublist_of_subperm_of_pairwise (r := (· < ·))
      · exact List.subperm_of_subset (by simp; omega) (by intro x hx; simp at hx ⊢; omega)
      · simp; exact h1
      · exact List.pairwise_lt_range
    exact hsub

theorem indexPairs_nodup (n : ℕ) : (indexPairs n).Nodup := by
  apply List.Nodup.map_on _ (comb_nodup 2 List.nodup_range)
  intro x hx y hy h
  obtain ⟨-, hlx⟩ := mem_comb.1 hx
  obtain ⟨-, hly⟩ := mem_comb.1 hy
  match x, y, hlx, hly with
  | [a, b], [c, d], _, _ => simpa using h

theorem mem_getPermutations {n : ℕ} (hn : n % 2 = 0) {m : List (ℕ × ℕ) × ℤ} (hm : m ∈ getPermutations n) :
    m.1.Sublist (indexPairs n) ∧ m.1.length = n / 2 ∧ (flatPairs m.1).Perm (List.range n) ∧ m.2 = listSign (flatPairs m.1) := by
  rw [getPermutations, List.mem_map] at hm
  obtain ⟨S, hS, rfl⟩ := hm
  rw [List.mem_filter, decide_eq_true_eq] at hS
  obtain ⟨h1, h2⟩ := hS
  obtain ⟨h3, h4⟩ := mem_comb.1 h1
  refine ⟨h3, h4, ?_, getSign_eq S⟩
  have hl : (flatPairs S).length = n := by rw [flatPairs_length_even, h4]; omega
  have hnd : (flatPairs S).Nodup := by
    rw [← List.dedup_eq_self]
    exact (List.dedup_sublist _).eq_of_length (by omega)
  refine (List.subperm_of_subset hnd ?_).perm_of_length_le (by simp [hl])
  intro x hx
  rw [flatPairs, List.mem_flatMap] at hx
  obtain ⟨p, hp, hx⟩ := hx
  have := mem_indexPairs.1 (h3.subset hp)
  simp at hx ⊢
  omega

/-- a pair of positions as a pair of occupied orbitals -/
def atPair (l : List ℕ) (p : ℕ × ℕ) : ℕ × ℕ := (l.getD p.1 0, l.getD p.2 0)

theorem flatPairs_atPair (l : List ℕ) (S : List (ℕ × ℕ)) : flatPairs (S.map (atPair l)) = (flatPairs S).map fun i => l.getD i 0 := by
  simp [flatPairs, List.flatMap_map, List.map_flatMap, atPair]

theorem listSign_map_strict (f : ℕ → ℕ) (l : List ℕ) (h : ∀ a ∈ l, ∀ b ∈ l, (f a < f b ↔ a < b)) : listSign (l.map f) = listSign l := by
  induction l with
  | nil => rfl
  | cons x l ih =>
    rw [List.map_cons, listSign, listSign, ih fun a ha b hb => h a (by simp [ha]) b (by simp [hb]), List.map_map]
    congr 2
    apply List.map_congr_left
    intro b hb
    simp [h b (by simp [hb]) x (by simp)]

theorem map_getD_range (l : List ℕ) : (List.range l.length).map (fun i => l.getD i 0) = l := by
  apply List.ext_getElem (by simp)
  intro i h1 h2
  rw [List.getElem_map, List.getElem_range, List.getD_eq_getElem _ _ h2]

theorem getD_lt {l : List ℕ} (h : l.Pairwise (· < ·)) {a b : ℕ} (ha : a < l.length) (hb : b < l.length) :
    l.getD a 0 < l.getD b 0 ↔ a < b := by
  rw [List.getD_eq_getElem _ _ ha, List.getD_eq_getElem _ _ hb]
  rw [List.pairwise_iff_getElem] at h
  constructor
  · intro hl
    by_contra hc
    rcases eq_or_lt_of_le (not_lt.1 hc) with e | e
    · subst e; omega
    · have := h b a hb ha e; omega
  · exact h a b ha hb

theorem filter_mem_sublist {α : Type} [DecidableEq α] {S L : List α} (hL : L.Nodup) (h : S.Sublist L) : L.filter (· ∈ S) = S := by
  induction h with
  | slnil => rfl
  | @cons l1 l2 a h ih =>
    rw [List.nodup_cons] at hL
    rw [List.filter_cons_of_neg (by simpa using fun hm => hL.1 (h.subset hm)), ih hL.2]
  | @cons_cons l1 l2 a h ih =>
    rw [List.nodup_cons] at hL
    rw [List.filter_cons_of_pos (by simp)]
    congr 1
    rw [← ih hL.2]
    apply List.filter_congr
    intro x hx
    have : x ≠ a := by rintro rfl; exact hL.1 hx
    rw [ih hL.2]
    simp [this]

/-- the matchings, as pairs of occupied orbitals -/
theorem covers_permutations {pairs : List (ℕ × ℕ)} {l : List ℕ} {n : ℕ} (hn : n % 2 = 0) (hl : l.length = n) (hs : l.Pairwise (· < ·))
    (hlt : ∀ p ∈ pairs, p.1 < p.2) (hall : ∀ i ∈ l, ∀ j ∈ l, i < j → (i, j) ∈ pairs) :
    Covers pairs l.toFinset (n / 2) ((getPermutations n).map fun m => (m.1.map (atPair l), m.2)) := by
  have hnl : l.Nodup := hs.imp ne_of_lt
  have hget : ∀ i < n, l.getD i 0 ∈ l := by
    intro i hi
    rw [List.getD_eq_getElem _ _ (by omega)]; exact List.getElem_mem _
  have hinj : ∀ p ∈ indexPairs n, ∀ q ∈ indexPairs n, atPair l p = atPair l q → p = q := by
    intro p hp q hq h
    have hp := mem_indexPairs.1 hp
    have hq := mem_indexPairs.1 hq
    have e1 : l.getD p.1 0 = l.getD q.1 0 := congrArg Prod.fst h
    have e2 : l.getD p.2 0 = l.getD q.2 0 := congrArg Prod.snd h
    rw [List.getD_eq_getElem _ _ (by omega), List.getD_eq_getElem _ _ (by omega), hnl.getElem_inj_iff] at e1 e2
    exact Prod.ext e1 e2
  have hflat : ∀ S : List (ℕ × ℕ), (flatPairs S).Perm (List.range n) → (flatPairs (S.map (atPair l))).Perm l := by
    intro S hS
    rw [flatPairs_atPair]
    have := hS.map fun i => l.getD i 0
    rwa [← hl, map_getD_range] at this
  refine ⟨?_, ?_, ?_, ?_, ?_, ?_, ?_⟩
  · intro o ho p hp
    obtain ⟨m, hm, rfl⟩ := List.mem_map.1 ho
    obtain ⟨h1, -⟩ := mem_getPermutations hn hm
    obtain ⟨q, hq, rfl⟩ := List.mem_map.1 hp
    have hq := mem_indexPairs.1 (h1.subset hq)
    exact hall _ (hget _ (by omega)) _ (hget _ hq.2) ((getD_lt hs (by omega) (by omega)).2 hq.1)
  · intro o ho
    obtain ⟨m, hm, rfl⟩ := List.mem_map.1 ho
    exact (hflat _ (mem_getPermutations hn hm).2.2.1).nodup_iff.2 hnl
  · intro o ho
    obtain ⟨m, hm, rfl⟩ := List.mem_map.1 ho
    exact List.toFinset_eq_of_perm _ _ (hflat _ (mem_getPermutations hn hm).2.2.1)
  · intro o ho
    obtain ⟨m, hm, rfl⟩ := List.mem_map.1 ho
    simpa using (mem_getPermutations hn hm).2.1
  · intro o ho
    obtain ⟨m, hm, rfl⟩ := List.mem_map.1 ho
    obtain ⟨-, -, h3, h4⟩ := mem_getPermutations hn hm
    simp only
    rw [h4, flatPairs_atPair, listSign_map_strict]
    intro a ha b hb
    rw [h3.mem_iff, List.mem_range] at ha hb
    exact getD_lt hs (by omega) (by omega)
  · rw [List.map_map, getPermutations, List.map_map]
    apply List.Nodup.map_on _ ((comb_nodup _ (indexPairs_nodup n)).filter _)
    intro S hS T hT h
    simp only [Function.comp_apply] at h
    obtain ⟨h1, -⟩ := mem_comb.1 (List.mem_of_mem_filter hS)
    obtain ⟨h2, -⟩ := mem_comb.1 (List.mem_of_mem_filter hT)
    have key : ∀ {S T : List (ℕ × ℕ)}, S.Sublist (indexPairs n) → T.Sublist (indexPairs n) →
        (S.map (atPair l)).toFinset = (T.map (atPair l)).toFinset → ∀ p ∈ S, p ∈ T := by
      intro S T hS hT h p hp
      have : atPair l p ∈ (T.map (atPair l)).toFinset := by rw [← h, List.mem_toFinset]; exact List.mem_map_of_mem hp
      rw [List.mem_toFinset, List.mem_map] at this
      obtain ⟨q, hq, e⟩ := this
      rw [← hinj q (hT.subset hq) p (hS.subset hp) e]; exact hq
    have e1 : ∀ p, p ∈ S ↔ p ∈ T := fun p => ⟨key h1 h2 h p, key h2 h1 h.symm p⟩
    have hS' := (indexPairs_nodup n)
    rw [← filter_mem_sublist hS' h1, ← filter_mem_sublist hS' h2]
    congr 1
    funext p
    simp [e1 p]
  · intro S hSp hSn hSs
    have hSl : (flatPairs S).Perm l := List.perm_of_nodup_nodup_toFinset_eq hSn hnl hSs
    have hback : ∀ p ∈ S, ∃ q ∈ indexPairs n, atPair l q = p := by
      intro p hp
      have m1 : p.1 ∈ l := hSl.mem_iff.1 (List.mem_flatMap.2 ⟨p, hp, by simp⟩)
      have m2 : p.2 ∈ l := hSl.mem_iff.1 (List.mem_flatMap.2 ⟨p, hp, by simp⟩)
      obtain ⟨i, hi, e1⟩ := List.getElem_of_mem m1
      obtain ⟨j, hj, e2⟩ := List.getElem_of_mem m2
      have hlt := hlt p (hSp p hp)
      refine ⟨(i, j), mem_indexPairs.2 ⟨?_, by simp only; omega⟩, ?_⟩
      · rw [← e1, ← e2, ← List.getD_eq_getElem l 0 hi, ← List.getD_eq_getElem l 0 hj, getD_lt hs hi hj] at hlt
        exact hlt
      · rw [atPair]; simp only
        rw [List.getD_eq_getElem _ _ hi, List.getD_eq_getElem _ _ hj, e1, e2]
    let T := (indexPairs n).filter fun q => atPair l q ∈ S
    have hTsub : T.Sublist (indexPairs n) := List.filter_sublist
    have hTS : (T.map (atPair l)).Perm S := by
      have hTn : (T.map (atPair l)).Nodup := List.Nodup.map_on (fun p hp q hq => hinj p (hTsub.subset hp) q (hTsub.subset hq))
        ((indexPairs_nodup n).filter _)
      rw [List.perm_ext_iff_of_nodup hTn (nodup_of_flatPairs hSn)]
      intro p
      rw [List.mem_map]
      constructor
      · rintro ⟨q, hq, rfl⟩
        simpa [T] using (List.mem_filter.1 hq).2
      · intro hp
        obtain ⟨q, hq, rfl⟩ := hback p hp
        exact ⟨q, List.mem_filter.2 ⟨hq, by simpa using hp⟩, rfl⟩
    have hfT : (flatPairs T).Nodup := by
      have h1 : (flatPairs (T.map (atPair l))).Perm (flatPairs S) := List.Perm.flatMap_right _ hTS
      have h2 := h1.nodup_iff.2 hSn
      rw [flatPairs_atPair] at h2
      exact List.Nodup.of_map _ h2
    have hlenT : T.length = n / 2 := by
      have h1 := hTS.length_eq
      have h2 := hSl.length_eq
      rw [flatPairs_length_even] at h2
      rw [List.length_map] at h1
      omega
    refine ⟨(T.map (atPair l), getSign T), ?_, List.toFinset_eq_of_perm _ _ hTS⟩
    refine List.mem_map.2 ⟨(T, getSign T), ?_, rfl⟩
    rw [getPermutations, List.mem_map]
    refine ⟨T, List.mem_filter.2 ⟨mem_comb.2 ⟨hTsub, hlenT⟩, ?_⟩, rfl⟩
    rw [decide_eq_true_eq, hfT.dedup, flatPairs_length_even, hlenT]
    omega

end Fanpy.CreationCC
