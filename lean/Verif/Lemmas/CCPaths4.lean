import Verif.Lemmas.CCPaths3

/-! `generate_possible_exops` yields every product of operators that is in canonical order, once. -/

namespace Fanpy.CC
open Fanpy.Spec Fanpy.Slater Fanpy.Graphs Fanpy.It Fanpy.Props

/-- the products of operators -/
structure IsPath (ranks : List ℕ) (exops : List (List ℕ)) (a c : List ℕ) (S : List (List ℕ × List ℕ)) : Prop where
  rank : ∀ q ∈ S, q.1.length ∈ ranks
  mem : ∀ q ∈ S, q.1 ++ q.2 ∈ exops
  len : ∀ q ∈ S, q.1.length = q.2.length
  srtA : ∀ q ∈ S, q.1.Pairwise (· < ·)
  srtC : ∀ q ∈ S, q.2.Pairwise (· < ·)
  ann : (S.flatMap Prod.fst).Perm a
  cre : (S.flatMap Prod.snd).Perm c
  order : S.Pairwise fun q q' => BlockLt q.1 q'.1

/-- the sign of a product of operators -/
def sgn (S : List (List ℕ × List ℕ)) : ℤ :=
  (-1) ^ hops 0 S * listSign (S.flatMap Prod.fst).reverse * listSign (S.flatMap Prod.snd).reverse

/-- what is stored for a product of operators -/
def out (exops : List (List ℕ)) (S : List (List ℕ × List ℕ)) : List ℕ × ℤ := (S.map fun q => exops.idxOf (q.1 ++ q.2), sgn S)

theorem numHops_eq (S : List (List ℕ × List ℕ)) (h : ∀ q ∈ S, q.1.length = q.2.length) (k : ℕ) :
    numHops k (S.map fun p => p.1 ++ p.2) = hops k S := by
  induction S generalizing k with
  | nil => rfl
  | cons p S ih =>
    have e : (p.1 ++ p.2).length / 2 = p.1.length := by rw [List.length_append, ← h p (by simp)]; omega
    rw [List.map_cons, numHops, hops, e, ih fun q hq => h q (by simp [hq])]

theorem flatMap_ops (S : List (List ℕ × List ℕ)) (h : ∀ q ∈ S, q.1.length = q.2.length) :
    ((S.map fun p => p.1 ++ p.2).flatMap fun op => op.take (op.length / 2)) = S.flatMap Prod.fst ∧
    ((S.map fun p => p.1 ++ p.2).flatMap fun op => op.drop (op.length / 2)) = S.flatMap Prod.snd := by
  rw [List.flatMap_map, List.flatMap_map]
  constructor
  · apply List.flatMap_congr
    intro p hp
    have e : (p.1 ++ p.2).length / 2 = p.1.length := by rw [List.length_append, ← h p hp]; omega
    rw [e, List.take_left]
  · apply List.flatMap_congr
    intro p hp
    have e : (p.1 ++ p.2).length / 2 = p.1.length := by rw [List.length_append, ← h p hp]; omega
    rw [e, List.drop_left]

theorem signPerm_some {l o : List ℕ} (h : l.Perm o) (ho : o.Pairwise (· < ·)) : signPerm l (some o) = .ok (listSign l.reverse) := by
  have hn : l.Nodup := h.nodup_iff.2 (ho.imp fun h => by omega)
  simp only [signPerm, if_true]
  rw [(strictlyIncreasing_iff o).2 ho]
  simp only [Bool.not_true, Bool.false_eq_true, if_false]
  rw [signPermOuter_perm l.reverse o (List.nodup_reverse.2 hn) (h.symm.trans (List.reverse_perm l).symm)]

theorem pathSign_ok {a c : List ℕ} (ha : a.Pairwise (· < ·)) (hc : c.Pairwise (· < ·)) {S : List (List ℕ × List ℕ)}
    (hl : ∀ q ∈ S, q.1.length = q.2.length) (h1 : (S.flatMap Prod.fst).Perm a) (h2 : (S.flatMap Prod.snd).Perm c) :
    pathSign a c (S.map fun p => p.1 ++ p.2) = .ok (sgn S) := by
  unfold pathSign
  rw [(flatMap_ops S hl).1, (flatMap_ops S hl).2, signPerm_some h1 ha, signPerm_some h2 hc, numHops_eq S hl]
  rfl

theorem pathsOf_ok (exops : List (List ℕ)) {a c : List ℕ} (ha : a.Pairwise (· < ·)) (hc : c.Pairwise (· < ·))
    (L : List (List (List ℕ × List ℕ))) (hL : ∀ S ∈ L, (∀ q ∈ S, q.1.length = q.2.length) ∧ (S.flatMap Prod.fst).Perm a ∧
      (S.flatMap Prod.snd).Perm c) :
    pathsOf exops a c L = .ok ((L.filter fun S => S.all fun q => q.1 ++ q.2 ∈ exops).map (out exops)) := by
  unfold pathsOf
  rw [List.filter_map]
  have : (L.filter ((fun ops : List (List ℕ) => ops.all fun op => decide (op ∈ exops)) ∘ fun comb : List (List ℕ × List ℕ) =>
      comb.map fun p => p.1 ++ p.2)) = L.filter fun S => S.all fun q => q.1 ++ q.2 ∈ exops := by
    apply List.filter_congr
    intro S _
    simp [List.all_map, Function.comp_def]
  rw [this]
  apply mapM_okE
  intro S hS
  have h := hL S (List.mem_filter.1 hS).1
  simp only [pathSign_ok ha hc h.1 h.2.1 h.2.2, bind, Except.bind, pure, Except.pure, out, List.map_map]
  rfl

theorem possibleExops_spec (ranks : List ℕ) (exops : List (List ℕ)) (a c : List ℕ) (hr : ranks.Nodup) (hpos : ∀ r ∈ ranks, 0 < r)
    (ha : a.Pairwise (· < ·)) (hc : c.Pairwise (· < ·)) (hl : a.length = c.length) :
    ∃ L : List (List (List ℕ × List ℕ)), possibleExops ranks exops a c = .ok (L.map (out exops)) ∧ L.Nodup ∧
      ∀ S, S ∈ L ↔ IsPath ranks exops a c S := by
  obtain ⟨Ps, hPs, hPn, hPm⟩ := C18_int_partition ranks ranks.length a.length hr hpos le_rfl
  rw [List.take_length] at hPm
  have hP : ∀ p ∈ Ps, (∀ s ∈ p, s ∈ ranks) ∧ p.sum = a.length := by
    intro p hp
    have := (hPm p).1 (List.mem_map_of_mem hp)
    simpa using this
  have hone : ∀ p ∈ Ps, ∀ s ∈ p, 1 ≤ s := fun p hp s hs => hpos s ((hP p hp).1 s hs)
  have hA : ∀ p ∈ Ps, ∃ L : List (List (List (List ℕ))), unorderedPartition a (binSizeNum p) = some (L.map List.flatten) ∧ L.Nodup ∧
      ∀ Q, Q ∈ L ↔ Full (binSizeNum p) Q ∧ Q.flatten.flatten.Perm a := fun p hp => unordered_full (hone p hp) ha (hP p hp).2
  have hC : ∀ p ∈ Ps, ∃ L : List (List (List (List ℕ))), unorderedPartition c (binSizeNum p) = some (L.map List.flatten) ∧ L.Nodup ∧
      ∀ Q, Q ∈ L ↔ Full (binSizeNum p) Q ∧ Q.flatten.flatten.Perm c :=
    fun p hp => unordered_full (hone p hp) hc ((hP p hp).2.trans hl)
  choose! La hLa using hA
  choose! Lc hLc using hC
  have hpp := fun p hp => partition_paths (hone p hp) ha hc (hLa p hp).2.1 (hLc p hp).2.1 (hLa p hp).2.2 (hLc p hp).2.2
  refine ⟨Ps.reverse.flatMap fun p => (La p).flatMap fun Q => (Lc p).flatMap fun P =>
    (prods Q P).filter fun S => S.all fun q => q.1 ++ q.2 ∈ exops, ?_, ?_, ?_⟩
  · unfold possibleExops
    rw [hPs]
    have main : (Ps.reverse.mapM fun partition => do
        let annhss ← ofOption (unorderedPartition a (binSizeNum partition))
        let l ← annhss.mapM fun annhs => do
          let creass ← ofOption (unorderedPartition c (binSizeNum partition))
          let l ← creass.mapM fun creas => do
            let combs ← pairings (binSizeNum partition) annhs creas
            pathsOf exops a c combs
          return l.flatten
        return l.flatten) = (.ok (Ps.reverse.map fun p => (((La p).map fun Q => ((Lc p).map fun P =>
          ((prods Q P).filter fun S => S.all fun q => q.1 ++ q.2 ∈ exops).map (out exops)).flatten)).flatten) : Except PyErr _) := by
      apply mapM_okE'
      intro p hp
      have hp : p ∈ Ps := List.mem_reverse.1 hp
      simp only [(hLa p hp).1, (hLc p hp).1, ofOption, bind, Except.bind]
      rw [mapM_okE _ List.flatten (fun Q => ((Lc p).map fun P =>
          ((prods Q P).filter fun S => S.all fun q => q.1 ++ q.2 ∈ exops).map (out exops)).flatten) (La p)]
      · rfl
      · intro Q hQ
        rw [mapM_okE _ List.flatten (fun P => ((prods Q P).filter fun S => S.all fun q => q.1 ++ q.2 ∈ exops).map (out exops)) (Lc p)]
        · rfl
        · intro P hPc
          rw [pairings_ok (((hLa p hp).2.2 Q).1 hQ).1.sized (((hLc p hp).2.2 P).1 hPc).1.sized
            ((binSizeNum_sizes p).imp fun h => by omega) (fun sn h => by
              rw [(mem_binSizeNum.1 h).2]; exact List.count_pos_iff.2 (mem_binSizeNum.1 h).1)]
          apply pathsOf_ok exops ha hc
          intro S hS
          have := ((hpp p hp).2 S).1 (List.mem_flatMap.2 ⟨Q, hQ, List.mem_flatMap.2 ⟨P, hPc, hS⟩⟩)
          exact ⟨this.len, this.ann, this.cre⟩
    have main' := main
    simp only [ofOption, bind, Except.bind, pure, Except.pure] at main' ⊢
    rw [main']
    simp only [List.flatMap_def, List.map_flatten, List.map_map, Function.comp_def]
  · have : ∀ p, ((La p).flatMap fun Q => (Lc p).flatMap fun P => (prods Q P).filter fun S => S.all fun q => q.1 ++ q.2 ∈ exops) =
        ((La p).flatMap fun Q => (Lc p).flatMap fun P => prods Q P).filter fun S => S.all fun q => q.1 ++ q.2 ∈ exops := by
      intro p
      rw [List.filter_flatMap]
      simp only [List.filter_flatMap]
    simp only [this]
    rw [List.nodup_flatMap]
    refine ⟨fun p hp => ((hpp p (List.mem_reverse.1 hp)).1).filter _, ?_⟩
    rw [List.pairwise_reverse]
    unfold List.Nodup at hPn
    rw [List.pairwise_map] at hPn
    refine List.Pairwise.imp_of_mem ?_ hPn
    intro p q hp hq hne
    rw [Function.onFun, List.disjoint_left]
    intro S hS hS'
    have h1 := ((hpp q hq).2 S).1 (List.mem_filter.1 hS).1
    have h2 := ((hpp p hp).2 S).1 (List.mem_filter.1 hS').1
    exact hne (Multiset.coe_eq_coe.2 (h2.sizes.symm.trans h1.sizes))
  · intro S
    rw [List.mem_flatMap]
    constructor
    · rintro ⟨p, hp, hS⟩
      have hp := List.mem_reverse.1 hp
      simp only [List.mem_flatMap, List.mem_filter] at hS
      obtain ⟨Q, hQ, P, hPc, hS, hall⟩ := hS
      have h := ((hpp p hp).2 S).1 (List.mem_flatMap.2 ⟨Q, hQ, List.mem_flatMap.2 ⟨P, hPc, hS⟩⟩)
      refine ⟨fun q hq => (hP p hp).1 _ (h.sizes.mem_iff.1 (List.mem_map_of_mem (f := fun q : List ℕ × List ℕ => q.1.length) hq)), ?_,
        h.len, h.srtA, h.srtC, h.ann, h.cre, h.order⟩
      simpa using hall
    · intro h
      have hm : ((S.map fun q => q.1.length : List ℕ) : Multiset ℕ) ∈ Ps.map (fun p : List ℕ => (p : Multiset ℕ)) := by
        rw [hPm]
        refine ⟨?_, ?_⟩
        · intro s hs
          rw [Multiset.mem_coe] at hs
          obtain ⟨q, hq, rfl⟩ := List.mem_map.1 hs
          exact h.rank q hq
        · rw [Multiset.sum_coe, ← h.ann.length_eq, List.length_flatMap]
      obtain ⟨p, hp, e⟩ := List.mem_map.1 hm
      refine ⟨p, List.mem_reverse.2 hp, ?_⟩
      have := ((hpp p hp).2 S).2 ⟨Multiset.coe_eq_coe.1 e.symm, h.len, h.srtA, h.srtC, h.ann, h.cre, h.order⟩
      simp only [List.mem_flatMap, List.mem_filter] at this ⊢
      obtain ⟨Q, hQ, P, hPc, hS⟩ := this
      exact ⟨Q, hQ, P, hPc, hS, by simpa using h.mem⟩

end Fanpy.CC
