import Verif.Props.UnorderedPartition

/-! C17 for collections in any order. -/

namespace Fanpy.Props
open Fanpy.Graphs

/-- the bins with other items -/
def relabel (f : ℕ → ℕ) (P : List (List ℕ)) : List (List ℕ) := P.map (·.map f)

/-- every bin is increasing -/
def binsIncreasing (P : List (List ℕ)) : Bool := decide (∀ b ∈ P, b.Pairwise (· < ·))

/-- the items can be appended to the bin `k` -/
def fits (f : ℕ → ℕ) (part : List (List ℕ)) (x k : ℕ) : Bool :=
  match (part.getD k []).getLast? with
  | none => true
  | some top => decide (f top < f x)

theorem fillLoop_relabel (f : ℕ → ℕ) (spec : List (ℕ × ℕ)) (part : List (List ℕ)) (x : ℕ) (h : ∀ b ∈ part, ∀ y ∈ b, y < x) :
    ∀ (fuel : ℕ) (a : ℤ) (b : ℕ) (c : ℤ), fillLoop spec (relabel f part) (f x) fuel a b c =
      (fillLoop spec part x fuel a b c).map (List.filter (fits f part x))
  | 0, _, _, _ => rfl
  | fuel + 1, a, b, c => by
    have ih := fillLoop_relabel f spec part x h fuel
    rw [fillLoop, fillLoop]
    cases spec[b]? with
    | none => rfl
    | some sn =>
      simp only
      generalize (if decide (c + 1 = (sn.2 : ℤ)) = true then b + 1 else b) = b'
      generalize (if decide (c + 1 = (sn.2 : ℤ)) = true then 0 else c + 1) = c'
      cases spec[b']? with
      | none => rfl
      | some sn' =>
        simp only [relabel, List.getElem?_map]
        cases hp : part[(a + 1).toNat]? with
        | none => rfl
        | some subset =>
          have hg : part.getD (a + 1).toNat [] = subset := by rw [List.getD_eq_getElem?_getD, hp]; rfl
          simp only [Option.map_some, List.getLast?_map]
          cases hl : subset.getLast? with
          | none =>
            have hk : fits f part x (a + 1).toNat = true := by rw [fits, hg, hl]
            simp only [Option.map_none]
            have key : ∀ o : Option (List ℕ), Option.map (fun t => (a + 1).toNat :: t) (o.map (List.filter (fits f part x))) =
                (Option.map (fun t => (a + 1).toNat :: t) o).map (List.filter (fits f part x)) := by
              intro o
              cases o with
              | none => rfl
              | some o => simp [List.filter_cons, hk]
            have ih' := ih
            simp only [relabel] at ih'
            split_ifs
            · rw [ih', key]
            · rw [ih', key]
          | some top =>
            have ht : top < x := h subset (List.mem_of_getElem? hp) top (List.mem_of_getLast? hl)
            have hk : fits f part x (a + 1).toNat = decide (f top < f x) := by rw [fits, hg, hl]
            have ih' := ih
            simp only [relabel] at ih'
            simp only [Option.map_some, ht, not_true, if_false, List.length_map, ih']
            by_cases hf : f top < f x
            · simp only [hf, not_true, if_false]
              split_ifs
              · cases fillLoop spec part x fuel (a + 1) b' c' with
                | none => rfl
                | some o => simp [List.filter_cons, hk, hf]
              · rfl
            · simp only [hf, not_false_eq_true, if_true]
              split_ifs
              · cases fillLoop spec part x fuel (a + 1) b' c' with
                | none => rfl
                | some o => simp [List.filter_cons, hk, hf]
              · rfl

theorem putLast_relabel (f : ℕ → ℕ) (part : List (List ℕ)) (x k : ℕ) :
    relabel f (putLast part x k) = putLast (relabel f part) (f x) k := by
  have : (relabel f part).getD k [] = (part.getD k []).map f := by
    rw [relabel, List.getD_eq_getElem?_getD, List.getD_eq_getElem?_getD, List.getElem?_map]
    cases part[k]? <;> rfl
  rw [putLast, putLast, this, relabel, relabel]
  simp

theorem increasing_append {b : List ℕ} {y : ℕ} : (b ++ [y]).Pairwise (· < ·) ↔
    b.Pairwise (· < ·) ∧ ∀ top, b.getLast? = some top → top < y := by
  rw [List.pairwise_append]
  constructor
  · rintro ⟨h1, -, h3⟩
    exact ⟨h1, fun top ht => h3 top (List.mem_of_getLast? ht) y (by simp)⟩
  · rintro ⟨h1, h2⟩
    refine ⟨h1, by simp, fun a ha c hc => ?_⟩
    rw [List.mem_singleton] at hc
    subst hc
    rcases List.eq_nil_or_concat b with rfl | ⟨M, t, rfl⟩
    · cases ha
    · rw [List.concat_eq_append] at ha h1 h2
      have ht := h2 t (by simp)
      rw [List.mem_append, List.mem_singleton] at ha
      rcases ha with ha | rfl
      · rw [List.pairwise_append] at h1
        exact (h1.2.2 a ha t (by simp)).trans ht
      · exact ht

theorem increasing_putLast (f : ℕ → ℕ) (part : List (List ℕ)) (x k : ℕ) :
    binsIncreasing (relabel f (putLast part x k)) = (binsIncreasing (relabel f part) && fits f part x k) := by
  have hfit : fits f part x k = true ↔ ∀ top, ((part.getD k []).map f).getLast? = some top → top < f x := by
    rw [fits, List.getLast?_map]
    cases (part.getD k []).getLast? <;> simp
  rw [Bool.eq_iff_iff, Bool.and_eq_true, hfit, binsIncreasing, binsIncreasing, decide_eq_true_iff, decide_eq_true_iff, putLast, relabel,
    relabel]
  simp only [List.map_append, List.map_cons, List.map_nil]
  have split : ∀ P : List ℕ → Prop, (∀ b ∈ part.map (·.map f), P b) ∧ P ((part.getD k []).map f) ↔
      (∀ b ∈ (part.take k).map (·.map f), P b) ∧ P ((part.getD k []).map f) ∧ ∀ b ∈ (part.drop (k + 1)).map (·.map f), P b := by
    intro P
    by_cases hk : k < part.length
    · have e : part = part.take k ++ part.getD k [] :: part.drop (k + 1) := by
        rw [List.getD_eq_getElem?_getD, List.getElem?_eq_getElem hk, Option.getD_some, List.cons_getElem_drop_succ, List.take_append_drop]
      constructor
      · rintro ⟨h1, h2⟩
        rw [e, List.map_append, List.map_cons] at h1
        exact ⟨fun b hb => h1 b (by simp only [List.mem_append]; exact .inl hb), h2,
          fun b hb => h1 b (by simp only [List.mem_append, List.mem_cons]; exact .inr (.inr hb))⟩
      · rintro ⟨h1, h2, h3⟩
        refine ⟨fun b hb => ?_, h2⟩
        rw [e, List.map_append, List.map_cons, List.mem_append, List.mem_cons] at hb
        rcases hb with hb | rfl | hb
        · exact h1 b hb
        · exact h2
        · exact h3 b hb
    · rw [List.take_of_length_le (by omega), List.drop_eq_nil_of_le (by omega)]
      simp
  constructor
  · intro h
    have h1 := h ((part.getD k []).map f ++ [f x]) (by simp)
    rw [increasing_append] at h1
    refine ⟨((split (fun b => b.Pairwise (· < ·))).2 ⟨fun b hb => h b (by simp only [List.mem_append]; exact .inl (.inl hb)), h1.1,
      fun b hb => h b (by simp only [List.mem_append]; exact .inr hb)⟩).1, h1.2⟩
  · rintro ⟨h1, h2⟩ b hb
    have h0 : ((part.getD k []).map f).Pairwise (· < ·) := by
      by_cases hk : k < part.length
      · apply h1
        rw [List.getD_eq_getElem?_getD, List.getElem?_eq_getElem hk, Option.getD_some]
        exact List.mem_map_of_mem (List.getElem_mem hk)
      · rw [List.getD_eq_getElem?_getD, List.getElem?_eq_none (by omega)]
        simp
    obtain ⟨s1, s2, s3⟩ := (split (fun b => b.Pairwise (· < ·))).1 ⟨h1, h0⟩
    rw [List.mem_append, List.mem_append, List.mem_singleton] at hb
    rcases hb with (hb | rfl) | hb
    · exact s1 b hb
    · rw [increasing_append]; exact ⟨s2, h2⟩
    · exact s3 b hb

theorem rev_relabel (f : ℕ → ℕ) (spec : List (ℕ × ℕ)) (hs : ∀ sn ∈ spec, 1 ≤ sn.1) (hz : ∀ sn ∈ spec, 1 ≤ sn.2) :
    ∀ (c : List ℕ), c.Pairwise (· > ·) → ∃ L, unorderedPartitionRev spec c = some L ∧
      unorderedPartitionRev spec (c.map f) = some ((L.map (relabel f)).filter binsIncreasing)
  | [], _ => by
    refine ⟨_, rfl, ?_⟩
    have : relabel f (spec.flatMap fun sn => List.replicate sn.2 []) = spec.flatMap fun sn => List.replicate sn.2 [] := by
      simp [relabel, List.map_flatMap]
    rw [List.map_nil, unorderedPartitionRev, List.map_cons, List.map_nil, this, List.filter_cons, if_pos]
    · rfl
    · rw [binsIncreasing, decide_eq_true_iff]
      intro b hb
      obtain ⟨sn, -, h⟩ := List.mem_flatMap.1 hb
      rw [List.eq_of_mem_replicate h]
      exact List.Pairwise.nil
  | x :: c, hc => by
    rw [List.pairwise_cons] at hc
    obtain ⟨L, h1, h2⟩ := rev_relabel f spec hs hz c hc.2
    obtain ⟨Q, q1, -, q3⟩ := rev_spec spec hs hz c hc.2
    obtain ⟨Q', q1', -, -⟩ := rev_spec spec hs hz (x :: c) (List.pairwise_cons.2 hc)
    have hL : L = Q.map List.flatten := Option.some.inj (h1.symm.trans q1)
    have hx : ∀ p ∈ L, ∀ b ∈ p, ∀ y ∈ b, y < x := by
      intro p hp b hb y hy
      rw [hL] at hp
      obtain ⟨gs, hgs, rfl⟩ := List.mem_map.1 hp
      exact hc.1 y (((q3 gs).1 hgs).2.mem_iff.1 (List.mem_flatten.2 ⟨b, hb, hy⟩))
    have hks : ∀ p ∈ L, ∃ ks, fillLoop spec p x ((spec.map Prod.snd).sum + spec.length + 1) (-1) 0 (-1) = some ks := by
      intro p hp
      rw [hL] at hp
      obtain ⟨gs, hgs, rfl⟩ := List.mem_map.1 hp
      obtain ⟨ks, k1, -⟩ := fillLoop_spec x spec gs (fun sn h => by have := hz sn h; omega)
        (((q3 gs).1 hgs).1.imp fun _ _ h => h.len)
      exact ⟨ks, k1⟩
    obtain ⟨K, hK⟩ : ∃ K : List (List ℕ) → List ℕ, ∀ p ∈ L, fillLoop spec p x ((spec.map Prod.snd).sum + spec.length + 1) (-1) 0 (-1) = some (K p) := by
      classical
      refine ⟨fun p => if h : p ∈ L then (hks p h).choose else [], fun p hp => ?_⟩
      simp only [hp, dif_pos]
      exact (hks p hp).choose_spec
    refine ⟨L.flatMap fun p => (K p).map (putLast p x), ?_, ?_⟩
    · rw [unorderedPartitionRev, h1]
      have := mapM_some (fun part => do
        let ks ← fillLoop spec part x ((spec.map Prod.snd).sum + spec.length + 1) (-1) 0 (-1)
        return ks.map (putLast part x)) id (fun p => (K p).map (putLast p x)) L (by
          intro p hp
          simp only [id, hK p hp]
          rfl)
      rw [List.map_id] at this
      show Option.bind (List.mapM _ L) (fun parts => some parts.flatten) = _
      rw [this, Option.bind_some, List.flatMap_def]
    · rw [List.map_cons, unorderedPartitionRev, h2]
      have e : (L.map (relabel f)).filter binsIncreasing = (L.filter fun p => binsIncreasing (relabel f p)).map (relabel f) := by
        rw [List.filter_map]; rfl
      have := mapM_some (fun part => do
        let ks ← fillLoop spec part (f x) ((spec.map Prod.snd).sum + spec.length + 1) (-1) 0 (-1)
        return ks.map (putLast part (f x))) (relabel f) (fun p => ((K p).filter (fits f p x)).map (putLast (relabel f p) (f x)))
        (L.filter fun p => binsIncreasing (relabel f p)) (by
          intro p hp
          have hp' := (List.mem_filter.1 hp).1
          simp only [fillLoop_relabel f spec p x (hx p hp'), hK p hp']
          rfl)
      show Option.bind (List.mapM _ ((L.map (relabel f)).filter binsIncreasing)) (fun parts => some parts.flatten) = _
      rw [e, this, Option.bind_some, List.map_flatMap, List.filter_flatMap, ← List.flatMap_def]
      congr 1
      clear this e hK hks hx hL h1 h2 q1 q1' q3
      induction L with
      | nil => rfl
      | cons p L ih =>
        have hp : ((K p).map (putLast p x)).map (relabel f) = (K p).map (fun k => relabel f (putLast p x k)) := by
          rw [List.map_map]; rfl
        rw [List.flatMap_cons, hp, List.filter_map, List.filter_cons]
        have he : (binsIncreasing ∘ fun k => relabel f (putLast p x k)) = fun k => binsIncreasing (relabel f p) && fits f p x k := by
          funext k
          exact increasing_putLast f p x k
        rw [he]
        by_cases hb : binsIncreasing (relabel f p) = true
        · rw [if_pos hb, List.flatMap_cons, ih]
          simp only [hb, Bool.true_and, putLast_relabel]
        · rw [if_neg hb, ih]
          rw [Bool.not_eq_true] at hb
          simp [hb]

/-- **C17.**  For a collection in any order, also with repeated items, the code yields the partitions of its positions in which the items of every bin
are increasing, in the same order; the others are lost. -/
theorem C17_any_order (collection : List ℕ) (spec : List (ℕ × ℕ)) (hs : ∀ sn ∈ spec, 1 ≤ sn.1 ∧ 1 ≤ sn.2) :
    ∃ L, unorderedPartition (List.range collection.length) spec = some L ∧
      unorderedPartition collection spec =
        some ((L.map fun P => P.map fun b => b.map fun i => collection.getD i 0).filter fun P => decide (∀ b ∈ P, b.Pairwise (· < ·))) := by
  obtain ⟨L, h1, h2⟩ := rev_relabel (fun i => collection.getD i 0) spec (fun sn h => (hs sn h).1) (fun sn h => (hs sn h).2)
    (List.range collection.length).reverse (List.pairwise_reverse.2 List.pairwise_lt_range)
  refine ⟨L, h1, ?_⟩
  have e : (List.range collection.length).reverse.map (fun i => collection.getD i 0) = collection.reverse := by
    rw [List.map_reverse]
    congr 1
    apply List.ext_getElem
    · simp
    · intro i h3 h4
      simp [h4]
  rw [e] at h2
  exact h2

/-- **C17, disagreement.**  A collection that is not increasing loses partitions: of `[2, 1]` no partition into one bin of two items is yielded, and of
`[2, 1, 3]` only two of the three partitions into bins of two and one. -/
theorem C17_order_disagrees : unorderedPartition [2, 1] [(2, 1)] = some [] ∧
    unorderedPartition [2, 1, 3] [(2, 1), (1, 1)] = some [[[2, 3], [1]], [[1, 3], [2]]] ∧
    IsPartition [(2, 1)] [2, 1].toFinset [{{2, 1}}] := by
  refine ⟨by decide, by decide, ?_, ?_, ?_⟩
  · decide
  · decide
  · intro x hx
    refine ⟨(0, {2, 1}), ⟨⟨_, rfl, by decide⟩, by simpa using hx⟩, ?_⟩
    rintro ⟨i, b⟩ ⟨⟨g, hg, hb⟩, -⟩
    rcases i with - | i
    · simp only [List.getElem?_cons_zero, Option.some.injEq] at hg
      subst hg
      rw [Finset.mem_singleton] at hb
      exact Prod.ext rfl hb
    · simp at hg

end Fanpy.Props
