import Verif.Lemmas.Matching
import Verif.Lemmas.Bulk

/-! # Property C15: `generate_complete_pmatch` -/

namespace Fanpy.Props
open Fanpy.Graphs Fanpy.Spec Fanpy.Slater

theorem completePmatch_nil (s : ℤ) : completePmatch [] s = [(some [], s)] := by
  rw [completePmatch]; rfl

theorem completePmatch_pair (l : List ℕ) (a b : ℕ) (s : ℤ) (hl : l.length % 2 = 0) :
    completePmatch (l ++ [a, b]) s = (completePmatch l s).flatMap fun p =>
      match p.1 with
      | none => [(none, p.2)]
      | some scheme => extendScheme (l.length + 2) a b scheme p.2 := by
  rw [completePmatch]
  have hr : (l ++ [a, b]).reverse = b :: a :: l.reverse := by simp
  rcases hlr : l.reverse with - | ⟨c, rest⟩
  · have : l = [] := by simpa using hlr
    subst this
    split <;> rename_i h
    · simp at h
    · simp at h
    · simp only [List.nil_append, List.reverse_cons, List.reverse_nil, List.cons_append, List.cons.injEq,
        and_true] at h
      obtain ⟨rfl, rfl⟩ := h
      rw [completePmatch_nil]; simp [extendScheme]
    · simp at h
  · split <;> rename_i h
    · rw [hr] at h; simp at h
    · rw [hr] at h; simp at h
    · rw [hr, hlr] at h; simp at h
    · rw [hr, hlr] at h
      simp only [List.cons.injEq] at h
      obtain ⟨rfl, rfl, rfl, rfl⟩ := h
      have e : (c :: rest).reverse = l := by rw [← hlr, List.reverse_reverse]
      rw [if_neg (by simp; omega), e]
      simp only [List.length_append, List.length_cons, List.length_nil, Nat.zero_add]
      rfl

theorem crossSign_sq (l m : List ℕ) : crossSign l m * crossSign l m = 1 := by
  have h := listSign_sq (l ++ m)
  rw [listSign_append] at h
  have h1 := listSign_sq l
  have h2 := listSign_sq m
  calc crossSign l m * crossSign l m
      = (listSign l * listSign l) * (listSign m * listSign m) * (crossSign l m * crossSign l m) := by rw [h1, h2]; ring
    _ = 1 := by rw [← h]; ring

/-- appending the same block to two arrangements of a list does not change their relative parity -/
theorem listSign_append_rel {l l' : List ℕ} (r : List ℕ) (h : l.Perm l') :
    listSign (l ++ r) * listSign (l' ++ r) = listSign l * listSign l' := by
  rw [listSign_append, listSign_append, crossSign_perm_left r h]
  linear_combination (listSign l * listSign l' * (listSign r * listSign r)) * crossSign_sq l' r +
    listSign l * listSign l' * listSign_sq r

theorem splitPair_eq (S1 S2 : Scheme) (p q a b : ℕ) :
    splitPair (S1 ++ (p, q) :: S2) S1.length a b = some (S1 ++ [(p, a), (q, b)] ++ S2) := by
  simp [splitPair]

theorem flatPairs_length_even (S : Scheme) : (flatPairs S).length = 2 * S.length := by
  induction S with
  | nil => rfl
  | cons p S ih => rw [flatPairs_cons]; simp [ih]; ring

theorem flatPairs_split_perm (S1 S2 : Scheme) (p q a b : ℕ) :
    (flatPairs (S1 ++ [(p, a), (q, b)] ++ S2)).Perm (flatPairs (S1 ++ (p, q) :: S2) ++ [a, b]) := by
  simp only [flatPairs_append, flatPairs_cons, List.append_assoc]
  apply List.Perm.append_left
  simp only [flatPairs, List.flatMap_nil, List.cons_append, List.nil_append]
  apply List.Perm.cons
  refine (List.Perm.swap q a _).trans (List.Perm.cons q ?_)
  rw [show (S2.flatMap (fun p => [p.1, p.2]) ++ [a, b]) = (S2.flatMap (fun p => [p.1, p.2])) ++ ([a, b]) from rfl]
  exact (List.perm_append_comm (l₁ := [a, b]) (l₂ := S2.flatMap fun p => [p.1, p.2]))

theorem listSign_split (S1 S2 : Scheme) (p q a b : ℕ)
    (hn : (flatPairs (S1 ++ (p, q) :: S2) ++ [a, b]).Nodup) :
    listSign (flatPairs (S1 ++ [(p, a), (q, b)] ++ S2)) = - listSign (flatPairs (S1 ++ (p, q) :: S2) ++ [a, b]) := by
  have e1 : flatPairs (S1 ++ [(p, a), (q, b)] ++ S2) =
      (flatPairs S1 ++ [p]) ++ a :: ([q]) ++ (b :: flatPairs S2) := by
    simp [flatPairs_append, flatPairs_cons]
  have e2 : flatPairs (S1 ++ (p, q) :: S2) ++ [a, b] = flatPairs S1 ++ [p, q] ++ flatPairs S2 ++ [a, b] := by
    simp [flatPairs_append, flatPairs_cons]
  rw [e2] at hn ⊢
  rw [e1]
  have hq : a ∉ [q] := by
    rw [List.nodup_append] at hn
    simp only [List.mem_singleton]
    intro h
    exact hn.2.2 q (by simp) a (by simp) h.symm
  have ha2 : a ∉ flatPairs S2 := by
    rw [List.nodup_append] at hn
    intro h
    exact hn.2.2 a (by simp [h]) a (by simp) rfl
  have hb2 : b ∉ flatPairs S2 := by
    rw [List.nodup_append] at hn
    intro h
    exact hn.2.2 b (by simp [h]) b (by simp) rfl
  have m1 := listSign_move (flatPairs S1 ++ [p]) [q] (b :: flatPairs S2) a hq
  have m2 := listSign_move (flatPairs S1 ++ [p] ++ [q] ++ [a]) (flatPairs S2) [] b hb2
  have m3 := listSign_move (flatPairs S1 ++ [p] ++ [q]) (flatPairs S2) [b] a ha2
  have hev : ((-1 : ℤ)) ^ (flatPairs S2).length = 1 := by rw [flatPairs_length_even]; simp
  rw [hev, one_mul] at m2 m3
  simp only [List.append_assoc, List.cons_append, List.nil_append, List.append_nil, List.length_singleton,
    pow_one] at m1 m2 m3 ⊢
  rw [m1, m2, m3]; ring

/-- facts about the outputs for an even list of distinct indices -/
def OutOK (l : List ℕ) (s : ℤ) (o : Option Scheme × ℤ) : Prop :=
  ∃ T, o.1 = some T ∧ (flatPairs T).Perm l ∧ o.2 = s * (listSign l * listSign (flatPairs T))

theorem extend_ok {l : List ℕ} {a b : ℕ} {s sg : ℤ} {S : Scheme} (hn : (l ++ [a, b]).Nodup)
    (hS : (flatPairs S).Perm l) (hsg : sg = s * (listSign l * listSign (flatPairs S))) :
    ∀ o ∈ extendScheme (l.length + 2) a b S sg, OutOK (l ++ [a, b]) s o := by
  have hlen : l.length = 2 * S.length := by rw [← hS.length_eq, flatPairs_length_even]
  have hperm : (flatPairs S ++ [a, b]).Perm (l ++ [a, b]) := hS.append_right _
  have hn' : (flatPairs S ++ [a, b]).Nodup := hperm.nodup_iff.2 hn
  have hn'' : (flatPairs S ++ [b, a]).Nodup :=
    ((List.Perm.swap a b []).append_left _).nodup_iff.2 hn'
  have key : s * (listSign (l ++ [a, b]) * listSign (flatPairs S ++ [a, b])) = sg := by
    rw [listSign_append_rel _ hS.symm, hsg]
  have hswap : listSign (flatPairs S ++ [b, a]) = - listSign (flatPairs S ++ [a, b]) := by
    apply listSign_swap_adjacent
    intro h; subst h; simp [List.nodup_append] at hn'
  intro o ho
  rw [extendScheme, List.mem_cons, List.mem_flatMap] at ho
  rcases ho with rfl | ⟨i, hi, ho⟩
  · refine ⟨S ++ [(a, b)], rfl, ?_, ?_⟩
    · rw [flatPairs_append]; exact hperm
    · rw [flatPairs_append]; exact key.symm
  · have hi' : i < S.length := by simp at hi; omega
    obtain ⟨S1, ⟨p, q⟩, S2, rfl, rfl⟩ : ∃ S1 pq S2, S = S1 ++ pq :: S2 ∧ i = S1.length :=
      ⟨S.take i, S[i], S.drop (i + 1), by simp, by simp; omega⟩
    rw [splitPair_eq, splitPair_eq] at ho
    simp only [List.mem_cons, List.not_mem_nil, or_false] at ho
    rcases ho with rfl | rfl
    · refine ⟨_, rfl, (flatPairs_split_perm S1 S2 p q a b).trans hperm, ?_⟩
      rw [listSign_split _ _ _ _ _ _ hn', ← key]; ring
    · refine ⟨_, rfl, (flatPairs_split_perm S1 S2 p q b a).trans
        (((List.Perm.swap a b []).append_left _).trans hperm), ?_⟩
      rw [listSign_split _ _ _ _ _ _ hn'', hswap, ← key]; ring

theorem edges_split (S1 S2 : Scheme) (p q a b : ℕ)
    (hn : (flatPairs (S1 ++ (p, q) :: S2)).Nodup) :
    edges (S1 ++ [(p, a), (q, b)] ++ S2) = attach (edges (S1 ++ (p, q) :: S2)) a b p ∧
    edges (S1 ++ [(p, b), (q, a)] ++ S2) = attach (edges (S1 ++ (p, q) :: S2)) a b q := by
  have hp : ∀ S, (∀ z ∈ flatPairs S, z ≠ p ∧ z ≠ q) → ∀ x, x = p ∨ x = q →
      (edges S).image (Sym2.map fun z => if z = x then b else z) = edges S := by
    intro S hS x hx
    conv_rhs => rw [← Finset.image_id (s := edges S)]
    apply Finset.image_congr
    intro e he
    refine (Sym2.map_congr (g := id) ?_).trans (by rw [Sym2.map_id])
    intro z hz
    have := hS z (mem_flatPairs_of_edge he hz)
    rcases hx with rfl | rfl <;> simp [this]
  rw [flatPairs_append, flatPairs_cons, List.nodup_append] at hn
  obtain ⟨-, h2, h3⟩ := hn
  simp only [List.nodup_cons, List.mem_cons, not_or] at h2
  have hS1 : ∀ z ∈ flatPairs S1, z ≠ p ∧ z ≠ q := fun z hz =>
    ⟨h3 z hz p (by simp), h3 z hz q (by simp)⟩
  have hS2 : ∀ z ∈ flatPairs S2, z ≠ p ∧ z ≠ q := fun z hz =>
    ⟨fun h => h2.1.2 (h ▸ hz), fun h => h2.2.1 (h ▸ hz)⟩
  simp only [edges_append, edges_cons, attach, Finset.image_union, Finset.image_insert, Sym2.map_mk]
  rw [hp S1 hS1 p (Or.inl rfl), hp S2 hS2 p (Or.inl rfl), hp S1 hS1 q (Or.inr rfl), hp S2 hS2 q (Or.inr rfl)]
  have hpq : q ≠ p := fun h => h2.1.1 h.symm
  simp only [if_true, if_neg hpq, if_neg hpq.symm]
  have e0 : edges [] = ∅ := rfl
  rw [e0, Sym2.eq_swap (a := q) (b := b)]
  constructor
  · ext e; simp only [Finset.mem_union, Finset.mem_insert, Finset.notMem_empty]; tauto
  · ext e; simp only [Finset.mem_union, Finset.mem_insert, Finset.notMem_empty]; tauto

/-- the partner of `a` in the successive outputs of one block -/
def tags (S : Scheme) (b : ℕ) : List ℕ :=
  b :: (List.range S.length).reverse.flatMap fun i => [(S.getD i (0, 0)).1, (S.getD i (0, 0)).2]

theorem tags_perm (S : Scheme) (b : ℕ) : (tags S b).Perm (b :: flatPairs S) := by
  apply List.Perm.cons
  have h1 := (List.reverse_perm (List.range S.length)).flatMap_right
    (fun i => [(S.getD i (0, 0)).1, (S.getD i (0, 0)).2])
  refine h1.trans ?_
  have : flatPairs S = (List.range S.length).flatMap fun i => [(S.getD i (0, 0)).1, (S.getD i (0, 0)).2] := by
    have hS : (List.range S.length).map (fun k => S.getD k (0, 0)) = S := by
      apply List.ext_getElem
      · simp
      · intro i h1 h2
        rw [List.getElem_map, List.getElem_range, List.getD_eq_getElem _ _ h2]
    conv_lhs => rw [← hS]
    rw [flatPairs, List.flatMap_map]
  rw [this]

theorem extend_edges {l : List ℕ} {a b : ℕ} {sg : ℤ} {S : Scheme} (hn : (l ++ [a, b]).Nodup)
    (hS : (flatPairs S).Perm l) :
    (extendScheme (l.length + 2) a b S sg).map (fun o => o.1.map edges) =
      (tags S b).map fun x => some (attach (edges S) a b x) := by
  have hlen : l.length = 2 * S.length := by rw [← hS.length_eq, flatPairs_length_even]
  have hk : (l.length + 2) / 2 - 1 = S.length := by omega
  have hnS : (flatPairs S).Nodup := hS.nodup_iff.2 (List.nodup_append.1 hn).1
  rw [extendScheme, hk, tags, List.map_cons, List.map_cons, List.map_flatMap, List.map_flatMap]
  congr 1
  · simp only [Option.map_some, Option.some.injEq, edges_append, attach]
    have : (edges S).image (Sym2.map fun z => if z = b then b else z) = edges S := by
      conv_rhs => rw [← Finset.image_id (s := edges S)]
      apply Finset.image_congr
      intro e he
      refine (Sym2.map_congr (g := id) ?_).trans (by rw [Sym2.map_id])
      intro z hz
      simp only [id]; split_ifs with h
      · exact h.symm
      · rfl
    rw [this, Finset.union_comm, edges_cons, Sym2.eq_swap]
    rfl
  · apply List.flatMap_congr
    intro i hi
    have hi' : i < S.length := by simpa using hi
    obtain ⟨S1, ⟨p, q⟩, S2, rfl, rfl⟩ : ∃ S1 pq S2, S = S1 ++ pq :: S2 ∧ i = S1.length :=
      ⟨S.take i, S[i], S.drop (i + 1), by simp, by simp; omega⟩
    rw [splitPair_eq, splitPair_eq]
    have hd : (S1 ++ (p, q) :: S2).getD S1.length (0, 0) = (p, q) := by simp
    rw [hd]
    simp only [List.map_cons, List.map_nil, Option.map_some]
    rw [(edges_split S1 S2 p q a b hnS).1, (edges_split S1 S2 p q a b hnS).2]

/-- everything about the outputs for an even number of distinct indices -/
theorem completePmatch_main (k : ℕ) : ∀ (l : List ℕ) (s : ℤ), l.length = 2 * k → l.Nodup →
    (∀ o ∈ completePmatch l s, OutOK l s o) ∧
    ((completePmatch l s).map fun o => o.1.map edges).Nodup ∧
    ∀ M, IsPM l.toFinset M → some M ∈ (completePmatch l s).map fun o => o.1.map edges := by
  induction k with
  | zero =>
    intro l s hl _
    have : l = [] := by simpa using hl
    subst this
    rw [completePmatch_nil]
    refine ⟨?_, by simp, ?_⟩
    · intro o ho
      simp only [List.mem_singleton] at ho
      subst ho
      exact ⟨[], rfl, by simp [flatPairs], by simp [flatPairs, listSign]⟩
    · intro M hM
      have : M = ∅ := by
        rw [Finset.eq_empty_iff_forall_notMem]
        intro e he
        induction e with
        | h u v => simpa using (hM.1 _ he).2 u (by simp)
      subst this; simp [edges]
  | succ k ih =>
    intro l' s hl' hn
    obtain ⟨l, a, b, rfl⟩ : ∃ l a b, l' = l ++ [a, b] := by
      refine ⟨l'.take (2 * k), l'[2 * k], l'[2 * k + 1], ?_⟩
      conv_lhs => rw [← List.take_append_drop (2 * k) l']
      congr 1
      apply List.ext_getElem
      · simp; omega
      · intro i h1 h2
        simp only [List.getElem_drop]
        simp at h2
        rcases i with - | - | i
        · rfl
        · rfl
        · omega
    have hl : l.length = 2 * k := by simp at hl'; omega
    have hnl := List.nodup_append.1 hn
    obtain ⟨i1, i2, i3⟩ := ih l s hl hnl.1
    have hab : a ≠ b := by simpa using hnl.2.1
    have hal : a ∉ l := fun h => hnl.2.2 a h a (by simp) rfl
    have hbl : b ∉ l := fun h => hnl.2.2 b h b (by simp) rfl
    rw [completePmatch_pair l a b s (by omega)]
    -- the list of matchings, block by block
    have hblocks : (((completePmatch l s).flatMap fun p =>
        match p.1 with
        | none => [(none, p.2)]
        | some scheme => extendScheme (l.length + 2) a b scheme p.2).map fun o => o.1.map edges) =
        (completePmatch l s).flatMap fun p => ((p.1.map fun S => (tags S b).map fun x =>
          some (attach (edges S) a b x)).getD []) := by
      rw [List.map_flatMap]
      apply List.flatMap_congr
      intro p hp
      obtain ⟨S, hS, hperm, -⟩ := i1 p hp
      obtain ⟨o, sg⟩ := p
      simp only at hS; subst hS
      simpa using extend_edges (sg := sg) hn hperm
    have hE : ∀ p ∈ completePmatch l s, ∀ S, p.1 = some S →
        (∀ e ∈ edges S, ∀ z ∈ e, z ∈ l.toFinset) ∧ (flatPairs S).Perm l := by
      intro p hp S hS
      obtain ⟨S', hS', hperm, -⟩ := i1 p hp
      rw [hS] at hS'; injection hS' with hS'; subst hS'
      refine ⟨fun e he z hz => ?_, hperm⟩
      rw [List.mem_toFinset, ← hperm.mem_iff]; exact mem_flatPairs_of_edge he hz
    have htag : ∀ p ∈ completePmatch l s, ∀ S, p.1 = some S → ∀ x ∈ tags S b, x ∈ l.toFinset ∨ x = b := by
      intro p hp S hS x hx
      rw [(tags_perm S b).mem_iff, List.mem_cons, (hE p hp S hS).2.mem_iff] at hx
      rw [List.mem_toFinset]; tauto
    refine ⟨?_, ?_, ?_⟩
    · intro o ho
      rw [List.mem_flatMap] at ho
      obtain ⟨p, hp, ho⟩ := ho
      obtain ⟨S, hS, hperm, hsg⟩ := i1 p hp
      obtain ⟨p1, sg⟩ := p
      simp only at hS hsg ho; subst hS
      exact extend_ok hn hperm hsg o ho
    · rw [hblocks, List.nodup_flatMap]
      constructor
      · intro p hp
        obtain ⟨S, hS, hperm, -⟩ := i1 p hp
        rw [hS]
        simp only [Option.map_some, Option.getD_some]
        refine List.Nodup.map_on ?_ ?_
        · intro x hx y hy hxy
          injection hxy with hxy
          exact (attach_inj (by simpa using hal) (by simpa using hbl) hab (hE p hp S hS).1 (hE p hp S hS).1
            (htag p hp S hS x hx) (htag p hp S hS y hy) hxy).1
        · rw [(tags_perm S b).nodup_iff, List.nodup_cons, hperm.mem_iff, hperm.nodup_iff]
          exact ⟨hbl, hnl.1⟩
      · rw [List.Nodup, List.pairwise_map] at i2
        refine i2.imp_of_mem ?_
        intro p q hp hq hne
        rw [Function.onFun, List.disjoint_left]
        intro M hM hM'
        obtain ⟨S, hS, hperm, -⟩ := i1 p hp
        obtain ⟨T, hT, hpermT, -⟩ := i1 q hq
        rw [hS] at hM hne; rw [hT] at hM' hne
        simp only [Option.map_some, Option.getD_some, List.mem_map] at hM hM' hne
        obtain ⟨x, hx, rfl⟩ := hM
        obtain ⟨y, hy, hxy⟩ := hM'
        injection hxy with hxy
        apply hne
        rw [(attach_inj (by simpa using hal) (by simpa using hbl) hab (hE q hq T hT).1 (hE p hp S hS).1
          (htag q hq T hT y hy) (htag p hp S hS x hx) hxy).2]
    · intro M hM
      have hset : (l ++ [a, b]).toFinset = insert a (insert b l.toFinset) := by
        ext z; simp only [List.toFinset_append, List.toFinset_cons, List.toFinset_nil, Finset.mem_union,
          Finset.mem_insert, Finset.notMem_empty]; tauto
      rw [hset] at hM
      obtain ⟨x, E, hx, hEM, rfl⟩ := attach_exists (by simpa using hal) (by simpa using hbl) hab hM
      have := i3 E hEM
      rw [hblocks, List.mem_flatMap]
      rw [List.mem_map] at this
      obtain ⟨p, hp, hpE⟩ := this
      obtain ⟨S, hS, hperm, -⟩ := i1 p hp
      rw [hS, Option.map_some] at hpE
      injection hpE with hpE
      refine ⟨p, hp, ?_⟩
      rw [hS]
      simp only [Option.map_some, Option.getD_some, List.mem_map]
      refine ⟨x, ?_, by rw [hpE]⟩
      rw [(tags_perm S b).mem_iff, List.mem_cons, hperm.mem_iff]
      rw [List.mem_toFinset] at hx; tauto

/-- C15. For an even number of distinct indices, `generate_complete_pmatch` never fails and yields schemes `(S, sign)`
such that: as sets of unordered pairs the schemes are pairwise different and are exactly the perfect matchings of the
indices; every scheme lists each index once; and the sign is the input sign times the parity of the arrangement
`flatten S` relative to the input order. -/
theorem C15_complete_pmatch (l : List ℕ) (s : ℤ) (hlen : l.length % 2 = 0) (hn : l.Nodup) :
    ∃ out : List (Scheme × ℤ),
      completePmatch l s = out.map (fun p => (some p.1, p.2)) ∧
      (out.map fun p => edges p.1).Nodup ∧
      (∀ M, M ∈ out.map (fun p => edges p.1) ↔ IsPM l.toFinset M) ∧
      ∀ p ∈ out, (p.1.flatMap fun ab => [ab.1, ab.2]).Perm l ∧
        p.2 = s * (listSign l * listSign (p.1.flatMap fun ab => [ab.1, ab.2])) := by
  obtain ⟨h1, h2, h3⟩ := completePmatch_main (l.length / 2) l s (by omega) hn
  refine ⟨(completePmatch l s).map (fun o => (o.1.getD [], o.2)), ?_, ?_, ?_, ?_⟩
  · rw [List.map_map]
    conv_lhs => rw [← List.map_id (completePmatch l s)]
    apply List.map_congr_left
    intro o ho
    obtain ⟨T, hT, -⟩ := h1 o ho
    obtain ⟨o1, o2⟩ := o
    simp only at hT; subst hT; rfl
  · rw [List.map_map]
    have := h2
    rw [show ((completePmatch l s).map fun o => o.1.map edges) =
      ((completePmatch l s).map ((fun p : Scheme × ℤ => edges p.1) ∘ fun o => (o.1.getD [], o.2))).map some from ?_]
      at this
    · exact List.Nodup.of_map _ this
    · rw [List.map_map]
      apply List.map_congr_left
      intro o ho
      obtain ⟨T, hT, -⟩ := h1 o ho
      simp [hT]
  · intro M
    rw [List.map_map, List.mem_map]
    constructor
    · rintro ⟨o, ho, rfl⟩
      obtain ⟨T, hT, hperm, -⟩ := h1 o ho
      simp only [Function.comp, hT, Option.getD_some]
      exact isPM_edges (hperm.nodup_iff.2 hn) (by ext z; simp [hperm.mem_iff])
    · intro hM
      have := h3 M hM
      rw [List.mem_map] at this
      obtain ⟨o, ho, hoM⟩ := this
      obtain ⟨T, hT, -⟩ := h1 o ho
      refine ⟨o, ho, ?_⟩
      rw [hT] at hoM
      simpa [hT] using hoM
  · intro p hp
    rw [List.mem_map] at hp
    obtain ⟨o, ho, rfl⟩ := hp
    obtain ⟨T, hT, hperm, hs⟩ := h1 o ho
    simp only [hT, Option.getD_some]
    exact ⟨hperm, hs⟩

/-- C15. Fewer than two indices, or an odd number of them, give a single empty scheme. -/
theorem C15_degenerate (l : List ℕ) (s : ℤ) (h : l.length % 2 = 1 ∨ l.length < 2) :
    completePmatch l s = [(some [], s)] := by
  rw [completePmatch]
  split <;> rename_i hr
  · rfl
  · rfl
  · have := congrArg List.length hr; simp at this; omega
  · have := congrArg List.length hr
    simp at this
    rw [if_pos (by omega)]

-- four indices: the three matchings, with the crossing one negative
example : completePmatch [1, 3, 4, 6] 1 =
    [(some [(1, 3), (4, 6)], 1), (some [(1, 4), (3, 6)], -1), (some [(1, 6), (3, 4)], 1)] := by
  rw [show [1, 3, 4, 6] = ([] ++ [1, 3]) ++ [4, 6] from rfl, completePmatch_pair _ _ _ _ (by simp),
    completePmatch_pair _ _ _ _ (by simp), completePmatch_nil]
  decide

end Fanpy.Props
