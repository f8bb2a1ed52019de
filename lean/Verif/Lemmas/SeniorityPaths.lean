import Verif.Lemmas.SeniorityOps
import Verif.Model.SeniorityCC

/-! `SeniorityCC.generate_possible_exops` yields the same products of operators as `BaseCC.generate_possible_exops`. -/

namespace Fanpy.CC
open Fanpy.Spec Fanpy.Slater Fanpy.Graphs Fanpy.It Fanpy.Props

/-- an operator as a list -/
def app (q : List ℕ × List ℕ) : List ℕ := q.1 ++ q.2

theorem app_inj {q q' : List ℕ × List ℕ} (h : q.1.length = q.2.length) (h' : q'.1.length = q'.2.length) (e : app q = app q') : q = q' := by
  have hl : q.1.length = q'.1.length := by
    have := congrArg List.length e
    simp only [app, List.length_append] at this
    omega
  have := List.append_inj e hl
  exact Prod.ext this.1 this.2

theorem map_app_inj {S T : List (List ℕ × List ℕ)} (h : ∀ q ∈ S, q.1.length = q.2.length) (h' : ∀ q ∈ T, q.1.length = q.2.length)
    (e : S.map app = T.map app) : S = T := by
  induction S generalizing T with
  | nil =>
    cases T with
    | nil => rfl
    | cons => simp at e
  | cons q S ih =>
    cases T with
    | nil => simp at e
    | cons q' T =>
      rw [List.map_cons, List.map_cons, List.cons.injEq] at e
      rw [app_inj (h q (by simp)) (h' q' (by simp)) e.1, ih (fun q hq => h q (by simp [hq])) (fun q hq => h' q (by simp [hq])) e.2]

/-- a matching of the blocks of annihilators, in their order, with the blocks of creators -/
structure Matched (annhs creas : List (List ℕ)) (S : List (List ℕ × List ℕ)) : Prop where
  fst : S.map Prod.fst = annhs
  snd : (S.map Prod.snd).Perm creas
  len : ∀ q ∈ S, q.1.length = q.2.length

/-- `combs` as pairs -/
def pairsOf (annhs creas : List (List ℕ)) : List (List ℕ × List ℕ) :=
  annhs.flatMap fun a => (creas.filter fun c => a.length = c.length).map fun c => (a, c)

theorem combsOf_eq (annhs creas : List (List ℕ)) : combsOf annhs creas = (pairsOf annhs creas).map app := by
  simp only [combsOf, pairsOf, List.map_flatMap, List.map_map]
  rfl

theorem mem_pairsOf {annhs creas : List (List ℕ)} {q : List ℕ × List ℕ} :
    q ∈ pairsOf annhs creas ↔ q.1 ∈ annhs ∧ q.2 ∈ creas ∧ q.1.length = q.2.length := by
  simp only [pairsOf, List.mem_flatMap, List.mem_map, List.mem_filter, decide_eq_true_eq]
  constructor
  · rintro ⟨a, ha, c, ⟨hc, hl⟩, rfl⟩; exact ⟨ha, hc, hl⟩
  · rintro ⟨ha, hc, hl⟩; exact ⟨q.1, ha, q.2, ⟨hc, hl⟩, rfl⟩

theorem sublist_flatMap {α β : Type*} (f : α → List β) (m : List β) (l : List α) (h : List.Forall₂ (fun x a => x ∈ f a) m l) :
    m.Sublist (l.flatMap f) := by
  induction h with
  | nil => simp
  | cons h1 _ ih =>
    rw [List.flatMap_cons]
    exact (List.singleton_sublist.2 h1).append ih

theorem isMatch_iff {m : List (List ℕ)} : isMatch m = true ↔ ∀ x ∈ m, ∀ y ∈ m, y ≠ x → ∀ i ∈ y, i ∉ x := by
  simp only [isMatch, List.all_eq_true, List.mem_filter, decide_eq_true_eq, and_imp]

theorem pairsOf_nodup {annhs creas : List (List ℕ)} (h : annhs.Nodup) (h' : creas.Nodup) : (pairsOf annhs creas).Nodup := by
  rw [pairsOf, List.nodup_flatMap]
  refine ⟨fun a _ => (h'.filter _).map fun x y e => (Prod.mk.inj e).2, ?_⟩
  refine h.imp fun {a b} hab => ?_
  rw [Function.onFun, List.disjoint_left]
  intro q hq hq'
  obtain ⟨_, -, rfl⟩ := List.mem_map.1 hq
  obtain ⟨_, -, e⟩ := List.mem_map.1 hq'
  exact hab (Prod.mk.inj e).1.symm

theorem mem_matches {annhs creas : List (List ℕ)} {r : List ℕ → List ℕ → Prop} (hr : annhs.Pairwise r) (hasym : ∀ x y, r x y → r y x → False)
    (hpa : ∀ b ∈ annhs, b ≠ []) (hpc : ∀ b ∈ creas, b ≠ []) (hna : annhs.flatten.Nodup) (hnc : creas.flatten.Nodup)
    (hd : ∀ i ∈ annhs.flatten, i ∉ creas.flatten) (hl : annhs.length = creas.length) (m : List (List ℕ)) :
    m ∈ (comb (combsOf annhs creas) annhs.length).filter isMatch ↔ ∃ S, Matched annhs creas S ∧ m = S.map app := by
  have nA : annhs.Nodup := Fanpy.Spec.nodup_of_flatten hpa hna
  have nC : creas.Nodup := Fanpy.Spec.nodup_of_flatten hpc hnc
  have dA := (List.nodup_flatten.1 hna).2
  have dC := (List.nodup_flatten.1 hnc).2
  rw [List.mem_filter, mem_comb, combsOf_eq, isMatch_iff]
  constructor
  · rintro ⟨⟨hs, hlen⟩, hm⟩
    obtain ⟨S, hS, rfl⟩ := List.sublist_map_iff.1 hs
    have hmem : ∀ q ∈ S, q.1 ∈ annhs ∧ q.2 ∈ creas ∧ q.1.length = q.2.length := fun q hq => mem_pairsOf.1 (hS.subset hq)
    have hnS : S.Nodup := (pairsOf_nodup nA nC).sublist hS
    have hdis : ∀ q ∈ S, ∀ q' ∈ S, q ≠ q' → ∀ i ∈ app q, i ∉ app q' := by
      intro q hq q' hq' hne
      exact hm _ (List.mem_map_of_mem hq') _ (List.mem_map_of_mem hq) fun e => hne (app_inj (hmem q hq).2.2 (hmem q' hq').2.2 e)
    have n1 : (S.map Prod.fst).Nodup := by
      refine hnS.map_on ?_
      intro q hq q' hq' e
      by_contra hne
      obtain ⟨i, hi⟩ := List.exists_mem_of_ne_nil _ (hpa _ (hmem q hq).1)
      exact hdis q hq q' hq' hne i (by simp [app, hi]) (by rw [e] at hi; simp [app, hi])
    have n2 : (S.map Prod.snd).Nodup := by
      refine hnS.map_on ?_
      intro q hq q' hq' e
      by_contra hne
      obtain ⟨i, hi⟩ := List.exists_mem_of_ne_nil _ (hpc _ (hmem q hq).2.1)
      exact hdis q hq q' hq' hne i (by simp [app, hi]) (by rw [e] at hi; simp [app, hi])
    rw [List.length_map] at hlen
    have p1 : (S.map Prod.fst).Perm annhs :=
      (List.subperm_of_subset n1 (by
        intro x hx
        obtain ⟨q, hq, rfl⟩ := List.mem_map.1 hx
        exact (hmem q hq).1)).perm_of_length_le (by rw [List.length_map, hlen])
    have p2 : (S.map Prod.snd).Perm creas :=
      (List.subperm_of_subset n2 (by
        intro x hx
        obtain ⟨q, hq, rfl⟩ := List.mem_map.1 hx
        exact (hmem q hq).2.1)).perm_of_length_le (by rw [List.length_map, hlen, hl])
    refine ⟨S, ⟨?_, p2, fun q hq => (hmem q hq).2.2⟩, rfl⟩
    have ord : (pairsOf annhs creas).Pairwise fun q q' => q.1 = q'.1 ∨ r q.1 q'.1 := by
      rw [pairsOf, List.pairwise_flatMap]
      refine ⟨fun a _ => ?_, ?_⟩
      · rw [List.pairwise_map]
        exact List.pairwise_of_forall_mem_list fun _ _ _ _ => Or.inl rfl
      · refine hr.imp fun {a b} hab q hq q' hq' => ?_
        obtain ⟨_, -, rfl⟩ := List.mem_map.1 hq
        obtain ⟨_, -, rfl⟩ := List.mem_map.1 hq'
        exact Or.inr hab
    have ordS : (S.map Prod.fst).Pairwise fun x y => x = y ∨ r x y := by
      rw [List.pairwise_map]; exact ord.sublist hS
    exact p1.eq_of_pairwise (fun x y _ _ h1 h2 => by
      rcases h1 with h1 | h1
      · exact h1
      · rcases h2 with h2 | h2
        · exact h2.symm
        · exact (hasym _ _ h1 h2).elim) ordS (hr.imp fun h => Or.inr h)
  · rintro ⟨S, hS, rfl⟩
    have hlen : S.length = annhs.length := by rw [← hS.fst, List.length_map]
    have hmem : ∀ q ∈ S, q.1 ∈ annhs ∧ q.2 ∈ creas := by
      intro q hq
      exact ⟨by rw [← hS.fst]; exact List.mem_map_of_mem hq, hS.snd.mem_iff.1 (List.mem_map_of_mem hq)⟩
    refine ⟨⟨?_, by rw [List.length_map, hlen]⟩, ?_⟩
    · apply List.Sublist.map
      apply sublist_flatMap
      rw [← hS.fst, List.forall₂_map_right_iff, List.forall₂_same]
      intro q hq
      rw [List.mem_map]
      exact ⟨q.2, List.mem_filter.2 ⟨(hmem q hq).2, by simpa using hS.len q hq⟩, rfl⟩
    · have pw : S.Pairwise fun q q' => List.Disjoint q.1 q'.1 ∧ List.Disjoint q.2 q'.2 := by
        rw [List.pairwise_and_iff]
        constructor
        · rw [← hS.fst, List.pairwise_map] at dA; exact dA
        · have : (S.map Prod.snd).Pairwise List.Disjoint := (hS.snd.pairwise_iff fun {x y} h => h.symm).2 dC
          rwa [List.pairwise_map] at this
      intro x hx y hy hne i hi hi'
      obtain ⟨q, hq, rfl⟩ := List.mem_map.1 hx
      obtain ⟨q', hq', rfl⟩ := List.mem_map.1 hy
      have hqq : q ≠ q' := by rintro rfl; exact hne rfl
      haveI : Std.Symm fun q q' : List ℕ × List ℕ => List.Disjoint q.1 q'.1 ∧ List.Disjoint q.2 q'.2 := ⟨fun q q' h => ⟨h.1.symm, h.2.symm⟩⟩
      have := pw.forall hq hq' hqq
      rw [app, List.mem_append] at hi hi'
      have inA : ∀ q ∈ S, ∀ i ∈ q.1, i ∈ annhs.flatten := fun q hq i hi => List.mem_flatten.2 ⟨_, (hmem q hq).1, hi⟩
      have inC : ∀ q ∈ S, ∀ i ∈ q.2, i ∈ creas.flatten := fun q hq i hi => List.mem_flatten.2 ⟨_, (hmem q hq).2, hi⟩
      rcases hi with hi | hi <;> rcases hi' with hi' | hi'
      · exact this.1 hi' hi
      · exact hd i (inA _ hq' i hi) (inC _ hq i hi')
      · exact hd i (inA _ hq i hi') (inC _ hq' i hi)
      · exact this.2 hi' hi

theorem blockLt_asymm {b b' : List ℕ} (h : BlockLt b b') (h' : BlockLt b' b) : False := by
  unfold BlockLt at h h'; omega

theorem sized_pos {p : List ℕ} (hp : ∀ s ∈ p, 1 ≤ s) {Q : List (List (List ℕ))} (h : Sized (binSizeNum p) Q) : ∀ b ∈ Q.flatten, b ≠ [] := by
  intro b hb e
  have h1 : b.length ∈ Q.flatten.map List.length := List.mem_map_of_mem hb
  rw [sized_sizes h, (replicate_binSizeNum p).mem_iff] at h1
  have := hp _ h1
  rw [e] at this; simp at this

theorem sized_count {spec : List (ℕ × ℕ)} {Q : List (List (List ℕ))} (h : Sized spec Q) : Q.flatten.length = (spec.map Prod.snd).sum := by
  rw [List.length_flatten, sized_lengths h]

/-- the matchings of the blocks are the products of `BaseCC.generate_possible_exops` -/
theorem mem_prods_iff {p a c : List ℕ} (hp : ∀ s ∈ p, 1 ≤ s) (ha : a.Pairwise (· < ·)) (hc : c.Pairwise (· < ·))
    {La Lc : List (List (List (List ℕ)))} (hsa : La.Nodup) (hsc : Lc.Nodup)
    (hLa : ∀ Q, Q ∈ La ↔ Full (binSizeNum p) Q ∧ Q.flatten.flatten.Perm a)
    (hLc : ∀ Q, Q ∈ Lc ↔ Full (binSizeNum p) Q ∧ Q.flatten.flatten.Perm c) {Q P : List (List (List ℕ))} (hQ : Q ∈ La) (hP : P ∈ Lc)
    (S : List (List ℕ × List ℕ)) : S ∈ prods Q P ↔ Matched Q.flatten P.flatten S := by
  have hs : ∀ sn ∈ binSizeNum p, 1 ≤ sn.1 := fun sn h => hp _ (mem_binSizeNum.1 h).1
  have hpp := (partition_paths hp ha hc hsa hsc hLa hLc).2
  have fwd : ∀ Q ∈ La, ∀ P ∈ Lc, ∀ S ∈ prods Q P, Matched Q.flatten P.flatten S := by
    intro Q hQ P hP S hS
    have q := ((hLa Q).1 hQ).1.sized
    have p' := ((hLc P).1 hP).1.sized
    obtain ⟨P', h1, h2⟩ := (mem_prods (q.length_eq.trans p'.length_eq.symm)).1 hS
    have h3 := sized_perm p' h1
    have h4 := zip_flatten (sized_two q h3)
    rw [← h2] at h4
    refine ⟨h4.1, by rw [h4.2]; exact flatten_perm h1, ?_⟩
    exact ((hpp S).1 (List.mem_flatMap.2 ⟨Q, hQ, List.mem_flatMap.2 ⟨P, hP, hS⟩⟩)).len
  refine ⟨fwd Q hQ P hP S, fun h => ?_⟩
  obtain ⟨q1, q2⟩ := (hLa Q).1 hQ
  obtain ⟨p1, p2⟩ := (hLc P).1 hP
  have srt : ∀ {Q : List (List (List ℕ))}, Full (binSizeNum p) Q → ∀ b ∈ Q.flatten, b.Pairwise (· < ·) := by
    intro Q h b hb
    obtain ⟨g, hg, hb⟩ := List.mem_flatten.1 hb
    obtain ⟨i, hi, rfl⟩ := List.mem_iff_getElem.1 hg
    have hi' : i < (binSizeNum p).length := by rw [← h.length_eq]; exact hi
    have := (List.forall₂_iff_get.1 h).2 i hi hi'
    exact this.1.sorted b hb
  have path : IsPathP p a c S := by
    refine ⟨?_, h.len, ?_, ?_, ?_, ?_, ?_⟩
    · have : S.map (fun q => q.1.length) = (binSizeNum p).flatMap fun sn => List.replicate sn.2 sn.1 := by
        rw [← sized_sizes q1.sized, ← h.fst, List.map_map]; rfl
      rw [this]; exact replicate_binSizeNum p
    · exact fun q hq => srt q1 _ (h.fst ▸ List.mem_map_of_mem hq)
    · exact fun q hq => srt p1 _ (h.snd.mem_iff.1 (List.mem_map_of_mem hq))
    · rw [List.flatMap_def, h.fst]; exact q2
    · rw [List.flatMap_def]; exact h.snd.flatten.trans p2
    · have := full_order hs (binSizeNum_sizes p) q1
      rw [← h.fst, List.pairwise_map] at this
      exact this
  obtain ⟨Q', hQ', h'⟩ := List.mem_flatMap.1 ((hpp S).2 path)
  obtain ⟨P', hP', h'⟩ := List.mem_flatMap.1 h'
  have m := fwd Q' hQ' P' hP' S h'
  have eQ : Q' = Q := by
    rw [List.eq_iff_flatten_eq]
    exact ⟨by rw [← m.fst, ← h.fst], by rw [sized_lengths ((hLa Q').1 hQ').1.sized, sized_lengths q1.sized]⟩
  have eP : P' = P := by
    rw [List.eq_iff_flatten_eq]
    refine ⟨?_, by rw [sized_lengths ((hLc P').1 hP').1.sized, sized_lengths p1.sized]⟩
    exact (m.snd.symm.trans h.snd).eq_of_pairwise (fun x y _ _ h1 h2 => (blockLt_asymm h1 h2).elim)
      (full_order hs (binSizeNum_sizes p) ((hLc P').1 hP').1) (full_order hs (binSizeNum_sizes p) p1)
  rw [← eQ, ← eP]; exact h'

/-- `SeniorityCC.generate_possible_exops` yields every product of operators that is in canonical order, once. -/
theorem senExops_spec (ranks : List ℕ) (exops : List (List ℕ)) (a c : List ℕ) (hr : ranks.Nodup) (hpos : ∀ r ∈ ranks, 0 < r)
    (ha : a.Pairwise (· < ·)) (hc : c.Pairwise (· < ·)) (hl : a.length = c.length) (hd : ∀ i ∈ a, i ∉ c) :
    ∃ (Lm : List (List (List ℕ))) (L : List (List (List ℕ × List ℕ))), senExops ranks exops a c = .ok Lm ∧ Lm.Perm (L.map (List.map app)) ∧
      L.Nodup ∧ ∀ S, S ∈ L ↔ IsPath ranks exops a c S := by
  obtain ⟨Ps, hPs, hPn, hPm⟩ := C18_int_partition ranks ranks.length a.length hr hpos le_rfl
  rw [List.take_length] at hPm
  have hP : ∀ p ∈ Ps, (∀ s ∈ p, s ∈ ranks) ∧ p.sum = a.length := by
    intro p hp
    have := (hPm p).1 (List.mem_map_of_mem hp)
    simpa using this
  have hone : ∀ p ∈ Ps, ∀ s ∈ p, 1 ≤ s := fun p hp s hs => hpos s ((hP p hp).1 s hs)
  have hA : ∀ p ∈ Ps, ∃ L : List (List (List (List ℕ))), unorderedPartition a (binSizeNum p) = some (L.map List.flatten) ∧ L.Nodup ∧
      ∀ Q, Q ∈ L ↔ Full (binSizeNum p) Q ∧ Q.flatten.flatten.Perm a := fun p hp => unordered_full (hone p hp) ha (hP p hp).2
  have hC : ∀ p ∈ Ps, ∃ L : List (List (List (List ℕ))), unorderedPartition c (binSizeNum p) = some (L.map List.flatten) ∧ L.Nodup ∧
      ∀ Q, Q ∈ L ↔ Full (binSizeNum p) Q ∧ Q.flatten.flatten.Perm c :=
    fun p hp => unordered_full (hone p hp) hc ((hP p hp).2.trans hl)
  choose! La hLa using hA
  choose! Lc hLc using hC
  have hpp := fun p hp => partition_paths (hone p hp) ha hc (hLa p hp).2.1 (hLc p hp).2.1 (hLa p hp).2.2 (hLc p hp).2.2
  have hna : a.Nodup := ha.imp fun h => by omega
  have hnc : c.Nodup := hc.imp fun h => by omega
  have blocks : ∀ p ∈ Ps, ∀ Q ∈ La p, ∀ P ∈ Lc p,
      ((comb (combsOf Q.flatten P.flatten) ((binSizeNum p).map Prod.snd).sum).filter isMatch).Perm ((prods Q P).map (List.map app)) := by
    intro p hp Q hQ P hP'
    obtain ⟨q1, q2⟩ := ((hLa p hp).2.2 Q).1 hQ
    obtain ⟨p1, p2⟩ := ((hLc p hp).2.2 P).1 hP'
    have hs : ∀ sn ∈ binSizeNum p, 1 ≤ sn.1 := fun sn h => hone p hp _ (mem_binSizeNum.1 h).1
    have cQ := sized_count q1.sized
    have cP := sized_count p1.sized
    have nQ : Q.flatten.flatten.Nodup := q2.nodup_iff.2 hna
    have nP : P.flatten.flatten.Nodup := p2.nodup_iff.2 hnc
    have posQ := sized_pos (hone p hp) q1.sized
    have posP := sized_pos (hone p hp) p1.sized
    have mm := mem_prods_iff (hone p hp) ha hc (hLa p hp).2.1 (hLc p hp).2.1 (hLa p hp).2.2 (hLc p hp).2.2 hQ hP'
    have nprod : (prods Q P).Nodup := by
      have h1 := (List.nodup_flatMap.1 (hpp p hp).1).1 Q hQ
      exact (List.nodup_flatMap.1 h1).1 P hP'
    rw [← cQ]
    refine (List.perm_ext_iff_of_nodup ?_ ?_).2 ?_
    · refine (comb_nodup _ ?_).filter _
      rw [combsOf_eq]
      refine (pairsOf_nodup (Fanpy.Spec.nodup_of_flatten posQ nQ) (Fanpy.Spec.nodup_of_flatten posP nP)).map_on ?_
      intro x hx y hy e
      exact app_inj (mem_pairsOf.1 hx).2.2 (mem_pairsOf.1 hy).2.2 e
    · refine nprod.map_on ?_
      intro S hS T hT e
      exact map_app_inj ((mm S).1 hS).len ((mm T).1 hT).len e
    · intro m
      rw [mem_matches (full_order hs (binSizeNum_sizes p) q1) (fun x y => blockLt_asymm) posQ posP nQ nP (by
        intro i hi hi'
        exact hd i (q2.mem_iff.1 hi) (p2.mem_iff.1 hi')) (cQ.trans cP.symm), List.mem_map]
      constructor
      · rintro ⟨S, h1, rfl⟩; exact ⟨S, (mm S).2 h1, rfl⟩
      · rintro ⟨S, h1, rfl⟩; exact ⟨S, (mm S).1 h1, rfl⟩
  refine ⟨(Ps.reverse.flatMap fun p => (La p).flatMap fun Q => (Lc p).flatMap fun P =>
      (comb (combsOf Q.flatten P.flatten) ((binSizeNum p).map Prod.snd).sum).filter isMatch).filter fun ops => ops.all fun op => op ∈ exops,
    (Ps.reverse.flatMap fun p => (La p).flatMap fun Q => (Lc p).flatMap fun P => prods Q P).filter fun S => S.all fun q => app q ∈ exops,
    ?_, ?_, ?_, ?_⟩
  · unfold senExops
    rw [hPs]
    have main : (Ps.reverse.mapM fun partition => do
        let annhss ← ofOption (unorderedPartition a (binSizeNum partition))
        let l ← annhss.mapM fun annhs => do
          let creass ← ofOption (unorderedPartition c (binSizeNum partition))
          return creass.flatMap fun creas => (comb (combsOf annhs creas) ((binSizeNum partition).map Prod.snd).sum).filter isMatch
        return l.flatten) = (.ok (Ps.reverse.map fun p => (La p).flatMap fun Q => (Lc p).flatMap fun P =>
          (comb (combsOf Q.flatten P.flatten) ((binSizeNum p).map Prod.snd).sum).filter isMatch) : Except PyErr _) := by
      apply mapM_okE'
      intro p hp
      have hp : p ∈ Ps := List.mem_reverse.1 hp
      simp only [(hLa p hp).1, (hLc p hp).1, ofOption, bind, Except.bind, pure, Except.pure]
      rw [mapM_okE _ List.flatten (fun Q => (Lc p).flatMap fun P =>
          (comb (combsOf Q.flatten P.flatten) ((binSizeNum p).map Prod.snd).sum).filter isMatch) (La p)]
      · simp only [List.flatMap_def]
      · intro Q hQ
        rw [List.flatMap_map]
    simp only [ofOption, bind, Except.bind, pure, Except.pure] at main ⊢
    rw [main]
    simp only [List.flatMap_def]
  · have e : ((Ps.reverse.flatMap fun p => (La p).flatMap fun Q => (Lc p).flatMap fun P => prods Q P).filter
        fun S => S.all fun q => app q ∈ exops).map (List.map app) =
        ((Ps.reverse.flatMap fun p => (La p).flatMap fun Q => (Lc p).flatMap fun P => (prods Q P).map (List.map app)).filter
          fun ops => ops.all fun op => op ∈ exops) := by
      simp only [← List.map_flatMap]
      rw [List.filter_map]
      congr 1
      apply List.filter_congr
      intro S _
      simp only [Function.comp_apply, List.all_map]
      rfl
    rw [e]
    apply List.Perm.filter
    apply List.Perm.flatMap_left
    intro p hp
    apply List.Perm.flatMap_left
    intro Q hQ
    apply List.Perm.flatMap_left
    intro P hP'
    exact blocks p (List.mem_reverse.1 hp) Q hQ P hP'
  · refine List.Nodup.filter _ ?_
    rw [List.nodup_flatMap]
    refine ⟨fun p hp => (hpp p (List.mem_reverse.1 hp)).1, ?_⟩
    rw [List.pairwise_reverse]
    unfold List.Nodup at hPn
    rw [List.pairwise_map] at hPn
    refine List.Pairwise.imp_of_mem ?_ hPn
    intro p q hp hq hne
    rw [Function.onFun, List.disjoint_left]
    intro S hS hS'
    have h1 := ((hpp q hq).2 S).1 hS
    have h2 := ((hpp p hp).2 S).1 hS'
    exact hne (Multiset.coe_eq_coe.2 (h2.sizes.symm.trans h1.sizes))
  · intro S
    rw [List.mem_filter, List.mem_flatMap]
    constructor
    · rintro ⟨⟨p, hp, hS⟩, hall⟩
      have hp := List.mem_reverse.1 hp
      have h := ((hpp p hp).2 S).1 hS
      refine ⟨fun q hq => (hP p hp).1 _ (h.sizes.mem_iff.1 (List.mem_map_of_mem (f := fun q : List ℕ × List ℕ => q.1.length) hq)), ?_,
        h.len, h.srtA, h.srtC, h.ann, h.cre, h.order⟩
      exact fun q hq => of_decide_eq_true (List.all_eq_true.1 hall q hq)
    · intro h
      have hm : ((S.map fun q => q.1.length : List ℕ) : Multiset ℕ) ∈ Ps.map (fun p : List ℕ => (p : Multiset ℕ)) := by
        rw [hPm]
        refine ⟨?_, ?_⟩
        · intro s hs
          rw [Multiset.mem_coe] at hs
          obtain ⟨q, hq, rfl⟩ := List.mem_map.1 hs
          exact h.rank q hq
        · rw [Multiset.sum_coe, ← h.ann.length_eq, List.length_flatMap]
      obtain ⟨p, hp, e⟩ := List.mem_map.1 hm
      exact ⟨⟨p, List.mem_reverse.2 hp, ((hpp p hp).2 S).2 ⟨Multiset.coe_eq_coe.1 e.symm, h.len, h.srtA, h.srtC, h.ann, h.cre, h.order⟩⟩,
        List.all_eq_true.2 fun q hq => decide_eq_true (h.mem q hq)⟩

end Fanpy.CC
