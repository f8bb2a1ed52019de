import Verif.Lemmas.CCPaths2
import Verif.Lemmas.Blocks

/-! The enumeration in `generate_possible_exops`: what it yields. -/

namespace Fanpy.CC
open Fanpy.Spec Fanpy.Slater Fanpy.Graphs Fanpy.It Fanpy.Props

/-- the products of operators whose sizes are those of one partition -/
structure IsPathP (p a c : List ℕ) (S : List (List ℕ × List ℕ)) : Prop where
  sizes : (S.map fun q => q.1.length).Perm p
  len : ∀ q ∈ S, q.1.length = q.2.length
  srtA : ∀ q ∈ S, q.1.Pairwise (· < ·)
  srtC : ∀ q ∈ S, q.2.Pairwise (· < ·)
  ann : (S.flatMap Prod.fst).Perm a
  cre : (S.flatMap Prod.snd).Perm c
  order : S.Pairwise fun q q' => BlockLt q.1 q'.1

theorem unordered_full {p l : List ℕ} (hp : ∀ s ∈ p, 1 ≤ s) (hl : l.Pairwise (· < ·)) (hsum : p.sum = l.length) :
    ∃ L : List (List (List (List ℕ))), unorderedPartition l (binSizeNum p) = some (L.map List.flatten) ∧ L.Nodup ∧
      ∀ Q, Q ∈ L ↔ Full (binSizeNum p) Q ∧ Q.flatten.flatten.Perm l := by
  obtain ⟨L, h1, h2, h3⟩ := rev_spec (binSizeNum p) (fun sn h => hp _ (mem_binSizeNum.1 h).1)
    (fun sn h => by rw [(mem_binSizeNum.1 h).2]; exact List.count_pos_iff.2 (mem_binSizeNum.1 h).1) l.reverse (List.pairwise_reverse.2 hl)
  refine ⟨L, h1, h2, fun Q => ?_⟩
  rw [h3]
  constructor
  · rintro ⟨q1, q2⟩
    have q2 := q2.trans (List.reverse_perm l)
    exact ⟨canon_full q1 (by rw [q2.length_eq, total_binSizeNum, hsum]), q2⟩
  · rintro ⟨q1, q2⟩
    exact ⟨q1.imp fun _ _ h => h.1, q2.trans (List.reverse_perm l).symm⟩

theorem sized_sizes {spec : List (ℕ × ℕ)} {Q : List (List (List ℕ))} (h : Sized spec Q) :
    Q.flatten.map List.length = spec.flatMap fun sn => List.replicate sn.2 sn.1 := by
  induction h with
  | nil => rfl
  | cons h1 _ ih =>
    rw [List.flatten_cons, List.map_append, ih, List.flatMap_cons]
    congr 1
    rw [List.eq_replicate_iff]
    refine ⟨by simp [h1.1], ?_⟩
    intro b hb
    obtain ⟨x, hx, rfl⟩ := List.mem_map.1 hb
    exact h1.2 x hx

theorem replicate_binSizeNum (p : List ℕ) : ((binSizeNum p).flatMap fun sn => List.replicate sn.2 sn.1).Perm p := by
  rw [List.perm_iff_count]
  intro x
  rw [List.count_flatMap]
  by_cases hx : x ∈ p
  · have hz := binSizeNum_sizes p
    have hm : (x, p.count x) ∈ binSizeNum p := mem_binSizeNum.2 ⟨hx, rfl⟩
    obtain ⟨l, r, e⟩ := List.append_of_mem hm
    rw [e] at hz ⊢
    rw [List.map_append, List.map_cons, List.pairwise_append, List.pairwise_cons] at hz
    have hl : ∀ sn ∈ l, sn.1 ≠ x := fun sn h e => by
      have := hz.2.2 sn.1 (List.mem_map_of_mem h) x (by simp); omega
    have hr : ∀ sn ∈ r, sn.1 ≠ x := fun sn h e => by
      have := hz.2.1.1 sn.1 (List.mem_map_of_mem h); omega
    have zero : ∀ l : List (ℕ × ℕ), (∀ sn ∈ l, sn.1 ≠ x) → (l.map (List.count x ∘ fun sn => List.replicate sn.2 sn.1)).sum = 0 := by
      intro l hl
      rw [List.sum_eq_zero_iff]
      intro y hy
      obtain ⟨sn, hsn, rfl⟩ := List.mem_map.1 hy
      simp [List.count_replicate, hl sn hsn]
    rw [List.map_append, List.map_cons, List.sum_append, List.sum_cons, zero l hl, zero r hr]
    simp
  · rw [List.count_eq_zero.2 hx, List.sum_eq_zero_iff]
    intro y hy
    obtain ⟨sn, hsn, rfl⟩ := List.mem_map.1 hy
    have : sn.1 ≠ x := by rintro rfl; exact hx (mem_binSizeNum.1 hsn).1
    simp [List.count_replicate, this]

/-- the groups of a list of blocks -/
theorem groups_sized {p : List ℕ} {α : Type*} (S : List α) (key : α → ℕ) (f : α → List ℕ) (hf : ∀ q ∈ S, (f q).length = key q)
    (h : (S.map key).Perm p) :
    Sized (binSizeNum p) ((binSizeNum p).map fun sn => (S.filter fun q => key q = sn.1).map f) := by
  unfold Sized
  rw [List.forall₂_map_left_iff, List.forall₂_same]
  intro sn hsn
  refine ⟨?_, ?_⟩
  · rw [(mem_binSizeNum.1 hsn).2, ← h.count_eq, List.length_map, ← List.countP_eq_length_filter, List.count, List.countP_map]
    apply List.countP_congr
    intro q _
    simp
  · intro b hb
    obtain ⟨q, hq, rfl⟩ := List.mem_map.1 hb
    rw [List.mem_filter] at hq
    rw [hf q hq.1]; simpa using hq.2

theorem groups_flatten {p : List ℕ} {α β : Type*} (S : List α) (key : α → ℕ) (f : α → β) (h : (S.map key).Perm p)
    (hs : S.Pairwise fun q q' => key q ≤ key q') :
    ((binSizeNum p).map fun sn => (S.filter fun q => key q = sn.1).map f).flatten = S.map f := by
  have := filter_groups key ((binSizeNum p).map Prod.fst) (binSizeNum_sizes p) S hs (by
    intro q hq
    have : key q ∈ p := h.mem_iff.1 (List.mem_map_of_mem hq)
    exact List.mem_map.2 ⟨(key q, p.count (key q)), mem_binSizeNum.2 ⟨this, rfl⟩, rfl⟩)
  conv_rhs => rw [← this]
  rw [List.map_flatten, List.map_map, List.map_map]
  rfl

theorem zipWith_zip_map {α γ β δ : Type*} (l : List γ) (u : γ → List α) (f : α → β) (g : α → δ) :
    List.zipWith List.zip (l.map fun s => (u s).map f) (l.map fun s => (u s).map g) = l.map fun s => (u s).map fun q => (f q, g q) := by
  induction l with
  | nil => rfl
  | cons s l ih =>
    rw [List.map_cons, List.map_cons, List.map_cons, List.zipWith_cons_cons, ih]
    congr 1
    induction u s with
    | nil => rfl
    | cons x l ih => rw [List.map_cons, List.map_cons, List.zip_cons_cons, ih, List.map_cons]

/-- the products of operators for one partition -/
theorem partition_paths {p a c : List ℕ} (hp : ∀ s ∈ p, 1 ≤ s) (ha : a.Pairwise (· < ·)) (hc : c.Pairwise (· < ·))
    {La Lc : List (List (List (List ℕ)))} (hsa : La.Nodup) (hsc : Lc.Nodup)
    (hLa : ∀ Q, Q ∈ La ↔ Full (binSizeNum p) Q ∧ Q.flatten.flatten.Perm a)
    (hLc : ∀ Q, Q ∈ Lc ↔ Full (binSizeNum p) Q ∧ Q.flatten.flatten.Perm c) :
    (La.flatMap fun Q => Lc.flatMap fun P => prods Q P).Nodup ∧
      ∀ S, S ∈ (La.flatMap fun Q => Lc.flatMap fun P => prods Q P) ↔ IsPathP p a c S := by
  have hs : ∀ sn ∈ binSizeNum p, 1 ≤ sn.1 := fun sn h => hp _ (mem_binSizeNum.1 h).1
  have hna : a.Nodup := ha.imp fun h => by omega
  have hnc : c.Nodup := hc.imp fun h => by omega
  have shape : ∀ Q ∈ La, ∀ P ∈ Lc, ∀ S ∈ prods Q P, ∃ P', List.Forall₂ List.Perm P' P ∧ S = (List.zipWith List.zip Q P').flatten ∧
      Sized (binSizeNum p) P' ∧ S.map Prod.fst = Q.flatten ∧ S.map Prod.snd = P'.flatten := by
    intro Q hQ P hP S hS
    have q := ((hLa Q).1 hQ).1.sized
    have p' := ((hLc P).1 hP).1.sized
    obtain ⟨P', h1, h2⟩ := (mem_prods (q.length_eq.trans p'.length_eq.symm)).1 hS
    have h3 := sized_perm p' h1
    have h4 := zip_flatten (sized_two q h3)
    exact ⟨P', h1, h2, h3, by rw [h2]; exact h4.1, by rw [h2]; exact h4.2⟩
  refine ⟨?_, ?_⟩
  · rw [List.nodup_flatMap]
    refine ⟨fun Q hQ => ?_, ?_⟩
    · rw [List.nodup_flatMap]
      refine ⟨fun P hP => ?_, ?_⟩
      · have q := ((hLa Q).1 hQ).1.sized
        have p' := ((hLc P).1 hP).1.sized
        have hlen : Q.length = P.length := q.length_eq.trans p'.length_eq.symm
        have hbn : ∀ g ∈ P, g.Nodup := by
          intro g hg
          have : P.flatten.flatten.Nodup := ((hLc P).1 hP).2.nodup_iff.2 hnc
          have h1 : P.flatten.Nodup := Fanpy.Spec.nodup_of_flatten (by
            intro b hb e
            obtain ⟨g', hg', hb'⟩ := List.mem_flatten.1 hb
            obtain ⟨i, hi, rfl⟩ := List.mem_iff_getElem.1 hg'
            have hi' : i < (binSizeNum p).length := by rw [← p'.length_eq]; exact hi
            have h5 := (List.forall₂_iff_get.1 p').2 i hi hi'
            simp only [List.get_eq_getElem] at h5
            have h6 := h5.2 b hb'
            have := hs _ (List.getElem_mem hi')
            rw [e] at h6; simp at h6; omega) this
          exact (List.nodup_flatten.1 h1).1 g hg
        unfold prods
        refine List.Nodup.map_on ?_ (productLists_nodup ?_)
        · intro e he e' he' hee
          -- both are zips of `Q` with a list of permutations
          have key : ∀ (Q P : List (List (List ℕ))) (e : List (List (List ℕ) × List (List ℕ))), Q.length = P.length →
              e ∈ productLists (List.zipWith (fun a c => (perms c).map fun p => (a, p)) Q P) →
              ∃ P', List.Forall₂ List.Perm P' P ∧ e = List.zip Q P' := by
            intro Q
            induction Q with
            | nil =>
              intro P e hl he
              cases P with
              | nil =>
                rw [mem_productLists] at he
                simp at he
                exact ⟨[], by simp, by simp [he]⟩
              | cons => simp at hl
            | cons g Q ih =>
              intro P e hl he
              cases P with
              | nil => simp at hl
              | cons c P =>
                rw [mem_productLists, List.zipWith_cons_cons, List.forall₂_cons_right_iff] at he
                obtain ⟨x, xs, h1, h2, rfl⟩ := he
                obtain ⟨y, hy, rfl⟩ := List.mem_map.1 h1
                obtain ⟨P', h3, rfl⟩ := ih P xs (by simpa using hl) (mem_productLists.2 h2)
                exact ⟨y :: P', List.Forall₂.cons ((mem_permsAux rfl).1 hy) h3, rfl⟩
          obtain ⟨P1, p1, rfl⟩ := key Q P e hlen he
          obtain ⟨P2, p2, rfl⟩ := key Q P e' hlen he'
          have s1 := sized_perm p' p1
          have s2 := sized_perm p' p2
          have z1 := zip_flatten (sized_two q s1)
          have z2 := zip_flatten (sized_two q s2)
          have hee' : (List.zipWith List.zip Q P1).flatten = (List.zipWith List.zip Q P2).flatten := by
            have h := hee
            simp only [List.flatMap_def, List.map_zip_eq_zipWith] at h
            exact h
          have : P1 = P2 := by
            rw [List.eq_iff_flatten_eq]
            exact ⟨by rw [← z1.2, ← z2.2, hee'], by rw [sized_lengths s1, sized_lengths s2]⟩
          rw [this]
        · intro l hl
          rw [List.mem_iff_getElem] at hl
          obtain ⟨i, hi, rfl⟩ := hl
          rw [List.getElem_zipWith]
          refine List.Nodup.map (fun x y h => (Prod.mk.inj h).2) (permsAux_nodup rfl ?_)
          exact hbn _ (List.getElem_mem _)
      · refine List.Pairwise.imp_of_mem ?_ hsc
        intro P P2 hP hP2 hne
        rw [Function.onFun, List.disjoint_left]
        intro S hS hS'
        obtain ⟨P', h1, -, h3, -, h5⟩ := shape Q hQ P hP S hS
        obtain ⟨P2', k1, -, k3, -, k5⟩ := shape Q hQ P2 hP2 S hS'
        have : P' = P2' := by
          rw [List.eq_iff_flatten_eq]
          exact ⟨by rw [← h5, ← k5], by rw [sized_lengths h3, sized_lengths k3]⟩
        subst this
        refine hne (full_perm_eq hs ((hLc P).1 hP).1 ((hLc P2).1 hP2).1 ?_)
        have h1' : List.Forall₂ List.Perm P P' := (h1.imp fun _ _ h => h.symm).flip
        clear hne hS hS' h1 h3 h5 k3 k5 hP hP2
        induction h1' generalizing P2 with
        | nil => exact k1
        | cons a1 _ ih =>
          cases k1 with
          | cons b1 b2 => exact List.Forall₂.cons (a1.trans b1) (ih b2)
    · refine List.Pairwise.imp_of_mem ?_ hsa
      intro Q Q2 hQ hQ2 hne
      rw [Function.onFun, List.disjoint_left]
      intro S hS hS'
      rw [List.mem_flatMap] at hS hS'
      obtain ⟨P, hP, hS⟩ := hS
      obtain ⟨P2, hP2, hS'⟩ := hS'
      obtain ⟨-, -, -, -, h4, -⟩ := shape Q hQ P hP S hS
      obtain ⟨-, -, -, -, k4, -⟩ := shape Q2 hQ2 P2 hP2 S hS'
      apply hne
      rw [List.eq_iff_flatten_eq]
      exact ⟨by rw [← h4, ← k4], by rw [sized_lengths ((hLa Q).1 hQ).1.sized, sized_lengths ((hLa Q2).1 hQ2).1.sized]⟩
  · intro S
    simp only [List.mem_flatMap]
    constructor
    · rintro ⟨Q, hQ, P, hP, hS⟩
      obtain ⟨P', h1, h2, h3, h4, h5⟩ := shape Q hQ P hP S hS
      obtain ⟨q1, q2⟩ := (hLa Q).1 hQ
      obtain ⟨p1, p2⟩ := (hLc P).1 hP
      have lA : S.map (fun q => q.1.length) = (binSizeNum p).flatMap fun sn => List.replicate sn.2 sn.1 := by
        rw [← sized_sizes q1.sized, ← h4, List.map_map]; rfl
      have lC : S.map (fun q => q.2.length) = (binSizeNum p).flatMap fun sn => List.replicate sn.2 sn.1 := by
        rw [← sized_sizes h3, ← h5, List.map_map]; rfl
      have srt : ∀ {Q : List (List (List ℕ))}, Full (binSizeNum p) Q → ∀ b ∈ Q.flatten, b.Pairwise (· < ·) := by
        intro Q h b hb
        obtain ⟨g, hg, hb⟩ := List.mem_flatten.1 hb
        obtain ⟨i, hi, rfl⟩ := List.mem_iff_getElem.1 hg
        have hi' : i < (binSizeNum p).length := by rw [← h.length_eq]; exact hi
        have := (List.forall₂_iff_get.1 h).2 i hi hi'
        exact this.1.sorted b hb
      refine ⟨?_, ?_, ?_, ?_, ?_, ?_, ?_⟩
      · rw [lA]; exact replicate_binSizeNum p
      · exact List.map_inj_left.1 (lA.trans lC.symm)
      · intro q hq
        exact srt q1 _ (h4 ▸ List.mem_map_of_mem hq)
      · intro q hq
        exact srt p1 _ ((flatten_perm h1).mem_iff.1 (h5 ▸ List.mem_map_of_mem hq))
      · rw [List.flatMap_def, h4]; exact q2
      · rw [List.flatMap_def, h5]; exact (flatten_perm h1).flatten.trans p2
      · have := full_order hs (binSizeNum_sizes p) q1
        rw [← h4, List.pairwise_map] at this
        exact this
    · intro h
      have hmono : S.Pairwise fun q q' => q.1.length ≤ q'.1.length := h.order.imp fun hb => by
        rcases hb with h | h
        · exact h.le
        · exact h.1.le
      have sQ := groups_sized S (fun q => q.1.length) Prod.fst (fun _ _ => rfl) h.sizes
      have sP := groups_sized S (fun q => q.1.length) Prod.snd (fun q hq => (h.len q hq).symm) h.sizes
      have fQ := groups_flatten S (fun q => q.1.length) Prod.fst h.sizes hmono
      have fP := groups_flatten S (fun q => q.1.length) Prod.snd h.sizes hmono
      have fullQ : Full (binSizeNum p) ((binSizeNum p).map fun sn => (S.filter fun q => q.1.length = sn.1).map Prod.fst) := by
        unfold Full
        unfold Sized at sQ
        rw [List.forall₂_map_left_iff, List.forall₂_same] at sQ ⊢
        intro sn hsn
        refine ⟨⟨(sQ sn hsn).1, fun b hb => ((sQ sn hsn).2 b hb).le, ?_, ?_⟩, (sQ sn hsn).2⟩
        · intro b hb
          obtain ⟨q, hq, rfl⟩ := List.mem_map.1 hb
          exact h.srtA q (List.mem_filter.1 hq).1
        · rw [List.pairwise_map]
          refine List.Pairwise.imp_of_mem ?_ (h.order.filter _)
          intro q q' hq hq' hb
          have e1 : q.1.length = sn.1 := by simpa using (List.mem_filter.1 hq).2
          have e2 : q'.1.length = sn.1 := by simpa using (List.mem_filter.1 hq').2
          have hpos := hs sn hsn
          rcases hb with hb | ⟨-, hb⟩
          · omega
          · right
            rcases hx : q.1 with - | ⟨x, r⟩
            · rw [hx] at e1; simp at e1; omega
            · rcases hy : q'.1 with - | ⟨y, r'⟩
              · rw [hy] at e2; simp at e2; omega
              · rw [hx, hy] at hb
                exact ⟨x, y, rfl, rfl, hb⟩
      obtain ⟨P, hP, hPP⟩ := full_of_sized hs sP (by
        intro b hb
        rw [fP] at hb
        obtain ⟨q, hq, rfl⟩ := List.mem_map.1 hb
        exact h.srtC q hq) (by
        rw [fP, ← List.flatMap_def]; exact h.cre.nodup_iff.2 hnc)
      refine ⟨_, (hLa _).2 ⟨fullQ, by rw [fQ, ← List.flatMap_def]; exact h.ann⟩, P, (hLc P).2 ⟨hP, ?_⟩, ?_⟩
      · refine ((flatten_perm hPP).flatten.symm).trans ?_
        rw [fP, ← List.flatMap_def]; exact h.cre
      · rw [mem_prods (fullQ.length_eq.trans hP.length_eq.symm)]
        refine ⟨_, hPP, ?_⟩
        rw [zipWith_zip_map]
        have := groups_flatten S (fun q => q.1.length) (fun q => (q.1, q.2)) h.sizes hmono
        rw [this]
        simp

end Fanpy.CC
