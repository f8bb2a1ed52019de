import Verif.Lemmas.Geminal
import Verif.Props.GeminalColumns
import Verif.Props.CompletePmatch
import Verif.Props.BicliquePmatch
import Verif.Props.HamDeriv

/-! # The pairing schemes used by the geminal wavefunctions cover every pairing once -/

namespace Fanpy.Props
open Fanpy.Slater Fanpy.Graphs Fanpy.Geminal Fanpy.Spec Fanpy.It

/-! ## All pairings: `APG` -/

theorem completePmatch_lt (k : ℕ) : ∀ (l : List ℕ) (s : ℤ), l.length = 2 * k → l.Pairwise (· < ·) →
    ∀ o ∈ completePmatch l s, ∀ T, o.1 = some T → ∀ p ∈ T, p.1 < p.2 := by
  induction k with
  | zero =>
    intro l s hl _ o ho T hT p hp
    have : l = [] := by simpa using hl
    subst this
    rw [completePmatch_nil] at ho
    simp only [List.mem_singleton] at ho
    subst ho
    simp only [Option.some.injEq] at hT
    subst hT
    simp at hp
  | succ k ih =>
    intro l s hl hs o ho T hT p hp
    obtain ⟨l', a, b, rfl⟩ : ∃ l' a b, l = l' ++ [a, b] := by
      refine ⟨l.take (2 * k), l[2 * k], l[2 * k + 1], ?_⟩
      conv_lhs => rw [← List.take_append_drop (2 * k) l]
      congr 1
      rw [List.drop_eq_getElem_cons (by omega), List.drop_eq_getElem_cons (by omega), List.drop_eq_nil_of_le (by omega)]
    have hl' : l'.length = 2 * k := by simp at hl; omega
    rw [List.pairwise_append] at hs
    obtain ⟨hs1, hs2, hs3⟩ := hs
    have hab : a < b := by simpa using hs2
    rw [completePmatch_pair l' a b s (by omega), List.mem_flatMap] at ho
    obtain ⟨q, hq, ho⟩ := ho
    obtain ⟨S, hS, hperm, -⟩ := (completePmatch_main k l' s hl' (hs1.imp ne_of_lt)).1 q hq
    have hlt := ih l' s hl' hs1 q hq S hS
    have hmem : ∀ x ∈ S, x.1 ∈ l' ∧ x.2 ∈ l' := fun x hx =>
      ⟨hperm.mem_iff.1 (List.mem_flatMap.2 ⟨x, hx, by simp⟩), hperm.mem_iff.1 (List.mem_flatMap.2 ⟨x, hx, by simp⟩)⟩
    rw [hS] at ho
    simp only [extendScheme, List.mem_cons, List.mem_flatMap, List.not_mem_nil, or_false] at ho
    have hsplit : ∀ i c d, c ∈ [a, b] → d ∈ [a, b] → splitPair S i c d = some T → p.1 < p.2 := by
      intro i c d hc hd h
      rw [splitPair, Option.map_eq_some_iff] at h
      obtain ⟨x, hx, rfl⟩ := h
      have hxm := hmem x (List.mem_of_getElem? hx)
      simp only [List.append_assoc, List.mem_append, List.mem_cons, List.not_mem_nil, or_false] at hp
      rcases hp with hp | (rfl | rfl) | hp
      · exact hlt p (List.mem_of_mem_take hp)
      · exact hs3 _ hxm.1 _ hc
      · exact hs3 _ hxm.2 _ hd
      · exact hlt p (List.mem_of_mem_drop hp)
    rcases ho with rfl | ⟨i, -, rfl | rfl⟩
    · simp only [Option.some.injEq] at hT
      subst hT
      simp only [List.mem_append, List.mem_singleton] at hp
      rcases hp with hp | rfl
      · exact hlt p hp
      · exact hab
    · exact hsplit i a b (by simp) (by simp) hT
    · exact hsplit i b a (by simp) (by simp) hT

theorem edges_eq_image (S : Scheme) : edges S = S.toFinset.image fun p => s(p.1, p.2) := by
  ext e; simp [edges]

theorem toFinset_of_edges {S T : Scheme} (hS : ∀ p ∈ S, p.1 < p.2) (hT : ∀ p ∈ T, p.1 < p.2)
    (h : edges S = edges T) : S.toFinset = T.toFinset := by
  have key : ∀ {S T : Scheme}, (∀ p ∈ S, p.1 < p.2) → (∀ p ∈ T, p.1 < p.2) → edges S = edges T →
      S.toFinset ⊆ T.toFinset := by
    intro S T hS hT h p hp
    rw [List.mem_toFinset] at hp ⊢
    have : s(p.1, p.2) ∈ edges T := by
      rw [← h, edges_eq_image]; exact Finset.mem_image_of_mem _ (List.mem_toFinset.2 hp)
    rw [edges_eq_image, Finset.mem_image] at this
    obtain ⟨q, hq, he⟩ := this
    rw [List.mem_toFinset] at hq
    have h1 := hS p hp
    have h2 := hT q hq
    rw [Sym2.eq_iff] at he
    rcases he with ⟨e1, e2⟩ | ⟨e1, e2⟩
    · rwa [← Prod.ext e1 e2]
    · omega
  exact Finset.Subset.antisymm (key hS hT h) (key hT hS h.symm)

/-- `generate_complete_pmatch` on the occupied orbitals -/
theorem covers_all {l : List ℕ} {nspin k : ℕ} (hl : l.length = 2 * k) (hs : l.Pairwise (· < ·))
    (hb : ∀ x ∈ l, x < nspin) :
    ∃ out : List (Scheme × ℤ), completePmatch l 1 = out.map (fun p => (some p.1, p.2)) ∧
      Covers (pairsAll nspin) l.toFinset k out := by
  obtain ⟨out, h1, h2, h3, h4⟩ := C15_complete_pmatch l 1 (by omega) (hs.imp ne_of_lt)
  have hlt : ∀ o ∈ out, ∀ p ∈ o.1, p.1 < p.2 := by
    intro o ho
    refine completePmatch_lt k l 1 hl hs (some o.1, o.2) ?_ o.1 rfl
    rw [h1]; exact List.mem_map_of_mem (f := fun p : Scheme × ℤ => (some p.1, p.2)) ho
  have hn : ∀ o ∈ out, (flatPairs o.1).Perm l := fun o ho => (h4 o ho).1
  refine ⟨out, h1, ?_⟩
  refine ⟨?_, ?_, ?_, ?_, ?_, ?_, ?_⟩
  · intro o ho p hp
    refine mem_pairsAll.2 ⟨hlt o ho p hp, hb _ ?_⟩
    rw [← (hn o ho).mem_iff]
    exact List.mem_flatMap.2 ⟨p, hp, by simp⟩
  · exact fun o ho => (hn o ho).nodup_iff.2 (hs.imp ne_of_lt)
  · exact fun o ho => List.toFinset_eq_of_perm _ _ (hn o ho)
  · intro o ho
    have := (hn o ho).length_eq
    rw [flatPairs_length_even] at this
    omega
  · intro o ho
    rw [(h4 o ho).2, listSign_sorted hs, one_mul, one_mul]; rfl
  · have e : (out.map fun p => edges p.1) = (out.map fun o => o.1.toFinset).map
        fun F => F.image fun p => s(p.1, p.2) := by
      rw [List.map_map]; apply List.map_congr_left; intro o _; exact edges_eq_image o.1
    rw [e] at h2
    exact List.Nodup.of_map _ h2
  · intro S hS hSn hSs
    have hpm := (h3 _).2 (isPM_edges hSn hSs)
    obtain ⟨o, ho, he⟩ := List.mem_map.1 hpm
    exact ⟨o, ho, toFinset_of_edges (hlt o ho) (fun p hp => (mem_pairsAll.1 (hS p hp)).1) he⟩

/-! ## Pairings of two sets: `BasicAPsetG` -/

theorem signPerm_some {J l : List ℕ} (hs : l.Pairwise (· < ·)) :
    signPerm J (some l) false = .ok (signPermOuter J l 1) := by
  have := (strictlyIncreasing_iff l).2 hs
  simp [signPerm, this]

theorem zip_fst_snd (S : Scheme) : (S.map Prod.fst).zip (S.map Prod.snd) = S := by
  induction S with
  | nil => rfl
  | cons p S ih => simp [ih]

theorem flatPairs_perm_fst_snd (S : Scheme) : (flatPairs S).Perm (S.map Prod.fst ++ S.map Prod.snd) := by
  have := flatPairs_zip_perm (a := S.map Prod.fst) (b := S.map Prod.snd) (by simp)
  rwa [zip_fst_snd] at this

/-- a scheme between two sets, sorted by the first orbitals -/
theorem sets_split {l : List ℕ} {m : ℕ} {S : Scheme} (hs : l.Pairwise (· < ·)) (hS : ∀ p ∈ S, p.1 < m ∧ m ≤ p.2)
    (hn : (flatPairs S).Nodup) (hl : (flatPairs S).toFinset = l.toFinset) :
    (S.map Prod.fst).Perm (l.filter (· < m)) ∧ (S.map Prod.snd).Perm (l.filter fun i => ¬ i < m) := by
  have hp : (S.map Prod.fst ++ S.map Prod.snd).Perm l :=
    (flatPairs_perm_fst_snd S).symm.trans (List.perm_of_nodup_nodup_toFinset_eq hn (hs.imp ne_of_lt) hl)
  constructor
  · have h := hp.filter (fun i => decide (i < m))
    rw [List.filter_append, List.filter_eq_self.2, List.filter_eq_nil_iff.2, List.append_nil] at h
    · exact h
    · intro x hx
      obtain ⟨p, hp, rfl⟩ := List.mem_map.1 hx
      have := hS p hp
      simp; omega
    · intro x hx
      obtain ⟨p, hp, rfl⟩ := List.mem_map.1 hx
      have := hS p hp
      simp; omega
  · have h := hp.filter (fun i => decide (¬ i < m))
    rw [List.filter_append, List.filter_eq_nil_iff.2, List.filter_eq_self.2, List.nil_append] at h
    · exact h
    · intro x hx
      obtain ⟨p, hp, rfl⟩ := List.mem_map.1 hx
      have := hS p hp
      simp; omega
    · intro x hx
      obtain ⟨p, hp, rfl⟩ := List.mem_map.1 hx
      have := hS p hp
      simp; omega

theorem zip_toFinset_inj {one p q : List ℕ} (h1 : one.Nodup) (hp : p.length = one.length) (hq : q.length = one.length)
    (h : (one.zip p).toFinset = (one.zip q).toFinset) : p = q := by
  apply List.ext_getElem (by omega)
  intro i h2 h3
  have hm : (one[i]'(by omega), p[i]) ∈ one.zip q := by
    rw [← List.mem_toFinset, ← h, List.mem_toFinset, List.mem_iff_getElem]
    exact ⟨i, by simp; omega, by simp⟩
  obtain ⟨j, hj, he⟩ := List.mem_iff_getElem.1 hm
  rw [List.getElem_zip, Prod.mk.injEq] at he
  have : j = i := (h1.getElem_inj_iff).1 he.1
  subst this
  exact he.2.symm

/-- `generate_biclique_pmatch` on the alpha and the beta occupied orbitals -/
theorem covers_sets {l : List ℕ} {nspin k : ℕ} (hk : 0 < k) (hs : l.Pairwise (· < ·)) (hb : ∀ x ∈ l, x < nspin)
    (h1 : (l.filter (· < nspin / 2)).length = k) (h2 : (l.filter fun i => ¬ i < nspin / 2).length = k) :
    ∃ out : List (Scheme × ℤ), bicliquePmatch (l.filter (· < nspin / 2)) (l.filter fun i => ¬ i < nspin / 2) (some l)
        false = .ok (some out) ∧ Covers (pairsSets nspin) l.toFinset k out := by
  have hln : l.Nodup := hs.imp ne_of_lt
  have hsplit : (l.filter (· < nspin / 2) ++ l.filter fun i => ¬ i < nspin / 2).Perm l := by
    have := List.filter_append_perm (fun i => decide (i < nspin / 2)) l
    simp only [← decide_not] at this
    exact this
  have hn1 : (l.filter (· < nspin / 2)).Nodup := hln.filter _
  have hn2 : (l.filter fun i => ¬ i < nspin / 2).Nodup := hln.filter _
  have hm1 : ∀ x ∈ l.filter (· < nspin / 2), x < nspin / 2 := fun x hx => by simpa using (List.mem_filter.1 hx).2
  have hm2 : ∀ x ∈ l.filter (fun i => ¬ i < nspin / 2), nspin / 2 ≤ x ∧ x < nspin := fun x hx =>
    ⟨by simpa using (List.mem_filter.1 hx).2, hb x (List.mem_filter.1 hx).1⟩
  have hso : (l.filter (· < nspin / 2)).Pairwise (· < ·) := hs.filter _
  have hall : ∀ S : Scheme, (∀ p ∈ S, p ∈ pairsSets nspin) → (flatPairs S).Nodup →
      (flatPairs S).toFinset = l.toFinset → (S.map Prod.fst).Perm (l.filter (· < nspin / 2)) ∧
        (S.map Prod.snd).Perm (l.filter fun i => ¬ i < nspin / 2) := fun S hS hn he =>
    sets_split hs (fun p hp => by have := mem_pairsSets.1 (hS p hp); exact ⟨this.1, this.2.1⟩) hn he
  generalize l.filter (· < nspin / 2) = one at *
  generalize (l.filter fun i => ¬ i < nspin / 2) = two at *
  obtain ⟨out, e1, e2, e3, e4, e5⟩ := C16_biclique_pmatch one two false hn1 hn2
    (fun x hx hx' => by have := hm1 x hx'; have := hm2 x hx; omega) (by omega) (by omega)
  have hflat : ∀ p, p.Perm two → (flatPairs (one.zip p)).Perm l := fun p hp =>
    (flatPairs_zip_perm (by rw [hp.length_eq]; omega)).trans ((hp.append_left one).trans hsplit)
  have heq : bicliquePmatch one two (some l) false = bicliquePmatch one two none false := by
    have hf := hflat two (List.Perm.refl _)
    have a1 : signPerm (flatPairs (one.zip two)) (some l) false = .ok (listSign (flatPairs (one.zip two))) := by
      rw [signPerm_some hs, signPermOuter_perm _ _ (hf.nodup_iff.2 hln) hf.symm]
    have a2 := signPerm_false _ (hf.nodup_iff.2 hln)
    simp only [bicliquePmatch, a1, a2]
  have hout : ∀ o ∈ out, ∃ p, p.Perm two ∧ o.1 = one.zip p := by
    intro o ho
    have : o.1 ∈ (perms two).map fun p => one.zip p := by rw [← e2]; exact List.mem_map_of_mem ho
    obtain ⟨p, hp, he⟩ := List.mem_map.1 this
    exact ⟨p, (e4 p).1 hp, he.symm⟩
  refine ⟨out, heq.trans e1, ?_, ?_, ?_, ?_, ?_, ?_, ?_⟩
  · intro o ho q hq
    obtain ⟨p, hp, he⟩ := hout o ho
    rw [he] at hq
    obtain ⟨q1, q2⟩ := List.of_mem_zip hq
    exact mem_pairsSets.2 ⟨hm1 _ q1, hm2 _ (hp.mem_iff.1 q2)⟩
  · intro o ho
    obtain ⟨p, hp, he⟩ := hout o ho
    rw [he]; exact (hflat p hp).nodup_iff.2 hln
  · intro o ho
    obtain ⟨p, hp, he⟩ := hout o ho
    rw [he]; exact List.toFinset_eq_of_perm _ _ (hflat p hp)
  · intro o ho
    obtain ⟨p, hp, he⟩ := hout o ho
    rw [he, List.length_zip, hp.length_eq]; omega
  · intro o ho
    obtain ⟨p, hp, he⟩ := hout o ho
    have h5 := e5 o ho
    rw [he] at h5 ⊢
    have h6 := signPerm_false _ ((hflat p hp).nodup_iff.2 hln)
    have : (Except.ok o.2 : Except PyErr ℤ) = .ok (listSign (flatPairs (one.zip p))) := h5.symm.trans h6
    injection this
  · have e : (out.map fun o => o.1.toFinset) = (perms two).map fun p => (one.zip p).toFinset := by
      have := congrArg (List.map List.toFinset) e2
      rw [List.map_map, List.map_map] at this
      exact this
    rw [e]
    apply e3.map_on
    intro p hp q hq h
    exact zip_toFinset_inj hn1 (by rw [((e4 p).1 hp).length_eq]; omega) (by rw [((e4 q).1 hq).length_eq]; omega) h
  · intro S hS hSn hSs
    let S' := S.mergeSort fun p q => decide (p.1 ≤ q.1)
    have hSS : S'.Perm S := List.mergeSort_perm _ _
    have hf : (flatPairs S').Perm (flatPairs S) := List.Perm.flatMap_right (fun p : ℕ × ℕ => [p.1, p.2]) hSS
    obtain ⟨g1, g2⟩ := hall S' (fun p hp => hS p (hSS.mem_iff.1 hp)) (hf.nodup_iff.2 hSn)
      ((List.toFinset_eq_of_perm _ _ hf).trans hSs)
    have hsorted : (S'.map Prod.fst).Pairwise (· ≤ ·) := by
      rw [List.pairwise_map]
      have := List.pairwise_mergeSort (le := fun p q : ℕ × ℕ => decide (p.1 ≤ q.1))
        (by intro a b c; simp; omega) (by intro a b; simp; omega) S
      exact this.imp (by simp)
    have hfst : S'.map Prod.fst = one := List.Perm.eq_of_pairwise
      (fun a b _ _ h1 h2 => le_antisymm h1 h2) hsorted (hso.imp le_of_lt) g1
    have hmem : one.zip (S'.map Prod.snd) ∈ out.map Prod.fst := by
      rw [e2]; exact List.mem_map_of_mem ((e4 _).2 g2)
    obtain ⟨o, ho, he⟩ := List.mem_map.1 hmem
    refine ⟨o, ho, ?_⟩
    rw [he, ← hfst, zip_fst_snd]
    exact List.toFinset_eq_of_perm _ _ hSS

/-- different numbers of alpha and beta electrons -/
theorem covers_sets_ne {l : List ℕ} {nspin k : ℕ} (hs : l.Pairwise (· < ·))
    (h : (l.filter (· < nspin / 2)).length ≠ (l.filter fun i => ¬ i < nspin / 2).length) :
    bicliquePmatch (l.filter (· < nspin / 2)) (l.filter fun i => ¬ i < nspin / 2) (some l) false =
      .ok (some [([], 1)]) ∧ Covers (pairsSets nspin) l.toFinset k [] := by
  constructor
  · simp only [bicliquePmatch, signPerm_some hs, bind, Except.bind, pure, Except.pure]
    split_ifs <;> rfl
  · refine ⟨by simp, by simp, by simp, by simp, by simp, by simp, ?_⟩
    intro S hS hn he
    exfalso
    obtain ⟨g1, g2⟩ := sets_split hs (fun p hp => by
      have := mem_pairsSets.1 (hS p hp); exact ⟨this.1, this.2.1⟩) hn he
    apply h
    rw [← g1.length_eq, ← g2.length_eq]
    simp

/-! ## A fixed set of disjoint pairs: `APIG` -/

theorem share_orb {pairs : List (ℕ × ℕ)} (h : (flatPairs pairs).Nodup) {p q : ℕ × ℕ} (hp : p ∈ pairs) (hq : q ∈ pairs)
    {x : ℕ} (h1 : x = p.1 ∨ x = p.2) (h2 : x = q.1 ∨ x = q.2) : p = q := by
  by_contra hne
  have := (List.nodup_flatMap.1 h).2
  have hsym : Std.Symm (Function.onFun List.Disjoint fun p : ℕ × ℕ => [p.1, p.2]) := ⟨fun a b hab => hab.symm⟩
  have := List.Pairwise.forall this hp hq hne
  exact this (a := x) (by simpa using h1) (by simpa using h2)

theorem flatPairs_nodup_sub {pairs T : List (ℕ × ℕ)} (h : (flatPairs pairs).Nodup) (hT : T.Nodup) (hs : T ⊆ pairs) :
    (flatPairs T).Nodup := by
  obtain ⟨U, hU, hU'⟩ := List.subperm_of_subset hT hs
  have h1 : (flatPairs U).Perm (flatPairs T) := List.Perm.flatMap_right (fun p : ℕ × ℕ => [p.1, p.2]) hU
  rw [← h1.nodup_iff]
  exact h.sublist (List.Sublist.flatMap hU' _)

theorem mem_apigSelect {pairs : List (ℕ × ℕ)} (h : (flatPairs pairs).Nodup) {l : List ℕ} {p : ℕ × ℕ} :
    p ∈ apigSelect pairs l ↔ p ∈ pairs ∧ p.1 ∈ l := by
  rw [apigSelect, List.mem_filterMap]
  constructor
  · rintro ⟨i, hi, hf⟩
    have h1 := List.mem_of_find?_eq_some hf
    have h2 := List.find?_some hf
    simp only [decide_eq_true_eq] at h2
    exact ⟨h1, h2 ▸ hi⟩
  · rintro ⟨h1, h2⟩
    refine ⟨p.1, h2, ?_⟩
    rcases hf : pairs.find? fun q => decide (q.1 = p.1) with - | q
    · rw [List.find?_eq_none] at hf
      exact absurd (by simp) (hf p h1)
    · have h3 := List.mem_of_find?_eq_some hf
      have h4 := List.find?_some hf
      simp only [decide_eq_true_eq] at h4
      rw [hf, share_orb h h3 h1 (Or.inl rfl) (Or.inl h4)]

theorem nodup_apigSelect {pairs : List (ℕ × ℕ)} {l : List ℕ} (hl : l.Nodup) : (apigSelect pairs l).Nodup := by
  apply hl.filterMap
  intro i j p hi hj
  have h1 := List.find?_some (Option.mem_def.1 hi)
  have h2 := List.find?_some (Option.mem_def.1 hj)
  simp only [decide_eq_true_eq] at h1 h2
  omega

/-- the only possible scheme of an `APIG` -/
theorem covers_apig {pairs : List (ℕ × ℕ)} (h : (flatPairs pairs).Nodup) {l : List ℕ} {k : ℕ} (hl : l.Nodup)
    (hk : l.length = 2 * k) :
    Covers pairs l.toFinset k (if l.toFinset ≠ (flatPairs (apigSelect pairs l)).toFinset then []
      else [(apigSelect pairs l, listSign (flatPairs (apigSelect pairs l)))]) := by
  have hsub : apigSelect pairs l ⊆ pairs := fun p hp => ((mem_apigSelect h).1 hp).1
  have hnf := flatPairs_nodup_sub h (nodup_apigSelect hl) hsub
  have hall : ∀ S : Scheme, (∀ p ∈ S, p ∈ pairs) → (flatPairs S).toFinset = l.toFinset →
      (apigSelect pairs l).toFinset = S.toFinset := by
    intro S hS hSs
    ext p
    rw [List.mem_toFinset, List.mem_toFinset, mem_apigSelect h]
    constructor
    · rintro ⟨h1, h2⟩
      rw [← List.mem_toFinset, ← hSs, List.mem_toFinset, flatPairs, List.mem_flatMap] at h2
      obtain ⟨q, hq, hx⟩ := h2
      rwa [share_orb h h1 (hS q hq) (Or.inl rfl) (by simpa using hx)]
    · intro hp
      refine ⟨hS p hp, ?_⟩
      rw [← List.mem_toFinset, ← hSs, List.mem_toFinset, flatPairs, List.mem_flatMap]
      exact ⟨p, hp, by simp⟩
  split_ifs with hc
  · refine ⟨by simp, by simp, by simp, by simp, by simp, by simp, ?_⟩
    intro S hS hn hSs
    exfalso
    apply hc
    rw [← hSs]
    have e := hall S hS hSs
    ext x
    simp only [flatPairs, List.mem_toFinset, List.mem_flatMap]
    constructor
    · rintro ⟨q, hq, hx⟩; exact ⟨q, by rwa [← List.mem_toFinset, e, List.mem_toFinset], hx⟩
    · rintro ⟨q, hq, hx⟩; exact ⟨q, by rwa [← List.mem_toFinset, ← e, List.mem_toFinset], hx⟩
  · push Not at hc
    refine ⟨?_, ?_, ?_, ?_, ?_, by simp, ?_⟩
    · intro o ho; rw [List.mem_singleton] at ho; subst ho; exact hsub
    · intro o ho; rw [List.mem_singleton] at ho; subst ho; exact hnf
    · intro o ho; rw [List.mem_singleton] at ho; subst ho; exact hc.symm
    · intro o ho; rw [List.mem_singleton] at ho; subst ho
      have := congrArg Finset.card hc
      rw [List.toFinset_card_of_nodup hl, List.toFinset_card_of_nodup hnf, flatPairs_length_even] at this
      simp only; omega
    · intro o ho; rw [List.mem_singleton] at ho; subst ho; rfl
    · intro S hS _ hSs
      exact ⟨_, List.mem_singleton_self _, hall S hS hSs⟩

end Fanpy.Props
