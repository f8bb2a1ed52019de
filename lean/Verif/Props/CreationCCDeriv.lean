import Verif.Props.CreationCC
import Verif.Props.CompletePmatch

/-! # Property C67 (errors) and C68: the creation-operator coupled cluster wavefunction, electron counts and derivatives -/

namespace Fanpy.Props
open Fanpy.Spec Fanpy.Slater Fanpy.Graphs Fanpy.It Fanpy.Geminal Fanpy.Lemmas

variable {R : Type} [CommRing R]

theorem flatPairs_inPairs : ∀ (l : List ℕ), l.length % 2 = 0 → flatPairs (CreationCC.inPairs l) = l
  | [], _ => rfl
  | [_], h => by simp at h
  | x :: y :: r, h => by
    rw [CreationCC.inPairs, flatPairs_cons, flatPairs_inPairs r (by simp at h; omega)]

theorem inPairs_sorted : ∀ (l : List ℕ), l.Pairwise (· < ·) → ∀ p ∈ CreationCC.inPairs l, p.1 < p.2
  | [], _, p, hp => by simp [CreationCC.inPairs] at hp
  | [_], _, p, hp => by simp [CreationCC.inPairs] at hp
  | x :: y :: r, h, p, hp => by
    rw [CreationCC.inPairs, List.mem_cons] at hp
    rw [List.pairwise_cons, List.pairwise_cons] at h
    rcases hp with rfl | hp
    · exact h.1 y (by simp)
    · exact inPairs_sorted r h.2.2 p hp

theorem mem_of_flatPairs {S : Scheme} {p : ℕ × ℕ} (hp : p ∈ S) : p.1 ∈ flatPairs S ∧ p.2 ∈ flatPairs S := by
  simp only [flatPairs, List.mem_flatMap]
  exact ⟨⟨p, hp, by simp⟩, ⟨p, hp, by simp⟩⟩

/-- every pair of positions is in a matching -/
theorem exists_matching {n i j : ℕ} (hn : n % 2 = 0) (hij : i < j) (hj : j < n) : ∃ m ∈ CreationCC.getPermutations n, (i, j) ∈ m.1 := by
  have hc := CreationCC.covers_permutations (pairs := CreationCC.indexPairs n) (l := List.range n) hn (by simp) List.pairwise_lt_range
    (fun p hp => (CreationCC.mem_indexPairs.1 hp).1) (fun a ha b hb hab => CreationCC.mem_indexPairs.2 ⟨hab, List.mem_range.1 hb⟩)
  have hi : i ∈ List.range n := List.mem_range.2 (by omega)
  have hj' : j ∈ (List.range n).erase i := (List.mem_erase_of_ne (by omega)).2 (List.mem_range.2 hj)
  have hperm : (i :: j :: ((List.range n).erase i).erase j).Perm (List.range n) :=
    ((List.perm_cons_erase hj').symm.cons i).trans (List.perm_cons_erase hi).symm
  have hlen : (((List.range n).erase i).erase j).length % 2 = 0 := by
    have := hperm.length_eq
    simp at this
    rw [List.length_erase_of_mem hj', List.length_erase_of_mem hi, List.length_range]
    omega
  have hfl : flatPairs ((i, j) :: CreationCC.inPairs (((List.range n).erase i).erase j)) = i :: j :: ((List.range n).erase i).erase j := by
    rw [flatPairs_cons, flatPairs_inPairs _ hlen]
  have hmem : ∀ p ∈ (i, j) :: CreationCC.inPairs (((List.range n).erase i).erase j), p ∈ CreationCC.indexPairs n := by
    intro p hp
    have h1 := (mem_of_flatPairs hp).2
    rw [hfl] at h1
    have h2 := List.mem_range.1 (hperm.mem_iff.1 h1)
    rw [List.mem_cons] at hp
    rw [CreationCC.mem_indexPairs]
    rcases hp with rfl | hp
    · exact ⟨hij, hj⟩
    · exact ⟨inPairs_sorted _ ((List.pairwise_lt_range.erase _).erase _) p hp, h2⟩
  obtain ⟨o, ho, he⟩ := hc.all _ hmem (by rw [hfl]; exact hperm.nodup_iff.2 List.nodup_range)
    (by rw [hfl]; exact List.toFinset_eq_of_perm _ _ hperm)
  obtain ⟨m, hm, rfl⟩ := List.mem_map.1 ho
  refine ⟨m, hm, ?_⟩
  have h1 : (i, j) ∈ (m.1.map (CreationCC.atPair (List.range n))).toFinset := by rw [he]; simp
  rw [List.mem_toFinset, List.mem_map] at h1
  obtain ⟨p, hp, hpe⟩ := h1
  have h2 := CreationCC.mem_indexPairs.1 ((CreationCC.mem_getPermutations hn hm).1.subset hp)
  simp only [CreationCC.atPair, Prod.mk.injEq] at hpe
  rw [List.getD_eq_getElem _ _ (by simp; omega), List.getD_eq_getElem _ _ (by simp; omega)] at hpe
  simp at hpe
  rw [← hpe.1, ← hpe.2]
  exact hp

theorem mapM_all_error {α β : Type} {e : PyErr} {f : α → Except PyErr β} : ∀ (l : List α), (∀ a ∈ l, f a = .error e ∨ ∃ b, f a = .ok b) →
    (∃ a ∈ l, f a = .error e) → l.mapM f = .error e
  | [], _, h => by simp at h
  | a :: l, h1, h2 => by
    rw [List.mapM_cons]
    rcases h1 a (by simp) with h | ⟨b, h⟩
    · rw [h]; rfl
    · rw [h]
      have : l.mapM f = .error e := by
        apply mapM_all_error l fun x hx => h1 x (by simp [hx])
        obtain ⟨x, hx, hxe⟩ := h2
        rw [List.mem_cons] at hx
        rcases hx with rfl | hx
        · rw [h] at hxe; cases hxe
        · exact ⟨x, hx, hxe⟩
      simp only [bind, Except.bind, this]

/-- **C67**, a missing pair.  If some pair of orbitals of the determinant is not a pair of the wavefunction, the overlap is an error. -/
theorem C67_missing_pair (nelec nspin : ℕ) (op : Option (List (ℕ × ℕ))) (ps : Option (List R)) (w : CreationCC.Wfn R)
    (hw : CreationCC.init nelec nspin op ps = .ok w) (hpar : w.pairs.length ≤ w.params.length) (sd : ℕ) (hsd : (occSet sd).card = nelec)
    (i j : ℕ) (hi : i ∈ occSet sd) (hj : j ∈ occSet sd) (hij : i < j) (hmiss : (i, j) ∉ w.pairs) :
    CreationCC.overlap w sd = .error .valueError := by
  obtain ⟨h1, h2, h3, h4, h5, h6, h7, h8, h9⟩ := creation_init_ok hw
  have hlen : (occIndices (some sd)).length = nelec := by rw [length_occIndices, hsd]
  have key : ∀ m ∈ CreationCC.getPermutations nelec, CreationCC.calculateProduct w (occIndices (some sd)) m =
      if ∃ p ∈ m.1, CreationCC.atPair (occIndices (some sd)) p ∉ w.pairs then .error .valueError
      else .ok ((m.2 : R) * ((m.1.map (CreationCC.atPair (occIndices (some sd)))).map fun p => w.params.getD (w.pairs.idxOf p) 0).prod) := by
    intro m hm
    rw [CreationCC.calculateProduct, take_perm h2 (by omega) hm]
    split_ifs with hx
    · have : (m.1.map (CreationCC.atPair (occIndices (some sd)))).mapM (CreationCC.colInd w.pairs) = .error .valueError := by
        apply mapM_all_error
        · intro p _
          rw [CreationCC.colInd]
          split_ifs
          · exact .inr ⟨_, rfl⟩
          · exact .inl rfl
        · obtain ⟨p, hp, hpm⟩ := hx
          exact ⟨_, List.mem_map_of_mem hp, if_neg hpm⟩
      simp only [bind, Except.bind, this]
    · push Not at hx
      have e1 : (m.1.map (CreationCC.atPair (occIndices (some sd)))).mapM (CreationCC.colInd w.pairs) =
          .ok ((m.1.map (CreationCC.atPair (occIndices (some sd)))).map fun p => w.pairs.idxOf p) := by
        apply mapM_eq_ok
        intro p hp
        obtain ⟨q, hq, rfl⟩ := List.mem_map.1 hp
        exact creation_colInd (hx q hq)
      have e2 : ((m.1.map (CreationCC.atPair (occIndices (some sd)))).map fun p => w.pairs.idxOf p).mapM (CreationCC.item w.params) =
          .ok (((m.1.map (CreationCC.atPair (occIndices (some sd)))).map fun p => w.pairs.idxOf p).map fun c => w.params.getD c 0) := by
        apply mapM_eq_ok
        intro c hc
        obtain ⟨p, hp, rfl⟩ := List.mem_map.1 hc
        obtain ⟨q, hq, rfl⟩ := List.mem_map.1 hp
        exact item_ok 0 (lt_of_lt_of_le (List.idxOf_lt_length_iff.2 (hx q hq)) hpar)
      simp only [bind, Except.bind, e1, e2, pure, Except.pure]
      rw [List.map_map (f := fun p => w.pairs.idxOf p)]
      rfl
  have hm : w.matchings.mapM (CreationCC.calculateProduct w (occIndices (some sd))) = .error .valueError := by
    rw [h7]
    apply mapM_all_error
    · intro m hm
      rw [key m hm]
      split_ifs
      · exact .inl rfl
      · exact .inr ⟨_, rfl⟩
    · rw [mem_occSet, ← mem_occIndices] at hi hj
      obtain ⟨a, ha, hae⟩ := List.getElem_of_mem hi
      obtain ⟨b, hb, hbe⟩ := List.getElem_of_mem hj
      have hab : a < b := by
        rw [← CreationCC.getD_lt (sorted_occIndices _) ha hb, List.getD_eq_getElem _ _ ha, List.getD_eq_getElem _ _ hb, hae, hbe]
        exact hij
      obtain ⟨m, hm, hp⟩ := exists_matching h2 hab (by omega)
      refine ⟨m, hm, ?_⟩
      rw [key m hm, if_pos]
      refine ⟨_, hp, ?_⟩
      rw [CreationCC.atPair, List.getD_eq_getElem _ _ ha, List.getD_eq_getElem _ _ hb, hae, hbe]
      exact hmiss
  simp only [CreationCC.overlap, bind, Except.bind, hm]

/-- **C67**, too few electrons.  The overlap with a determinant of fewer electrons is an error instead of zero. -/
theorem C67_fewer (nelec nspin : ℕ) (op : Option (List (ℕ × ℕ))) (ps : Option (List R)) (w : CreationCC.Wfn R)
    (hw : CreationCC.init nelec nspin op ps = .ok w) (sd : ℕ) (hsd : (occSet sd).card < nelec) :
    CreationCC.overlap w sd = .error .indexError ∧ CreationCC.overlapDeriv w sd = .error .indexError := by
  obtain ⟨h1, h2, h3, h4, h5, h6, h7, h8, h9⟩ := creation_init_ok hw
  have hlen : (occIndices (some sd)).length < nelec := by rw [length_occIndices]; exact hsd
  obtain ⟨m0, hm0, -⟩ := exists_matching (n := nelec) (i := 0) (j := 1) h2 (by omega) (by omega)
  have key : ∀ m ∈ CreationCC.getPermutations nelec, m.1.mapM (CreationCC.takePair (occIndices (some sd))) = .error .indexError := by
    intro m hm
    obtain ⟨hs, -, hp, -⟩ := CreationCC.mem_getPermutations h2 hm
    apply mapM_all_error
    · intro p _
      rw [CreationCC.takePair, CreationCC.item, CreationCC.item]
      rcases (occIndices (some sd))[p.1]? with _ | a <;> rcases (occIndices (some sd))[p.2]? with _ | b <;>
        simp [bind, Except.bind, pure, Except.pure]
    · have : nelec - 1 ∈ flatPairs m.1 := hp.mem_iff.2 (List.mem_range.2 (by omega))
      rw [flatPairs, List.mem_flatMap] at this
      obtain ⟨p, hpm, hpe⟩ := this
      refine ⟨p, hpm, ?_⟩
      have hx := CreationCC.mem_indexPairs.1 (hs.subset hpm)
      have hp2 : (occIndices (some sd))[p.2]? = none := by
        rw [List.getElem?_eq_none]
        simp at hpe
        omega
      rw [CreationCC.takePair, CreationCC.item, CreationCC.item, hp2]
      rcases (occIndices (some sd))[p.1]? with _ | a <;> simp [bind, Except.bind]
  rcases hg : CreationCC.getPermutations nelec with _ | ⟨m, r⟩
  · rw [hg] at hm0; simp at hm0
  · have hk := key m (by rw [hg]; simp)
    constructor
    · rw [CreationCC.overlap, h7, hg, List.mapM_cons, CreationCC.calculateProduct, hk]
      rfl
    · rw [CreationCC.overlapDeriv, h7, hg, List.foldlM_cons, CreationCC.derivPerm, hk]
      rfl

/-- **C67**, too many electrons.  The overlap with a determinant of more electrons is that with its first `nelec` orbitals; it is neither zero
nor an error. -/
theorem C67_excess (nelec nspin : ℕ) (op : Option (List (ℕ × ℕ))) (ps : Option (List R)) (w : CreationCC.Wfn R)
    (hw : CreationCC.init nelec nspin op ps = .ok w) (sd sd' : ℕ) (hsd : occIndices (some sd') = (occIndices (some sd)).take nelec)
    (hn : nelec ≤ (occSet sd).card) : CreationCC.overlap w sd = CreationCC.overlap w sd' := by
  obtain ⟨h1, h2, h3, h4, h5, h6, h7, h8, h9⟩ := creation_init_ok hw
  have hlen : nelec ≤ (occIndices (some sd)).length := by rw [length_occIndices]; exact hn
  have hlen' : (occIndices (some sd')).length = nelec := by rw [hsd, List.length_take]; omega
  have key : ∀ m ∈ w.matchings, CreationCC.calculateProduct w (occIndices (some sd)) m = CreationCC.calculateProduct w (occIndices (some sd')) m := by
    intro m hm
    rw [h7] at hm
    rw [CreationCC.calculateProduct, CreationCC.calculateProduct, take_perm h2 hlen hm, take_perm h2 (by omega) hm]
    have : m.1.map (CreationCC.atPair (occIndices (some sd))) = m.1.map (CreationCC.atPair (occIndices (some sd'))) := by
      apply List.map_congr_left
      intro p hp
      have hx := CreationCC.mem_indexPairs.1 ((CreationCC.mem_getPermutations h2 hm).1.subset hp)
      have : ∀ a < nelec, (occIndices (some sd)).getD a 0 = (occIndices (some sd')).getD a 0 := by
        intro a ha
        rw [List.getD_eq_getElem _ _ (by omega), List.getD_eq_getElem _ _ (by omega)]
        simp only [hsd, List.getElem_take]
      rw [CreationCC.atPair, CreationCC.atPair, this _ (by omega), this _ (by omega)]
    rw [this]
  rw [CreationCC.overlap, CreationCC.overlap]
  have : w.matchings.mapM (CreationCC.calculateProduct w (occIndices (some sd))) =
      w.matchings.mapM (CreationCC.calculateProduct w (occIndices (some sd'))) := by
    generalize w.matchings = M at key
    clear * - key
    induction M with
    | nil => rfl
    | cons m l ih =>
      rw [List.mapM_cons, List.mapM_cons, key m (by simp), ih fun x hx => key x (by simp [hx])]
  rw [this]

/-! ### derivatives -/

theorem derivStep_ok (w : CreationCC.Wfn R) (hpar : w.pairs.length ≤ w.params.length) {S : Scheme} (hS : ∀ p ∈ S, p ∈ w.pairs)
    {output : List R} (ho : output.length = w.params.length) {p : ℕ × ℕ} (hp : p ∈ S) :
    CreationCC.derivStep w S output p = .ok (output.modify (w.pairs.idxOf p) (· + (listSign (flatPairs S) : R) *
      ((S.filter fun q => q ≠ p).map fun q => w.params.getD (w.pairs.idxOf q) 0).prod)) := by
  have h1 : (S.filter fun q => q ≠ p).mapM (CreationCC.paramOf w) =
      .ok ((S.filter fun q => q ≠ p).map fun q => w.params.getD (w.pairs.idxOf q) 0) := by
    apply mapM_eq_ok
    intro q hq
    have hq' := hS q (List.mem_of_mem_filter hq)
    simp only [CreationCC.paramOf, creation_colInd hq', bind, Except.bind]
    exact item_ok 0 (lt_of_lt_of_le (List.idxOf_lt_length_iff.2 hq') hpar)
  have h2 : w.pairs.idxOf p < output.length := by
    rw [ho]; exact lt_of_lt_of_le (List.idxOf_lt_length_iff.2 (hS p hp)) hpar
  rw [CreationCC.derivStep, creation_colInd (hS p hp)]
  simp only [bind, Except.bind, item_ok (0 : R) h2, h1, pure, Except.pure, CreationCC.getSign_eq]

/-- the contribution of a matching to the derivative in the parameter `j` -/
def matchDeriv (pairs : List (ℕ × ℕ)) (params : List R) (S : Scheme) (j : ℕ) : R :=
  (S.map fun p => if pairs.idxOf p = j then ((S.filter fun q => q ≠ p).map fun q => params.getD (pairs.idxOf q) 0).prod else 0).sum

theorem getD_modify (l : List R) (c j : ℕ) (x : R) (hj : j < l.length) : (l.modify c (· + x)).getD j 0 = l.getD j 0 + if c = j then x else 0 := by
  rw [List.getD_eq_getElem _ _ (by simpa using hj), List.getD_eq_getElem _ _ hj, List.getElem_modify]
  split_ifs <;> simp

theorem derivFold_ok (w : CreationCC.Wfn R) (hpar : w.pairs.length ≤ w.params.length) {S : Scheme} (hS : ∀ p ∈ S, p ∈ w.pairs) :
    ∀ (T : Scheme), (∀ p ∈ T, p ∈ S) → ∀ output : List R, output.length = w.params.length →
      ∃ D, T.foldlM (CreationCC.derivStep w S) output = .ok D ∧ D.length = w.params.length ∧ ∀ j < w.params.length, D.getD j 0 = output.getD j 0 +
        (listSign (flatPairs S) : R) * (T.map fun p => if w.pairs.idxOf p = j then
          ((S.filter fun q => q ≠ p).map fun q => w.params.getD (w.pairs.idxOf q) 0).prod else 0).sum
  | [], _, output, ho => ⟨output, rfl, ho, fun j hj => by simp⟩
  | p :: T, hT, output, ho => by
    rw [List.foldlM_cons, derivStep_ok w hpar hS ho (hT p (by simp))]
    obtain ⟨D, h1, h2, h3⟩ := derivFold_ok w hpar hS T (fun q hq => hT q (by simp [hq])) (output.modify (w.pairs.idxOf p) (· +
      (listSign (flatPairs S) : R) * ((S.filter fun q => q ≠ p).map fun q => w.params.getD (w.pairs.idxOf q) 0).prod)) (by simpa using ho)
    refine ⟨D, h1, h2, fun j hj => ?_⟩
    rw [h3 j hj, getD_modify _ _ _ _ (by omega), List.map_cons, List.sum_cons]
    split_ifs <;> ring

theorem derivMatch_ok (w : CreationCC.Wfn R) (hn : w.nelec % 2 = 0) (hpar : w.pairs.length ≤ w.params.length) {occ : List ℕ} (hl : w.nelec ≤ occ.length) :
    ∀ (M : List (Scheme × ℤ)), (∀ m ∈ M, m ∈ CreationCC.getPermutations w.nelec) →
      (∀ m ∈ M, ∀ p ∈ m.1, CreationCC.atPair occ p ∈ w.pairs) → (∀ m ∈ M, m.2 = listSign (flatPairs (m.1.map (CreationCC.atPair occ)))) →
      ∀ output : List R, output.length = w.params.length →
      ∃ D, M.foldlM (CreationCC.derivPerm w occ) output = .ok D ∧ D.length = w.params.length ∧ ∀ j < w.params.length, D.getD j 0 = output.getD j 0 +
        (M.map fun m => (m.2 : R) * matchDeriv w.pairs w.params (m.1.map (CreationCC.atPair occ)) j).sum
  | [], _, _, _, output, ho => ⟨output, rfl, ho, fun j hj => by simp⟩
  | m :: M, h1, h2, h3, output, ho => by
    rw [List.foldlM_cons, CreationCC.derivPerm, take_perm hn hl (h1 m (by simp))]
    obtain ⟨D, hD, hl1, hv⟩ := derivFold_ok w hpar (S := m.1.map (CreationCC.atPair occ)) (by
      intro p hp
      obtain ⟨q, hq, rfl⟩ := List.mem_map.1 hp
      exact h2 m (by simp) q hq) _ (fun p hp => hp) output ho
    obtain ⟨E, hE, hl2, hv2⟩ := derivMatch_ok w hn hpar hl M (fun x hx => h1 x (by simp [hx])) (fun x hx => h2 x (by simp [hx]))
      (fun x hx => h3 x (by simp [hx])) D hl1
    refine ⟨E, ?_, hl2, fun j hj => ?_⟩
    · simp only [bind, Except.bind, hD]
      exact hE
    · rw [hv2 j hj, hv j hj, List.map_cons, List.sum_cons, matchDeriv, h3 m (by simp)]
      ring

theorem prod_filter_ne {S : Scheme} (hS : S.Nodup) {p : ℕ × ℕ} (hp : p ∈ S) (f : ℕ × ℕ → R) :
    (S.map f).prod = f p * ((S.filter fun q => q ≠ p).map f).prod := by
  induction S with
  | nil => simp at hp
  | cons q S ih =>
    rw [List.nodup_cons] at hS
    rw [List.map_cons, List.prod_cons]
    by_cases hpq : p = q
    · subst hpq
      rw [List.filter_cons_of_neg (by simp), List.filter_eq_self.2]
      intro x hx
      simp only [ne_eq, decide_not, Bool.not_eq_true', decide_eq_false_iff_not]
      rintro rfl
      exact hS.1 hx
    · rw [List.mem_cons] at hp
      rw [List.filter_cons_of_pos (by simpa using Ne.symm hpq), List.map_cons, List.prod_cons, ih hS.2 (hp.resolve_left hpq)]
      ring

theorem prod_set {pairs : List (ℕ × ℕ)} {P : List R} {S : Scheme} (hS : S.Nodup) (hsub : ∀ p ∈ S, p ∈ pairs) {j : ℕ} (hj : j < P.length) (h : R) :
    (S.map fun p => (P.set j (P.getD j 0 + h)).getD (pairs.idxOf p) 0).prod =
      (S.map fun p => P.getD (pairs.idxOf p) 0).prod + h * matchDeriv pairs P S j := by
  have hne : ∀ c, c ≠ j → (P.set j (P.getD j 0 + h)).getD c 0 = P.getD c 0 := by
    intro c hc
    rw [List.getD_eq_getElem?_getD, List.getD_eq_getElem?_getD, List.getElem?_set_ne (Ne.symm hc), ← List.getD_eq_getElem?_getD]
  by_cases hex : ∃ p ∈ S, pairs.idxOf p = j
  · obtain ⟨p, hp, hpj⟩ := hex
    have hinj : ∀ q ∈ S, pairs.idxOf q = j → q = p := by
      intro q hq hqj
      exact (List.idxOf_inj (hsub q hq)).1 (hqj.trans hpj.symm)
    have hmd : matchDeriv pairs P S j = ((S.filter fun q => q ≠ p).map fun q => P.getD (pairs.idxOf q) 0).prod := by
      rw [matchDeriv]
      have : (S.map fun q => if pairs.idxOf q = j then ((S.filter fun x => x ≠ q).map fun x => P.getD (pairs.idxOf x) 0).prod else 0) =
          S.map fun q => if p = q then ((S.filter fun x => x ≠ p).map fun x => P.getD (pairs.idxOf x) 0).prod else 0 := by
        apply List.map_congr_left
        intro q hq
        by_cases hqp : p = q
        · subst hqp; rw [if_pos hpj, if_pos rfl]
        · rw [if_neg (fun hh => hqp (hinj q hq hh).symm), if_neg hqp]
      rw [this]
      clear this
      generalize ((S.filter fun x => x ≠ p).map fun x => P.getD (pairs.idxOf x) 0).prod = y
      clear hsub hinj
      induction S with
      | nil => simp at hp
      | cons q S ih =>
        rw [List.nodup_cons] at hS
        rw [List.map_cons, List.sum_cons]
        rw [List.mem_cons] at hp
        by_cases hpq : p = q
        · subst hpq
          rw [if_pos rfl]
          have : (S.map fun q => if p = q then y else 0) = S.map fun _ => (0 : R) := by
            apply List.map_congr_left
            intro x hx
            rw [if_neg]
            rintro rfl
            exact hS.1 hx
          rw [this]
          simp
        · rw [if_neg hpq, zero_add]
          exact ih hS.2 (hp.resolve_left hpq)
    rw [prod_filter_ne hS hp, prod_filter_ne hS hp (f := fun p => P.getD (pairs.idxOf p) 0), hmd, hpj]
    have : ((S.filter fun q => q ≠ p).map fun q => (P.set j (P.getD j 0 + h)).getD (pairs.idxOf q) 0) =
        (S.filter fun q => q ≠ p).map fun q => P.getD (pairs.idxOf q) 0 := by
      apply List.map_congr_left
      intro q hq
      rw [List.mem_filter] at hq
      apply hne
      intro hh
      have := hinj q hq.1 hh
      simp [this] at hq
    rw [this, List.getD_eq_getElem _ _ (by simpa using hj), List.getElem_set_self]
    ring
  · push Not at hex
    have h1 : matchDeriv pairs P S j = 0 := by
      rw [matchDeriv]
      apply List.sum_eq_zero
      intro x hx
      obtain ⟨p, hp, rfl⟩ := List.mem_map.1 hx
      rw [if_neg (hex p hp)]
    rw [h1, mul_zero, add_zero]
    congr 1
    apply List.map_congr_left
    intro p hp
    exact hne _ (hex p hp)

/-- **C68**.  `get_overlap(sd, deriv)` gives the partial derivatives: the overlap is affine in every parameter and the entries of `_olp_deriv`
are the slopes. -/
theorem C68_derivative (nelec nspin : ℕ) (op : Option (List (ℕ × ℕ))) (ps : Option (List R)) (w : CreationCC.Wfn R)
    (hw : CreationCC.init nelec nspin op ps = .ok w) (hpar : w.pairs.length ≤ w.params.length) (sd : ℕ) (hsd : (occSet sd).card = nelec)
    (hall : ∀ i ∈ occSet sd, ∀ j ∈ occSet sd, i < j → (i, j) ∈ w.pairs) :
    ∃ v D, CreationCC.overlap w sd = .ok v ∧ CreationCC.overlapDeriv w sd = .ok D ∧ D.length = w.params.length ∧
      ∀ j < w.params.length, CreationCC.getOverlapDeriv w sd [j] = .ok [D.getD j 0] ∧
        ∀ h, CreationCC.overlap { w with params := w.params.set j (w.params.getD j 0 + h) } sd = .ok (v + h * D.getD j 0) := by
  obtain ⟨h1, h2, h3, h4, h5, h6, h7, h8, h9⟩ := creation_init_ok hw
  have hc := creation_covers hw hsd hall
  obtain ⟨D, hD, hl, hv⟩ := derivMatch_ok w (by rw [h5]; exact h2) hpar (occ := occIndices (some sd)) (by rw [length_occIndices, hsd, h5])
    w.matchings (by rw [h5, h7]; exact fun m hm => hm)
    (fun m hm p hp => hc.sub _ (List.mem_map_of_mem hm) _ (List.mem_map_of_mem hp))
    (fun m hm => hc.sign _ (List.mem_map_of_mem hm)) (List.replicate w.params.length 0) (by simp)
  refine ⟨_, D, creation_overlap hw w.params hpar hsd hall, hD, hl, fun j hj => ⟨?_, fun h => ?_⟩⟩
  · rw [CreationCC.getOverlapDeriv, CreationCC.overlapDeriv, hD]
    simp only [bind, Except.bind]
    exact mapM_eq_ok [j] (g := fun j => D.getD j 0) fun a ha => by
      rw [List.mem_singleton] at ha
      subst ha
      exact item_ok 0 (by omega)
  · rw [creation_overlap hw _ (by simpa using hpar) hsd hall, hv j hj]
    congr 1
    have h0 : (List.replicate w.params.length (0 : R)).getD j 0 = 0 := by
      rw [List.getD_eq_getElem _ _ (by simpa using hj)]; simp
    rw [h0, zero_add, matchSum, matchSum, List.map_map, List.map_map, ← List.sum_map_mul_left, ← List.sum_map_add]
    congr 1
    apply List.map_congr_left
    intro m hm
    have hfl := hc.flat _ (List.mem_map_of_mem hm)
    simp only [Function.comp]
    rw [prod_set (nodup_of_flatPairs hfl) (hc.sub _ (List.mem_map_of_mem hm)) hj h]
    ring

end Fanpy.Props
