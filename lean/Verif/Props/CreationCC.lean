import Verif.Lemmas.CreationCC
import Verif.Props.HamDeriv
import Verif.Props.SlaterBits
import Verif.Spec.Cluster

/-! # Properties C67–C69: the creation-operator coupled cluster wavefunction -/

namespace Fanpy.Props
open Fanpy.Spec Fanpy.Slater Fanpy.Graphs Fanpy.It Fanpy.Geminal Fanpy.Lemmas

variable {R : Type} [CommRing R]

theorem baseOrbpairs_ok {l pairs : List (ℕ × ℕ)} (h : baseOrbpairs l = .ok pairs) : (∀ p ∈ pairs, p.1 < p.2) ∧ pairs.Nodup := by
  refine ⟨foldlM_addOrbpair _ [] pairs (by simp) h, ?_⟩
  have key : ∀ (l acc pairs : List (ℕ × ℕ)), acc.Nodup → l.foldlM addOrbpair acc = .ok pairs → pairs.Nodup := by
    intro l
    induction l with
    | nil => intro acc pairs ha he; injection he with he; rwa [← he]
    | cons p l ih =>
      intro acc pairs ha he
      rw [List.foldlM_cons] at he
      rcases hb : addOrbpair acc p with e | q
      · rw [hb] at he; cases he
      · rw [hb] at he
        refine ih q pairs ?_ he
        simp only [addOrbpair] at hb
        split_ifs at hb with h1 h2 h3 h4
        all_goals
          injection hb with hb
          subst hb
          rw [List.nodup_append]
          refine ⟨ha, by simp, ?_⟩
          intro a ha b hb hab
          simp at hb
          subst hab
          subst hb
          contradiction
  exact key l [] pairs (by simp) h

theorem creation_init_ok {nelec nspin : ℕ} {op : Option (List (ℕ × ℕ))} {ps : Option (List R)} {w : CreationCC.Wfn R}
    (h : CreationCC.init nelec nspin op ps = .ok w) :
    0 < nelec ∧ nelec % 2 = 0 ∧ 0 < nspin ∧ nspin % 2 = 0 ∧ w.nelec = nelec ∧ w.nspin = nspin ∧ w.matchings = CreationCC.getPermutations nelec ∧
      CreationCC.assignOrbpairs nspin op = .ok w.pairs ∧ CreationCC.assignParams nelec nspin w.pairs ps = .ok w.params := by
  rw [CreationCC.init, CreationCC.checkNelec, CI.checkNelec, CI.checkNspin] at h
  by_cases h1 : nelec = 0
  · simp [h1, bind, Except.bind] at h
  by_cases h2 : nelec % 2 = 0
  swap
  · simp [h1, h2, bind, Except.bind] at h
  by_cases h3 : nspin = 0 ∨ nspin % 2 = 1
  · simp [h1, h2, h3, bind, Except.bind, pure, Except.pure] at h
  simp only [h1, h2, h3, bind, Except.bind, pure, Except.pure, if_false, ne_eq, not_true_eq_false] at h
  rcases h4 : CreationCC.assignOrbpairs nspin op with e | pairs
  · rw [h4] at h; cases h
  rw [h4] at h
  simp only at h
  rcases h5 : CreationCC.assignParams nelec nspin pairs ps with e | params
  · rw [h5] at h; cases h
  rw [h5] at h
  simp only [Except.ok.injEq] at h
  subst h
  exact ⟨by omega, h2, by omega, by omega, rfl, rfl, rfl, rfl, h5⟩

/-- the sum over the matchings -/
def matchSum (pairs : List (ℕ × ℕ)) (params : List R) (out : List (Scheme × ℤ)) : R :=
  (out.map fun o => (o.2 : R) * (o.1.map fun p => params.getD (pairs.idxOf p) 0).prod).sum

theorem item_ok {α : Type} {l : List α} {i : ℕ} (d : α) (h : i < l.length) : CreationCC.item l i = .ok (l.getD i d) := by
  rw [CreationCC.item, List.getElem?_eq_getElem h, List.getD_eq_getElem _ _ h]

theorem takePair_ok {occ : List ℕ} {p : ℕ × ℕ} (h1 : p.1 < occ.length) (h2 : p.2 < occ.length) :
    CreationCC.takePair occ p = .ok (CreationCC.atPair occ p) := by
  simp only [CreationCC.takePair, item_ok 0 h1, item_ok 0 h2, bind, Except.bind, pure, Except.pure, CreationCC.atPair]

theorem take_perm {n : ℕ} (hn : n % 2 = 0) {occ : List ℕ} (hl : n ≤ occ.length) {m : List (ℕ × ℕ) × ℤ} (hm : m ∈ CreationCC.getPermutations n) :
    m.1.mapM (CreationCC.takePair occ) = .ok (m.1.map (CreationCC.atPair occ)) := by
  apply mapM_eq_ok
  intro p hp
  have := CreationCC.mem_indexPairs.1 ((CreationCC.mem_getPermutations hn hm).1.subset hp)
  exact takePair_ok (by omega) (by omega)

theorem creation_colInd {pairs : List (ℕ × ℕ)} {p : ℕ × ℕ} (h : p ∈ pairs) : CreationCC.colInd pairs p = .ok (pairs.idxOf p) := if_pos h

theorem creation_overlap_sum (w : CreationCC.Wfn R) (hn : w.nelec % 2 = 0) (hm : w.matchings = CreationCC.getPermutations w.nelec)
    (hpar : w.pairs.length ≤ w.params.length) {occ : List ℕ} (hl : w.nelec ≤ occ.length)
    (hsub : ∀ m ∈ w.matchings, ∀ p ∈ m.1, CreationCC.atPair occ p ∈ w.pairs) :
    w.matchings.mapM (CreationCC.calculateProduct w occ) = .ok (w.matchings.map fun m =>
      (m.2 : R) * ((m.1.map (CreationCC.atPair occ)).map fun p => w.params.getD (w.pairs.idxOf p) 0).prod) := by
  apply mapM_eq_ok
  intro m hmm
  rw [hm] at hmm
  rw [CreationCC.calculateProduct, take_perm hn hl hmm]
  have h1 : (m.1.map (CreationCC.atPair occ)).mapM (CreationCC.colInd w.pairs) =
      .ok ((m.1.map (CreationCC.atPair occ)).map fun p => w.pairs.idxOf p) := by
    apply mapM_eq_ok
    intro p hp
    obtain ⟨q, hq, rfl⟩ := List.mem_map.1 hp
    exact creation_colInd (hsub m (by rw [hm]; exact hmm) q hq)
  have h2 : ((m.1.map (CreationCC.atPair occ)).map fun p => w.pairs.idxOf p).mapM (CreationCC.item w.params) =
      .ok (((m.1.map (CreationCC.atPair occ)).map fun p => w.pairs.idxOf p).map fun c => w.params.getD c 0) := by
    apply mapM_eq_ok
    intro c hc
    obtain ⟨p, hp, rfl⟩ := List.mem_map.1 hc
    obtain ⟨q, hq, rfl⟩ := List.mem_map.1 hp
    exact item_ok 0 (lt_of_lt_of_le (List.idxOf_lt_length_iff.2 (hsub m (by rw [hm]; exact hmm) q hq)) hpar)
  simp only [bind, Except.bind, h1, h2, pure, Except.pure]
  rw [List.map_map (f := fun p => w.pairs.idxOf p)]
  rfl

/-- the positions of the pairs of a determinant -/
theorem creation_covers {nelec nspin : ℕ} {op : Option (List (ℕ × ℕ))} {ps : Option (List R)} {w : CreationCC.Wfn R}
    (hw : CreationCC.init nelec nspin op ps = .ok w) {sd : ℕ} (hsd : (occSet sd).card = nelec)
    (hall : ∀ i ∈ occSet sd, ∀ j ∈ occSet sd, i < j → (i, j) ∈ w.pairs) :
    Covers w.pairs (occSet sd) (nelec / 2) (w.matchings.map fun m => (m.1.map (CreationCC.atPair (occIndices (some sd))), m.2)) := by
  obtain ⟨h1, h2, h3, h4, h5, h6, h7, h8, h9⟩ := creation_init_ok hw
  rw [h7, ← toFinset_occIndices]
  refine CreationCC.covers_permutations h2 (by rw [length_occIndices, hsd]) (sorted_occIndices _) (baseOrbpairs_ok h8).1 ?_
  intro i hi j hj hij
  rw [mem_occIndices, ← mem_occSet] at hi hj
  exact hall i hi j hj hij

theorem creation_overlap {nelec nspin : ℕ} {op : Option (List (ℕ × ℕ))} {ps : Option (List R)} {w : CreationCC.Wfn R}
    (hw : CreationCC.init nelec nspin op ps = .ok w) (P : List R) (hpar : w.pairs.length ≤ P.length) {sd : ℕ} (hsd : (occSet sd).card = nelec)
    (hall : ∀ i ∈ occSet sd, ∀ j ∈ occSet sd, i < j → (i, j) ∈ w.pairs) :
    CreationCC.overlap { w with params := P } sd = .ok (matchSum w.pairs P
      (w.matchings.map fun m => (m.1.map (CreationCC.atPair (occIndices (some sd))), m.2))) := by
  obtain ⟨h1, h2, h3, h4, h5, h6, h7, h8, h9⟩ := creation_init_ok hw
  have hc := creation_covers hw hsd hall
  have hs := creation_overlap_sum ({ w with params := P } : CreationCC.Wfn R) (by rw [h5]; exact h2) (by rw [h5]; exact h7) hpar
    (occ := occIndices (some sd)) (by rw [length_occIndices, hsd, h5]) (by
      intro m hm p hp
      exact hc.sub _ (List.mem_map_of_mem hm) _ (List.mem_map_of_mem hp))
  rw [CreationCC.overlap, hs]
  simp only [bind, Except.bind, pure, Except.pure, matchSum]
  rw [List.map_map]
  rfl

theorem gemProd_const (pairs : List (ℕ × ℕ)) (v : ℕ → R) (l : List ℕ) :
    gemProd pairs (fun _ => v) l = ((gemOp pairs v : Module.End R (Fock R)) ^ l.length) (ket ∅) := by
  induction l with
  | nil => rfl
  | cons x l ih =>
    rw [List.length_cons, pow_succ']
    rw [gemProd] at ih ⊢
    rw [List.foldr_cons, ih]
    rfl

theorem fin_prod_list {S : Scheme} {k : ℕ} (h : S.length = k) (f : ℕ × ℕ → R) : ∏ i : Fin k, f (S.getD i (0, 0)) = (S.map f).prod := by
  subst h
  rw [← List.prod_ofFn]
  congr 1
  apply List.ext_getElem (by simp)
  intro i h1 h2
  simp at h2
  rw [List.getElem_ofFn, List.getElem_map]
  simp only
  rw [List.getD_eq_getElem _ _ h2]

/-- the coefficient of a determinant in a power of the pair operator -/
theorem gemOp_pow_coeff {pairs : List (ℕ × ℕ)} (hp : pairs.Nodup) (P : List R) {s : Finset ℕ} {k : ℕ} {out : List (Scheme × ℤ)}
    (h : Covers pairs s k out) :
    (((gemOp pairs fun c => P.getD c 0) : Module.End R (Fock R)) ^ k) (ket ∅) s = (k.factorial : R) * matchSum pairs P out := by
  have e := gemProd_coeff hp (fun _ c => P.getD c 0) h (fun i => i)
  rw [gemProd_const, List.length_ofFn] at e
  rw [e, matchSum, ← List.sum_map_mul_left]
  congr 1
  apply List.map_congr_left
  intro o ho
  have : ∀ σ : Equiv.Perm (Fin k), ∏ i, P.getD (pairs.idxOf (o.1.getD (σ i) (0, 0))) 0 =
      (o.1.map fun p => P.getD (pairs.idxOf p) 0).prod := by
    intro σ
    rw [Equiv.prod_comp σ fun i : Fin k => P.getD (pairs.idxOf (o.1.getD i (0, 0))) 0]
    exact fin_prod_list (h.len o ho) fun p => P.getD (pairs.idxOf p) 0
  rw [Finset.sum_congr rfl fun σ _ => this σ, Finset.sum_const, Finset.card_univ, Fintype.card_perm, Fintype.card_fin, nsmul_eq_mul]
  ring

/-- **C67**.  For a determinant with `nelec` electrons all pairs of whose orbitals are pairs of the wavefunction, `(nelec/2)!` times the overlap is
the coefficient of the determinant in `(∑ c_ij a†_i a†_j)^(nelec/2) |vac⟩`. -/
theorem C67_overlap (nelec nspin : ℕ) (op : Option (List (ℕ × ℕ))) (ps : Option (List R)) (w : CreationCC.Wfn R)
    (hw : CreationCC.init nelec nspin op ps = .ok w) (hpar : w.pairs.length ≤ w.params.length) (sd : ℕ) (hsd : (occSet sd).card = nelec)
    (hall : ∀ i ∈ occSet sd, ∀ j ∈ occSet sd, i < j → (i, j) ∈ w.pairs) :
    ∃ v, CreationCC.overlap w sd = .ok v ∧ ((nelec / 2).factorial : R) * v =
      (((gemOp w.pairs fun c => w.params.getD c 0) : Module.End R (Fock R)) ^ (nelec / 2)) (ket ∅) (occSet sd) := by
  obtain ⟨h1, h2, h3, h4, h5, h6, h7, h8, h9⟩ := creation_init_ok hw
  exact ⟨_, creation_overlap hw w.params hpar hsd hall, (gemOp_pow_coeff (baseOrbpairs_ok h8).2 _ (creation_covers hw hsd hall)).symm⟩

/-- **C67**.  In other words, the overlap is the coefficient of the determinant in the exponential series of `∑ c_ij a†_i a†_j` applied to the
vacuum; powers above the number of pairs do not contribute. -/
theorem C67_exponential {F : Type} [Field F] [CharZero F] (nelec nspin : ℕ) (op : Option (List (ℕ × ℕ))) (ps : Option (List F))
    (w : CreationCC.Wfn F) (hw : CreationCC.init nelec nspin op ps = .ok w) (hpar : w.pairs.length ≤ w.params.length) (sd : ℕ)
    (hsd : (occSet sd).card = nelec) (hall : ∀ i ∈ occSet sd, ∀ j ∈ occSet sd, i < j → (i, j) ∈ w.pairs) (N : ℕ) (hN : nelec / 2 ≤ N) :
    CreationCC.overlap w sd = .ok (expSeries (gemOp w.pairs fun c => w.params.getD c 0) N (ket ∅) (occSet sd)) := by
  obtain ⟨v, h1, h2⟩ := C67_overlap nelec nspin op ps w hw hpar sd hsd hall
  obtain ⟨-, he, -⟩ := creation_init_ok hw
  rw [h1, expSeries, LinearMap.sum_apply, Finsupp.finsetSum_apply, Finset.sum_eq_single (nelec / 2)]
  · rw [LinearMap.smul_apply, Finsupp.smul_apply, ← h2, smul_eq_mul, ← mul_assoc,
      inv_mul_cancel₀ (Nat.cast_ne_zero.2 (Nat.factorial_ne_zero _)), one_mul]
  · intro k _ hk
    have e := gemState_card w.pairs (fun _ c => w.params.getD c 0) k k (s := occSet sd) (by omega)
    rw [gemState_full, gemProd_const, List.length_range] at e
    rw [LinearMap.smul_apply, Finsupp.smul_apply, e, smul_zero]
  · intro h
    rw [Finset.mem_range] at h
    omega

end Fanpy.Props
