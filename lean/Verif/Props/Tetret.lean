import Verif.Lemmas.Blocks
import Verif.Props.Quasiparticle
import Verif.Props.UnorderedPartition

/-! # C59: overlaps of antisymmetrized products of tetrets -/

namespace Fanpy.Props
open Fanpy.Slater Fanpy.Quasi Fanpy.Linalg Fanpy.Spec Fanpy.MathTools Fanpy.Graphs

set_option linter.unusedSectionVars false

variable {R : Type} [Field R]

/-! ## The subsets -/

theorem mem_tetretSubsets {n : ℕ} {s : List ℕ} :
    s ∈ tetretSubsets n ↔ s.length = 4 ∧ s.Pairwise (· < ·) ∧ ∀ x ∈ s, x < n := by
  simp only [tetretSubsets, List.mem_flatMap, List.mem_range, List.mem_range'_1, List.mem_map]
  constructor
  · rintro ⟨i, hi, j, hj, k, hk, l, hl, rfl⟩
    simp
    omega
  · rintro ⟨h1, h2, h3⟩
    match s, h1 with
    | [i, j, k, l], _ =>
      simp at h2 h3
      exact ⟨i, by omega, j, by omega, k, by omega, l, by omega, rfl⟩

theorem nodup_flatMap_key {α β : Type*} {l : List α} {f : α → List β} (key : β → α) (hl : l.Nodup)
    (h1 : ∀ a ∈ l, (f a).Nodup) (h2 : ∀ a ∈ l, ∀ b ∈ f a, key b = a) : (l.flatMap f).Nodup := by
  rw [List.nodup_flatMap]
  refine ⟨h1, List.Pairwise.imp_of_mem ?_ hl⟩
  intro a a' ha ha' hne b hb hb'
  exact hne ((h2 a ha b hb).symm.trans (h2 a' ha' b hb'))

theorem nodup_tetretSubsets (n : ℕ) : (tetretSubsets n).Nodup := by
  refine nodup_flatMap_key (fun s => s.getD 0 0) List.nodup_range ?_ ?_
  · intro i _
    refine nodup_flatMap_key (fun s => s.getD 1 0) List.nodup_range' ?_ ?_
    · intro j _
      refine nodup_flatMap_key (fun s => s.getD 2 0) List.nodup_range' ?_ ?_
      · intro k _
        exact List.Nodup.map (fun a b h => by simpa using h) List.nodup_range'
      · simp only [List.mem_map]
        rintro k _ _ ⟨l, _, rfl⟩
        rfl
    · simp only [List.mem_map, List.mem_flatMap]
      rintro j _ _ ⟨k, _, l, _, rfl⟩
      rfl
  · simp only [List.mem_map, List.mem_flatMap]
    rintro i _ _ ⟨j, _, k, _, l, _, rfl⟩
    rfl

theorem baseOrbsubsets_ok {l : List (List ℕ)} (hn : l.Nodup) (hs : ∀ s ∈ l, s.Pairwise (· < ·)) :
    baseOrbsubsets l = .ok l := by
  have key : ∀ (l acc : List (List ℕ)), (acc ++ l).Nodup → (∀ s ∈ l, s.Pairwise (· < ·)) →
      l.foldlM addOrbsubset acc = .ok (acc ++ l) := by
    intro l
    induction l with
    | nil => intro acc _ _; simp [pure, Except.pure]
    | cons s l ih =>
      intro acc hn hs
      have h1 := hs s (List.mem_cons_self ..)
      have h2 : s.Nodup := h1.imp fun h => by omega
      have h3 : s.mergeSort (fun a b => decide (a ≤ b)) = s :=
        List.mergeSort_of_pairwise (h1.imp fun h => by simp; omega)
      rw [List.foldlM_cons, addOrbsubset, if_neg (by rw [h2.dedup]; simp)]
      simp only [h3]
      rw [if_neg fun h => (List.nodup_append.1 hn).2.2 s h s (List.mem_cons_self ..) rfl]
      simp only [bind, Except.bind]
      rw [ih _ (by simpa using hn) fun s hs' => hs s (List.mem_cons_of_mem _ hs')]
      simp
  exact key l [] (by simpa using hn) hs

/-! ## The partitions of the occupied orbitals -/

theorem unorderedPartition_one {c : List ℕ} {s n : ℕ} (hc : c.Pairwise (· < ·)) (hs : 1 ≤ s) (hn : 1 ≤ n) :
    ∃ L, unorderedPartition c [(s, n)] = some L ∧ L.Nodup ∧ ∀ g, g ∈ L ↔ CanonG s n g ∧ g.flatten.Perm c := by
  obtain ⟨L, h1, h2, h3⟩ := rev_spec [(s, n)] (by simpa using hs) (by simpa using hn) c.reverse
    (List.pairwise_reverse.2 hc)
  have hone : ∀ Q ∈ L, ∃ g, Q = [g] := by
    intro Q hQ
    have := ((h3 Q).1 hQ).1
    match Q, this with
    | [g], _ => exact ⟨g, rfl⟩
    | [], h => cases h
    | _ :: _ :: _, h => cases h with | cons _ h => cases h
  refine ⟨L.map List.flatten, h1, h2.map_on ?_, fun g => ?_⟩
  · intro a ha b hb hab
    obtain ⟨g, rfl⟩ := hone a ha
    obtain ⟨g', rfl⟩ := hone b hb
    simpa using hab
  · rw [List.mem_map]
    constructor
    · rintro ⟨Q, hQ, rfl⟩
      obtain ⟨g, rfl⟩ := hone Q hQ
      obtain ⟨a, b⟩ := (h3 _).1 hQ
      cases a with
      | cons a _ =>
        simp only [List.flatten_cons, List.flatten_nil, List.append_nil] at b ⊢
        exact ⟨a, b.trans (List.reverse_perm _)⟩
    · rintro ⟨a, b⟩
      refine ⟨[g], (h3 _).2 ⟨List.Forall₂.cons a List.Forall₂.nil, ?_⟩, by simp⟩
      simpa using b

theorem tetret_covers {n k : ℕ} {c : List ℕ} (hc : c.Pairwise (· < ·)) (hlt : ∀ x ∈ c, x < n) (hk : c.length = 4 * k)
    (h0 : 1 ≤ k) : ∃ L, tetretGen c = .ok L ∧ BlockCovers (tetretSubsets n) c.toFinset k L := by
  obtain ⟨L, h1, h2, h3⟩ := unorderedPartition_one (s := 4) hc (by omega) h0
  have hcn : c.Nodup := hc.imp fun h => by omega
  have hfull : ∀ g ∈ L, ∀ b ∈ g, b.length = 4 := by
    intro g hg
    obtain ⟨a, b⟩ := (h3 g).1 hg
    exact group_full a.size (by rw [b.length_eq, a.len, hk])
  have hne : ∀ g : List (List ℕ), (∀ b ∈ g, b.length = 4) → ∀ b ∈ g, b ≠ [] := by
    rintro g h b hb rfl
    simpa using h _ hb
  refine ⟨L, ?_, ⟨?_, ?_, ?_, ?_, ?_, ?_⟩⟩
  · rw [tetretGen, if_neg (by omega), show c.length / 4 = k by omega, h1]
  · intro g hg b hb
    obtain ⟨h4, h5⟩ := (h3 g).1 hg
    exact mem_tetretSubsets.2 ⟨hfull g hg b hb, h4.sorted b hb, fun x hx =>
      hlt x (h5.mem_iff.1 (List.mem_flatten.2 ⟨b, hb, hx⟩))⟩
  · intro g hg
    exact ((h3 g).1 hg).2.nodup_iff.2 hcn
  · intro g hg
    exact List.toFinset_eq_of_perm _ _ ((h3 g).1 hg).2
  · intro g hg
    exact ((h3 g).1 hg).1.len
  · refine h2.map_on fun g hg g' hg' he => ?_
    refine canonG_inj ((h3 g).1 hg).1 ((h3 g').1 hg').1 (hne g (hfull g hg)) (hne g' (hfull g' hg')) ?_
    ext s
    have : ∀ b, b ∈ g ↔ b ∈ g' := fun b => by rw [← List.mem_toFinset, he, List.mem_toFinset]
    simp [this]
  · intro S hS hnd hcov
    have hS4 : ∀ b ∈ S, b.length = 4 := fun b hb => (mem_tetretSubsets.1 (hS b hb)).1
    have hSs : ∀ b ∈ S, b.Pairwise (· < ·) := fun b hb => (mem_tetretSubsets.1 (hS b hb)).2.1
    have hSn : S.Nodup := nodup_of_flatten (hne S hS4) hnd
    have hdisj : ∀ b ∈ S, ∀ b' ∈ S, ∀ x ∈ b, x ∈ b' → b = b' := by
      intro b hb b' hb' x hx hx'
      by_contra hne'
      have : Std.Symm (List.Disjoint (α := ℕ)) := ⟨fun _ _ h => h.symm⟩
      have := (List.nodup_flatten.1 hnd).2.forall hb hb' hne'
      exact this hx hx'
    obtain ⟨gl, ⟨c1, c2⟩, c3⟩ := canonG_exists (s := 4) (by omega) (S.map List.toFinset).toFinset rfl (by
        intro b hb
        obtain ⟨b', hb', rfl⟩ := List.mem_map.1 (List.mem_toFinset.1 hb)
        rw [List.toFinset_card_of_nodup ((hSs b' hb').imp fun h => by omega), hS4 b' hb']) (by
        intro b hb b' hb' x hx hx'
        obtain ⟨a, ha, rfl⟩ := List.mem_map.1 (List.mem_toFinset.1 hb)
        obtain ⟨a', ha', rfl⟩ := List.mem_map.1 (List.mem_toFinset.1 hb')
        rw [hdisj a ha a' ha' x (List.mem_toFinset.1 hx) (List.mem_toFinset.1 hx')])
    have hmem : ∀ b, b ∈ gl ↔ b ∈ S := by
      intro b
      constructor
      · intro hb
        have : b.toFinset ∈ (S.map List.toFinset).toFinset := by
          rw [← c3]; exact List.mem_toFinset.2 (List.mem_map_of_mem hb)
        obtain ⟨b', hb', e⟩ := List.mem_map.1 (List.mem_toFinset.1 this)
        rwa [← sorted_toFinset_inj (hSs b' hb') (c1.sorted b hb) e]
      · intro hb
        have : b.toFinset ∈ (gl.map List.toFinset).toFinset := by
          rw [c3]; exact List.mem_toFinset.2 (List.mem_map_of_mem hb)
        obtain ⟨b', hb', e⟩ := List.mem_map.1 (List.mem_toFinset.1 this)
        rwa [← sorted_toFinset_inj (c1.sorted b' hb') (hSs b hb) e]
    have hp : gl.Perm S := (List.perm_ext_iff_of_nodup (canonG_nodup c1 (hne gl c2)) hSn).2 hmem
    have hpc : gl.flatten.Perm c := hp.flatten.trans ((List.perm_ext_iff_of_nodup hnd hcn).2 fun x => by
      rw [← List.mem_toFinset, hcov, List.mem_toFinset])
    refine ⟨gl, (h3 gl).2 ⟨⟨?_, c1.size, c1.sorted, c1.order⟩, hpc⟩, List.toFinset_eq_of_perm _ _ hp⟩
    have e1 := hpc.length_eq
    have e2 : gl.flatten.length = 4 * gl.length := by
      clear c1 c3 hmem hp hpc e1
      induction gl with
      | nil => rfl
      | cons b gl ih =>
        rw [List.flatten_cons, List.length_append, ih fun b hb => c2 b (List.mem_cons_of_mem _ hb),
          c2 b (List.mem_cons_self ..), List.length_cons]
        ring
    omega

/-! ## The overlap -/

theorem sign_tetret {J c : List ℕ} {k : ℕ} (hc : c.Pairwise (· < ·)) (hp : J.Perm c) (hk : c.length = 4 * k) :
    signPerm J (some c) = .ok (listSign J) := by
  have hcn : c.Nodup := hc.imp fun h => by omega
  have hJ : J.Nodup := hp.nodup_iff.2 hcn
  have := (strictlyIncreasing_iff c).2 hc
  simp only [signPerm, if_true, this]
  rw [signPermOuter_perm _ _ (List.nodup_reverse.2 hJ) (hp.symm.trans (List.reverse_perm J).symm), listSign_reverse hJ,
    hp.length_eq, hk]
  have : Even (4 * k * (4 * k - 1) / 2) := by
    rw [show 4 * k * (4 * k - 1) = 2 * (2 * (k * (4 * k - 1))) by ring, Nat.mul_div_cancel_left _ (by omega)]
    exact even_two_mul _
  rw [this.neg_one_pow, one_mul]
  rfl

theorem mapM_colInd (w : Wfn R) {S : List (List ℕ)} (h : ∀ b ∈ S, b ∈ w.subsets) :
    S.mapM w.colInd = .ok (S.map fun b => w.subsets.idxOf b) := by
  induction S with
  | nil => rfl
  | cons b S ih =>
    rw [List.mapM_cons, ih fun b hb => h b (List.mem_cons_of_mem _ hb), Wfn.colInd, if_pos (h b (List.mem_cons_self ..))]
    rfl

theorem process_bosons (w : Wfn R) {S : List (List ℕ)} (h : ∀ b ∈ S, b ∈ w.subsets) (he : ∀ b ∈ S, b.length % 2 = 0) :
    w.process S = .ok (S.map fun b => w.subsets.idxOf b, S, []) := by
  have h1 : (S.filter fun s => s.length % 2 = 0) = S := by
    rw [List.filter_eq_self]; intro b hb; simpa using he b hb
  have h2 : (S.filter fun s => ¬ s.length % 2 = 0) = [] := by
    rw [List.filter_eq_nil_iff]; intro b hb; simpa using he b hb
  rw [Wfn.process, h1, h2]
  simp only [mapM_colInd w h, bind, Except.bind, pure, Except.pure, List.mapM_nil, List.append_nil]

theorem permsum_bosons [CharZero R] (P : ℕ → ℕ → R) {k : ℕ} {cols : List ℕ} (hn : cols.Nodup) (hl : cols.length = k)
    (h0 : k ≠ 0) : permsum P k cols (List.range k) = .ok (perL P (List.range k) cols) := by
  rw [C40_permsum P hn (by simp [hl]) (by simpa using h0) (by simp)]
  congr 1
  have e1 : (List.range k).take k = List.range k := by simp
  have e2 : (List.range k).drop k = [] := by simp
  rw [permsumSpec, e1, e2, List.length_range, ← hl, ← List.toFinset_card_of_nodup hn, Finset.powersetCard_self,
    Finset.sum_singleton, detL_eq (n := 0) (rows := ([] : List ℕ)) rfl, Matrix.det_isEmpty, mul_one]
  congr 1
  rw [List.filter_eq_self]
  intro a ha
  simpa using ha

theorem perL_range_sum (P : ℕ → ℕ → R) {k : ℕ} {cols : List ℕ} (hl : cols.length = k) :
    perL P (List.range k) cols = ∑ σ : Equiv.Perm (Fin k), ∏ i : Fin k, P i (cols.getD (σ i) 0) := by
  subst hl
  rw [perL, List.length_range, perSpec_square, ← Matrix.permanent_transpose, Matrix.permanent]
  apply Finset.sum_congr rfl
  intro σ _
  apply Finset.prod_congr rfl
  intro i _
  have : (List.range cols.length).getD i default = i := by
    rw [List.getD_eq_getElem _ _ (by simp)]; simp
  simp only [Matrix.transpose_apply, Matrix.of_apply, this]
  rfl

theorem tetretInit_ok {nelec nspin : ℕ} {nq : Option ℕ} {subs : Option (List (List ℕ))} {params : ℕ → ℕ → R} {w : Wfn R}
    (h : tetretInit nelec nspin nq subs params = .ok w) :
    w.subsets = tetretSubsets nspin ∧ w.params = params ∧ w.nelec = nelec ∧ nelec = 4 * w.nquasi ∧ 1 ≤ w.nquasi := by
  unfold tetretInit at h
  rw [baseOrbsubsets_ok (nodup_tetretSubsets nspin) fun s hs => (mem_tetretSubsets.1 hs).2.1] at h
  simp only [CI.checkNelec, CI.checkNspin, bind, Except.bind, pure, Except.pure] at h
  split_ifs at h <;> simp at h
  subst h
  refine ⟨rfl, rfl, rfl, ?_, ?_⟩ <;> (simp only; omega)

theorem idxOf_cols {subsets S : List (List ℕ)} (hS : ∀ b ∈ S, b ∈ subsets) (hn : S.Nodup) :
    (S.map fun b => subsets.idxOf b).Nodup ∧ ∀ c ∈ S.map fun b => subsets.idxOf b, c < subsets.length := by
  constructor
  · exact hn.map_on fun a ha b _ h => (List.idxOf_inj (hS a ha)).1 h
  · intro c hc
    obtain ⟨b, hb, rfl⟩ := List.mem_map.1 hc
    exact List.idxOf_lt_length_of_mem (hS b hb)

/-- the overlap as a sum over the partitions of the occupied orbitals -/
theorem tetret_overlap_eq [CharZero R] (w : Wfn R) {n : ℕ} (hsub : w.subsets = tetretSubsets n) {sd : ℕ}
    {L : List (List (List ℕ))} (h0 : 1 ≤ w.nquasi) (hlen : (occIndices (some sd)).length = 4 * w.nquasi)
    (hg : tetretGen (occIndices (some sd)) = .ok L)
    (hcov : BlockCovers (tetretSubsets n) (occIndices (some sd)).toFinset w.nquasi L) :
    w.overlap tetretGen sd = .ok (L.map fun o => ((listSign o.flatten : ℤ) : R) *
      perL w.params (List.range w.nquasi) (o.map fun b => w.subsets.idxOf b)).sum := by
  have hs := sorted_occIndices sd
  rw [Wfn.overlap, hg]
  simp only [bind, Except.bind]
  rw [foldlM_sum (g := fun o => ((listSign o.flatten : ℤ) : R) *
      perL w.params (List.range w.nquasi) (o.map fun b => w.subsets.idxOf b)), zero_add]
  intro v o ho
  have h1 : ∀ b ∈ o, b ∈ w.subsets := hsub ▸ hcov.sub o ho
  have h4 : ∀ b ∈ o, b.length = 4 := fun b hb => (mem_tetretSubsets.1 (hcov.sub o ho b hb)).1
  have hon : o.Nodup := nodup_of_flatten (by rintro b hb rfl; simpa using h4 _ hb) (hcov.flat o ho)
  have hp : o.flatten.Perm (occIndices (some sd)) := (List.perm_ext_iff_of_nodup (hcov.flat o ho) (nodup_occIndices sd)).2
    fun x => by rw [← List.mem_toFinset, hcov.occ o ho, List.mem_toFinset]
  rw [Wfn.olpStep, process_bosons w h1 fun b hb => by rw [h4 b hb]]
  simp only [bind, Except.bind, List.append_nil]
  rw [sign_tetret hs hp hlen]
  simp only
  rw [hcov.len o ho, permsum_bosons w.params (idxOf_cols h1 hon).1 (by rw [List.length_map, hcov.len o ho]) (by omega)]
  rfl

/-- C59: the overlap of `AntisymmeterizedProductTetrets` with a determinant of `nelec` electrons is the coefficient of the
determinant in the product of the tetrets applied to the vacuum.  (For other numbers of electrons see `C59_fewer` and the
theorems after it.) -/
theorem C59_overlap_partial [CharZero R] {nelec nspin : ℕ} {nq : Option ℕ} {subs : Option (List (List ℕ))}
    {params : ℕ → ℕ → R} {w : Wfn R} (h : tetretInit nelec nspin nq subs params = .ok w) {sd : ℕ}
    (hlt : sd < 2 ^ nspin) (hn : totalOcc (some sd) = nelec) :
    (∀ s, s ∈ w.subsets ↔ s.length = 4 ∧ s.Pairwise (· < ·) ∧ ∀ x ∈ s, x < nspin) ∧ w.subsets.Nodup ∧
    w.overlap tetretGen sd = .ok (blockProd w.subsets params (List.range (nelec / 4)) (occSet sd)) := by
  obtain ⟨hsub, hpar, -, hq, h0⟩ := tetretInit_ok h
  have hlen : (occIndices (some sd)).length = 4 * w.nquasi := by rw [length_occIndices, ← totalOcc_eq, hn, hq]
  obtain ⟨L, hg, hcov⟩ := tetret_covers (n := nspin) (sorted_occIndices sd) (fun x hx => by
    rw [← List.mem_toFinset, toFinset_occIndices] at hx; exact lt_two_pow_iff.1 hlt x hx) hlen h0
  refine ⟨fun s => by rw [hsub]; exact mem_tetretSubsets, hsub ▸ nodup_tetretSubsets nspin, ?_⟩
  rw [tetret_overlap_eq w hsub h0 hlen hg hcov]
  rw [toFinset_occIndices] at hcov
  have hev : ∀ b ∈ tetretSubsets nspin, Even b.length := fun b hb => by rw [(mem_tetretSubsets.1 hb).1]; decide
  have hne : ∀ b ∈ tetretSubsets nspin, b ≠ [] := by rintro b hb rfl; simpa using (mem_tetretSubsets.1 hb).1
  have := blockProd_coeff (nodup_tetretSubsets nspin) hev hne params hcov (fun i : Fin w.nquasi => (i : ℕ))
  rw [show (List.ofFn fun i : Fin w.nquasi => (i : ℕ)) = List.range (nelec / 4) by
    rw [hq, Nat.mul_div_cancel_left _ (by omega)]; apply List.ext_getElem <;> simp] at this
  rw [hsub, this, hpar]
  congr 2
  apply List.map_congr_left
  intro o ho
  have hl := hcov.len o ho
  rw [perL_range_sum _ (by rw [List.length_map, hl])]
  congr 1
  apply Finset.sum_congr rfl
  intro σ _
  apply Finset.prod_congr rfl
  intro i _
  rw [List.getD_eq_getElem _ _ (by rw [List.length_map, hl]; exact (σ i).2), List.getElem_map,
    List.getD_eq_getElem _ _ (by rw [hl]; exact (σ i).2)]

/-! ## Derivatives -/

theorem permsumDeriv_bosons [CharZero R] (P : ℕ → ℕ → R) {n ncol r c : ℕ} {cols : List ℕ} (hn : cols.Nodup)
    (hl : cols.length = n) (hlt : ∀ c ∈ cols, c < ncol) (hr : r < n) (hc : c ∈ cols) :
    permsumDeriv P ncol n cols (List.range n) (r * ncol + c) = .ok (minorL P (List.range n) cols r c) := by
  obtain ⟨v, d, h1, h2, h3⟩ := C40_boson_partial P hn hl le_rfl hlt hr hc
  have h4 := h3 1
  rw [permsum_bosons _ hn hl (by omega), show bumpParam P r c 1 = fun a b => if a = r ∧ b = c then P a b + 1 else P a b from rfl,
    perL_shift P List.nodup_range hn] at h4
  rw [permsum_bosons _ hn hl (by omega)] at h1
  rw [h2]
  simp only [Except.ok.injEq] at h1 h4 ⊢
  rw [h1, one_mul, one_mul] at h4
  exact (add_left_cancel h4).symm

theorem foldlM_quasiDeriv [CharZero R] (w : Wfn R) {cols : List ℕ} (s : ℤ) (hn : cols.Nodup) (hl : cols.length = w.nquasi)
    (hlt : ∀ c ∈ cols, c < w.subsets.length) :
    ∀ (l : List (ℕ × ℕ)) (out : ℕ → R), l.Nodup → (∀ p ∈ l, p.1 < w.nquasi ∧ p.2 ∈ cols) →
      l.foldlM (w.derivStep w.nquasi cols s) out = .ok fun i => out i + if (i / w.subsets.length, i % w.subsets.length) ∈ l
        then s * minorL w.params (List.range w.nquasi) cols (i / w.subsets.length) (i % w.subsets.length) else 0 := by
  intro l
  induction l with
  | nil => intro out _ _; simp [pure, Except.pure]
  | cons p l ih =>
    intro out hnd h
    obtain ⟨r, c⟩ := p
    obtain ⟨h1, h2⟩ := h (r, c) (List.mem_cons_self ..)
    rw [List.nodup_cons] at hnd
    have hcn := hlt c h2
    rw [List.foldlM_cons, Wfn.derivStep]
    simp only [permsumDeriv_bosons w.params hn hl hlt h1 h2, bind, Except.bind, pure, Except.pure]
    rw [ih _ hnd.2 (fun p hp => h p (List.mem_cons_of_mem _ hp))]
    congr 1
    funext i
    rw [Geminal.bump]
    have hi : i = r * w.subsets.length + c ↔ (i / w.subsets.length, i % w.subsets.length) = (r, c) := by
      constructor
      · rintro rfl
        rw [mul_comm, Nat.mul_add_div (by omega), Nat.div_eq_of_lt hcn, add_zero, Nat.mul_add_mod, Nat.mod_eq_of_lt hcn]
      · intro h
        rw [Prod.mk.injEq] at h
        rw [← h.1, ← h.2, mul_comm, Nat.div_add_mod]
    by_cases hie : i = r * w.subsets.length + c
    · have h' := hi.1 hie
      rw [if_pos hie, h', if_neg hnd.1, if_pos (List.mem_cons_self ..)]
      rw [Prod.mk.injEq] at h'
      rw [h'.1, h'.2, add_zero]
    · have h' := fun x => hie (hi.2 x)
      rw [if_neg hie]
      congr 2
      rw [List.mem_cons, eq_iff_iff]
      exact ⟨Or.inr, fun h => h.resolve_left h'⟩

theorem foldlM_sumFun {α : Type} {f : (ℕ → R) → α → Except PyErr (ℕ → R)} {g : α → ℕ → R} : ∀ (l : List α) (v : ℕ → R),
    (∀ v, ∀ a ∈ l, f v a = .ok fun i => v i + g a i) → l.foldlM f v = .ok fun i => v i + (l.map fun a => g a i).sum := by
  intro l
  induction l with
  | nil => intro v _; simp [pure, Except.pure]
  | cons a l ih =>
    intro v h
    rw [List.foldlM_cons, h v a (List.mem_cons_self ..)]
    simp only [bind, Except.bind]
    rw [ih _ fun v b hb => h v b (List.mem_cons_of_mem _ hb)]
    simp [add_assoc]

/-- C59: `get_overlap(sd, deriv)` of tetrets for a determinant of `nelec` electrons. The overlap is affine in every
parameter, the entry of the derivative array is the slope. -/
theorem C59_deriv_partial [CharZero R] {nelec nspin : ℕ} {nq : Option ℕ} {subs : Option (List (List ℕ))}
    {params : ℕ → ℕ → R} {w : Wfn R} (h : tetretInit nelec nspin nq subs params = .ok w) {sd : ℕ}
    (hlt : sd < 2 ^ nspin) (hn : totalOcc (some sd) = nelec) :
    ∃ (v : R) (d : ℕ → R), w.overlap tetretGen sd = .ok v ∧
      (∀ deriv, (∀ i ∈ deriv, i < w.nquasi * w.subsets.length) → w.overlapDeriv tetretGen sd deriv = .ok (deriv.map d)) ∧
      ∀ r c h, r < w.nquasi → c < w.subsets.length →
        ({ w with params := bumpParam w.params r c h } : Wfn R).overlap tetretGen sd =
          .ok (v + h * d (r * w.subsets.length + c)) := by
  obtain ⟨hsub, -, -, hq, h0⟩ := tetretInit_ok h
  have hs := sorted_occIndices sd
  have hlen : (occIndices (some sd)).length = 4 * w.nquasi := by rw [length_occIndices, ← totalOcc_eq, hn, hq]
  obtain ⟨L, hg, hcov⟩ := tetret_covers (n := nspin) (sorted_occIndices sd) (fun x hx => by
    rw [← List.mem_toFinset, toFinset_occIndices] at hx; exact lt_two_pow_iff.1 hlt x hx) hlen h0
  have hcols : ∀ o ∈ L, (∀ b ∈ o, b ∈ w.subsets) ∧ (o.map fun b => w.subsets.idxOf b).Nodup ∧
      (∀ c ∈ o.map fun b => w.subsets.idxOf b, c < w.subsets.length) ∧ ∀ b ∈ o, b.length = 4 := by
    intro o ho
    have h1 : ∀ b ∈ o, b ∈ w.subsets := hsub ▸ hcov.sub o ho
    have h4 : ∀ b ∈ o, b.length = 4 := fun b hb => (mem_tetretSubsets.1 (hcov.sub o ho b hb)).1
    have hon : o.Nodup := nodup_of_flatten (by rintro b hb rfl; simpa using h4 _ hb) (hcov.flat o ho)
    exact ⟨h1, (idxOf_cols h1 hon).1, (idxOf_cols h1 hon).2, h4⟩
  have hd : w.olpDeriv tetretGen sd = .ok fun i => (0 : R) + (L.map fun o => if i / w.subsets.length < w.nquasi ∧
      i % w.subsets.length ∈ o.map (fun b => w.subsets.idxOf b) then (listSign o.flatten : R) *
        minorL w.params (List.range w.nquasi) (o.map fun b => w.subsets.idxOf b) (i / w.subsets.length)
          (i % w.subsets.length) else 0).sum := by
    rw [Wfn.olpDeriv, hg]
    simp only [bind, Except.bind]
    refine foldlM_sumFun (g := fun o i => if i / w.subsets.length < w.nquasi ∧
      i % w.subsets.length ∈ o.map (fun b => w.subsets.idxOf b) then (listSign o.flatten : R) *
        minorL w.params (List.range w.nquasi) (o.map fun b => w.subsets.idxOf b) (i / w.subsets.length)
          (i % w.subsets.length) else 0) L (fun _ => 0) ?_
    intro v o ho
    obtain ⟨h1, h2, h3, h4⟩ := hcols o ho
    have hp : o.flatten.Perm (occIndices (some sd)) :=
      (List.perm_ext_iff_of_nodup (hcov.flat o ho) (nodup_occIndices sd)).2
        fun x => by rw [← List.mem_toFinset, hcov.occ o ho, List.mem_toFinset]
    rw [Wfn.olpDerivStep, process_bosons w h1 fun b hb => by rw [h4 b hb]]
    simp only [bind, Except.bind, List.append_nil]
    rw [sign_tetret hs hp hlen]
    simp only
    rw [hcov.len o ho, foldlM_quasiDeriv w _ h2 (by rw [List.length_map, hcov.len o ho]) h3]
    · congr 1
      funext i
      congr 2
      simp only [List.mem_flatMap, List.mem_range, List.mem_map, Prod.mk.injEq, eq_iff_iff]
      constructor
      · rintro ⟨r, hr, c, hc, rfl, rfl⟩
        exact ⟨hr, hc⟩
      · rintro ⟨hr, hc⟩
        exact ⟨_, hr, _, hc, rfl, rfl⟩
    · refine nodup_flatMap_key Prod.fst List.nodup_range ?_ ?_
      · intro r _
        exact h2.map fun a b h => (Prod.mk.inj h).2
      · simp only [List.mem_map]
        rintro r _ _ ⟨c, _, rfl⟩
        rfl
    · simp only [List.mem_flatMap, List.mem_range, List.mem_map]
      rintro _ ⟨r, hr, c, hc, rfl⟩
      exact ⟨hr, hc⟩
  refine ⟨_, fun i => (0 : R) + (L.map fun o => if i / w.subsets.length < w.nquasi ∧
      i % w.subsets.length ∈ o.map (fun b => w.subsets.idxOf b) then (listSign o.flatten : R) *
        minorL w.params (List.range w.nquasi) (o.map fun b => w.subsets.idxOf b) (i / w.subsets.length)
          (i % w.subsets.length) else 0).sum, tetret_overlap_eq w hsub h0 hlen hg hcov, ?_, ?_⟩
  · intro deriv hdv
    rw [Wfn.overlapDeriv, hd]
    simp only [bind, Except.bind]
    induction deriv with
    | nil => rfl
    | cons i l ih =>
      rw [List.mapM_cons, if_pos (hdv i (List.mem_cons_self ..)), ih fun i hi => hdv i (List.mem_cons_of_mem _ hi)]
      rfl
  · intro r c x hr hc
    rw [tetret_overlap_eq { w with params := bumpParam w.params r c x } hsub h0 hlen hg hcov]
    congr 1
    have e1 : (r * w.subsets.length + c) / w.subsets.length = r := by
      rw [mul_comm, Nat.mul_add_div (by omega), Nat.div_eq_of_lt hc, add_zero]
    have e2 : (r * w.subsets.length + c) % w.subsets.length = c := by rw [mul_comm, Nat.mul_add_mod, Nat.mod_eq_of_lt hc]
    simp only [e1, e2, hr, true_and, zero_add]
    rw [← List.sum_map_mul_left, ← List.sum_map_add]
    congr 1
    apply List.map_congr_left
    intro o ho
    have := perL_shift w.params List.nodup_range (hcols o ho).2.1 r c x (rows := List.range w.nquasi)
    rw [show bumpParam w.params r c x = fun a b => if a = r ∧ b = c then w.params a b + x else w.params a b from rfl, this]
    split_ifs with hcc
    · ring
    · rw [minorL, if_neg fun h => hcc h.2]
      ring

-- eight electrons in eight spin orbitals
example : ∃ w : Wfn ℚ, tetretInit 8 8 none none (fun i j => (i + 2 * j + 1 : ℚ)) = .ok w ∧ 255 < 2 ^ 8 ∧
    totalOcc (some 255) = 8 := by
  rw [tetretInit, baseOrbsubsets_ok (nodup_tetretSubsets 8) fun s hs => (mem_tetretSubsets.1 hs).2.1]
  exact ⟨_, rfl, by decide, by decide⟩

/-! ## Other numbers of electrons -/

/-- C59: a number of electrons that is not a multiple of four is an error. -/
theorem C59_not_multiple (w : Wfn R) {sd : ℕ} (h : totalOcc (some sd) % 4 ≠ 0) :
    w.overlap tetretGen sd = .error .valueError := by
  rw [totalOcc_eq, ← length_occIndices] at h
  rw [Wfn.overlap, tetretGen, if_pos h]
  rfl

example : totalOcc (some 0b110011011) % 4 ≠ 0 := by decide

/-- C59: the overlap with the vacuum is an `IndexError` instead of zero. -/
theorem C59_vacuum (w : Wfn R) : w.overlap tetretGen 0 = .error .indexError := by
  have : occIndices (some 0) = [] := List.length_eq_zero_iff.1 (by rw [length_occIndices, ← totalOcc_eq]; rfl)
  rw [Wfn.overlap, this]
  rfl

/-- C59: the overlap with a determinant of four electrons of a wavefunction with eight electrons is a parameter of the first
tetret instead of zero. -/
theorem C59_fewer : ∃ w : Wfn ℚ, tetretInit 8 8 none none (fun _ _ => 1) = .ok w ∧
    w.overlap tetretGen 0b1111 = .ok 1 := by
  refine ⟨⟨8, 8, 2, tetretSubsets 8, fun _ _ => 1⟩, ?_, by decide +kernel⟩
  rw [tetretInit, baseOrbsubsets_ok (nodup_tetretSubsets 8) fun s hs => (mem_tetretSubsets.1 hs).2.1]
  rfl

/-- C59: the overlap with a determinant of eight electrons of a wavefunction with four electrons is an `IndexError` instead of
zero. -/
theorem C59_more : ∃ w : Wfn ℚ, tetretInit 4 8 none none (fun _ _ => 1) = .ok w ∧
    w.overlap tetretGen 0b11111111 = .error .indexError := by
  refine ⟨⟨4, 8, 1, tetretSubsets 8, fun _ _ => 1⟩, ?_, by decide +kernel⟩
  rw [tetretInit, baseOrbsubsets_ok (nodup_tetretSubsets 8) fun s hs => (mem_tetretSubsets.1 hs).2.1]
  rfl

end Fanpy.Props
