import Verif.Props.AP1roG
import Verif.Props.CISpaces
import Verif.Props.Jacobi
import Verif.Props.PCCDGeminal
import Verif.Model.ToAP1roG

/-! # C98: the AP1roG wavefunction of a CI wavefunction of pairs -/

namespace Fanpy.Props
open Fanpy.Slater Fanpy.SdList Fanpy.Graphs Fanpy.Geminal Fanpy.Spec Fanpy.MathTools Fanpy.Lemmas Fanpy.CI

variable {R : Type} [Field R]

/-- a determinant of `2n` orbitals in which `i` and `i + n` are occupied together -/
structure ClosedSd (n nelec x : ℕ) : Prop where
  lt : x < 2 ^ (2 * n)
  card : (occSet x).card = nelec
  pair : ∀ i < n, x.testBit i = x.testBit (i + n)

theorem ClosedSd.split {n nelec x : ℕ} (h : ClosedSd n nelec x) : x / 2 ^ n = x % 2 ^ n := by
  apply Nat.eq_of_testBit_eq
  intro i
  rw [Nat.testBit_div_two_pow, Nat.testBit_mod_two_pow]
  by_cases hi : i < n
  · rw [h.pair i hi]; simp [hi]
  · have : x.testBit (i + n) = false := Nat.testBit_lt_two_pow (h.lt.trans_le (Nat.pow_le_pow_right (by norm_num) (by omega)))
    simp [hi, this]

/-- the occupied spatial orbitals -/
def spatial (n x : ℕ) : Finset ℕ := (Finset.range n).filter fun i => x.testBit i = true

theorem mem_spatial {n x i : ℕ} : i ∈ spatial n x ↔ i < n ∧ x.testBit i = true := by simp [spatial]

theorem mem_occ_spatial {n x i : ℕ} : i ∈ occIndices (some (x % 2 ^ n)) ↔ i ∈ spatial n x := by
  rw [mem_occIndices, Nat.testBit_mod_two_pow, mem_spatial]; simp

theorem toFinset_occ_spatial {n x : ℕ} : (occIndices (some (x % 2 ^ n))).toFinset = spatial n x := by
  ext i; rw [List.mem_toFinset, mem_occ_spatial]

theorem ClosedSd.card_spatial {n nelec x : ℕ} (h : ClosedSd n nelec x) : 2 * (spatial n x).card = nelec := by
  rw [← h.card, card_seniority h.split, ← toFinset_occ_spatial, List.toFinset_card_of_nodup (nodup_occIndices _)]

theorem ClosedSd.ext {n nelec x y : ℕ} (hx : ClosedSd n nelec x) (hy : ClosedSd n nelec y) (h : spatial n x = spatial n y) :
    x = y := by
  have key : ∀ i, i < n → x.testBit i = y.testBit i := fun i hi => by
    have := congrArg (i ∈ ·) h
    simp only [mem_spatial, hi, true_and, eq_iff_iff] at this
    cases hx' : x.testBit i <;> cases hy' : y.testBit i <;> simp_all
  apply Nat.eq_of_testBit_eq
  intro i
  by_cases h1 : i < n
  · exact key i h1
  · by_cases h2 : i < 2 * n
    · have e : i = (i - n) + n := by omega
      rw [e, ← hx.pair _ (by omega), ← hy.pair _ (by omega)]
      exact key _ (by omega)
    · rw [Nat.testBit_lt_two_pow (hx.lt.trans_le (Nat.pow_le_pow_right (by norm_num) (by omega))),
        Nat.testBit_lt_two_pow (hy.lt.trans_le (Nat.pow_le_pow_right (by norm_num) (by omega)))]

/-- moving a pair gives a closed determinant -/
theorem exciteBoth_ok {n nelec x i a : ℕ} (h : ClosedSd n nelec x) (hi : i ∈ spatial n x) (ha : a < n) (ha' : a ∉ spatial n x) :
    ∃ y, exciteBoth x n i a = .ok (some y) ∧ ClosedSd n nelec y ∧ spatial n y = insert a ((spatial n x).erase i) := by
  obtain ⟨hi1, hi2⟩ := mem_spatial.1 hi
  have ha2 : x.testBit a = false := by
    rw [mem_spatial] at ha'
    simpa [ha] using ha'
  have hin : x.testBit (i + n) = true := by rw [← h.pair i hi1, hi2]
  have han : x.testBit (a + n) = false := by rw [← h.pair a ha, ha2]
  have hia : i ≠ a := by rintro rfl; rw [hi2] at ha2; cases ha2
  set z := sdOf (insert a ((occSet x).erase i)) with hz
  have e1 : excite (some x) [i, a] = .ok (some z) := jac_excite (mem_occSet.2 hi2) (by rw [mem_occSet]; simp [ha2])
  have e2 : excite (some z) [i + n, a + n] = .ok (some (sdOf (insert (a + n) ((occSet z).erase (i + n))))) :=
    jac_excite (by
      rw [hz, occSet_sdOf]
      exact Finset.mem_insert_of_mem (Finset.mem_erase.2 ⟨by omega, mem_occSet.2 hin⟩)) (by
      rw [hz, occSet_sdOf, Finset.mem_insert, Finset.mem_erase, mem_occSet, han]
      simp
      omega)
  refine ⟨_, by rw [exciteBoth, e1]; exact e2, ?_⟩
  have hb : ∀ j, j ∈ occSet (sdOf (insert (a + n) ((occSet z).erase (i + n)))) ↔
      j = a + n ∨ j ≠ i + n ∧ (j = a ∨ j ≠ i ∧ j ∈ occSet x) := by
    intro j
    rw [occSet_sdOf, Finset.mem_insert, Finset.mem_erase, hz, occSet_sdOf, Finset.mem_insert, Finset.mem_erase]
  refine ⟨⟨?_, ?_, ?_⟩, ?_⟩
  · rw [lt_two_pow_iff]
    intro j hj
    have hx := h.lt
    rw [lt_two_pow_iff] at hx
    rw [hb] at hj
    rcases hj with rfl | ⟨-, rfl | ⟨-, hj⟩⟩
    · omega
    · omega
    · exact hx j hj
  · have c2 := (C02_excite x [i, a]).2 [i] [a] rfl rfl
    have c3 := (C02_excite z [i + n, a + n]).2 [i + n] [a + n] rfl rfl
    have c2 := (c2.2 _ e1).1
    have c3 := (c3.2 _ e2).1
    rw [totalOcc_eq, totalOcc_eq] at c2 c3
    rw [c3, c2, h.card]
  · intro j hj
    have p := h.pair j hj
    have e : ∀ k, (sdOf (insert (a + n) ((occSet z).erase (i + n)))).testBit k = decide (k ∈ occSet (sdOf (insert (a + n) ((occSet z).erase (i + n))))) := by
      intro k
      rw [Bool.eq_iff_iff, ← mem_occSet]
      simp
    rw [e, e, Bool.eq_iff_iff, decide_eq_true_eq, decide_eq_true_eq, hb, hb, mem_occSet, mem_occSet, ← p]
    have q1 : j ≠ a + n := by omega
    have q2 : j ≠ i + n := by omega
    have q3 : j + n ≠ a := by omega
    have q4 : j + n ≠ i := by omega
    simp [q1, q2, q3, q4]
  · ext j
    rw [mem_spatial, ← mem_occSet, hb, Finset.mem_insert, Finset.mem_erase, mem_spatial, mem_occSet]
    constructor
    · rintro ⟨hj, rfl | ⟨-, rfl | ⟨h1, h2⟩⟩⟩
      · omega
      · exact Or.inl rfl
      · exact Or.inr ⟨h1, hj, h2⟩
    · rintro (rfl | ⟨h1, h2, h3⟩)
      · exact ⟨ha, Or.inr ⟨by omega, Or.inl rfl⟩⟩
      · exact ⟨h2, Or.inr ⟨by omega, Or.inr ⟨h1, h3⟩⟩⟩

/-! ## Combinatorics -/

/-- Every single pair excitation of `A` misses at most one of the first `m` orbitals, if `A` is the set of the first `m`
orbitals, or there is only one pair, or only one empty orbital. -/
theorem pairs_stay {n m : ℕ} {A : Finset ℕ} (hA : A.card = m) (hAn : A ⊆ Finset.range n)
    (hc : A = Finset.range m ∨ m = 1 ∨ n = m + 1) {i a : ℕ} (hi : i ∈ A) (ha : a < n) (ha' : a ∉ A) :
    (Finset.range m \ insert a (A.erase i)).card ≤ 1 := by
  rcases hc with rfl | rfl | rfl
  · refine (Finset.card_le_card (t := {i}) ?_).trans (by simp)
    intro j hj
    simp only [Finset.mem_sdiff, Finset.mem_insert, Finset.mem_erase, not_or, not_and] at hj
    rw [Finset.mem_singleton]
    by_contra hji
    exact hj.2.2 hji hj.1
  · exact (Finset.card_le_card Finset.sdiff_subset).trans (by simp)
  · have h1 : (insert a (A.erase i)).card = m := by
      rw [Finset.card_insert_of_notMem (by simp [ha']), Finset.card_erase_of_mem hi]
      have := Finset.card_pos.2 ⟨i, hi⟩
      omega
    have h2 : insert a (A.erase i) ⊆ Finset.range (m + 1) := by
      intro j hj
      rcases Finset.mem_insert.1 hj with rfl | hj
      · exact Finset.mem_range.2 ha
      · exact hAn (Finset.mem_of_mem_erase hj)
    refine (Finset.card_le_card (Finset.sdiff_subset_sdiff (Finset.range_subset_range.2 (Nat.le_succ m)) le_rfl)).trans ?_
    rw [Finset.card_sdiff_of_subset h2, h1, Finset.card_range]
    omega

/-- two sets of the space differ in at most one pair, in the same cases -/
theorem pairs_near {n m : ℕ} {A X : Finset ℕ} (hA : A.card = m) (hAn : A ⊆ Finset.range n) (hX : X.card = m)
    (hXn : X ⊆ Finset.range n) (hXm : (Finset.range m \ X).card ≤ 1) (hc : A = Finset.range m ∨ m = 1 ∨ n = m + 1) :
    (A \ X).card ≤ 1 := by
  rcases hc with rfl | rfl | rfl
  · exact hXm
  · exact (Finset.card_le_card Finset.sdiff_subset).trans hA.le
  · refine (Finset.card_le_card (Finset.sdiff_subset_sdiff hAn le_rfl)).trans ?_
    rw [Finset.card_sdiff_of_subset hXn, hX, Finset.card_range]
    omega

/-- otherwise one of the pair excitations leaves the space -/
theorem pairs_leave {n m : ℕ} {A : Finset ℕ} (hA : A.card = m) (hm : m ≤ n)
    (hAm : (Finset.range m \ A).card ≤ 1) (h1 : A ≠ Finset.range m) (h2 : m ≠ 1) (h3 : n ≠ m + 1) (h4 : m ≠ n ∨ A ⊆ Finset.range n) :
    ∃ i ∈ A, ∃ a < n, a ∉ A ∧ ¬ (Finset.range m \ insert a (A.erase i)).card ≤ 1 := by
  have hne : (Finset.range m \ A).Nonempty := by
    rw [Finset.nonempty_iff_ne_empty]
    intro h
    rw [Finset.sdiff_eq_empty_iff_subset] at h
    exact h1 (Finset.eq_of_subset_of_card_le h (by simp [hA])).symm
  obtain ⟨b, hb⟩ := hne
  have hc1 : (Finset.range m \ A).card = 1 := le_antisymm hAm (Finset.card_pos.2 ⟨b, hb⟩)
  rw [Finset.mem_sdiff] at hb
  have hmpos : 2 ≤ m := by
    have := Finset.mem_range.1 hb.1
    omega
  have hsum := Finset.card_sdiff_add_card_inter (Finset.range m) A
  rw [hc1, Finset.card_range] at hsum
  have hun := Finset.card_union_add_card_inter (Finset.range m) A
  rw [Finset.card_range, hA] at hun
  obtain ⟨i, hi⟩ : (Finset.range m ∩ A).Nonempty := by
    rw [← Finset.card_pos]; omega
  rw [Finset.mem_inter] at hi
  have hmn : m ≠ n := by
    rintro rfl
    rcases h4 with h4 | h4
    · exact h4 rfl
    · exact h1 (Finset.eq_of_subset_of_card_le h4 (by simp [hA]))
  obtain ⟨a, ha⟩ : (Finset.range n \ (Finset.range m ∪ A)).Nonempty := by
    rw [← Finset.card_pos]
    have := Finset.le_card_sdiff (Finset.range m ∪ A) (Finset.range n)
    rw [Finset.card_range] at this
    omega
  simp only [Finset.mem_sdiff, Finset.mem_union, not_or] at ha
  refine ⟨i, hi.2, a, Finset.mem_range.1 ha.1, ha.2.2, ?_⟩
  have hbi : b ≠ i := by rintro rfl; exact hb.2 hi.2
  have hsub : ({b, i} : Finset ℕ) ⊆ Finset.range m \ insert a (A.erase i) := by
    intro j hj
    simp only [Finset.mem_insert, Finset.mem_singleton] at hj
    rcases hj with rfl | rfl
    · simp only [Finset.mem_sdiff, Finset.mem_insert, Finset.mem_erase, not_or, not_and]
      exact ⟨hb.1, fun h => ha.2.1 (h ▸ hb.1), fun _ => hb.2⟩
    · simp only [Finset.mem_sdiff, Finset.mem_insert, Finset.mem_erase, not_or, not_and]
      exact ⟨hi.1, fun h => ha.2.1 (h ▸ hi.1), fun h => absurd rfl h⟩
  have := Finset.card_le_card hsub
  rw [Finset.card_pair hbi] at this
  omega

/-! ## The loops -/

theorem fold_write {step : (ℕ → ℕ → R) → ℕ × ℕ → Except PyErr (ℕ → ℕ → R)} {row col : ℕ → ℕ} {val : ℕ × ℕ → R} :
    ∀ (L : List (ℕ × ℕ)) (G : ℕ → ℕ → R), L.Nodup →
      (∀ p ∈ L, ∀ G, step G p = .ok fun r c => if r = row p.1 ∧ c = col p.2 then val p else G r c) →
      (∀ p ∈ L, ∀ q ∈ L, row p.1 = row q.1 → col p.2 = col q.2 → p = q) →
      ∃ G', L.foldlM step G = .ok G' ∧ (∀ p ∈ L, G' (row p.1) (col p.2) = val p) ∧
        ∀ r c, (∀ p ∈ L, ¬ (r = row p.1 ∧ c = col p.2)) → G' r c = G r c := by
  intro L
  induction L with
  | nil => intro G _ _ _; exact ⟨G, rfl, by simp, fun _ _ _ => rfl⟩
  | cons p L ih =>
    intro G hn hs hi
    rw [List.nodup_cons] at hn
    obtain ⟨G', e1, e2, e3⟩ := ih (fun r c => if r = row p.1 ∧ c = col p.2 then val p else G r c) hn.2
      (fun q hq => hs q (List.mem_cons_of_mem _ hq))
      (fun q hq q' hq' => hi q (List.mem_cons_of_mem _ hq) q' (List.mem_cons_of_mem _ hq'))
    refine ⟨G', ?_, ?_, ?_⟩
    · rw [List.foldlM_cons, hs p (List.mem_cons_self ..)]
      exact e1
    · intro q hq
      rcases List.mem_cons.1 hq with rfl | hq
      · rw [e3]
        · simp
        · rintro q' hq' ⟨h1, h2⟩
          have := hi q (List.mem_cons_self ..) q' (List.mem_cons_of_mem _ hq') h1 h2
          exact hn.1 (this ▸ hq')
      · exact e2 q hq
    · intro r c h
      rw [e3 r c fun q hq => h q (List.mem_cons_of_mem _ hq), if_neg (h p (List.mem_cons_self ..))]

theorem fold_fail {σ α : Type} {step : σ → α → Except PyErr σ} {e : PyErr} :
    ∀ (L : List α) (s : σ), (∀ p ∈ L, ∀ s, (∃ s', step s p = .ok s') ∨ step s p = .error e) →
      (∃ p ∈ L, ∀ s, step s p = .error e) → L.foldlM step s = .error e := by
  intro L
  induction L with
  | nil => rintro s - ⟨p, hp, -⟩; cases hp
  | cons p L ih =>
    rintro s h ⟨q, hq, hf⟩
    rw [List.foldlM_cons]
    rcases h p (List.mem_cons_self ..) s with ⟨s', hs'⟩ | hs'
    · rw [hs']
      refine ih s' (fun p hp => h p (List.mem_cons_of_mem _ hp)) ?_
      rcases List.mem_cons.1 hq with rfl | hq
      · rw [hf] at hs'; cases hs'
      · exact ⟨q, hq, hf⟩
    · rw [hs']; rfl

theorem perL_one (P : ℕ → ℕ → R) (r c : ℕ) : perL P [r] [c] = P r c := by
  simp [perL, perSpec]

theorem apigOrbpairs_none {nspin : ℕ} (hn : 0 < nspin / 2) (he : nspin % 2 = 0) :
    apigOrbpairs nspin none = .ok ((List.range (nspin / 2)).map fun i => (i, i + nspin / 2)) := by
  rw [apigOrbpairs, Option.getD_none, baseOrbpairs_default hn]
  simp only [bind, Except.bind, pure, Except.pure]
  have h1 : (flatPairs ((List.range (nspin / 2)).map fun i => (i, i + nspin / 2))).Nodup := by
    rw [flatPairs, List.nodup_flatMap]
    constructor
    · intro p hp
      obtain ⟨i, hi, rfl⟩ := List.mem_map.1 hp
      simp; omega
    · rw [List.pairwise_map]
      refine (List.nodup_range (n := nspin / 2)).imp_of_mem ?_
      intro a b ha hb hab
      rw [List.mem_range] at ha hb
      simp only [Function.onFun]
      intro x hx hx'
      simp only [List.mem_cons, List.not_mem_nil, or_false] at hx hx'
      omega
  rw [h1.dedup, if_neg (by simp), if_neg]
  rw [flatPairs_length_even, List.length_map, List.length_range]
  omega

/-- the constructor of `AP1roG` accepts a closed determinant -/
theorem ap1rog_init_closed {nelec nspin x : ℕ} (h0 : nelec ≠ 0) (h1 : nelec % 2 = 0) (h2 : nspin % 2 = 0)
    (hn : 0 < nspin / 2) (h : ClosedSd (nspin / 2) nelec x) (P : ℕ → ℕ → R) :
    ∃ ap, AP1roG.init nelec nspin none none (some x) P = .ok ap := by
  have hs := (seniority_zero_iff (n := nspin / 2) hn).2 h.split
  have ht : getTwoSpin x (nspin / 2 : ℕ) = .ok 0 := by
    rw [getTwoSpin, splitSpin_ok hn]
    simp only [bind, Except.bind, pure, Except.pure]
    rw [h.split, sub_self]
  have hr : ap1rogRef nelec nspin (some x) = .ok x := by
    rw [ap1rogRef, ap1rogCheckRef, totalOcc_eq, h.card, ht, hs]
    simp [bind, Except.bind, pure, Except.pure]
  have hp : ∃ q, ap1rogPairs nspin x none = .ok q := by
    rw [ap1rogPairs, apigOrbpairs_none hn h2]
    simp only [bind, Except.bind, pure, Except.pure]
    rw [if_neg (by push Not; exact fun p hp => hp)]
    exact ⟨_, rfl⟩
  obtain ⟨q, hq⟩ := hp
  have h3 : ¬ (nspin = 0 ∨ nspin % 2 = 1) := by omega
  simp only [AP1roG.init, Geminal.checkNelec, CI.checkNelec, CI.checkNspin, ap1rogNgem, assignNgem, hr, hq, h0, h1, h3,
    bind, Except.bind, pure, Except.pure, if_false, Option.getD_none, lt_irrefl, ne_eq, not_true_eq_false]
  exact ⟨_, rfl⟩

/-! ## The property -/

/-- the determinants of a `CIPairs` wavefunction, with the number of pairs of the ground state they lack -/
theorem ciPairs_space {nelec nspin : ℕ} {params : Option (List R)} {t s : Option ℤ} {w : CI.Wfn R}
    (h : ciPairsInit nelec nspin params t s = .ok w) :
    w.nelec = nelec ∧ w.nspin = nspin ∧ w.dict = dictOf w.sds ∧ w.sds.Nodup ∧ nelec ≠ 0 ∧ nelec % 2 = 0 ∧ nelec ≤ nspin ∧
      nspin % 2 = 0 ∧ ∀ x, x ∈ w.sds ↔ ClosedSd (nspin / 2) nelec x ∧
        (Finset.range (nelec / 2) \ spatial (nspin / 2) x).card ≤ 1 := by
  obtain ⟨h1, -, -, h2, h3⟩ := C55_ci_pairs h
  obtain ⟨-, -, -, h4, h5, h6⟩ := (C55_ci_pairs_exists nelec nspin params t s).1 ⟨w, h⟩
  have hd : w.nelec = nelec ∧ w.nspin = nspin ∧ w.dict = dictOf w.sds := by
    unfold ciPairsInit at h
    split_ifs at h
    rw [init_eq] at h
    split_ifs at h
    rcases hs : (do
      assignSds nelec nspin (some 0) (some 0) (← sdList nelec nspin none (some [2]) (some 0) (some 0) false) :
        Except PyErr (List ℕ)) with e | l
    · rw [hs] at h; cases h
    · rw [hs] at h
      simp only [Except.map] at h
      injection h with h
      subst h
      exact ⟨rfl, rfl, rfl⟩
  refine ⟨hd.1, hd.2.1, hd.2.2, h2, by omega, h1, h5, h6, fun x => ?_⟩
  rw [h3]
  have e : (Finset.range (nelec / 2)).filter (fun i => x.testBit i = false) =
      Finset.range (nelec / 2) \ spatial (nspin / 2) x := by
    ext i
    rw [Finset.mem_filter, Finset.mem_sdiff, mem_spatial, Finset.mem_range]
    refine and_congr_right fun hi => ?_
    have : i < nspin / 2 := by omega
    simp [this]
  rw [e, show nspin = 2 * (nspin / 2) by omega]
  simp only [show 2 * (nspin / 2) / 2 = nspin / 2 by omega]
  exact ⟨fun ⟨a, b, c, d⟩ => ⟨⟨a, b, c⟩, d⟩, fun ⟨⟨a, b, c⟩, d⟩ => ⟨a, b, c, d⟩⟩

theorem spatial_ground {nelec nspin g : ℕ} (hg : ground nelec nspin = .ok g) (he : nelec % 2 = 0) (hs : nspin % 2 = 0) :
    ClosedSd (nspin / 2) nelec g ∧ spatial (nspin / 2) g = Finset.range (nelec / 2) := by
  have hne : ¬ ∃ e, ground nelec nspin = .error e := by rw [hg]; simp
  rw [C03_ground_error] at hne
  have hb := (C03_ground nelec nspin g hg).1
  obtain ⟨f1, f2, f3⟩ := ground_ok_facts hg
  refine ⟨⟨by rwa [show 2 * (nspin / 2) = nspin by omega], f3, fun i hi => ?_⟩, ?_⟩
  · rw [Bool.eq_iff_iff, hb, hb]; omega
  · ext i
    rw [mem_spatial, hb, Finset.mem_range]
    omega

/-- C98. `to_ap1rog` with the determinant of index `k` as the reference.  It succeeds if and only if this determinant is the
ground state, or there is only one pair of electrons, or only one empty orbital, and raises `KeyError` otherwise. If it
succeeds, the overlap of the resulting wavefunction with every determinant of the CI wavefunction is the coefficient of this
determinant divided by that of the reference. -/
theorem C98_convert [CharZero R] {nelec nspin : ℕ} {params : Option (List R)} {t s : Option ℤ} {w : CI.Wfn R}
    (hw : ciPairsInit nelec nspin params t s = .ok w) (hlen : w.params.length = w.sds.length) (k : ℕ) (hk : k < w.sds.length)
    (hk0 : w.params.getD k 0 ≠ 0) :
    ((ground nelec nspin = .ok (w.sds.getD k 0) ∨ nelec = 2 ∨ nspin = nelec + 2) →
      ∃ ap, toAP1roG w k = .ok ap ∧ ap.nelec = nelec ∧ ap.nspin = nspin ∧ ap.ref = w.sds.getD k 0 ∧
        ∀ j < w.sds.length, ap.overlap (w.sds.getD j 0) = .ok (w.params.getD j 0 / w.params.getD k 0)) ∧
    (¬ (ground nelec nspin = .ok (w.sds.getD k 0) ∨ nelec = 2 ∨ nspin = nelec + 2) → toAP1roG w k = .error .keyError) := by
  obtain ⟨d1, d2, d3, d4, d5, d6, d7, d8, d9⟩ := ciPairs_space hw
  have hn : 0 < nspin / 2 := by omega
  have hgetD : ∀ j < w.sds.length, w.sds[j]? = some (w.sds.getD j 0) := fun j hj => by
    rw [List.getD_eq_getElem _ _ hj, List.getElem?_eq_getElem hj]
  have hpick : ∀ j < w.sds.length, CI.pick w.params j = .ok (w.params.getD j 0) := fun j hj => by
    rw [CI.pick, List.getElem?_eq_getElem (by omega), List.getD_eq_getElem _ _ (by omega)]
  have hmem : ∀ j < w.sds.length, w.sds.getD j 0 ∈ w.sds := fun j hj => by
    rw [List.getD_eq_getElem _ _ hj]; exact List.getElem_mem hj
  set ref := w.sds.getD k 0 with hrefdef
  have href := (d9 ref).1 (hmem k hk)
  set n := nspin / 2 with hndef
  set m := nelec / 2 with hmdef
  set A := spatial n ref with hAdef
  have hA : A.card = m := by have := href.1.card_spatial; rw [hAdef]; omega
  have hAn : A ⊆ Finset.range n := Finset.filter_subset _ _
  have hcond : (ground nelec nspin = .ok ref ∨ nelec = 2 ∨ nspin = nelec + 2) ↔ (A = Finset.range m ∨ m = 1 ∨ n = m + 1) := by
    have e1 : ground nelec nspin = .ok ref ↔ A = Finset.range m := by
      rcases hg : ground nelec nspin with e | g
      · have := (C03_ground_error nelec nspin).1 ⟨e, hg⟩
        omega
      · obtain ⟨g1, g2⟩ := spatial_ground hg d6 d8
        constructor
        · intro h
          injection h with h
          rw [hAdef, ← h]; exact g2
        · intro h
          rw [ClosedSd.ext g1 href.1 (g2.trans h.symm)]
    rw [e1]
    exact or_congr Iff.rfl (or_congr (by omega) (by omega))
  obtain ⟨ap, hap⟩ := ap1rog_init_closed d5 d6 d8 hn href.1 (fun _ _ => (0 : R))
  obtain ⟨-, r, pairs, -, hr2, hr3, hp, hsub, hapeq⟩ := ap1rog_init_ok hap
  obtain rfl : r = ref := hr3 ref rfl
  obtain ⟨-, hfl, hplen⟩ := apigOrbpairs_ok hp
  have hplen : pairs.length = n := by omega
  have hsp : splitSpin ref (w.nspin / 2 : ℕ) = .ok (ref % 2 ^ n, ref / 2 ^ n) := by rw [d2]; exact splitSpin_ok hn
  set L := (occIndices (some (ref % 2 ^ n))).flatMap fun i => (virIndices (some (ref % 2 ^ n)) (n : ℕ)).map fun a => (i, a) with hL
  have hLmem : ∀ p : ℕ × ℕ, p ∈ L ↔ p.1 ∈ A ∧ p.2 < n ∧ p.2 ∉ A := by
    rintro ⟨i, a⟩
    simp only [hL, List.mem_flatMap, List.mem_map, Prod.mk.injEq, mem_occ_spatial, mem_virIndices, Nat.testBit_mod_two_pow]
    constructor
    · rintro ⟨i', hi', a', ⟨ha1, ha2⟩, rfl, rfl⟩
      have : a' < n := by exact_mod_cast ha1
      refine ⟨hi', this, fun hc => ?_⟩
      rw [hAdef, mem_spatial] at hc
      simp [this, hc.2] at ha2
    · rintro ⟨h1, h2, h3⟩
      refine ⟨i, h1, a, ⟨by exact_mod_cast h2, ?_⟩, rfl, rfl⟩
      rw [hAdef, mem_spatial] at h3
      simp only [h2, true_and, Bool.not_eq_true] at h3
      simp [h3]
  set ci := w.params.map (· / w.params.getD k 0) with hci
  have hto : toAP1roG w k = (L.foldlM (fillCoeff w ci ap) fun _ _ => 0).map fun G => { ap with params := G } := by
    rw [toAP1roG, CI.pick, hgetD k hk]
    simp only [bind, Except.bind]
    rw [hsp]
    simp only
    rw [hpick k hk]
    simp only
    rw [d1, d2, hap]
    simp only [pure, Except.pure]
    rw [← hndef, ← hL, ← hci]
    cases L.foldlM (fillCoeff w ci ap) fun _ _ => 0 <;> rfl
  -- one step
  have hrow : ∀ i ∈ A, pairKey w.nspin ap.refPairs i = .ok (ap.refPairs.idxOf (i, i + n)) := by
    intro i hi
    rw [pairKey, d2, hapeq]
    exact if_pos ((mem_refPairs hfl hplen hsub hr2).2 (mem_occ_spatial.2 hi))
  have hcol : ∀ a, a < n → a ∉ A → pairKey w.nspin ap.virPairs a = .ok (ap.virPairs.idxOf (a, a + n)) := by
    intro a h1 h2
    rw [pairKey, d2, hapeq]
    exact if_pos ((mem_virPairs hfl hplen hsub hr2).2 ⟨h1, fun h => h2 (mem_occ_spatial.1 h)⟩)
  have hapref : ap.ref = ref := by rw [hapeq]
  have hval : ∀ p ∈ L, ∃ y, ClosedSd n nelec y ∧ spatial n y = insert p.2 (A.erase p.1) ∧
      ∀ G, fillCoeff w ci ap G p = (ciValue w ci (some y)).map fun v r c =>
        if r = ap.refPairs.idxOf (p.1, p.1 + n) ∧ c = ap.virPairs.idxOf (p.2, p.2 + n) then v else G r c := by
    intro p hp
    obtain ⟨q1, q2, q3⟩ := (hLmem p).1 hp
    obtain ⟨y, e1, e2, e3⟩ := exciteBoth_ok href.1 q1 q2 q3
    refine ⟨y, e2, e3, fun G => ?_⟩
    rw [fillCoeff, hapref, d2, ← hndef, e1]
    simp only [bind, Except.bind]
    rw [← d2, hrow _ q1]
    simp only
    rw [hcol _ q2 q3]
    cases ciValue w ci (some y) <;> rfl
  have hciv : ∀ y, y ∉ w.sds → ciValue w ci (some y) = .error .keyError := by
    intro y hy
    rw [ciValue, Option.bind_some, d3, (dictOf_none _ _).2 hy]
  have hciv' : ∀ j < w.sds.length, ciValue w ci (some (w.sds.getD j 0)) = .ok (w.params.getD j 0 / w.params.getD k 0) := by
    intro j hj
    rw [ciValue, Option.bind_some, d3, (dictOf_nodup d4 _ _).2 (hgetD j hj)]
    simp only [CI.pick, hci]
    rw [List.getElem?_map, List.getElem?_eq_getElem (by omega), List.getD_eq_getElem _ _ (show j < w.params.length by omega)]
    rfl
  have hidx : ∀ y ∈ w.sds, ∃ j < w.sds.length, w.sds.getD j 0 = y := by
    intro y hy
    obtain ⟨j, hj, e⟩ := List.mem_iff_getElem.1 hy
    exact ⟨j, hj, by rw [List.getD_eq_getElem _ _ hj, e]⟩
  have hstep : ∀ p ∈ L, ∀ G, (∃ G', fillCoeff w ci ap G p = .ok G') ∨ fillCoeff w ci ap G p = .error .keyError := by
    intro p hp G
    obtain ⟨y, -, -, e⟩ := hval p hp
    rw [e]
    by_cases hy : y ∈ w.sds
    · obtain ⟨j, hj, rfl⟩ := hidx y hy
      rw [hciv' j hj]
      exact Or.inl ⟨_, rfl⟩
    · rw [hciv y hy]
      exact Or.inr rfl
  rw [hcond]
  constructor
  · intro hc
    have hin : ∀ p ∈ L, ∃ j < w.sds.length, spatial n (w.sds.getD j 0) = insert p.2 (A.erase p.1) ∧
        ∀ G, fillCoeff w ci ap G p = .ok fun r c =>
          if r = ap.refPairs.idxOf (p.1, p.1 + n) ∧ c = ap.virPairs.idxOf (p.2, p.2 + n)
            then w.params.getD j 0 / w.params.getD k 0 else G r c := by
      intro p hp
      obtain ⟨y, e1, e2, e3⟩ := hval p hp
      obtain ⟨q1, q2, q3⟩ := (hLmem p).1 hp
      have hy : y ∈ w.sds := (d9 y).2 ⟨e1, by rw [e2]; exact pairs_stay hA hAn hc q1 q2 q3⟩
      obtain ⟨j, hj, rfl⟩ := hidx y hy
      refine ⟨j, hj, e2, fun G => ?_⟩
      rw [e3, hciv' j hj]
      rfl
    choose! J hJ1 hJ2 hJ3 using hin
    have hLn : L.Nodup := by
      rw [hL, List.nodup_flatMap]
      constructor
      · intro i _
        refine List.Nodup.map (fun a b h => (Prod.mk.inj h).2) ?_
        rw [virIndices]
        split_ifs
        · exact List.nodup_nil
        · exact List.nodup_range.filter _
      · refine (nodup_occIndices _).imp ?_
        intro a b hab
        simp only [Function.onFun]
        intro q hq hq'
        obtain ⟨_, -, rfl⟩ := List.mem_map.1 hq
        obtain ⟨_, -, e⟩ := List.mem_map.1 hq'
        exact hab (Prod.mk.inj e).1.symm
    have hrp : ∀ i ∈ A, (i, i + n) ∈ ap.refPairs := fun i hi => by
      rw [hapeq]; exact (mem_refPairs hfl hplen hsub hr2).2 (mem_occ_spatial.2 hi)
    have hvp : ∀ a, a < n → a ∉ A → (a, a + n) ∈ ap.virPairs := fun a h1 h2 => by
      rw [hapeq]; exact (mem_virPairs hfl hplen hsub hr2).2 ⟨h1, fun h => h2 (mem_occ_spatial.1 h)⟩
    obtain ⟨G, g1, g2, -⟩ := fold_write (row := fun i => ap.refPairs.idxOf (i, i + n))
      (col := fun a => ap.virPairs.idxOf (a, a + n)) (val := fun p => w.params.getD (J p) 0 / w.params.getD k 0) L
      (fun _ _ => 0) hLn hJ3 (by
        intro p hp q hq e1 e2
        obtain ⟨p1, p2, p3⟩ := (hLmem p).1 hp
        have f1 := (List.idxOf_inj (hrp _ p1)).1 e1
        have f2 := (List.idxOf_inj (hvp _ p2 p3)).1 e2
        exact Prod.ext (Prod.mk.inj f1).1 (Prod.mk.inj f2).1)
    refine ⟨{ ap with params := G }, by rw [hto, g1]; rfl, by rw [hapeq], by rw [hapeq], by rw [hapeq], ?_⟩
    intro j hj
    set x := w.sds.getD j 0 with hx
    have hxm := (d9 x).1 (hmem j hj)
    have hX : (spatial n x).card = m := by have := hxm.1.card_spatial; omega
    have hover : ({ ap with params := G } : AP1roG R).inds x = .ok (some
        (((occIndices (some (ref % 2 ^ n))).filter (· ∉ occIndices (some (x % 2 ^ n)))).map fun i =>
          ap.refPairs.idxOf (i, i + n),
        ((occIndices (some (x % 2 ^ n))).filter (· ∉ occIndices (some (ref % 2 ^ n)))).map fun i =>
          ap.virPairs.idxOf (i, i + n))) := by
      have := ap1rog_inds hfl hndef.symm hn hplen hsub hr2 nelec (nelec / 2) G (sd := x) hxm.1.split (by
        rw [← List.toFinset_card_of_nodup (nodup_occIndices _), ← List.toFinset_card_of_nodup (nodup_occIndices _),
          toFinset_occ_spatial, toFinset_occ_spatial, hX]
        exact hA.symm)
      rw [hapeq]
      exact this
    set rows := (occIndices (some (ref % 2 ^ n))).filter (· ∉ occIndices (some (x % 2 ^ n))) with hrows
    set cols := (occIndices (some (x % 2 ^ n))).filter (· ∉ occIndices (some (ref % 2 ^ n))) with hcols
    have hrl : rows.length = (A \ spatial n x).card := by
      rw [← List.toFinset_card_of_nodup ((nodup_occIndices _).filter _)]
      congr 1
      ext i
      simp [hrows, mem_occ_spatial, hAdef]
    have hcl : cols.length = (spatial n x \ A).card := by
      rw [← List.toFinset_card_of_nodup ((nodup_occIndices _).filter _)]
      congr 1
      ext i
      simp [hcols, mem_occ_spatial, hAdef]
    have hcr : cols.length = rows.length := by
      rw [hrl, hcl]
      have h1 := Finset.card_sdiff_add_card_inter A (spatial n x)
      have h2 := Finset.card_sdiff_add_card_inter (spatial n x) A
      rw [Finset.inter_comm] at h2
      omega
    rw [AP1roG.overlap, hover]
    simp only [bind, Except.bind, AP1roG.overlapOf, List.length_map]
    have hle := pairs_near hA hAn hX (Finset.filter_subset _ _) hxm.2 hc
    rw [← hrl] at hle
    by_cases h0 : rows.length = 0
    · rw [if_pos ⟨hcr.symm, by omega⟩]
      have hAX : A = spatial n x := by
        rw [hrl, Finset.card_eq_zero, Finset.sdiff_eq_empty_iff_subset] at h0
        exact Finset.eq_of_subset_of_card_le h0 (by omega)
      have hxr : ref = x := ClosedSd.ext href.1 hxm.1 hAX
      have hjk : k = j := by
        apply (List.getElem?_inj hk d4).1
        rw [hgetD k hk, hgetD j hj, ← hrefdef, hxr]
      rw [← hjk, div_self hk0]
    · rw [if_neg (by omega)]
      obtain ⟨i, hi⟩ := List.length_eq_one_iff.1 (show rows.length = 1 by omega)
      obtain ⟨a, ha⟩ := List.length_eq_one_iff.1 (show cols.length = 1 by omega)
      have him : i ∈ A ∧ i ∉ spatial n x := by
        have : i ∈ rows := by rw [hi]; simp
        simpa [hrows, mem_occ_spatial, hAdef] using this
      have ham : a ∈ spatial n x ∧ a ∉ A := by
        have : a ∈ cols := by rw [ha]; simp
        simpa [hcols, mem_occ_spatial, hAdef] using this
      have han : a < n := (mem_spatial.1 ham.1).1
      have hpL : (i, a) ∈ L := (hLmem _).2 ⟨him.1, han, ham.2⟩
      rw [hi, ha, List.map_cons, List.map_nil, List.map_cons, List.map_nil, permanent_perL _ (by simp) (by simp), perL_one]
      have hv := g2 (i, a) hpL
      simp only at hv
      rw [hv]
      have hset : spatial n x = insert a (A.erase i) := by
        symm
        apply Finset.eq_of_subset_of_card_le
        · intro b hb
          rcases Finset.mem_insert.1 hb with rfl | hb
          · exact ham.1
          · obtain ⟨hb1, hb2⟩ := Finset.mem_erase.1 hb
            by_contra hbx
            have : b ∈ rows := by simpa [hrows, mem_occ_spatial, hAdef] using ⟨hb2, hbx⟩
            rw [hi, List.mem_singleton] at this
            exact hb1 this
        · rw [Finset.card_insert_of_notMem (by simp [ham.2]), Finset.card_erase_of_mem him.1]
          omega
      have hJj : J (i, a) = j := by
        apply (List.getElem?_inj (hJ1 _ hpL) d4).1
        rw [hgetD _ (hJ1 _ hpL), hgetD j hj]
        congr 1
        exact ClosedSd.ext ((d9 _).1 (hmem _ (hJ1 _ hpL))).1 hxm.1 ((hJ2 _ hpL).trans hset.symm)
      rw [hJj]
  · intro hc
    push Not at hc
    obtain ⟨i, hi, a, ha1, ha2, ha3⟩ := pairs_leave hA (by omega) href.2 hc.1 hc.2.1 hc.2.2 (Or.inr hAn)
    rw [hto, fold_fail L _ hstep]
    · rfl
    · refine ⟨(i, a), (hLmem _).2 ⟨hi, ha1, ha2⟩, fun G => ?_⟩
      obtain ⟨y, e1, e2, e3⟩ := hval (i, a) ((hLmem _).2 ⟨hi, ha1, ha2⟩)
      rw [e3, hciv]
      · rfl
      · intro hy
        have := ((d9 y).1 hy).2
        rw [e2] at this
        exact ha3 this

/-- C98. The overlap of the resulting wavefunction with a determinant with another number of electrons, or with a singly
occupied spatial orbital, is zero, as that of the CI wavefunction. -/
theorem C98_zero [CharZero R] {nelec nspin : ℕ} {params : Option (List R)} {t s : Option ℤ} {w : CI.Wfn R}
    (hw : ciPairsInit nelec nspin params t s = .ok w) (k : ℕ) {ap : AP1roG R} (hap : toAP1roG w k = .ok ap) (sd : ℕ)
    (hsd : (occSet sd).card ≠ nelec ∨ ∃ i < nspin / 2, ¬ (i ∈ occSet sd ↔ i + nspin / 2 ∈ occSet sd)) :
    ap.overlap sd = .ok 0 ∧ (sd < 2 ^ nspin → w.overlap sd = .ok 0) := by
  obtain ⟨d1, d2, d3, d4, d5, d6, d7, d8, d9⟩ := ciPairs_space hw
  constructor
  · rw [toAP1roG] at hap
    simp only [bind, Except.bind] at hap
    rcases h1 : CI.pick w.sds k with e | ref
    · rw [h1] at hap; cases hap
    rw [h1] at hap
    simp only at hap
    rw [splitSpin_ok (by omega)] at hap
    simp only at hap
    rcases h2 : CI.pick w.params k with e | c
    · rw [h2] at hap; cases hap
    rw [h2] at hap
    simp only at hap
    rcases h3 : AP1roG.init w.nelec w.nspin none none (some ref) (fun _ _ => (0 : R)) with e | ap0
    · rw [h3] at hap; cases hap
    rw [h3] at hap
    simp only at hap
    split at hap
    · cases hap
    · next G _ =>
      simp only [pure, Except.pure, Except.ok.injEq] at hap
      refine C36_zero nelec nspin none none (some ref) G ap ?_ sd hsd
      rw [← hap, ← d1, ← d2]
      obtain ⟨-, r, pairs, -, -, hr3, hp, hsub, hapeq⟩ := ap1rog_init_ok h3
      obtain rfl := hr3 ref rfl
      rw [AP1roG.init] at h3 ⊢
      simp only [bind, Except.bind, pure, Except.pure] at h3 ⊢
      repeat' split at h3
      all_goals first | cases h3 | skip
      all_goals simp_all
  · intro hlt
    have hno : sd ∉ w.sds := by
      intro h
      obtain ⟨h1, -⟩ := (d9 sd).1 h
      rcases hsd with h | ⟨i, hi, h⟩
      · exact h h1.card
      · rw [mem_occSet, mem_occSet, h1.pair i hi] at h
        exact h Iff.rfl
    rw [CI.Wfn.overlap, d3, (dictOf_none _ _).2 hno]

/-- C98, a case in which the conversion fails: four electrons in four spatial orbitals, and the determinant in which the
orbitals 0 and 2 are occupied as the reference. -/
theorem C98_fails [CharZero R] (params : Option (List R)) (w : CI.Wfn R) (hw : ciPairsInit 4 8 params none none = .ok w)
    (hlen : w.params.length = w.sds.length) :
    ∃ k < w.sds.length, w.sds.getD k 0 = 85 ∧ (w.params.getD k 0 ≠ 0 → toAP1roG w k = .error .keyError) := by
  obtain ⟨-, -, -, -, h⟩ := C55_ci_pairs hw
  have hm : (85 : ℕ) ∈ w.sds := (h 85).2 (by decide +kernel)
  obtain ⟨k, hk, e⟩ := List.mem_iff_getElem.1 hm
  have e' : w.sds.getD k 0 = 85 := by rw [List.getD_eq_getElem _ _ hk, e]
  refine ⟨k, hk, e', fun h0 => (C98_convert hw hlen k hk h0).2 ?_⟩
  rw [e']
  decide +kernel

example : ∃ w : CI.Wfn ℚ, ciPairsInit 4 8 none none none = .ok w ∧ w.params.length = w.sds.length ∧
    ∃ k < w.sds.length, ground 4 8 = .ok (w.sds.getD k 0) := by
  obtain ⟨w, hw⟩ := (C55_ci_pairs_exists (R := ℚ) 4 8 none none none).2 (by simp)
  obtain ⟨-, -, -, -, h⟩ := C55_ci_pairs hw
  have hm : (51 : ℕ) ∈ w.sds := (h 51).2 (by decide +kernel)
  obtain ⟨k, hk, e⟩ := List.mem_iff_getElem.1 hm
  refine ⟨w, hw, ?_, k, hk, ?_⟩
  · unfold ciPairsInit at hw
    split_ifs at hw
    rw [(init_ok hw).2.2]
    simp [defaultParams]
  · rw [List.getD_eq_getElem _ _ hk, e]
    decide +kernel

end Fanpy.Props
