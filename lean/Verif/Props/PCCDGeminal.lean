import Verif.Props.PCCD
import Verif.Lemmas.PCCDPairs

/-! # Property C64: pair coupled cluster doubles is AP1roG -/

namespace Fanpy.Props
open Fanpy.Spec Fanpy.Slater Fanpy.Graphs Fanpy.It Fanpy.CC Fanpy.Lemmas Fanpy.Geminal
open Fanpy.PCCD (partner pairSet pairBlock mem_pairSet)

theorem flat_pairs {n : ℕ} {A : List ℕ} (hn : A.Nodup) (hA : ∀ i ∈ A, i < n) :
    (A.flatMap fun i => [i, i + n]).Nodup ∧ (A.flatMap fun i => [i, i + n]).toFinset = pairSet n A.toFinset := by
  constructor
  · rw [List.nodup_flatMap]
    refine ⟨fun i hi => by have := hA i hi; simp; omega, hn.imp_of_mem ?_⟩
    intro i j hi hj hij x hx hy
    have := hA i hi
    have := hA j hj
    simp at hx hy
    omega
  · ext x
    rw [List.mem_toFinset, mem_pairSet, List.mem_toFinset, List.mem_toFinset, List.mem_flatMap]
    constructor
    · rintro ⟨i, hi, hx⟩
      simp at hx
      rcases hx with rfl | rfl
      · exact Or.inl hi
      · exact Or.inr ⟨by omega, by rwa [Nat.add_sub_cancel]⟩
    · rintro (h | ⟨h1, h2⟩)
      · exact ⟨x, h, by simp⟩
      · exact ⟨x - n, h2, by simp; omega⟩

/-- the products of pair excitations between two determinants -/
theorem pccd_paths {n p : ℕ} {exops : List (List ℕ)} (hE : ∀ key, key ∈ exops ↔ IsPairDouble n p key) (hpn : p ≤ n) {A C a c : List ℕ}
    (hA : A.Pairwise (· < ·)) (hC : C.Nodup) (hAp : ∀ i ∈ A, i < p) (hCp : ∀ v ∈ C, p ≤ v ∧ v < n) (hl : A.length = C.length)
    (ha : a.Nodup) (hc : c.Nodup) (has : a.toFinset = pairSet n A.toFinset) (hcs : c.toFinset = pairSet n C.toFinset)
    (S : List (List ℕ × List ℕ)) :
    IsPath [2] exops a c S ↔ ∃ q : List ℕ, q.Perm C ∧ S = List.zipWith (pairBlock n) A q := by
  have hAn : A.Nodup := hA.imp fun h => by omega
  constructor
  · intro h
    have hS : ∀ q ∈ S, q = pairBlock n (q.1.headD 0) (q.2.headD 0) ∧ q.1.headD 0 < p ∧ p ≤ q.2.headD 0 ∧ q.2.headD 0 < n := by
      intro q hq
      obtain ⟨o, v, ho, hv, hvn, e⟩ := (hE _).1 (h.mem q hq)
      obtain ⟨e1, e2⟩ := List.append_inj (s₁ := q.1) (t₁ := q.2) (s₂ := [o, o + n]) (t₂ := [v, v + n]) e (by
        have h1 := h.len q hq
        have h2 := congrArg List.length e
        rw [List.length_append] at h2
        simp at h2 ⊢; omega)
      refine ⟨Prod.ext ?_ ?_, ?_, ?_⟩
      · rw [e1]; rfl
      · rw [e2]; rfl
      · rw [e1]; exact ho
      · rw [e2]; exact ⟨hv, hvn⟩
    have heq : S = List.zipWith (pairBlock n) (S.map fun q => q.1.headD 0) (S.map fun q => q.2.headD 0) := by
      rw [List.zipWith_map, List.zipWith_self]
      conv_lhs => rw [← List.map_id S]
      exact List.map_congr_left fun q hq => (hS q hq).1
    have hfA : (S.map fun q => q.1.headD 0) = A := by
      refine List.Perm.eq_of_pairwise (le := (· < ·)) (fun a b _ _ h1 h2 => by omega) ?_ hA ?_
      · rw [List.pairwise_map]
        refine h.order.imp_of_mem ?_
        intro x y hx hy hxy
        rcases hxy with hxy | ⟨-, hxy⟩
        · have h1 := h.rank x hx
          have h2 := h.rank y hy
          simp at h1 h2; omega
        · exact hxy
      · refine (List.perm_ext_iff_of_nodup ?_ hAn).2 ?_
        · have : (S.map fun q => q.1.headD 0).Pairwise (· < ·) := by
            rw [List.pairwise_map]
            refine h.order.imp_of_mem ?_
            intro x y hx hy hxy
            rcases hxy with hxy | ⟨-, hxy⟩
            · have h1 := h.rank x hx
              have h2 := h.rank y hy
              simp at h1 h2; omega
            · exact hxy
          exact this.imp fun h => by omega
        · intro x
          have hx : x ∈ S.flatMap Prod.fst ↔ x ∈ A ∨ (n ≤ x ∧ x - n ∈ A) := by
            rw [h.ann.mem_iff, ← List.mem_toFinset, has, mem_pairSet, List.mem_toFinset, List.mem_toFinset]
          constructor
          · intro hm
            obtain ⟨q, hq, rfl⟩ := List.mem_map.1 hm
            obtain ⟨e, e1, -⟩ := hS q hq
            rcases hx.1 (List.mem_flatMap.2 ⟨q, hq, by rw [e]; simp [pairBlock]⟩) with h | ⟨h, -⟩
            · exact h
            · omega
          · intro hm
            obtain ⟨q, hq, hxq⟩ := List.mem_flatMap.1 (hx.2 (Or.inl hm))
            obtain ⟨e, e1, -⟩ := hS q hq
            have hxp := hAp x hm
            rw [e] at hxq
            simp only [pairBlock, List.mem_cons, List.not_mem_nil, or_false] at hxq
            exact List.mem_map.2 ⟨q, hq, by omega⟩
    refine ⟨S.map fun q => q.2.headD 0, ?_, by rw [← hfA]; exact heq⟩
    have hfil : ∀ T : List (List ℕ × List ℕ), (∀ q ∈ T, q = pairBlock n (q.1.headD 0) (q.2.headD 0) ∧ q.1.headD 0 < p ∧ p ≤ q.2.headD 0 ∧
        q.2.headD 0 < n) → (T.map fun q => q.2.headD 0) = (T.flatMap Prod.snd).filter (· < n) := by
      intro T
      induction T with
      | nil => intro _; rfl
      | cons q T ih =>
        intro hT
        obtain ⟨e, -, -, e3⟩ := hT q (by simp)
        rw [List.map_cons, List.flatMap_cons, List.filter_append, ih fun q hq => hT q (by simp [hq])]
        have : q.2.filter (· < n) = [q.2.headD 0] := by
          rw [e]
          simp only [pairBlock, List.headD_cons]
          rw [List.filter_cons_of_pos (by simpa using e3), List.filter_cons_of_neg (by simp), List.filter_nil]
        rw [this]; rfl
    rw [hfil S hS]
    refine (h.cre.filter _).trans ((List.perm_ext_iff_of_nodup (hc.filter _) hC).2 ?_)
    intro x
    rw [List.mem_filter, ← List.mem_toFinset, hcs, mem_pairSet, List.mem_toFinset, List.mem_toFinset, decide_eq_true_eq]
    constructor
    · rintro ⟨h | ⟨h1, -⟩, h2⟩
      · exact h
      · omega
    · intro hx; exact ⟨Or.inl hx, (hCp x hx).2⟩
  · rintro ⟨q, hq, rfl⟩
    have hlq : A.length = q.length := hl.trans hq.length_eq.symm
    have hz : List.zipWith (pairBlock n) A q = (A.zip q).map fun z => pairBlock n z.1 z.2 := by
      rw [List.zip, List.map_zipWith]
    have hm1 : (A.zip q).map Prod.fst = A := List.map_fst_zip hlq.le
    have hm2 : (A.zip q).map Prod.snd = q := List.map_snd_zip hlq.ge
    rw [hz]
    have hmem : ∀ z ∈ A.zip q, z.1 ∈ A ∧ z.2 ∈ C := by
      intro z hz
      exact ⟨by rw [← hm1]; exact List.mem_map_of_mem hz, hq.mem_iff.1 (by rw [← hm2]; exact List.mem_map_of_mem hz)⟩
    have hfst : ((A.zip q).map fun z => pairBlock n z.1 z.2).flatMap Prod.fst = A.flatMap fun i => [i, i + n] := by
      rw [List.flatMap_map]
      conv_rhs => rw [← hm1]
      rw [List.flatMap_map]; rfl
    have hsnd : ((A.zip q).map fun z => pairBlock n z.1 z.2).flatMap Prod.snd = q.flatMap fun i => [i, i + n] := by
      rw [List.flatMap_map]
      conv_rhs => rw [← hm2]
      rw [List.flatMap_map]; rfl
    obtain ⟨fa1, fa2⟩ := flat_pairs hAn fun i hi => lt_of_lt_of_le (hAp i hi) hpn
    obtain ⟨fc1, fc2⟩ := flat_pairs (hq.nodup_iff.2 hC) fun i hi => (hCp i (hq.mem_iff.1 hi)).2
    constructor
    · intro x hx
      obtain ⟨z, -, rfl⟩ := List.mem_map.1 hx
      simp [pairBlock]
    · intro x hx
      obtain ⟨z, hz, rfl⟩ := List.mem_map.1 hx
      obtain ⟨z1, z2⟩ := hmem z hz
      rw [hE]
      exact ⟨z.1, z.2, hAp _ z1, (hCp _ z2).1, (hCp _ z2).2, rfl⟩
    · intro x hx
      obtain ⟨z, -, rfl⟩ := List.mem_map.1 hx
      rfl
    · intro x hx
      obtain ⟨z, hz, rfl⟩ := List.mem_map.1 hx
      have := hAp _ (hmem z hz).1
      simp [pairBlock]; omega
    · intro x hx
      obtain ⟨z, hz, rfl⟩ := List.mem_map.1 hx
      have := hCp _ (hmem z hz).2
      simp [pairBlock]; omega
    · rw [hfst]
      refine (List.perm_ext_iff_of_nodup fa1 ha).2 fun x => ?_
      rw [← List.mem_toFinset, fa2, ← List.mem_toFinset, has]
    · rw [hsnd]
      refine (List.perm_ext_iff_of_nodup fc1 hc).2 fun x => ?_
      rw [← List.mem_toFinset, fc2, ← List.mem_toFinset, hcs]
      have : q.toFinset = C.toFinset := List.toFinset_eq_of_perm _ _ hq
      rw [this]
    · rw [List.pairwise_map]
      have := hA
      rw [← hm1, List.pairwise_map] at this
      exact this.imp fun {x y} hxy => Or.inr ⟨rfl, hxy⟩

theorem idxOf_flatMap_range {α : Type} [BEq α] [LawfulBEq α] (f : ℕ → List α) (m : ℕ) (hf : ∀ o, (f o).length = m) {k o : ℕ} (ho : o < k) {x : α}
    (hx : x ∈ f o) (hne : ∀ o', x ∈ f o' → o' = o) : ((List.range k).flatMap f).idxOf x = o * m + (f o).idxOf x := by
  have hlen : ∀ k, ((List.range k).flatMap f).length = k * m := by
    intro k
    rw [List.length_flatMap, List.map_congr_left (g := fun _ => m) fun o _ => hf o, List.map_const', List.sum_replicate, List.length_range,
      smul_eq_mul]
  induction k with
  | zero => omega
  | succ k ih =>
    rw [List.range_succ, List.flatMap_append, List.idxOf_append]
    by_cases hk : o < k
    · rw [if_pos (List.mem_flatMap.2 ⟨o, List.mem_range.2 hk, hx⟩), ih hk]
    · have hok : o = k := by omega
      subst hok
      rw [if_neg]
      · simp only [List.flatMap_cons, List.flatMap_nil, List.append_nil]
        rw [hlen]; omega
      · intro hm
        obtain ⟨o', ho', hxo⟩ := List.mem_flatMap.1 hm
        rw [List.mem_range] at ho'
        have := hne o' hxo
        omega

theorem idxOf_shifted {k m v : ℕ} {α : Type} [BEq α] [LawfulBEq α] (f : ℕ → α) (hf : ∀ a b, f a = f b → a = b) (hk : k ≤ v) (hv : v < m) :
    (((List.range m).drop k).map f).idxOf (f v) = v - k := by
  have hg : (((List.range m).drop k).map f)[v - k]'(by simp; omega) = f v := by
    rw [List.getElem_map, List.getElem_drop, List.getElem_range]
    congr 1; omega
  have hn : (((List.range m).drop k).map f).Nodup := (List.nodup_range.sublist (List.drop_sublist _ _)).map fun a b h => hf a b h
  rw [← hg, hn.idxOf_getElem]

/-- the ground state of an even number of electrons has no unpaired electrons -/
theorem ground_seniority {nelec nspin g : ℕ} (hg : ground nelec nspin = .ok g) (he : nelec % 2 = 0) :
    g / 2 ^ (nspin / 2) = g % 2 ^ (nspin / 2) ∧ occIndices (some (g % 2 ^ (nspin / 2))) = List.range (nelec / 2) := by
  obtain ⟨h1, h2, h3, h4, h5, h6, h7⟩ := ground_even hg he
  obtain ⟨hb, -, -⟩ := C03_ground nelec nspin g hg
  constructor
  · apply Nat.eq_of_testBit_eq
    intro i
    rw [Nat.testBit_div_two_pow, Nat.testBit_mod_two_pow, Bool.eq_iff_iff, Bool.and_eq_true, decide_eq_true_eq, hb, hb]
    omega
  · refine List.Perm.eq_of_pairwise (le := (· < ·)) (fun a b _ _ h1 h2 => by omega) (sorted_occIndices _) List.pairwise_lt_range ?_
    refine (List.perm_ext_iff_of_nodup (nodup_occIndices _) List.nodup_range).2 ?_
    intro i
    rw [mem_occIndices, Nat.testBit_mod_two_pow, Bool.and_eq_true, decide_eq_true_eq, hb, List.mem_range]
    omega

/-- the overlap of `PCCD` is a permanent -/
theorem pccd_permanent {R : Type} [CommRing R] [Nontrivial R] (nelec nspin : ℕ) (params : ℕ → R) (w : PCCD.Wfn R)
    (hw : PCCD.init .pccd nelec nspin false none none params false = .ok w) (g : ℕ) (hg : ground nelec nspin = .ok g) (sd : ℕ)
    (hsd : (occSet sd).card = nelec) :
    PCCD.overlap w sd = .ok (if sd / 2 ^ (nspin / 2) = sd % 2 ^ (nspin / 2) then
      perL (fun i v => -params (i * (nspin / 2 - nelec / 2) + (v - nelec / 2)))
        ((occIndices (some (g % 2 ^ (nspin / 2)))).filter (· ∉ occIndices (some (sd % 2 ^ (nspin / 2)))))
        ((occIndices (some (sd % 2 ^ (nspin / 2)))).filter (· ∉ occIndices (some (g % 2 ^ (nspin / 2))))) else 0) := by
  obtain ⟨-, e1, e2, e3, e4, e5, e6, e7, e8, g', hg', e9, -, e11, -⟩ := pccd_init_ok hw
  rw [hg] at hg'
  injection hg' with hg'
  subst hg'
  rw [Option.getD_none] at e9
  obtain ⟨hE, hi⟩ := e11 rfl
  simp only [PCCD.assignExops, PCCD.defaultExops, Except.ok.injEq] at hE
  have hr : w.base.ranks = [2] := by
    simp only [PCCD.assignRanks] at e8
    split_ifs at e8
    injection e8 with e8
    exact e8.symm
  have hkeys : ∀ key, key ∈ w.base.exops ↔ IsPairDouble (nspin / 2) (nelec / 2) key := by
    intro key
    rw [← hE]
    exact (C65_operators .pccd rfl nelec nspin g hg e2 [2]).2 key
  obtain ⟨h1, h2, h3, h4, h5, h6, h7⟩ := ground_even hg e2
  obtain ⟨-, hglt, hgcard⟩ := ground_ok_facts hg
  obtain ⟨hgs, hgr⟩ := ground_seniority hg e2
  generalize hn : nspin / 2 = n at *
  generalize hp : nelec / 2 = p at *
  have hsd' : (occSet sd).card = (occSet g).card := hsd.trans hgcard.symm
  have hnspin : nspin = 2 * n := by omega
  -- indices of the parameters
  have hidx : ∀ o v, o < p → p ≤ v → v < n → w.base.exops.idxOf [o, o + n, v, v + n] = o * (n - p) + (v - p) := by
    intro o v ho hv hvn
    rw [← hE, PCCD.pairDoubles, h5, h7, hn]
    rw [idxOf_flatMap_range (fun o => ((List.range n).drop p).map fun v => [o, o + n, v, v + n]) (n - p) (fun o => by simp) ho
      (List.mem_map.2 ⟨v, by rw [List.range_eq_range', List.drop_range', List.mem_range'_1]; omega, rfl⟩)]
    · congr 1
      exact idxOf_shifted (fun v => [o, o + n, v, v + n]) (fun a b h => by simpa using h) hv hvn
    · intro o' ho'
      obtain ⟨v', -, e⟩ := List.mem_map.1 ho'
      simp only [List.cons.injEq] at e
      exact e.1
  have ha := sorted_occIndices ((sd ^^^ g) &&& g)
  have hc := sorted_occIndices ((sd ^^^ g) &&& sd)
  have hna : (diffOrbs sd g).2.Nodup := ha.imp fun h => by omega
  have hnc : (diffOrbs sd g).1.Nodup := hc.imp fun h => by omega
  obtain ⟨L, l1, l2, l3⟩ := possibleExops_spec [2] w.base.exops (diffOrbs sd g).2 (diffOrbs sd g).1 (by decide) (by decide) ha hc
    (diff_lengths hsd')
  obtain ⟨s, s1, s2⟩ := signExcite_diff R sd g
  have hov : sd ≠ g → PCCD.overlap w sd = .ok (s * (L.map fun S => (S.map fun q => params (w.base.exops.idxOf (q.1 ++ q.2))).prod * (sgn S : R)).sum) := by
    intro hne
    have hexp : expansion w.base sd = .ok (s, L.map (out w.base.exops)) := by
      simp [expansion, e9, hr, s1, e7, l1, bind, Except.bind, pure, Except.pure]
    rw [PCCD.overlap, if_neg (by rwa [e9]), hexp]
    simp only [bind, Except.bind, pure, Except.pure]
    congr 2
    rw [PCCD.selectRows_out w hi _ (diffOrbs sd g).2 (diffOrbs sd g).1 L fun S hS => by rw [hr]; exact (l3 S).1 hS, List.filter_eq_self.2]
    · rw [amplitudes, List.map_map, e6]
      congr 1
      apply List.map_congr_left
      intro S _
      simp only [Function.comp_apply, out, List.map_map]
      rfl
    · intro S hS
      rw [e5]
      have key := (PCCD.keepRow_iff w (n := n) (by rw [hr]; simp) (by omega) (by rw [e9, ← hnspin]; exact hglt)
        (by rw [e9, ← hn]; exact ground_closed hg e2) sd (by rw [e9, hr]; exact (l3 S).1 hS)).1
      rw [key]
      intro q hq hq1
      have := ((l3 S).1 hS).rank q hq
      simp at this; omega
  by_cases hs : sd / 2 ^ n = sd % 2 ^ n
  · rw [if_pos hs]
    -- the spatial orbitals
    have hlen : (occIndices (some (sd % 2 ^ n))).length = (occIndices (some (g % 2 ^ n))).length := by
      have c1 := card_seniority hs
      have c2 := card_seniority hgs
      omega
    generalize hA : (occIndices (some (g % 2 ^ n))).filter (· ∉ occIndices (some (sd % 2 ^ n))) = A
    generalize hC : (occIndices (some (sd % 2 ^ n))).filter (· ∉ occIndices (some (g % 2 ^ n))) = C
    have hAs : A.Pairwise (· < ·) := by rw [← hA]; exact (sorted_occIndices _).filter _
    have hCn : C.Nodup := by rw [← hC]; exact (nodup_occIndices _).filter _
    have hAn : A.Nodup := hAs.imp fun h => by omega
    have hAf : A.toFinset = occSet (g % 2 ^ n) \ occSet (sd % 2 ^ n) := by
      ext x
      rw [← hA, List.mem_toFinset, List.mem_filter, Finset.mem_sdiff, mem_occSet, mem_occSet, mem_occIndices, decide_eq_true_eq,
        mem_occIndices]
    have hCf : C.toFinset = occSet (sd % 2 ^ n) \ occSet (g % 2 ^ n) := by
      ext x
      rw [← hC, List.mem_toFinset, List.mem_filter, Finset.mem_sdiff, mem_occSet, mem_occSet, mem_occIndices, decide_eq_true_eq,
        mem_occIndices]
    have hAp : ∀ i ∈ A, i < p := by
      intro i hi
      rw [← hA, List.mem_filter, hgr, List.mem_range] at hi
      exact hi.1
    have hsn : ∀ i ∈ occSet (sd % 2 ^ n), i < n := by
      intro i hi
      rw [mem_occSet, Nat.testBit_mod_two_pow] at hi
      simp at hi; exact hi.1
    have hgn : ∀ i, i ∈ occSet (g % 2 ^ n) ↔ i < p := by
      intro i
      rw [mem_occSet, ← mem_occIndices, hgr, List.mem_range]
    have hCp : ∀ v ∈ C, p ≤ v ∧ v < n := by
      intro v hv
      rw [← List.mem_toFinset, hCf, Finset.mem_sdiff, hgn] at hv
      exact ⟨by omega, hsn v hv.1⟩
    have hl : A.length = C.length := by
      rw [← List.toFinset_card_of_nodup hAn, ← List.toFinset_card_of_nodup hCn, hAf, hCf]
      rw [length_occIndices, length_occIndices] at hlen
      have c1 := Finset.card_sdiff_add_card_inter (occSet (g % 2 ^ n)) (occSet (sd % 2 ^ n))
      have c2 := Finset.card_sdiff_add_card_inter (occSet (sd % 2 ^ n)) (occSet (g % 2 ^ n))
      rw [Finset.inter_comm] at c2
      omega
    by_cases hne : sd = g
    · subst hne
      have : A = [] := by
        rw [← hA, List.filter_eq_nil_iff]; intro a ha; simpa using ha
      subst this
      have : C = [] := List.length_eq_zero_iff.1 hl.symm
      subst this
      rw [PCCD.overlap, if_pos e9.symm, perL_nil]
    · rw [hov hne]
      congr 1
      have hpd : ∀ {I J : Finset ℕ}, (∀ i ∈ I, i < n) → (∀ i ∈ J, i < n) → pairSet n I \ pairSet n J = pairSet n (I \ J) := by
        intro I J hI hJ
        ext x
        rw [Finset.mem_sdiff, mem_pairSet, mem_pairSet, mem_pairSet, Finset.mem_sdiff, Finset.mem_sdiff]
        constructor
        · rintro ⟨h | ⟨h1, h2⟩, h3⟩
          · exact Or.inl ⟨h, fun e => h3 (Or.inl e)⟩
          · exact Or.inr ⟨h1, h2, fun e => h3 (Or.inr ⟨h1, e⟩)⟩
        · rintro (⟨ha, hb⟩ | ⟨ha, hb, hc⟩)
          · refine ⟨Or.inl ha, ?_⟩
            rintro (h | ⟨h, -⟩)
            · exact hb h
            · have := hI x ha; omega
          · refine ⟨Or.inr ⟨ha, hb⟩, ?_⟩
            rintro (h | ⟨-, h⟩)
            · have := hJ x h; omega
            · exact hc h
      have hgi : ∀ i ∈ occSet (g % 2 ^ n), i < n := fun i hi => by have := (hgn i).1 hi; omega
      have has : (diffOrbs sd g).2.toFinset = pairSet n A.toFinset := by
        rw [diffOrbs_snd_toFinset, PCCD.occSet_pairs hs, PCCD.occSet_pairs hgs, hpd hgi hsn, hAf]
      have hcs : (diffOrbs sd g).1.toFinset = pairSet n C.toFinset := by
        rw [diffOrbs_fst_toFinset, PCCD.occSet_pairs hs, PCCD.occSet_pairs hgs, hpd hsn hgi, hCf]
      have hpaths := pccd_paths hkeys h2 hAs hCn hAp hCp hl hna hnc has hcs
      have hperm : L.Perm ((perms C).map (List.zipWith (pairBlock n) A)) := by
        refine (List.perm_ext_iff_of_nodup l2 ?_).2 ?_
        · refine List.Nodup.map_on ?_ (MathTools.kperms_nodup hCn)
          intro x hx y hy e
          have hlx := ((MathTools.mem_kperms hCn).1 hx).1
          have hly := ((MathTools.mem_kperms hCn).1 hy).1
          have e' := congrArg (List.map fun b : List ℕ × List ℕ => b.2.headD 0) e
          rw [List.map_zipWith, List.map_zipWith] at e'
          have hsnd : ∀ z : List ℕ, z.length = A.length → List.zipWith (fun i v => (pairBlock n i v).2.headD 0) A z = z := by
            intro z hz
            have : List.zipWith (fun i v => (pairBlock n i v).2.headD 0) A z = (A.zip z).map Prod.snd := by
              rw [List.zip, List.map_zipWith]; rfl
            rw [this, List.map_snd_zip hz.le]
          rwa [hsnd x (by omega), hsnd y (by omega)] at e'
        · intro S
          rw [l3, hpaths, List.mem_map]
          constructor
          · rintro ⟨q, hq, rfl⟩
            exact ⟨q, (MathTools.mem_kperms hCn).2 ⟨hq.length_eq, hq.nodup_iff.2 hCn, fun x hx => hq.mem_iff.1 hx⟩, rfl⟩
          · rintro ⟨q, hq, rfl⟩
            obtain ⟨q1, q2, q3⟩ := (MathTools.mem_kperms hCn).1 hq
            exact ⟨q, (List.subperm_of_subset q2 q3).perm_of_length_le (by omega), rfl⟩
      rw [(hperm.map _).sum_eq, List.map_map, ← PCCD.perL_perms _ hl, ← List.sum_map_mul_left]
      congr 1
      apply List.map_congr_left
      intro q hq
      obtain ⟨q1, q2, q3⟩ := (MathTools.mem_kperms hCn).1 hq
      have hqC : q.Perm C := (List.subperm_of_subset q2 q3).perm_of_length_le (by omega)
      have hP := (hpaths _).2 ⟨q, hqC, rfl⟩
      rw [Function.comp_apply]
      -- the sign
      have hz : List.zipWith (pairBlock n) A q = (A.zip q).map fun z => pairBlock n z.1 z.2 := by
        rw [List.zip, List.map_zipWith]
      have hzm : ∀ z ∈ A.zip q, z.1 < p ∧ p ≤ z.2 ∧ z.2 < n := by
        intro z hz
        obtain ⟨z1, z2⟩ := List.of_mem_zip hz
        exact ⟨hAp _ z1, hCp _ (hqC.mem_iff.1 z2)⟩
      have hops : ∀ b ∈ List.zipWith (pairBlock n) A q, Op (pairSet n (Finset.Ico p n)) b := by
        intro b hb
        rw [hz] at hb
        obtain ⟨z, hz', rfl⟩ := List.mem_map.1 hb
        obtain ⟨z1, z2, z3⟩ := hzm z hz'
        refine ⟨?_, ?_, rfl, by simp [pairBlock]⟩
        · intro i hi
          simp only [pairBlock, List.mem_cons, List.not_mem_nil, or_false] at hi
          rw [mem_pairSet, Finset.mem_Ico, Finset.mem_Ico]
          omega
        · intro i hi
          simp only [pairBlock, List.mem_cons, List.not_mem_nil, or_false] at hi
          rw [mem_pairSet, Finset.mem_Ico, Finset.mem_Ico]
          omega
      have c1 := prod_coeff_path (R := R) _ hops (fun _ => 1) (occSet g) (occSet sd) ha hc (diff_lengths hsd') hP.ann hP.cre
      have c2 : (excOp (occIndices (some ((sd ^^^ g) &&& g))) (occIndices (some ((sd ^^^ g) &&& sd))) (ket (occSet g) : Fock R)) (occSet sd) =
        (s : R) := s2
      rw [c2] at c1
      simp only [one_smul, List.map_const', List.prod_replicate, one_pow, one_mul] at c1
      rw [PCCD.occSet_pairs hgs, PCCD.prod_pairs hgi A q (by omega) hAn q2 (fun i hi => (hgn i).2 (hAp i hi)) (fun v hv => by
        have := hCp v (hqC.mem_iff.1 hv)
        exact ⟨this.2, by rw [hgn]; omega⟩)] at c1
      have hJ : pairSet n (occSet (g % 2 ^ n) \ A.toFinset ∪ q.toFinset) = occSet sd := by
        rw [PCCD.occSet_pairs hs, List.toFinset_eq_of_perm _ _ hqC, hAf, hCf]
        congr 1
        ext x
        rw [Finset.mem_union, Finset.mem_sdiff, Finset.mem_sdiff, Finset.mem_sdiff]
        tauto
      rw [hJ, Finsupp.smul_apply, ket, Finsupp.single_eq_same, zsmul_one] at c1
      have hprod : (List.zipWith (fun i v => -params (i * (n - p) + (v - p))) A q).prod =
          (((-1 : ℤ) ^ A.length : ℤ) : R) * ((List.zipWith (pairBlock n) A q).map fun b => params (w.base.exops.idxOf (b.1 ++ b.2))).prod := by
        have e : ((List.zipWith (pairBlock n) A q).map fun b => params (w.base.exops.idxOf (b.1 ++ b.2))) =
            (A.zip q).map fun z => params (z.1 * (n - p) + (z.2 - p)) := by
          rw [hz, List.map_map]
          apply List.map_congr_left
          intro z hz'
          obtain ⟨z1, z2, z3⟩ := hzm z hz'
          rw [← hidx _ _ z1 z2 z3]; rfl
        have e' : List.zipWith (fun i v => -params (i * (n - p) + (v - p))) A q =
            (A.zip q).map fun z => (-1 : R) * params (z.1 * (n - p) + (z.2 - p)) := by
          rw [List.zip, List.map_zipWith]
          congr 1
          funext i v
          ring
        rw [e, e', List.prod_map_mul, List.map_const', List.prod_replicate, List.length_zip, show min A.length q.length = A.length by omega]
        push_cast
        rfl
      rw [hprod, c1]
      ring
  · rw [if_neg hs]
    have hne : sd ≠ g := by rintro rfl; exact hs hgs
    rw [hov hne]
    have hL : L = [] := by
      rw [List.eq_nil_iff_forall_not_mem]
      intro S hS
      apply hs
      have hP := (l3 S).1 hS
      have hblk : ∀ q ∈ S, ∃ i v, q = ([i, i + n], [v, v + n]) ∧ i < p ∧ p ≤ v ∧ v < n := by
        intro q hq
        obtain ⟨o, v, ho, hv, hvn, e⟩ := (hkeys _).1 (hP.mem q hq)
        obtain ⟨f1, f2⟩ := List.append_inj (s₁ := q.1) (t₁ := q.2) (s₂ := [o, o + n]) (t₂ := [v, v + n]) e (by
          have k1 := hP.len q hq
          have k2 := congrArg List.length e
          rw [List.length_append] at k2
          simp at k2 ⊢; omega)
        exact ⟨o, v, Prod.ext f1 f2, ho, hv, hvn⟩
      have hma : ∀ x, (x ∈ occSet g ∧ x ∉ occSet sd) ↔ ∃ q ∈ S, x ∈ q.1 := by
        intro x
        rw [← Finset.mem_sdiff, ← diffOrbs_snd_toFinset, List.mem_toFinset, ← hP.ann.mem_iff, List.mem_flatMap]
      have hmc : ∀ x, (x ∈ occSet sd ∧ x ∉ occSet g) ↔ ∃ q ∈ S, x ∈ q.2 := by
        intro x
        rw [← Finset.mem_sdiff, ← diffOrbs_fst_toFinset, List.mem_toFinset, ← hP.cre.mem_iff, List.mem_flatMap]
      have hpa : ∀ j < n, (∃ q ∈ S, j ∈ q.1) ↔ ∃ q ∈ S, j + n ∈ q.1 := by
        intro j hj
        constructor <;> rintro ⟨q, hq, hx⟩ <;> obtain ⟨i, v, rfl, hi, hv1, hv2⟩ := hblk q hq <;> refine ⟨_, hq, ?_⟩ <;>
          simp only [List.mem_cons, List.not_mem_nil, or_false] at hx ⊢ <;> omega
      have hpc : ∀ j < n, (∃ q ∈ S, j ∈ q.2) ↔ ∃ q ∈ S, j + n ∈ q.2 := by
        intro j hj
        constructor <;> rintro ⟨q, hq, hx⟩ <;> obtain ⟨i, v, rfl, hi, hv1, hv2⟩ := hblk q hq <;> refine ⟨_, hq, ?_⟩ <;>
          simp only [List.mem_cons, List.not_mem_nil, or_false] at hx ⊢ <;> omega
      have hgp : ∀ j < n, j ∈ occSet g ↔ j + n ∈ occSet g := by
        intro j hj
        rw [mem_occSet, mem_occSet, testBit_seniority hgs]
        simp [hj]
      apply Nat.eq_of_testBit_eq
      intro j
      rw [Nat.testBit_div_two_pow, Nat.testBit_mod_two_pow, Bool.eq_iff_iff, Bool.and_eq_true, decide_eq_true_eq, ← mem_occSet, ← mem_occSet]
      by_cases hj : j < n
      · have q1 := hma j
        have q2 := hma (j + n)
        have q3 := hmc j
        have q4 := hmc (j + n)
        have q5 := hpa j hj
        have q6 := hpc j hj
        have q7 := hgp j hj
        clear * - hj q1 q2 q3 q4 q5 q6 q7
        generalize (j ∈ occSet sd) = a1 at *
        generalize (j ∈ occSet g) = a2 at *
        generalize (j + n ∈ occSet sd) = a3 at *
        generalize (j + n ∈ occSet g) = a4 at *
        generalize (∃ q ∈ S, j ∈ q.1) = a5 at *
        generalize (∃ q ∈ S, j + n ∈ q.1) = a6 at *
        generalize (∃ q ∈ S, j ∈ q.2) = a7 at *
        generalize (∃ q ∈ S, j + n ∈ q.2) = a8 at *
        have q5' := propext q5
        have q6' := propext q6
        have q7' := propext q7
        subst q5' q6' q7'
        by_cases h1 : a1 <;> by_cases h2 : a2 <;> by_cases h3 : a3 <;> simp_all
      · constructor
        · intro hjs
          exfalso
          have hjg : j + n ∉ occSet g := by
            rw [mem_occSet, testBit_seniority hgs]; simp [hj]
          obtain ⟨q, hq, hx⟩ := (hmc _).1 ⟨hjs, hjg⟩
          obtain ⟨i, v, rfl, hi, hv1, hv2⟩ := hblk q hq
          simp only [List.mem_cons, List.not_mem_nil, or_false] at hx
          omega
        · rintro ⟨h, -⟩; exact absurd h hj
    rw [hL]
    simp

theorem baseOrbpairs_default {n : ℕ} (hn : 0 < n) (k : ℕ) :
    baseOrbpairs ((List.range k).map fun i => (i, i + n)) = .ok ((List.range k).map fun i => (i, i + n)) := by
  induction k with
  | zero => rfl
  | succ k ih =>
    rw [baseOrbpairs] at ih ⊢
    rw [List.range_succ, List.map_append, List.foldlM_append, ih]
    simp only [bind, Except.bind, List.map_cons, List.map_nil, List.foldlM_cons, List.foldlM_nil, addOrbpair, pure, Except.pure]
    have h1 : ¬ k = k + n := by omega
    have h2 : ¬ k > k + n := by omega
    rw [if_neg h1]
    simp [h2]

theorem apigOrbpairs_default {nspin : ℕ} {pairs : List (ℕ × ℕ)} (hn : 0 < nspin / 2) (h : apigOrbpairs nspin none = .ok pairs) :
    pairs = (List.range (nspin / 2)).map fun i => (i, i + nspin / 2) := by
  rw [apigOrbpairs, Option.getD_none, baseOrbpairs_default hn] at h
  simp only [bind, Except.bind, pure, Except.pure] at h
  split_ifs at h
  injection h with h
  exact h.symm

/-- the default `AP1roG` wavefunction -/
theorem ap1rog_default {R : Type} [Field R] {nelec nspin g : ℕ} {P : ℕ → ℕ → R} {w : AP1roG R} (hg : ground nelec nspin = .ok g)
    (hw : AP1roG.init nelec nspin none none none P = .ok w) :
    w = ⟨nelec, nspin, nelec / 2, g, (List.range (nelec / 2)).map fun i => (i, i + nspin / 2),
      ((List.range (nspin / 2)).drop (nelec / 2)).map fun i => (i, i + nspin / 2), P⟩ := by
  have hw' : AP1roG.init nelec nspin none none (some g) P = .ok w := by
    rw [← hw]
    simp only [AP1roG.init, ap1rogRef, hg, bind, Except.bind]
  obtain ⟨⟨h1, h2, h3, h4, h5⟩, r, pairs, hr1, hr2, hr3, hp, hsub, rfl⟩ := ap1rog_init_ok hw'
  obtain rfl := hr3 g rfl
  have hpos : 0 < nspin / 2 := by omega
  rw [apigOrbpairs_default hpos hp]
  obtain ⟨f1, f2, f3, f4, f5, f6, f7⟩ := ground_even hg h2
  obtain ⟨hgs, hgr⟩ := ground_seniority hg h2
  have hin : ∀ i, i < nspin / 2 → (inRef r (i, i + nspin / 2) = true ↔ i < nelec / 2) := by
    intro i hi
    have hm : i < nelec / 2 ↔ r.testBit i = true := by
      rw [← List.mem_range, ← hgr, mem_occIndices, Nat.testBit_mod_two_pow]
      simp [hi]
    rw [inRef, occ_some, occ_some, testBit_seniority hgs, hm]
    simp [hi]
  have hsplit : List.range (nspin / 2) = List.range (nelec / 2) ++ (List.range (nspin / 2)).drop (nelec / 2) := by
    conv_lhs => rw [← List.take_append_drop (nelec / 2) (List.range (nspin / 2))]
    rw [List.take_range, min_eq_left f2]
  have hd : ∀ i ∈ (List.range (nspin / 2)).drop (nelec / 2), nelec / 2 ≤ i ∧ i < nspin / 2 := by
    intro i hi
    rw [List.range_eq_range', List.drop_range', List.mem_range'_1] at hi
    omega
  have e1 : ((List.range (nspin / 2)).map fun i => (i, i + nspin / 2)).filter (inRef r) =
      (List.range (nelec / 2)).map fun i => (i, i + nspin / 2) := by
    conv_lhs => rw [hsplit]
    rw [List.map_append, List.filter_append, List.filter_eq_self.2, List.filter_eq_nil_iff.2, List.append_nil]
    · intro x hx
      obtain ⟨i, hi, rfl⟩ := List.mem_map.1 hx
      rw [hin i (hd i hi).2]
      have := (hd i hi).1
      omega
    · intro x hx
      obtain ⟨i, hi, rfl⟩ := List.mem_map.1 hx
      rw [List.mem_range] at hi
      exact (hin i (by omega)).2 hi
  have e2 : ((List.range (nspin / 2)).map fun i => (i, i + nspin / 2)).filter (fun p => !inRef r p) =
      ((List.range (nspin / 2)).drop (nelec / 2)).map fun i => (i, i + nspin / 2) := by
    conv_lhs => rw [hsplit]
    rw [List.map_append, List.filter_append, List.filter_eq_nil_iff.2, List.filter_eq_self.2, List.nil_append]
    · intro x hx
      obtain ⟨i, hi, rfl⟩ := List.mem_map.1 hx
      have := (hd i hi).1
      rw [Bool.not_eq_true', Bool.eq_false_iff, Ne, hin i (hd i hi).2]
      omega
    · intro x hx
      obtain ⟨i, hi, rfl⟩ := List.mem_map.1 hx
      rw [List.mem_range] at hi
      simp [(hin i (by omega)).2 hi]
  rw [e1, e2]

/-- the overlap of the default `AP1roG` wavefunction is a permanent -/
theorem ap1rog_permanent {R : Type} [Field R] [CharZero R] (nelec nspin : ℕ) (P : ℕ → ℕ → R) (w' : AP1roG R)
    (hw' : AP1roG.init nelec nspin none none none P = .ok w') (g : ℕ) (hg : ground nelec nspin = .ok g) (sd : ℕ)
    (hsd : (occSet sd).card = nelec) :
    w'.overlap sd = .ok (if sd / 2 ^ (nspin / 2) = sd % 2 ^ (nspin / 2) then
      perL (fun i v => P i (v - nelec / 2))
        ((occIndices (some (g % 2 ^ (nspin / 2)))).filter (· ∉ occIndices (some (sd % 2 ^ (nspin / 2)))))
        ((occIndices (some (sd % 2 ^ (nspin / 2)))).filter (· ∉ occIndices (some (g % 2 ^ (nspin / 2))))) else 0) := by
  obtain ⟨⟨h1, h2, h3, h4, h5⟩, r, pairs, hr1, hr2, -, hp, hsub, he⟩ := ap1rog_init_ok hw'
  have e2 := h2
  have hd := ap1rog_default hg hw'
  rw [hd] at he
  injection he with i1 i2 i3 i4 i5 i6 i7
  subst i4
  obtain ⟨-, hfl, hlen⟩ := apigOrbpairs_ok hp
  have hpos : 0 < nspin / 2 := by omega
  have hlen : pairs.length = nspin / 2 := by omega
  obtain ⟨f1, f2, f3, f4, f5, f6, f7⟩ := ground_even hg e2
  obtain ⟨hgs, hgr⟩ := ground_seniority hg e2
  have hw2 := hd
  rw [i5, i6] at hd
  by_cases hs : sd / 2 ^ (nspin / 2) = sd % 2 ^ (nspin / 2)
  · rw [if_pos hs]
    have hl : (occIndices (some (sd % 2 ^ (nspin / 2)))).length = (occIndices (some (g % 2 ^ (nspin / 2)))).length := by
      have c1 := card_seniority hs
      have c2 := card_seniority hgs
      omega
    have hinds := ap1rog_inds (R := R) hfl rfl hpos hlen hsub hr2 nelec (nelec / 2) P hs hl
    rw [← hd] at hinds
    rw [← i5, ← i6] at hinds
    rw [AP1roG.overlap, hinds]
    simp only [bind, Except.bind, AP1roG.overlapOf]
    have key : perL (fun i v => P i (v - nelec / 2))
        ((occIndices (some (g % 2 ^ (nspin / 2)))).filter (· ∉ occIndices (some (sd % 2 ^ (nspin / 2)))))
        ((occIndices (some (sd % 2 ^ (nspin / 2)))).filter (· ∉ occIndices (some (g % 2 ^ (nspin / 2))))) =
      perL w'.params
        (((occIndices (some (g % 2 ^ (nspin / 2)))).filter (· ∉ occIndices (some (sd % 2 ^ (nspin / 2))))).map fun i =>
          ((List.range (nelec / 2)).map fun i => (i, i + nspin / 2)).idxOf (i, i + nspin / 2))
        (((occIndices (some (sd % 2 ^ (nspin / 2)))).filter (· ∉ occIndices (some (g % 2 ^ (nspin / 2))))).map fun i =>
          (((List.range (nspin / 2)).drop (nelec / 2)).map fun i => (i, i + nspin / 2)).idxOf (i, i + nspin / 2)) := by
      rw [perL_map]
      apply perL_congr
      intro a ha b hb
      rw [List.mem_filter, hgr, List.mem_range] at ha
      rw [List.mem_filter, mem_occIndices, Nat.testBit_mod_two_pow, Bool.and_eq_true, decide_eq_true_eq, hgr] at hb
      have hb2 : ¬ b < nelec / 2 := by simpa using hb.2
      rw [idxOf_shifted (fun i => (i, i + nspin / 2)) (fun a b h => (Prod.mk.inj h).1) (by omega) hb.1.1]
      have := idxOf_shifted (k := 0) (m := nelec / 2) (fun i => (i, i + nspin / 2)) (fun a b h => (Prod.mk.inj h).1) (Nat.zero_le a) ha.1
      rw [List.drop_zero] at this
      rw [this, hw2]
      rfl
    rw [key]
    split_ifs with hz
    · rw [List.length_eq_zero_iff.1 hz.2, List.length_eq_zero_iff.1 (hz.1.trans hz.2), perL_nil]
    · have hrc : ((occIndices (some (g % 2 ^ (nspin / 2)))).filter (· ∉ occIndices (some (sd % 2 ^ (nspin / 2))))).length =
          ((occIndices (some (sd % 2 ^ (nspin / 2)))).filter (· ∉ occIndices (some (g % 2 ^ (nspin / 2))))).length := by
        have e := diffOrbs_filter (g % 2 ^ (nspin / 2)) (sd % 2 ^ (nspin / 2))
        have e1 := diffOrbs_fst_length (g % 2 ^ (nspin / 2)) (sd % 2 ^ (nspin / 2))
        have e2 := diffOrbs_snd_length (g % 2 ^ (nspin / 2)) (sd % 2 ^ (nspin / 2))
        rw [e] at e1 e2
        rw [e1, e2]
        rw [length_occIndices, length_occIndices] at hl
        have h1 := Finset.card_sdiff_add_card_inter (occSet (g % 2 ^ (nspin / 2))) (occSet (sd % 2 ^ (nspin / 2)))
        have h2 := Finset.card_sdiff_add_card_inter (occSet (sd % 2 ^ (nspin / 2))) (occSet (g % 2 ^ (nspin / 2)))
        rw [Finset.inter_comm] at h2
        omega
      rw [List.length_map, List.length_map] at hz
      exact (permanent_perL _ (by rw [List.length_map]; omega) (by rw [List.length_map]; omega))
  · rw [if_neg hs, AP1roG.overlap, ap1rog_inds_none]
    · rfl
    · rw [hw2]; exact hpos
    · left
      rw [hw2]
      intro h
      exact hs ((seniority_zero_iff hpos).1 h)

/-- **C64** (overlaps).  `PCCD(nelec, nspin)` with the amplitudes `t` and `AP1roG(nelec, nspin)` whose coefficient of the geminal `r` and the
`c`-th virtual pair is `-t[r * (nspin/2 - nelec/2) + c]` have the same overlap with every Slater determinant with `nelec` electrons. -/
theorem C64_overlap {R : Type} [Field R] [CharZero R] (nelec nspin : ℕ) (t : ℕ → R) (w : PCCD.Wfn R)
    (hw : PCCD.init .pccd nelec nspin false none none t false = .ok w) (w' : AP1roG R)
    (hw' : AP1roG.init nelec nspin none none none (fun r c => -t (r * (nspin / 2 - nelec / 2) + c)) = .ok w') (sd : ℕ)
    (hsd : (occSet sd).card = nelec) : PCCD.overlap w sd = w'.overlap sd := by
  obtain ⟨-, e1, e2, e3, e4, e5, e6, e7, e8, g, hg, -⟩ := pccd_init_ok hw
  rw [pccd_permanent nelec nspin t w hw g hg sd hsd, ap1rog_permanent nelec nspin _ w' hw' g hg sd hsd]

theorem ap1rog_reinit {R : Type} [Field R] {nelec nspin : ℕ} {P : ℕ → ℕ → R} {w' : AP1roG R}
    (hw' : AP1roG.init nelec nspin none none none P = .ok w') (Q : ℕ → ℕ → R) :
    AP1roG.init nelec nspin none none none Q = .ok { w' with params := Q } := by
  simp only [AP1roG.init, bind, Except.bind] at hw' ⊢
  rcases h1 : Geminal.checkNelec nelec with e | u
  · rw [h1] at hw'; cases hw'
  rw [h1] at hw'
  simp only at hw' ⊢
  rcases h2 : CI.checkNspin nspin with e | u
  · rw [h2] at hw'; cases hw'
  rw [h2] at hw'
  simp only at hw' ⊢
  rcases h3 : ap1rogNgem nelec none with e | u
  · rw [h3] at hw'; cases hw'
  rw [h3] at hw'
  simp only at hw' ⊢
  rcases h4 : ap1rogRef nelec nspin none with e | u
  · rw [h4] at hw'; cases hw'
  rw [h4] at hw'
  simp only at hw' ⊢
  rcases h5 : ap1rogPairs nspin u none with e | u
  · rw [h5] at hw'; cases hw'
  rw [h5] at hw'
  simp only [pure, Except.pure, Except.ok.injEq] at hw' ⊢
  rw [← hw']

theorem rowcol_inj {a b r c m : ℕ} (hb : b < m) (hc : c < m) : a * m + b = r * m + c ↔ a = r ∧ b = c := by
  constructor
  · intro h
    have h1 := congrArg (· / m) h
    have h2 := congrArg (· % m) h
    simp only [mul_comm a, mul_comm r, Nat.mul_add_mod] at h2
    simp only [mul_comm a, mul_comm r] at h1
    rw [Nat.mul_add_div (by omega), Nat.mul_add_div (by omega), Nat.div_eq_of_lt hc, Nat.div_eq_of_lt hb] at h1
    rw [Nat.mod_eq_of_lt hc, Nat.mod_eq_of_lt hb] at h2
    exact ⟨h1, h2⟩
  · rintro ⟨rfl, rfl⟩; rfl

/-- **C64** (derivatives).  The derivative of the overlap of `PCCD` by the amplitude of the pair operator from the `r`-th occupied to the `c`-th
virtual orbital is minus the derivative of the overlap of `AP1roG` by its coefficient `(r, c)`. -/
theorem C64_derivative {R : Type} [Field R] [CharZero R] (nelec nspin : ℕ) (t : ℕ → R) (w : PCCD.Wfn R)
    (hw : PCCD.init .pccd nelec nspin false none none t false = .ok w) (w' : AP1roG R)
    (hw' : AP1roG.init nelec nspin none none none (fun r c => -t (r * (nspin / 2 - nelec / 2) + c)) = .ok w') (sd : ℕ)
    (hsd : (occSet sd).card = nelec) (r c : ℕ) (hr : r < nelec / 2) (hc : c < nspin / 2 - nelec / 2) :
    ∃ d, PCCD.dOverlap w sd (r * (nspin / 2 - nelec / 2) + c) = .ok d ∧ w'.overlapDeriv sd [r * (nspin / 2 - nelec / 2) + c] = .ok [-d] := by
  obtain ⟨-, e1, e2, e3, e4, e5, e6, e7, e8, g, hg, e9, -⟩ := pccd_init_ok hw
  obtain ⟨-, hglt, -⟩ := ground_ok_facts hg
  rw [Option.getD_none] at e9
  obtain ⟨x, d, d1, d2, d3⟩ := C65_derivative_partial .pccd nelec nspin none none t w hw (fun h => rfl) (by rw [e9]; exact hglt) sd hsd
    (r * (nspin / 2 - nelec / 2) + c)
  obtain ⟨v, d', f1, f2, f3⟩ := C35_ap1rog nelec nspin none none none _ w' hw' sd
  have hd := ap1rog_default hg hw'
  have hv : w'.virPairs.length = nspin / 2 - nelec / 2 := by rw [hd]; simp
  have hng : w'.ngem = nelec / 2 := by rw [hd]
  refine ⟨d, d2, ?_⟩
  rw [f2]
  -- change the parameter of both wavefunctions
  have hvx : v = x := by
    have := C64_overlap nelec nspin t w hw w' hw' sd hsd
    rw [d1, f1] at this
    injection this with this
    exact this.symm
  let t' := fun i => if i = r * (nspin / 2 - nelec / 2) + c then t i + 1 else t i
  obtain ⟨w2, hw2, hw2'⟩ : ∃ w2, PCCD.init .pccd nelec nspin false none none t' false = .ok w2 ∧
      w2 = pccdShift w (r * (nspin / 2 - nelec / 2) + c) 1 := by
    simp only [PCCD.init, bind, Except.bind, PCCD.Kind.isSen0] at hw ⊢
    rcases h1 : CI.checkNelec nelec with e | u
    · rw [h1] at hw; cases hw
    rw [h1] at hw
    simp only at hw ⊢
    rw [if_neg (by omega)] at hw ⊢
    rcases h2 : CI.checkNspin nspin with e | u
    · rw [h2] at hw; cases hw
    rw [h2] at hw
    simp only at hw ⊢
    rcases h3 : PCCD.assignRanks .pccd nelec with e | u
    · rw [h3] at hw; cases hw
    rw [h3, hg] at hw
    rw [hg]
    simp only [PCCD.assignExops, Bool.false_eq_true, if_false, pure, Except.pure, Except.ok.injEq] at hw ⊢
    refine ⟨_, rfl, ?_⟩
    rw [← hw]
    simp only [pccdShift, shift, PCCD.Wfn.mk.injEq, CC.Wfn.mk.injEq, true_and, and_true]
    funext i
    rw [Function.update_apply]
    simp only [t']
    split_ifs with h
    · rw [h]
    · rfl
  have hinit := ap1rog_reinit hw'
  have hw3 := hinit fun r c => -t' (r * (nspin / 2 - nelec / 2) + c)
  have h64 := C64_overlap nelec nspin t' w2 hw2 _ hw3 sd hsd
  rw [hw2', d3 1] at h64
  -- the overlap of the other wavefunction only sees the rows and columns below the bounds
  have hsame : ({ w' with params := fun r c => -t' (r * (nspin / 2 - nelec / 2) + c) } : AP1roG R).overlap sd =
      ({ w' with
        params := fun a b => if a = r ∧ b = c then -t (a * (nspin / 2 - nelec / 2) + b) + (-1)
          else -t (a * (nspin / 2 - nelec / 2) + b) } : AP1roG R).overlap sd := by
    have hw4 := hinit fun a b => if a = r ∧ b = c then -t (a * (nspin / 2 - nelec / 2) + b) + (-1) else -t (a * (nspin / 2 - nelec / 2) + b)
    rw [ap1rog_permanent nelec nspin _ _ hw4 g hg sd hsd, ap1rog_permanent nelec nspin _ _ hw3 g hg sd hsd]
    congr 2
    apply perL_congr
    intro a ha b hb
    obtain ⟨-, hgr⟩ := ground_seniority hg e2
    rw [List.mem_filter, hgr, List.mem_range] at ha
    rw [List.mem_filter, mem_occIndices, Nat.testBit_mod_two_pow, Bool.and_eq_true, decide_eq_true_eq, hgr] at hb
    have hb2 : ¬ b < nelec / 2 := by simpa using hb.2
    have hb3 := hb.1.1
    have hiff := rowcol_inj (a := a) (r := r) (m := nspin / 2 - nelec / 2) (b := b - nelec / 2) (by omega) hc
    simp only [t', hiff]
    split_ifs <;> ring
  rw [hsame, f3 r c (-1) (by omega) (by omega), hvx, hv] at h64
  injection h64 with h64
  simp only [List.map_cons, List.map_nil]
  congr 2
  linear_combination h64

/-- two pairs are excited: the overlap is a permanent of a two by two matrix -/
example : (∃ w : PCCD.Wfn ℚ, PCCD.init .pccd 4 8 false none none (fun i => (i : ℚ) + 1) false = .ok w) := by
  have hg : ground 4 8 = .ok 0b00110011 := by decide +kernel
  simp only [PCCD.init, hg, bind, Except.bind]
  exact ⟨_, rfl⟩

example : ∃ (w : PCCD.Wfn ℚ) (w' : AP1roG ℚ), PCCD.init .pccd 4 8 false none none (fun i => (i : ℚ) + 1) false = .ok w ∧
    AP1roG.init 4 8 none none none (fun r c => -(((r * (8 / 2 - 4 / 2) + c : ℕ) : ℚ) + 1)) = .ok w' ∧ (occSet 0b11001100).card = 4 ∧
    PCCD.overlap w 0b11001100 = .ok 10 ∧ ∃ d, PCCD.dOverlap w 0b11001100 3 = .ok d ∧ w'.overlapDeriv 0b11001100 [3] = .ok [-d] ∧ d = 1 := by
  have hg : ground 4 8 = .ok 0b00110011 := by decide +kernel
  obtain ⟨w, hw⟩ : ∃ w : PCCD.Wfn ℚ, PCCD.init .pccd 4 8 false none none (fun i => (i : ℚ) + 1) false = .ok w := by
    simp only [PCCD.init, hg, bind, Except.bind]
    exact ⟨_, rfl⟩
  have hw' : AP1roG.init 4 8 none none none (fun r c => -(((r * (8 / 2 - 4 / 2) + c : ℕ) : ℚ) + 1)) =
      .ok ⟨4, 8, 2, 0b00110011, [(0, 4), (1, 5)], [(2, 6), (3, 7)], fun r c => -(((r * (8 / 2 - 4 / 2) + c : ℕ) : ℚ) + 1)⟩ := by
    have h1 : ap1rogRef 4 8 none = .ok 0b00110011 := by decide +kernel
    have h2 : ap1rogPairs 8 0b00110011 none = .ok ([(0, 4), (1, 5)], [(2, 6), (3, 7)]) := by decide +kernel
    simp only [AP1roG.init, h1, h2, bind, Except.bind]
    rfl
  have hc : (occSet 0b11001100).card = 4 := by decide +kernel
  refine ⟨w, _, hw, hw', hc, ?_, ?_⟩
  · rw [C64_overlap 4 8 _ w hw _ hw' _ hc]
    decide +kernel
  · obtain ⟨d, h1, h2⟩ := C64_derivative 4 8 _ w hw _ hw' _ hc 1 1 (by norm_num) (by norm_num)
    refine ⟨d, h1, h2, ?_⟩
    have h3 : (⟨4, 8, 2, 0b00110011, [(0, 4), (1, 5)], [(2, 6), (3, 7)], fun r c => -(((r * (8 / 2 - 4 / 2) + c : ℕ) : ℚ) + 1)⟩ :
      AP1roG ℚ).overlapDeriv 0b11001100 [3] = .ok [-1] := by decide +kernel
    rw [h3] at h2
    injection h2 with h2
    simpa using h2.symm

end Fanpy.Props
