import Verif.Lemmas.Bulk

/-! # Properties C11–C13: bulk excitations and their signs -/

namespace Fanpy.Props
open Fanpy.Slater Fanpy.Spec Fanpy.It

/-- C12. While everything is below bit 63, `excite_bulk` lists `excite(sd, *o, *v)` for all combinations `o` of the
occupied and `v` of the virtual indices, row-major in combination order, without repetition. -/
theorem C12_excite_bulk (sd : ℕ) (occIdx virIdx : List ℕ) (order : ℕ) (hsd : sd < 2 ^ 63)
    (ho : occIdx.Nodup) (hv : virIdx.Nodup) (h1 : ∀ i ∈ occIdx, sd.testBit i = true)
    (h2 : ∀ i ∈ virIdx, sd.testBit i = false) (h3 : ∀ i ∈ virIdx, i < 63) :
    ∃ L : List ℕ, exciteBulk sd occIdx virIdx order = .ok (L.map (fun (x : ℕ) => (x : ℤ))) ∧
      L.map (fun x => Except.ok (some x)) =
        (comb occIdx order).flatMap (fun o => (comb virIdx order).map fun v => excite (some sd) (o ++ v)) ∧
      L.Nodup ∧
      ∀ x, x ∈ L ↔ ∃ O V : Finset ℕ, O ⊆ occIdx.toFinset ∧ V ⊆ virIdx.toFinset ∧ O.card = order ∧ V.card = order ∧
        occSet x = (occSet sd \ O) ∪ V := by
  -- facts about single combinations
  have hO : ∀ o ∈ comb occIdx order, o.Nodup ∧ (∀ i ∈ o, sd.testBit i = true) ∧ o.length = order := fun o h => by
    obtain ⟨hs, hl⟩ := mem_comb.1 h
    exact ⟨ho.sublist hs, fun i hi => h1 i (hs.subset hi), hl⟩
  have hV : ∀ v ∈ comb virIdx order, v.Nodup ∧ (∀ i ∈ v, sd.testBit i = false) ∧ (∀ i ∈ v, i < 63) ∧ v.length = order :=
    fun v h => by
      obtain ⟨hs, hl⟩ := mem_comb.1 h
      exact ⟨hv.sublist hs, fun i hi => h2 i (hs.subset hi), fun i hi => h3 i (hs.subset hi), hl⟩
  let W : List ℕ → List ℕ → BitVec 64 := fun o v => (BitVec.ofNat 64 sd ^^^ bits64 o) ||| bits64 v
  have hW : ∀ o ∈ comb occIdx order, ∀ v ∈ comb virIdx order,
      create (annihilate (some sd) o) v = some (W o v).toInt.toNat ∧ 0 ≤ (W o v).toInt := fun o h v h' =>
    combineBits_entry hsd (hO o h).1 (hV v h').1 (hO o h).2.1 (hV v h').2.1 (hV v h').2.2.1
  have hE : ∀ o ∈ comb occIdx order, ∀ v ∈ comb virIdx order,
      excite (some sd) (o ++ v) = .ok (some (W o v).toInt.toNat) := by
    intro o h v h'
    have hl : o.length = v.length := by rw [(hO o h).2.2, (hV v h').2.2.2]
    have e1 : (o ++ v).length / 2 = o.length := by simp; omega
    have e2 : ¬ ((o ++ v).length % 2 ≠ 0) := by simp; omega
    simp only [excite, if_neg e2, e1, List.take_left, List.drop_left]
    rw [(hW o h v h').1]
  let L : List ℕ := (comb occIdx order).flatMap fun o => (comb virIdx order).map fun v => (W o v).toInt.toNat
  have hset : ∀ o ∈ comb occIdx order, ∀ v ∈ comb virIdx order,
      occSet (W o v).toInt.toNat = (occSet sd \ o.toFinset) ∪ v.toFinset := by
    intro o h v h'
    have := (hW o h v h').1
    rw [annihilate_of (hO o h).1 (hO o h).2.1] at this
    have := (create_eq_some_iff.1 this).2.2
    rw [this, occSet_sdOf]
  have hmem : ∀ x, x ∈ L ↔ ∃ O V : Finset ℕ, O ⊆ occIdx.toFinset ∧ V ⊆ virIdx.toFinset ∧ O.card = order ∧
      V.card = order ∧ occSet x = (occSet sd \ O) ∪ V := by
    intro x
    constructor
    · intro hx
      obtain ⟨o, h, hx⟩ := List.mem_flatMap.1 hx
      obtain ⟨v, h', rfl⟩ := List.mem_map.1 hx
      refine ⟨o.toFinset, v.toFinset, ?_, ?_, ?_, ?_, hset o h v h'⟩
      · intro i hi; rw [List.mem_toFinset] at *; exact (mem_comb.1 h).1.subset hi
      · intro i hi; rw [List.mem_toFinset] at *; exact (mem_comb.1 h').1.subset hi
      · rw [List.toFinset_card_of_nodup (hO o h).1, (hO o h).2.2]
      · rw [List.toFinset_card_of_nodup (hV v h').1, (hV v h').2.2.2]
    · rintro ⟨O, V, hOs, hVs, hOc, hVc, hx⟩
      -- the subsequence of a list given by a subset
      have sub : ∀ (l : List ℕ) (A : Finset ℕ), l.Nodup → A ⊆ l.toFinset → A.card = order →
          ∃ c ∈ comb l order, c.toFinset = A := by
        intro l A hl hA hc
        refine ⟨l.filter (· ∈ A), ?_, ?_⟩
        · have e : (l.filter (· ∈ A)).toFinset = A := by
            ext i; simp only [List.toFinset_filter, Finset.mem_filter, List.mem_toFinset, decide_eq_true_eq]
            exact ⟨fun h => h.2, fun h => ⟨List.mem_toFinset.1 (hA h), h⟩⟩
          refine mem_comb.2 ⟨List.filter_sublist, ?_⟩
          rw [← hc, ← e, List.toFinset_card_of_nodup (hl.filter _), e]
        · ext i; simp only [List.toFinset_filter, Finset.mem_filter, List.mem_toFinset, decide_eq_true_eq]
          exact ⟨fun h => h.2, fun h => ⟨List.mem_toFinset.1 (hA h), h⟩⟩
      obtain ⟨o, h, rfl⟩ := sub occIdx O ho hOs hOc
      obtain ⟨v, h', rfl⟩ := sub virIdx V hv hVs hVc
      rw [← hset o h v h', occSet_inj] at hx
      exact List.mem_flatMap.2 ⟨o, h, List.mem_map.2 ⟨v, h', hx.symm⟩⟩
  refine ⟨L, ?_, ?_, ?_, hmem⟩
  · simp only [exciteBulk, toInt64, if_pos hsd, bind, Except.bind, pure, Except.pure]
    split_ifs with h0
    · subst h0
      have e : (BitVec.ofNat 64 sd).toInt = sd := by
        apply toInt_of_bits _ _ hsd; intro j hj; rw [BitVec.getLsbD_ofNat]; simp [hj]
      have eW : (W [] []).toInt = sd := by
        simp only [W]
        apply toInt_of_bits _ _ hsd
        intro j hj
        rw [BitVec.getLsbD_or, BitVec.getLsbD_xor, BitVec.getLsbD_ofNat, getLsbD_bits64]; simp [hj]
      simp [L, comb, e, eW]
    · congr 1
      simp only [combineBits, L, List.map_flatMap, List.flatMap_map, List.map_map]
      apply List.flatMap_congr
      intro o h
      apply List.map_congr_left
      intro v h'
      simp only [Function.comp]
      have := (hW o h v h').2
      rw [Int.toNat_of_nonneg this]
  · simp only [L, List.map_flatMap, List.map_map]
    apply List.flatMap_congr
    intro o h
    apply List.map_congr_left
    intro v h'
    rw [hE o h v h']; rfl
  · -- no repetition: the determinant determines the two combinations
    have sep : ∀ o ∈ comb occIdx order, ∀ v ∈ comb virIdx order, ∀ o' ∈ comb occIdx order, ∀ v' ∈ comb virIdx order,
        (W o v).toInt.toNat = (W o' v').toInt.toNat → o = o' ∧ v = v' := by
      intro o h v g o' h' v' g' he
      have hs : (occSet sd \ o.toFinset) ∪ v.toFinset = (occSet sd \ o'.toFinset) ∪ v'.toFinset := by
        rw [← hset o h v g, ← hset o' h' v' g', he]
      have inj : ∀ {l : List ℕ} (hl : l.Nodup) {c c' : List ℕ}, c.Sublist l → c'.Sublist l →
          (∀ i, i ∈ c ↔ i ∈ c') → c = c' := by
        intro l hl
        induction l with
        | nil => intro c c' h1 h2 _; rw [List.sublist_nil.1 h1, List.sublist_nil.1 h2]
        | cons x l ih =>
          intro c c' h1 h2 hm
          rw [List.nodup_cons] at hl
          cases h1 with
          | cons _ h1 =>
            cases h2 with
            | cons _ h2 => exact ih hl.2 h1 h2 hm
            | cons_cons _ h2 => exact absurd (h1.subset ((hm x).2 (by simp))) hl.1
          | cons_cons _ h1 =>
            cases h2 with
            | cons _ h2 => exact absurd (h2.subset ((hm x).1 (by simp))) hl.1
            | cons_cons _ h2 =>
              congr 1
              apply ih hl.2 h1 h2
              intro i
              have := hm i
              simp only [List.mem_cons] at this
              by_cases hix : i = x
              · subst hix
                exact ⟨fun h => absurd (h1.subset h) hl.1, fun h => absurd (h2.subset h) hl.1⟩
              · simpa [hix] using this
      constructor
      · apply inj ho (mem_comb.1 h).1 (mem_comb.1 h').1
        intro i
        have hi := Finset.ext_iff.1 hs i
        simp only [Finset.mem_union, Finset.mem_sdiff, List.mem_toFinset, mem_occSet] at hi
        constructor
        · intro hio
          by_contra hio'
          have hb := (hO o h).2.1 i hio
          rcases hi.2 (Or.inl ⟨hb, hio'⟩) with hh | hh
          · exact hh.2 hio
          · have := (hV v g).2.1 i hh; rw [hb] at this; cases this
        · intro hio
          by_contra hio'
          have hb := (hO o' h').2.1 i hio
          rcases hi.1 (Or.inl ⟨hb, hio'⟩) with hh | hh
          · exact hh.2 hio
          · have := (hV v' g').2.1 i hh; rw [hb] at this; cases this
      · apply inj hv (mem_comb.1 g).1 (mem_comb.1 g').1
        intro i
        have hi := Finset.ext_iff.1 hs i
        simp only [Finset.mem_union, Finset.mem_sdiff, List.mem_toFinset, mem_occSet] at hi
        constructor
        · intro hio
          have hb := (hV v g).2.1 i hio
          rcases hi.1 (Or.inr hio) with hh | hh
          · rw [hb] at hh; exact absurd hh.1 (by simp)
          · exact hh
        · intro hio
          have hb := (hV v' g').2.1 i hio
          rcases hi.2 (Or.inr hio) with hh | hh
          · rw [hb] at hh; exact absurd hh.1 (by simp)
          · exact hh
    simp only [L]
    rw [List.nodup_flatMap]
    refine ⟨fun o h => ?_, ?_⟩
    · apply List.Nodup.map_on _ (comb_nodup order hv)
      intro v g v' g' he
      exact (sep o h v g o h v' g' he).2
    · apply List.Pairwise.imp_of_mem _ (comb_nodup order ho)
      intro o o' h h' hne x hx hx'
      obtain ⟨v, g, rfl⟩ := List.mem_map.1 hx
      obtain ⟨v', g', he⟩ := List.mem_map.1 hx'
      exact hne (sep o' h' v' g' o h v g he).1.symm

/-- C12, `excite_bulk_two_ab`: all products of one alpha and one beta excitation, row-major. -/
theorem C12_excite_bulk_two_ab (sd : ℕ) (occA occB virA virB : List ℕ) (hsd : sd < 2 ^ 63)
    (hoA : ∀ i ∈ occA, sd.testBit i = true) (hoB : ∀ i ∈ occB, sd.testBit i = true)
    (hvA : ∀ i ∈ virA, sd.testBit i = false ∧ i < 63) (hvB : ∀ i ∈ virB, sd.testBit i = false ∧ i < 63)
    (hdo : ∀ i ∈ occA, i ∉ occB) (hdv : ∀ i ∈ virA, i ∉ virB) :
    ∃ L : List ℕ, exciteBulkTwoAb sd occA occB virA virB = .ok (L.map (fun (x : ℕ) => (x : ℤ))) ∧
      L.map (fun x => Except.ok (some x)) =
        occA.flatMap fun i => occB.flatMap fun j => virA.flatMap fun a => virB.map fun b =>
          excite (some sd) [i, j, a, b] := by
  let W : ℕ → ℕ → ℕ → ℕ → BitVec 64 := fun i j a b => (BitVec.ofNat 64 sd ^^^ bits64 [i, j]) ||| bits64 [a, b]
  have hW : ∀ i ∈ occA, ∀ j ∈ occB, ∀ a ∈ virA, ∀ b ∈ virB,
      excite (some sd) [i, j, a, b] = .ok (some (W i j a b).toInt.toNat) ∧ 0 ≤ (W i j a b).toInt := by
    intro i hi j hj a ha b hb
    have hij : i ≠ j := by rintro rfl; exact hdo _ hi hj
    have hab : a ≠ b := by rintro rfl; exact hdv _ ha hb
    have := combineBits_entry (sd := sd) (o := [i, j]) (v := [a, b]) hsd (by simp [hij]) (by simp [hab])
      (by simp [hoA i hi, hoB j hj]) (by simp [(hvA a ha).1, (hvB b hb).1]) (by simp [(hvA a ha).2, (hvB b hb).2])
    refine ⟨?_, this.2⟩
    show (if _ then _ else _) = _
    rw [if_neg (by simp)]
    simp only [List.length_cons, List.length_nil, Nat.reduceAdd, Nat.reduceDiv, List.take_succ_cons, List.take_zero,
      List.drop_succ_cons, List.drop_zero]
    rw [this.1]
  refine ⟨occA.flatMap fun i => occB.flatMap fun j => virA.flatMap fun a => virB.map fun b =>
    (W i j a b).toInt.toNat, ?_, ?_⟩
  · simp only [exciteBulkTwoAb, toInt64, if_pos hsd, bind, Except.bind, pure, Except.pure]
    congr 1
    simp only [combineBits, prod, List.map_flatMap, List.flatMap_map, List.map_map, List.flatMap_assoc, Function.comp_def]
    apply List.flatMap_congr; intro i hi
    apply List.flatMap_congr; intro j hj
    apply List.flatMap_congr; intro a ha
    apply List.map_congr_left; intro b hb
    rw [Int.toNat_of_nonneg (hW i hi j hj a ha b hb).2]
  · simp only [List.map_flatMap, List.map_map, Function.comp_def]
    apply List.flatMap_congr; intro i hi
    apply List.flatMap_congr; intro j hj
    apply List.flatMap_congr; intro a ha
    apply List.map_congr_left; intro b hb
    rw [(hW i hi j hj a ha b hb).1]

/-- C12, the limit: a virtual orbital with index 63 gives a negative number, one with index `≥ 64` loses the electron,
and a determinant using orbital 63 or above is refused. -/
theorem C12_overflow (sd i a : ℕ) (hi : sd.testBit i = true) :
    (sd < 2 ^ 63 → ∃ x : ℤ, exciteBulk sd [i] [63] 1 = .ok [x] ∧ x < 0) ∧
    (sd < 2 ^ 63 → 64 ≤ a → ∃ x : ℕ, exciteBulk sd [i] [a] 1 = .ok [(x : ℤ)] ∧ annihilate (some sd) [i] = some x) ∧
    (2 ^ 63 ≤ sd → exciteBulk sd [i] [a] 1 = .error .overflow) := by
  refine ⟨fun hsd => ?_, fun hsd ha => ?_, fun hsd => ?_⟩
  · refine ⟨((BitVec.ofNat 64 sd ^^^ bits64 [i]) ||| bits64 [63]).toInt, ?_, ?_⟩
    · simp only [exciteBulk, toInt64, if_pos hsd, bind, Except.bind, pure, Except.pure, comb, combineBits]
      rw [if_neg (by norm_num)]; simp only [List.map_nil, List.append_nil, List.map_cons, List.flatMap_cons,
        List.flatMap_nil]
    · rw [BitVec.toInt_neg_iff]
      have h63 : ((BitVec.ofNat 64 sd ^^^ bits64 [i]) ||| bits64 [63]).msb = true := by
        rw [BitVec.msb_eq_getLsbD_last, BitVec.getLsbD_or, getLsbD_bits64]; simp
      have := (BitVec.msb_eq_decide _).symm.trans h63
      simp only [decide_eq_true_eq] at this
      omega
  · have hi63 : i < 63 := by
      by_contra h
      rw [Nat.testBit_lt_two_pow (lt_of_lt_of_le hsd (Nat.pow_le_pow_right (by norm_num) (by omega)))] at hi
      cases hi
    obtain ⟨h1, h2⟩ := combineBits_entry (sd := sd) (o := [i]) (v := []) hsd (by simp) (by simp) (by simpa using hi)
      (by simp) (by simp)
    refine ⟨_, ?_, h1⟩
    rw [Int.toNat_of_nonneg h2]
    simp only [exciteBulk, toInt64, if_pos hsd, bind, Except.bind, pure, Except.pure, comb, combineBits]
    rw [if_neg (by norm_num)]
    simp only [List.map_nil, List.append_nil, List.map_cons, List.flatMap_cons, List.flatMap_nil]
    have : bits64 [a] = bits64 [] := by
      apply BitVec.eq_of_getLsbD_eq; intro j hj
      rw [getLsbD_bits64, getLsbD_bits64]; simp; omega
    rw [this]
  · have : ¬ sd < 2 ^ 63 := by omega
    simp only [exciteBulk, toInt64, if_neg this, bind, Except.bind]

example : exciteBulk 0b0011 [0, 1] [2, 3] 1 = .ok [0b0110, 0b1010, 0b0101, 0b1001] ∧
    exciteBulk 1 [0] [63] 1 = .ok [-9223372036854775808] ∧ exciteBulk 1 [0] [64] 1 = .ok [0] := by decide

/-- Electrons that are not in the list `occIdx` are all below, or all above, the listed orbitals.  It holds in
particular if `occIdx` lists all electrons, or all electrons of one spin block. -/
def OthersOutside (sd : ℕ) (occIdx virIdx : List ℕ) : Prop :=
  ∀ k, sd.testBit k = true → k ∉ occIdx → (∀ i ∈ occIdx ++ virIdx, k < i) ∨ (∀ i ∈ occIdx ++ virIdx, i < k)

theorem phase_block {sd : ℕ} {occIdx virIdx : List ℕ} (hs : occIdx.Pairwise (· < ·))
    (h1 : ∀ i ∈ occIdx, sd.testBit i = true) (hout : OthersOutside sd occIdx virIdx) :
    ∃ m : ℤ, ∀ x ∈ occIdx ++ virIdx, phase (occSet sd) x = jumpSign (m + occIdx.countP (· < x)) := by
  refine ⟨(((occSet sd).filter (fun k => k ∉ occIdx ∧ ∀ i ∈ occIdx ++ virIdx, k < i)).card : ℤ), ?_⟩
  intro x hx
  have hnd : occIdx.Nodup := hs.imp (fun h => ne_of_lt h)
  rw [phase_eq_jumpSign, countP_eq_card hnd]
  congr 1
  rw [← Nat.cast_add, ← Finset.card_union_of_disjoint]
  · congr 2
    ext k
    simp only [Finset.mem_filter, Finset.mem_union, List.mem_toFinset, mem_occSet]
    constructor
    · rintro ⟨hk, hlt⟩
      by_cases hko : k ∈ occIdx
      · exact Or.inr ⟨hko, hlt⟩
      · rcases hout k hk hko with h | h
        · exact Or.inl ⟨hk, hko, h⟩
        · have := h x hx; omega
    · rintro (⟨hk, -, h⟩ | ⟨hk, h⟩)
      · exact ⟨hk, h x hx⟩
      · exact ⟨h1 k hk, h⟩
  · rw [Finset.disjoint_left]
    intro k hk hk'
    simp only [Finset.mem_filter, List.mem_toFinset] at hk hk'
    exact hk.2.1 hk'.1

theorem map_getElem_range {α : Type*} (l : List α) (d : α) :
    (List.range l.length).map (fun k => l.getD k d) = l := by
  apply List.ext_getElem
  · simp
  · intro i h1 h2
    rw [List.getElem_map, List.getElem_range, List.getD_eq_getElem _ _ h2]

theorem flatMap_range_getD {α β : Type*} (l : List α) (d : α) (f : α → List β) :
    l.flatMap f = (List.range l.length).flatMap (fun k => f (l.getD k d)) := by
  conv_lhs => rw [← map_getElem_range l d]
  rw [List.flatMap_map]

theorem countP_vir_sorted {occIdx virIdx : List ℕ} (hv : virIdx.Pairwise (· < ·)) :
    (virIdx.map (fun a => occIdx.countP (· < a))).Pairwise (· ≤ ·) := by
  rw [List.pairwise_map]
  exact hv.imp (fun h => countP_mono h.le)

theorem countP_vir_lt (occIdx virIdx : List ℕ) :
    ∀ x ∈ virIdx.map (fun a => occIdx.countP (· < a)), x < occIdx.length + 1 := by
  intro x hx
  obtain ⟨a, -, rfl⟩ := List.mem_map.1 hx
  exact Nat.lt_succ_of_le List.countP_le_length

theorem flatMap_bins {occIdx virIdx : List ℕ} (hs : occIdx.Pairwise (· < ·)) (hv : virIdx.Pairwise (· < ·))
    (g : ℕ → ℤ) :
    ((List.range (occIdx.length + 1)).flatMap fun j => List.replicate ((binSizes occIdx virIdx).getD j 0) (g j)) =
      virIdx.map (fun a => g (occIdx.countP (· < a))) := by
  have : ∀ j ∈ List.range (occIdx.length + 1), List.replicate ((binSizes occIdx virIdx).getD j 0) (g j) =
      List.replicate ((virIdx.map (fun a => occIdx.countP (· < a))).count j) (g j) := by
    intro j hj
    rw [binSizes_getD occIdx virIdx hs hv j (List.mem_range.1 hj)]
  rw [List.flatMap_congr this, blocks_map _ _ (countP_vir_sorted hv) (countP_vir_lt _ _), List.map_map]
  rfl

/-- C11. `sign_excite_one` lists, in the order of `excite_bulk`, the signs `sign_excite(sd, [i], [a])`. -/
theorem C11_sign_excite_one (sd : ℕ) (occIdx virIdx : List ℕ) (hs : occIdx.Pairwise (· < ·))
    (hv : virIdx.Pairwise (· < ·)) (h1 : ∀ i ∈ occIdx, sd.testBit i = true)
    (h2 : ∀ i ∈ virIdx, sd.testBit i = false) (hout : OthersOutside sd occIdx virIdx) :
    (signExciteOne occIdx virIdx).map (Except.ok (ε := PyErr)) =
      occIdx.flatMap fun i => virIdx.map fun a => signExcite (some sd) [i] [a] := by
  obtain ⟨m, hm⟩ := phase_block hs h1 hout
  rw [flatMap_range_getD occIdx 0, signExciteOne, List.map_flatMap]
  apply List.flatMap_congr
  intro k hk
  rw [List.mem_range] at hk
  rw [flatMap_bins hs hv, List.map_map]
  apply List.map_congr_left
  intro a ha
  have hi : occIdx.getD k 0 = occIdx[k] := List.getD_eq_getElem _ _ hk
  have hmem : occIdx[k] ∈ occIdx := List.getElem_mem _
  rw [hi, signExcite_one_one (h1 _ hmem) (h2 a ha)]
  simp only [Function.comp]
  congr 1
  rw [phase_erase, hm _ (List.mem_append_left _ hmem), hm a (List.mem_append_right _ ha),
    countP_lt_getElem hs k hk]
  have hlt := getElem_lt_iff_lt_countP a hs k hk
  by_cases h : occIdx[k] < a
  · rw [if_pos (hlt.1 h), if_pos ⟨mem_occSet.2 (h1 _ hmem), h⟩, neg_jumpSign, jumpSign_mul]
    apply jumpSign_congr; omega
  · rw [if_neg (fun hh => h (hlt.2 hh)), if_neg (fun hh => h hh.2), jumpSign_mul]
    apply jumpSign_congr; omega

theorem pairsMap_congr {α β : Type*} {g g' : α → α → β} {l : List α} (h : l.Pairwise (fun x y => g x y = g' x y)) :
    pairsMap g l = pairsMap g' l := by
  induction l with
  | nil => rfl
  | cons x xs ih =>
    rw [List.pairwise_cons] at h
    rw [pairsMap, pairsMap, ih h.2]
    congr 1
    apply List.map_congr_left
    intro y hy; exact h.1 y hy

theorem flatten_pairsMap {α β : Type*} (g : α → α → List β) (l : List α) (d : α) :
    (pairsMap g l).flatten = (List.range l.length).flatMap fun i1 =>
      (List.range' (i1 + 1) (l.length - (i1 + 1))).flatMap fun i2 => g (l.getD i1 d) (l.getD i2 d) := by
  have h : pairsMap g l = pairsMap (fun i j => g (l.getD i d) (l.getD j d)) (List.range l.length) := by
    conv_lhs => rw [← map_getElem_range l d]
    rw [pairsMap_map]
  rw [h, List.range_eq_range', pairsMap_range', List.flatten_eq_flatMap, List.flatMap_assoc]
  simp only [Nat.zero_add, List.flatMap_map]
  rfl

/-- C11. `sign_excite_two` lists, in the order of `excite_bulk` (pairs of occupied, then pairs of virtual orbitals),
the signs `sign_excite(sd, [i, j], [b, a])` with `i < j` and `a < b` (creators reversed). -/
theorem C11_sign_excite_two (sd : ℕ) (occIdx virIdx : List ℕ) (hs : occIdx.Pairwise (· < ·))
    (hv : virIdx.Pairwise (· < ·)) (h1 : ∀ i ∈ occIdx, sd.testBit i = true)
    (h2 : ∀ i ∈ virIdx, sd.testBit i = false) (hout : OthersOutside sd occIdx virIdx) :
    (signExciteTwo occIdx virIdx).map (Except.ok (ε := PyErr)) =
      (comb occIdx 2).flatMap fun o => (comb virIdx 2).map fun v => signExcite (some sd) o v.reverse := by
  obtain ⟨m, hm⟩ := phase_block hs h1 hout
  -- the sign as a function of positions
  let G : ℕ → ℕ → ℕ → ℕ → ℤ := fun i1 i2 j1 j2 =>
    jumpSign ((i1 : ℤ) + i2 - 1 + j2 + j1 - (b2i (j2 > i1) + b2i (j2 > i2) + b2i (j1 > i1) + b2i (j1 > i2)))
  have hcode : signExciteTwo occIdx virIdx = (List.range occIdx.length).flatMap fun i1 =>
      (List.range' (i1 + 1) (occIdx.length - (i1 + 1))).flatMap fun i2 =>
        pairsMap (G i1 i2) (virIdx.map (fun a => occIdx.countP (· < a))) := by
    rw [signExciteTwo]
    apply List.flatMap_congr; intro i1 _
    apply List.flatMap_congr; intro i2 _
    conv_rhs => rw [← blocks_eq _ _ (countP_vir_sorted (occIdx := occIdx) hv) (countP_vir_lt occIdx virIdx)]
    rw [List.range_eq_range', blocks_pairs]
    apply List.flatMap_congr; intro j1 hj1
    rw [List.mem_range'_1] at hj1
    rw [binSizes_getD occIdx virIdx hs hv j1 (by omega)]
    have hj : jumpSign ((i1 : ℤ) + i2 - 1 + 2 * j1) = G i1 i2 j1 j1 := by
      apply jumpSign_congr
      by_cases hh1 : j1 > i1 <;> by_cases hh2 : j1 > i2 <;> simp [b2i, hh1, hh2] <;> omega
    have hz : (List.range' (j1 + 1) (occIdx.length + 1 - (j1 + 1))).flatMap (fun j2 =>
        if (binSizes occIdx virIdx).getD j2 0 = 0 then []
        else List.replicate ((binSizes occIdx virIdx).getD j2 0) (G i1 i2 j1 j2)) =
        (List.range' (j1 + 1) (occIdx.length + 1 - (j1 + 1))).flatMap (fun j2 =>
          List.replicate ((virIdx.map (fun a => occIdx.countP (· < a))).count j2) (G i1 i2 j1 j2)) := by
      apply List.flatMap_congr; intro j2 hj2
      rw [List.mem_range'_1] at hj2
      rw [binSizes_getD occIdx virIdx hs hv j2 (by omega)]
      split_ifs with h0
      · rw [h0]; rfl
      · rfl
    simp only [hj]
    simp only [G] at hz ⊢
    rw [hz]
    split_ifs with h0
    · rw [h0]; rfl
    · simp only [Nat.zero_add]
  rw [hcode, List.map_flatMap]
  -- the right hand side in the same shape
  have hrhs : ((comb occIdx 2).flatMap fun o => (comb virIdx 2).map fun v => signExcite (some sd) o v.reverse) =
      (List.range occIdx.length).flatMap fun i1 =>
        (List.range' (i1 + 1) (occIdx.length - (i1 + 1))).flatMap fun i2 =>
          (comb virIdx 2).map fun v => signExcite (some sd) [occIdx.getD i1 0, occIdx.getD i2 0] v.reverse := by
    rw [← flatten_pairsMap (fun x y => (comb virIdx 2).map fun v => signExcite (some sd) [x, y] v.reverse) occIdx 0,
      ← comb_two_map occIdx (fun o => (comb virIdx 2).map fun v => signExcite (some sd) o v.reverse)]
    rfl
  rw [hrhs]
  apply List.flatMap_congr; intro i1 hi1
  rw [List.map_flatMap]
  apply List.flatMap_congr; intro i2 hi2
  rw [List.mem_range] at hi1
  rw [List.mem_range'_1] at hi2
  have hi2' : i2 < occIdx.length := by omega
  rw [comb_two_map virIdx, pairsMap_map, List.getD_eq_getElem _ _ hi1, List.getD_eq_getElem _ _ hi2']
  have hmapok : ∀ (g : ℕ → ℕ → ℤ) (l : List ℕ), (pairsMap g l).map (Except.ok (ε := PyErr)) =
      pairsMap (fun x y => Except.ok (g x y)) l := by
    intro g l
    induction l with
    | nil => rfl
    | cons x xs ih => simp [pairsMap, ih]
  rw [hmapok]
  apply pairsMap_congr
  apply List.Pairwise.imp_of_mem _ hv
  intro a b ha hb hab
  have mo1 : occIdx[i1] ∈ occIdx := List.getElem_mem _
  have mo2 : occIdx[i2] ∈ occIdx := List.getElem_mem _
  have hoo : occIdx[i1] < occIdx[i2] := List.pairwise_iff_getElem.1 hs i1 i2 hi1 hi2' (by omega)
  have hr : [a, b].reverse = [b, a] := rfl
  rw [hr, signExcite_two_two (h1 _ mo1) (h1 _ mo2) hoo.ne (h2 a ha) (h2 b hb) hab.ne]
  congr 1
  have mS1 : occIdx[i1] ∈ occSet sd := mem_occSet.2 (h1 _ mo1)
  have mS2 : occIdx[i2] ∈ (occSet sd).erase occIdx[i1] :=
    Finset.mem_erase.2 ⟨hoo.ne', mem_occSet.2 (h1 _ mo2)⟩
  rw [phase_insert, if_neg (fun h => absurd h.2 (by omega))]
  simp only [phase_erase, mS1, mS2, true_and, if_pos hoo]
  rw [hm _ (List.mem_append_left _ mo1), hm _ (List.mem_append_left _ mo2), hm a (List.mem_append_right _ ha),
    hm b (List.mem_append_right _ hb), countP_lt_getElem hs i1 hi1, countP_lt_getElem hs i2 hi2']
  have l1a := getElem_lt_iff_lt_countP a hs i1 hi1
  have l1b := getElem_lt_iff_lt_countP b hs i1 hi1
  have l2a := getElem_lt_iff_lt_countP a hs i2 hi2'
  have l2b := getElem_lt_iff_lt_countP b hs i2 hi2'
  simp only [G, l1a, l1b, l2a, l2b, gt_iff_lt]
  by_cases c1 : i1 < occIdx.countP (· < a) <;> by_cases c2 : i1 < occIdx.countP (· < b) <;>
  by_cases c3 : i2 < occIdx.countP (· < a) <;> by_cases c4 : i2 < occIdx.countP (· < b) <;>
  simp only [c1, c2, c3, c4, if_true, if_false, b2i, neg_jumpSign, jumpSign_mul] <;>
  apply jumpSign_congr <;> omega

/-- C11. `sign_excite_two_ab` lists, in the order of `excite_bulk_two_ab`, the signs
`sign_excite(sd, [i, j], [b, a])` with `i, a` alpha and `j, b` beta (all alpha orbitals below all beta orbitals). -/
theorem C11_sign_excite_two_ab (sd : ℕ) (occA occB virA virB : List ℕ)
    (hsA : occA.Pairwise (· < ·)) (hsB : occB.Pairwise (· < ·)) (hvA : virA.Pairwise (· < ·))
    (hvB : virB.Pairwise (· < ·)) (h1 : ∀ i, sd.testBit i = true ↔ i ∈ occA ∨ i ∈ occB)
    (h2 : ∀ i ∈ virA ++ virB, sd.testBit i = false)
    (hblock : ∀ a ∈ occA ++ virA, ∀ b ∈ occB ++ virB, a < b) :
    (signExciteTwoAb occA occB virA virB).map (Except.ok (ε := PyErr)) =
      occA.flatMap fun i => occB.flatMap fun j => virA.flatMap fun a => virB.map fun b =>
        signExcite (some sd) [i, j] [b, a] := by
  have outA : OthersOutside sd occA virA := by
    intro k hk hko
    right
    intro i hi
    exact hblock i hi k (List.mem_append_left _ (((h1 k).1 hk).resolve_left hko))
  have outB : OthersOutside sd occB virB := by
    intro k hk hko
    left
    intro i hi
    exact hblock k (List.mem_append_left _ (((h1 k).1 hk).resolve_right hko)) i hi
  obtain ⟨m, hm⟩ := phase_block hsA (fun i hi => (h1 i).2 (Or.inl hi)) outA
  obtain ⟨n, hn⟩ := phase_block hsB (fun i hi => (h1 i).2 (Or.inr hi)) outB
  let G : ℕ → ℕ → ℕ → ℕ → ℤ := fun ia ib ja jb =>
    jumpSign ((ia : ℤ) + ib + jb + ja - b2i (ja > ia) - b2i (jb > ib))
  have hcode : signExciteTwoAb occA occB virA virB = (List.range occA.length).flatMap fun ia =>
      (List.range occB.length).flatMap fun ib => virA.flatMap fun a => virB.map fun b =>
        G ia ib (occA.countP (· < a)) (occB.countP (· < b)) := by
    rw [signExciteTwoAb]
    apply List.flatMap_congr; intro ia _
    apply List.flatMap_congr; intro ib _
    have inner : ∀ ja, ((List.range (occB.length + 1)).flatMap fun jb =>
        if (binSizes occB virB).getD jb 0 = 0 then []
        else List.replicate ((binSizes occB virB).getD jb 0)
          (jumpSign (if jb > ib then (if ja > ia then ((ia : ℤ) + ib + jb + ja) - 1 else (ia : ℤ) + ib + jb + ja) - 1
            else (if ja > ia then ((ia : ℤ) + ib + jb + ja) - 1 else (ia : ℤ) + ib + jb + ja)))) =
        virB.map fun b => G ia ib ja (occB.countP (· < b)) := by
      intro ja
      rw [← flatMap_bins hsB hvB (fun jb => G ia ib ja jb)]
      apply List.flatMap_congr; intro jb _
      have e : (if jb > ib then (if ja > ia then ((ia : ℤ) + ib + jb + ja) - 1 else (ia : ℤ) + ib + jb + ja) - 1
            else (if ja > ia then ((ia : ℤ) + ib + jb + ja) - 1 else (ia : ℤ) + ib + jb + ja)) =
          (ia : ℤ) + ib + jb + ja - b2i (ja > ia) - b2i (jb > ib) := by
        unfold b2i; split_ifs <;> ring
      rw [e]
      split_ifs with h0
      · rw [h0]; rfl
      · rfl
    simp only [inner]
    have outer : ∀ (f : ℕ → List ℤ), ((List.range (occA.length + 1)).flatMap fun ja =>
        if (binSizes occA virA).getD ja 0 = 0 then []
        else (List.replicate ((binSizes occA virA).getD ja 0) (f ja)).flatten) =
        virA.flatMap fun a => f (occA.countP (· < a)) := by
      intro f
      have : ∀ ja ∈ List.range (occA.length + 1), (if (binSizes occA virA).getD ja 0 = 0 then []
          else (List.replicate ((binSizes occA virA).getD ja 0) (f ja)).flatten) =
          (List.replicate ((virA.map (fun a => occA.countP (· < a))).count ja) (f ja)).flatten := by
        intro ja hja
        rw [binSizes_getD occA virA hsA hvA ja (List.mem_range.1 hja)]
        split_ifs with h0
        · rw [h0]; rfl
        · rfl
      rw [List.flatMap_congr this]
      have h3 := blocks_map (occA.length + 1) _ (countP_vir_sorted (occIdx := occA) hvA) (countP_vir_lt occA virA) f
      have h4 := congrArg List.flatten h3
      rw [List.map_map] at h4
      rw [List.flatMap_def (l := virA)]
      simp only [Function.comp_def] at h4
      rw [← h4, List.flatMap_def, List.flatMap_def, List.flatten_flatten, List.map_map]
      rfl
    exact outer _
  rw [hcode, flatMap_range_getD occA 0, List.map_flatMap]
  apply List.flatMap_congr; intro ia hia
  rw [flatMap_range_getD occB 0, List.map_flatMap]
  apply List.flatMap_congr; intro ib hib
  rw [List.map_flatMap]
  apply List.flatMap_congr; intro a ha
  rw [List.map_map]
  apply List.map_congr_left; intro b hb
  rw [List.mem_range] at hia hib
  rw [List.getD_eq_getElem _ _ hia, List.getD_eq_getElem _ _ hib]
  have mA : occA[ia] ∈ occA := List.getElem_mem _
  have mB : occB[ib] ∈ occB := List.getElem_mem _
  have oA := (h1 _).2 (Or.inl mA)
  have oB := (h1 _).2 (Or.inr mB)
  have lAB := hblock _ (List.mem_append_left _ mA) _ (List.mem_append_left _ mB)
  have lAb := hblock _ (List.mem_append_left _ mA) b (List.mem_append_right _ hb)
  have lab := hblock a (List.mem_append_right _ ha) b (List.mem_append_right _ hb)
  have laB := hblock a (List.mem_append_right _ ha) _ (List.mem_append_left _ mB)
  rw [signExcite_two_two oA oB lAB.ne (h2 a (List.mem_append_left _ ha)) (h2 b (List.mem_append_right _ hb)) lab.ne]
  simp only [Function.comp]
  congr 1
  have mS1 : occA[ia] ∈ occSet sd := mem_occSet.2 oA
  have mS2 : occB[ib] ∈ (occSet sd).erase occA[ia] := Finset.mem_erase.2 ⟨lAB.ne', mem_occSet.2 oB⟩
  rw [phase_insert, if_neg (fun h => absurd h.2 (by omega))]
  simp only [phase_erase, mS1, mS2, true_and, if_pos lAB, if_pos lAb, if_neg laB.not_gt]
  rw [hm _ (List.mem_append_left _ mA), hn _ (List.mem_append_left _ mB), hm a (List.mem_append_right _ ha),
    hn b (List.mem_append_right _ hb), countP_lt_getElem hsA ia hia, countP_lt_getElem hsB ib hib]
  have l1 := getElem_lt_iff_lt_countP a hsA ia hia
  have l2 := getElem_lt_iff_lt_countP b hsB ib hib
  simp only [G, l1, l2, gt_iff_lt]
  by_cases c1 : ia < occA.countP (· < a) <;> by_cases c2 : ib < occB.countP (· < b) <;>
  simp only [c1, c2, if_true, if_false, b2i, neg_jumpSign, jumpSign_mul] <;>
  apply jumpSign_congr <;> omega

example : OthersOutside 0b110011 [0, 1] [2, 3] := by
  intro k hk hko
  right
  have : k = 4 ∨ k = 5 := by
    have hlt : k < 6 := by
      by_contra h
      rw [Nat.testBit_lt_two_pow (lt_of_lt_of_le (by norm_num : 0b110011 < 2 ^ 6)
        (Nat.pow_le_pow_right (by norm_num) (by omega)))] at hk
      cases hk
    interval_cases k <;> simp_all (config := { decide := true })
  intro i hi
  simp at hi; omega

end Fanpy.Props
