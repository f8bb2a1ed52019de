import Verif.Lemmas.UnrWfn

/-!
# Arrays of matrix elements of spin-blocked Hamiltonians
-/

namespace Fanpy.Lemmas
open Finset Fanpy.Spec Fanpy.Slater Fanpy.Props Fanpy.Ham Fanpy.It

variable {R : Type} [CommRing R]
variable {sd n : ℕ} {oa ob va vb : List ℕ}

theorem sorted_shift {l : List ℕ} (h : l.Pairwise (· < ·)) (n : ℕ) : (l.map (· + n)).Pairwise (· < ·) := by
  rw [List.pairwise_map]
  exact h.imp fun h => by omega

theorem nodup_of_sorted {l : List ℕ} (h : l.Pairwise (· < ·)) : l.Nodup := h.imp fun h => Nat.ne_of_lt h

namespace Blocks

variable (hB : Blocks n sd oa ob va vb)
include hB

theorem occA : ∀ i ∈ oa, sd.testBit i = true := fun i hi => ((hB.hoa i).1 hi).2
theorem virA : ∀ i ∈ va, sd.testBit i = false := fun i hi => ((hB.hva i).1 hi).2
theorem occB : ∀ i ∈ ob.map (· + n), sd.testBit i = true := fun i hi => by
  obtain ⟨j, hj, rfl⟩ := List.mem_map.1 hi
  exact (hB.hob j).1 hj
theorem virB : ∀ i ∈ vb.map (· + n), sd.testBit i = false := fun i hi => by
  obtain ⟨j, hj, rfl⟩ := List.mem_map.1 hi
  exact ((hB.hvb j).1 hj).2
theorem loa : ∀ i ∈ oa, i < n := fun i hi => ((hB.hoa i).1 hi).1
theorem lva : ∀ i ∈ va, i < n := fun i hi => ((hB.hva i).1 hi).1
theorem lvb : ∀ i ∈ vb, i < n := fun i hi => ((hB.hvb i).1 hi).1
theorem lob' : ∀ i ∈ ob.map (· + n), n ≤ i ∧ i < 2 * n := fun i hi => by
  obtain ⟨j, hj, rfl⟩ := List.mem_map.1 hi
  have := hB.lob j hj
  omega
theorem lvb' : ∀ i ∈ vb.map (· + n), n ≤ i ∧ i < 2 * n := fun i hi => by
  obtain ⟨j, hj, rfl⟩ := List.mem_map.1 hi
  have := hB.lvb j hj
  omega
theorem occ_iff (i : ℕ) : sd.testBit i = true ↔ i ∈ oa ∨ i ∈ ob.map (· + n) := by
  constructor
  · intro h
    by_cases hi : i < n
    · exact Or.inl ((hB.hoa i).2 ⟨hi, h⟩)
    · refine Or.inr (List.mem_map.2 ⟨i - n, (hB.hob _).2 ?_, by omega⟩)
      rwa [show i - n + n = i by omega]
  · rintro (h | h)
    · exact hB.occA i h
    · exact hB.occB i h
theorem ltAB : ∀ a ∈ oa ++ va, ∀ b ∈ ob.map (· + n) ++ vb.map (· + n), a < b := by
  intro a ha b hb
  have h1 : a < n := by
    rcases List.mem_append.1 ha with h | h
    · exact hB.loa a h
    · exact hB.lva a h
  have h2 : n ≤ b := by
    rcases List.mem_append.1 hb with h | h
    · exact (hB.lob' b h).1
    · exact (hB.lvb' b h).1
  omega
theorem outA : OthersOutside sd oa va := fun k hk hko => by
  right
  intro i hi
  exact hB.ltAB i hi k (List.mem_append_left _ (((hB.occ_iff k).1 hk).resolve_left hko))
theorem outB : OthersOutside sd (ob.map (· + n)) (vb.map (· + n)) := fun k hk hko => by
  left
  intro i hi
  exact hB.ltAB k (List.mem_append_left _ (((hB.occ_iff k).1 hk).resolve_right hko)) i hi

theorem excA (k : ℕ) : ∀ o ∈ comb oa k, ∀ v ∈ comb va k, Exc sd o v := exc_comb hB.soa hB.sva hB.occA hB.virA k
theorem excB (k : ℕ) : ∀ o ∈ comb (ob.map (· + n)) k, ∀ v ∈ comb (vb.map (· + n)) k, Exc sd o v :=
  exc_comb (sorted_shift hB.sob n) (sorted_shift hB.svb n) hB.occB hB.virB k
theorem excAB : ∀ o ∈ pairsAB oa (ob.map (· + n)), ∀ v ∈ pairsAB va (vb.map (· + n)), Exc sd o v :=
  exc_pairsAB hB.occA hB.occB hB.virA hB.virB
    (fun a ha b hb => hB.ltAB a (List.mem_append_left _ ha) b (List.mem_append_left _ hb))
    (fun a ha b hb => hB.ltAB a (List.mem_append_right _ ha) b (List.mem_append_right _ hb))

end Blocks

theorem unr_arrOneA (H : UnrHam R) (hn : 0 < H.norb) (hB : Blocks H.norb sd oa ob va vb) :
    ∃ L, unrSdsOneA H oa ob va = .ok L ∧
      L.map Except.ok = (excL sd (comb oa 1) (comb va 1)).map (unrDecomposed H sd) := by
  have hS := C11_sign_excite_one sd _ _ hB.soa hB.sva hB.occA hB.virA hB.outA
  have hguard := guardIdx_ok (n := H.norb) (l := oa ++ ob ++ va) (by
    intro i hi
    simp only [List.mem_append] at hi
    rcases hi with (h | h) | h
    · exact hB.loa i h
    · exact hB.lob i h
    · exact hB.lva i h)
  simp only [unrSdsOneA, hguard, bind, Except.bind, sharedIndicesRemoveOne_zip (nodup_of_sorted hB.soa)]
  rw [List.flatMap_map]
  let pairs : List (ℕ × ℕ) := prod oa va
  let val : ℕ × ℕ → R × R × R := fun p => (H.oneA p.1 p.2,
    ((oa.filter (fun j => decide (j ≠ p.1))).map (fun s => H.twoAA s p.1 s p.2)).sum +
      (ob.map (fun s => H.twoAB p.1 s p.2 s)).sum,
    -((oa.filter (fun j => decide (j ≠ p.1))).map (fun s => H.twoAA s p.1 p.2 s)).sum)
  have hvals : (oa.flatMap fun i => va.map fun b => (H.oneA i b,
      ((oa.filter (fun j => decide (j ≠ i))).map (fun s => H.twoAA s i s b)).sum + (ob.map (fun s => H.twoAB i s b s)).sum,
      -((oa.filter (fun j => decide (j ≠ i))).map (fun s => H.twoAA s i b s)).sum)) = pairs.map val := by
    simp only [pairs, prod, List.map_flatMap, List.map_map, Function.comp_def, val]
  have hS' : (signExciteOne oa va).map (Except.ok (ε := PyErr)) = pairs.map fun p => signExcite (some sd) [p.1] [p.2] := by
    rw [hS]; simp only [pairs, prod, List.map_flatMap, List.map_map, Function.comp_def]
  have hdets : excL sd (comb oa 1) (comb va 1) = pairs.map fun p => exc sd [p.1] [p.2] := by
    simp only [pairs, prod, excL, comb_one, List.flatMap_map, List.map_flatMap, List.map_map, Function.comp_def]
  rw [hvals, hdets]
  apply array_eq (signTimes (R := R)) pairs _ _ val (fun p => exc sd [p.1] [p.2]) (unrDecomposed H sd) hS'
  rintro ⟨i, a⟩ hp
  have hp' : i ∈ oa ∧ a ∈ va := by simpa [pairs, prod] using hp
  have hs := signExcite_one_one (hB.occA i hp'.1) (hB.virA a hp'.2)
  exact ⟨_, hs, unr_singleA H hn hB hp'.1 hp'.2 hs⟩

theorem unr_arrOneB (H : UnrHam R) (hn : 0 < H.norb) (hB : Blocks H.norb sd oa ob va vb) :
    ∃ L, unrSdsOneB H oa ob vb = .ok L ∧
      L.map Except.ok = (excL sd (comb (ob.map (· + H.norb)) 1) (comb (vb.map (· + H.norb)) 1)).map (unrDecomposed H sd) := by
  have hS := C11_sign_excite_one sd _ _ (sorted_shift hB.sob _) (sorted_shift hB.svb _) hB.occB hB.virB hB.outB
  rw [signExciteOne_shift] at hS
  have hguard := guardIdx_ok (n := H.norb) (l := oa ++ ob ++ vb) (by
    intro i hi
    simp only [List.mem_append] at hi
    rcases hi with (h | h) | h
    · exact hB.loa i h
    · exact hB.lob i h
    · exact hB.lvb i h)
  simp only [unrSdsOneB, hguard, bind, Except.bind, sharedIndicesRemoveOne_zip (nodup_of_sorted hB.sob)]
  rw [List.flatMap_map]
  let pairs : List (ℕ × ℕ) := prod ob vb
  let val : ℕ × ℕ → R × R × R := fun p => (H.oneB p.1 p.2,
    ((ob.filter (fun j => decide (j ≠ p.1))).map (fun s => H.twoBB s p.1 s p.2)).sum +
      (oa.map (fun s => H.twoAB s p.1 s p.2)).sum,
    -((ob.filter (fun j => decide (j ≠ p.1))).map (fun s => H.twoBB s p.1 p.2 s)).sum)
  have hvals : (ob.flatMap fun i => vb.map fun b => (H.oneB i b,
      ((ob.filter (fun j => decide (j ≠ i))).map (fun s => H.twoBB s i s b)).sum + (oa.map (fun s => H.twoAB s i s b)).sum,
      -((ob.filter (fun j => decide (j ≠ i))).map (fun s => H.twoBB s i b s)).sum)) = pairs.map val := by
    simp only [pairs, prod, List.map_flatMap, List.map_map, Function.comp_def, val]
  have hS' : (signExciteOne ob vb).map (Except.ok (ε := PyErr)) =
      pairs.map fun p => signExcite (some sd) [p.1 + H.norb] [p.2 + H.norb] := by
    rw [hS]; simp only [pairs, prod, List.map_flatMap, List.flatMap_map, List.map_map, Function.comp_def]
  have hdets : excL sd (comb (ob.map (· + H.norb)) 1) (comb (vb.map (· + H.norb)) 1) =
      pairs.map fun p => exc sd [p.1 + H.norb] [p.2 + H.norb] := by
    simp only [pairs, prod, excL, comb_one, List.flatMap_map, List.map_flatMap, List.map_map, Function.comp_def]
  rw [hvals, hdets]
  apply array_eq (signTimes (R := R)) pairs _ _ val (fun p => exc sd [p.1 + H.norb] [p.2 + H.norb])
    (unrDecomposed H sd) hS'
  rintro ⟨i, a⟩ hp
  have hp' : i ∈ ob ∧ a ∈ vb := by simpa [pairs, prod] using hp
  have hs := signExcite_one_one (hB.occB _ (List.mem_map_of_mem hp'.1)) (hB.virB _ (List.mem_map_of_mem hp'.2))
  exact ⟨_, hs, unr_singleB H hn hB hp'.1 hp'.2 hs⟩

theorem signTwo {o v : List ℕ} {a b c d : ℕ} (hX : Exc sd o v) (ho : o = [a, b]) (hv : v = [c, d]) :
    a < b ∧ c < d ∧ ∃ σ, signExcite (some sd) [a, b] [d, c] = .ok σ := by
  subst ho hv
  have hab : a < b := by have := hX.so; simpa using this
  have hcd : c < d := by have := hX.sv; simpa using this
  exact ⟨hab, hcd, _, signExcite_two_two (hX.ho a (by simp)) (hX.ho b (by simp)) hab.ne (hX.hv c (by simp))
    (hX.hv d (by simp)) hcd.ne⟩

theorem comb_map {α β : Type*} (f : α → β) (l : List α) (k : ℕ) : comb (l.map f) k = (comb l k).map (List.map f) := by
  induction l generalizing k with
  | nil => cases k <;> simp [comb]
  | cons x xs ih => cases k <;> simp [comb, ih, Function.comp_def]

theorem comb_two_shift (n : ℕ) (l : List ℕ) : comb (l.map (· + n)) 2 = (comb l 2).map (fun c => c.map (· + n)) :=
  comb_map _ _ _

theorem unr_arrTwoAA (H : UnrHam R) (hn : 0 < H.norb) (hB : Blocks H.norb sd oa ob va vb) (h1 : oa.length > 1)
    (h2 : va.length > 1) :
    ∃ L, unrSdsTwoAA H oa va = .ok L ∧ L.map (fun t => Except.ok ((0 : R), t)) =
      (excL sd (comb oa 2) (comb va 2)).map (unrDecomposed H sd) := by
  have hS := C11_sign_excite_two sd _ _ hB.soa hB.sva hB.occA hB.virA hB.outA
  have hguard := guardIdx_ok (n := H.norb) (l := oa ++ va) (by
    intro i hi
    rcases List.mem_append.1 hi with h | h
    · exact hB.loa i h
    · exact hB.lva i h)
  have n1 : comb oa 2 ≠ [] := comb_two_ne_nil h1
  have n2 : comb va 2 ≠ [] := comb_two_ne_nil h2
  simp only [unrSdsTwoAA, pairColumns, if_neg n1, if_neg n2, hguard, bind, Except.bind]
  rw [List.flatMap_map]
  let pairs : List (List ℕ × List ℕ) := prod (comb oa 2) (comb va 2)
  let val : List ℕ × List ℕ → R × R := fun p => (
    H.twoAA (p.1.getD 0 0) (p.1.getD 1 0) (p.2.getD 0 0) (p.2.getD 1 0),
    -H.twoAA (p.1.getD 0 0) (p.1.getD 1 0) (p.2.getD 1 0) (p.2.getD 0 0))
  have hS' : (signExciteTwo oa va).map (Except.ok (ε := PyErr)) =
      pairs.map fun p => signExcite (some sd) p.1 p.2.reverse := by
    rw [hS]; simp only [pairs, prod, List.map_flatMap, List.map_map, Function.comp_def]
  have hdets : excL sd (comb oa 2) (comb va 2) = pairs.map fun p => exc sd p.1 p.2 := by
    simp only [pairs, prod, excL, List.map_flatMap, List.map_map, Function.comp_def]
  have hvals : ((comb oa 2).flatMap fun a => ((comb va 2).map fun p => (p.getD 0 0, p.getD 1 0)).map fun cd =>
      (H.twoAA (a.getD 0 0) (a.getD 1 0) cd.1 cd.2, -H.twoAA (a.getD 0 0) (a.getD 1 0) cd.2 cd.1)) =
        pairs.map val := by
    simp only [pairs, prod, List.map_flatMap, List.map_map, Function.comp_def, val]
  rw [hvals, hdets]
  apply array_eq' (signTimes2 (R := R)) (fun t => ((0 : R), t)) pairs _ _ val (fun p => exc sd p.1 p.2) (unrDecomposed H sd) hS'
  rintro ⟨o, v⟩ hp
  have hp' : o ∈ comb oa 2 ∧ v ∈ comb va 2 := by simpa [pairs, prod] using hp
  have hX := hB.excA 2 o hp'.1 v hp'.2
  have lo := fun i hi => hB.loa i ((mem_comb.1 hp'.1).1.subset hi)
  have lv := fun i hi => hB.lva i ((mem_comb.1 hp'.2).1.subset hi)
  obtain ⟨a, b, ho⟩ := List.length_eq_two.1 (mem_comb.1 hp'.1).2
  obtain ⟨c, d, hv⟩ := List.length_eq_two.1 (mem_comb.1 hp'.2).2
  obtain ⟨hab, hcd, σ, hs⟩ := signTwo hX ho hv
  subst ho hv
  have la := lo a (by simp)
  have lb := lo b (by simp)
  have lc := lv c (by simp)
  have ld := lv d (by simp)
  refine ⟨σ, hs, ?_⟩
  rw [unr_double H hn hX.diff hs, unrTwo_eval H (by omega) (by omega) (by omega) (by omega) hab hcd]
  simp only [signTimes2, signTimes, val, List.getD_cons_zero, List.getD_cons_succ, mul_zero, lb, ld, and_self, if_true,
    Except.bind]

theorem unr_arrTwoBB (H : UnrHam R) (hn : 0 < H.norb) (hB : Blocks H.norb sd oa ob va vb) (h1 : ob.length > 1)
    (h2 : vb.length > 1) :
    ∃ L, unrSdsTwoBB H ob vb = .ok L ∧ L.map (fun t => Except.ok ((0 : R), t)) =
      (excL sd (comb (ob.map (· + H.norb)) 2) (comb (vb.map (· + H.norb)) 2)).map (unrDecomposed H sd) := by
  have hS := C11_sign_excite_two sd _ _ (sorted_shift hB.sob _) (sorted_shift hB.svb _) hB.occB hB.virB hB.outB
  rw [signExciteTwo_shift] at hS
  have hguard := guardIdx_ok (n := H.norb) (l := ob ++ vb) (by
    intro i hi
    rcases List.mem_append.1 hi with h | h
    · exact hB.lob i h
    · exact hB.lvb i h)
  have n1 : comb ob 2 ≠ [] := comb_two_ne_nil h1
  have n2 : comb vb 2 ≠ [] := comb_two_ne_nil h2
  simp only [unrSdsTwoBB, pairColumns, if_neg n1, if_neg n2, hguard, bind, Except.bind]
  rw [List.flatMap_map]
  let pairs : List (List ℕ × List ℕ) := prod (comb ob 2) (comb vb 2)
  let val : List ℕ × List ℕ → R × R := fun p => (
    H.twoBB (p.1.getD 0 0) (p.1.getD 1 0) (p.2.getD 0 0) (p.2.getD 1 0),
    -H.twoBB (p.1.getD 0 0) (p.1.getD 1 0) (p.2.getD 1 0) (p.2.getD 0 0))
  have hS' : (signExciteTwo ob vb).map (Except.ok (ε := PyErr)) =
      pairs.map fun p => signExcite (some sd) (p.1.map (· + H.norb)) (p.2.map (· + H.norb)).reverse := by
    rw [hS, comb_two_shift, comb_two_shift]
    simp only [pairs, prod, List.map_flatMap, List.flatMap_map, List.map_map, Function.comp_def]
  have hdets : excL sd (comb (ob.map (· + H.norb)) 2) (comb (vb.map (· + H.norb)) 2) =
      pairs.map fun p => exc sd (p.1.map (· + H.norb)) (p.2.map (· + H.norb)) := by
    rw [comb_two_shift, comb_two_shift]
    simp only [pairs, prod, excL, List.map_flatMap, List.flatMap_map, List.map_map, Function.comp_def]
  have hvals : ((comb ob 2).flatMap fun a => ((comb vb 2).map fun p => (p.getD 0 0, p.getD 1 0)).map fun cd =>
      (H.twoBB (a.getD 0 0) (a.getD 1 0) cd.1 cd.2, -H.twoBB (a.getD 0 0) (a.getD 1 0) cd.2 cd.1)) =
        pairs.map val := by
    simp only [pairs, prod, List.map_flatMap, List.map_map, Function.comp_def, val]
  rw [hvals, hdets]
  apply array_eq' (signTimes2 (R := R)) (fun t => ((0 : R), t)) pairs _ _ val
    (fun p => exc sd (p.1.map (· + H.norb)) (p.2.map (· + H.norb))) (unrDecomposed H sd) hS'
  rintro ⟨o, v⟩ hp
  have hp' : o ∈ comb ob 2 ∧ v ∈ comb vb 2 := by simpa [pairs, prod] using hp
  have hX := hB.excB 2 (o.map (· + H.norb)) (by rw [comb_two_shift]; exact List.mem_map_of_mem hp'.1)
    (v.map (· + H.norb)) (by rw [comb_two_shift]; exact List.mem_map_of_mem hp'.2)
  have lo := fun i hi => hB.lob i ((mem_comb.1 hp'.1).1.subset hi)
  have lv := fun i hi => hB.lvb i ((mem_comb.1 hp'.2).1.subset hi)
  obtain ⟨a, b, rfl⟩ := List.length_eq_two.1 (mem_comb.1 hp'.1).2
  obtain ⟨c, d, rfl⟩ := List.length_eq_two.1 (mem_comb.1 hp'.2).2
  obtain ⟨hab, hcd, σ, hs⟩ := signTwo hX rfl rfl
  have la := lo a (by simp)
  have lb := lo b (by simp)
  have lc := lv c (by simp)
  have ld := lv d (by simp)
  refine ⟨σ, hs, ?_⟩
  have n3 : ¬ (a + H.norb < H.norb) := by omega
  have n4 : ¬ (b + H.norb < H.norb) := by omega
  have n5 : ¬ (c + H.norb < H.norb) := by omega
  have hd := hX.diff
  simp only [List.map_cons, List.map_nil] at hd ⊢
  rw [unr_double H hn hd hs, unrTwo_eval H (show a + H.norb < _ by omega) (show b + H.norb < _ by omega)
    (show c + H.norb < _ by omega) (show d + H.norb < _ by omega) hab hcd]
  simp only [signTimes2, signTimes, val, List.getD_cons_zero, List.getD_cons_succ, mul_zero, n3, n4, n5, false_and,
    not_false_eq_true, and_self, if_true, if_false, Except.bind, Nat.add_sub_cancel]

theorem unr_arrTwoAB (H : UnrHam R) (hn : 0 < H.norb) (hB : Blocks H.norb sd oa ob va vb) (h1 : oa.length > 0)
    (h2 : ob.length > 0) (h3 : va.length > 0) (h4 : vb.length > 0) :
    ∃ L, unrSdsTwoAB H oa ob va vb = .ok L ∧ L.map (fun t => Except.ok ((0 : R), t, (0 : R))) =
      (excL sd (pairsAB oa (ob.map (· + H.norb))) (pairsAB va (vb.map (· + H.norb)))).map (unrDecomposed H sd) := by
  have hS := C11_sign_excite_two_ab sd _ _ _ _ hB.soa (sorted_shift hB.sob H.norb) hB.sva (sorted_shift hB.svb H.norb)
    hB.occ_iff (fun i hi => by
      rcases List.mem_append.1 hi with h | h
      · exact hB.virA i h
      · exact hB.virB i h) hB.ltAB
  rw [signExciteTwoAb_shift] at hS
  have hguard := guardIdx_ok (n := H.norb) (l := oa ++ ob ++ va ++ vb) (by
    intro i hi
    simp only [List.mem_append] at hi
    rcases hi with ((h | h) | h) | h
    · exact hB.loa i h
    · exact hB.lob i h
    · exact hB.lva i h
    · exact hB.lvb i h)
  have hne : ∀ {l m : List ℕ}, l.length > 0 → m.length > 0 → prod l m ≠ [] := by
    intro l m h h'
    obtain ⟨x, l, rfl⟩ := List.exists_cons_of_length_pos h
    obtain ⟨y, m, rfl⟩ := List.exists_cons_of_length_pos h'
    simp [prod]
  simp only [unrSdsTwoAB, prodColumns, if_neg (hne h1 h2), if_neg (hne h3 h4), hguard, bind, Except.bind]
  let pairs : List ((ℕ × ℕ) × ℕ × ℕ) := prod (prod oa ob) (prod va vb)
  let val : (ℕ × ℕ) × ℕ × ℕ → R := fun p => H.twoAB p.1.1 p.1.2 p.2.1 p.2.2
  have hS' : (signExciteTwoAb oa ob va vb).map (Except.ok (ε := PyErr)) =
      pairs.map fun p => signExcite (some sd) [p.1.1, p.1.2 + H.norb] [p.2.2 + H.norb, p.2.1] := by
    rw [hS]
    simp only [pairs, prod, List.map_flatMap, List.flatMap_map, List.flatMap_assoc, List.map_map, Function.comp_def]
  have hdets : excL sd (pairsAB oa (ob.map (· + H.norb))) (pairsAB va (vb.map (· + H.norb))) =
      pairs.map fun p => exc sd [p.1.1, p.1.2 + H.norb] [p.2.1, p.2.2 + H.norb] := by
    simp only [pairs, pairsAB, prod, excL, List.map_flatMap, List.flatMap_map, List.flatMap_assoc, List.map_map,
      Function.comp_def]
  have hvals : ((prod oa ob).flatMap fun ab => (prod va vb).map fun cd => H.twoAB ab.1 ab.2 cd.1 cd.2) =
        pairs.map val := by
    simp only [pairs, prod, List.map_flatMap, List.map_map, Function.comp_def, val]
  rw [hvals, hdets]
  apply array_eq' (fun (s : ℤ) (x : R) => (s : R) * x) (fun t => ((0 : R), t, (0 : R))) pairs _ _ val _
    (unrDecomposed H sd) hS'
  rintro ⟨⟨a, b⟩, c, d⟩ hp
  have hp' : (a ∈ oa ∧ b ∈ ob) ∧ c ∈ va ∧ d ∈ vb := by simpa [pairs, prod] using hp
  obtain ⟨⟨ha, hb⟩, hc, hd⟩ := hp'
  have hX := hB.excAB [a, b + H.norb] (mem_pairsAB.2 ⟨a, ha, _, List.mem_map_of_mem hb, rfl⟩) [c, d + H.norb]
    (mem_pairsAB.2 ⟨c, hc, _, List.mem_map_of_mem hd, rfl⟩)
  obtain ⟨hab, hcd, σ, hs⟩ := signTwo hX rfl rfl
  have la := hB.loa a ha
  have lb := hB.lob b hb
  have lc := hB.lva c hc
  have ld := hB.lvb d hd
  refine ⟨σ, hs, ?_⟩
  have n3 : ¬ (b + H.norb < H.norb) := by omega
  have n4 : ¬ (d + H.norb < H.norb) := by omega
  rw [unr_double H hn hX.diff hs, unrTwo_eval H (by omega) (by omega) (by omega) (by omega) hab hcd]
  simp only [signTimes, val, mul_zero, n3, n4, la, lc, not_false_eq_true, not_true_eq_false,
    and_self, if_true, if_false, Except.bind, Nat.add_sub_cancel]

end Fanpy.Lemmas
