import Verif.Lemmas.WfnSums

/-!
# C27 and C28: integrals of a determinant with a wavefunction (base class and generalized orbitals)
-/

namespace Fanpy.Props
open Finset Fanpy.Spec Fanpy.Slater Fanpy.Ham Fanpy.Lemmas Fanpy.It

variable {R : Type} [CommRing R]

/-- C28, generalized orbitals, single excitations. The array contains, position by position, the decomposed matrix
elements of `sd` with the determinants that `excite` (and `excite_bulk`, while the 64-bit words suffice) produces for
the occupied orbitals in the outer and the virtual orbitals in the inner loop. -/
theorem C28_generalized_one_partial (H : GenHam R) (sd : ℕ) (hsd : sd < 2 ^ H.norb) :
    ∃ (dets : List ℕ) (L : List (R × R × R)),
      dets.map (fun x => Except.ok (some x)) = (occIndices (some sd)).flatMap (fun i =>
        (virIndices (some sd) H.norb).map fun a => excite (some sd) [i, a]) ∧
      genSdsOne H (occIndices (some sd)) (virIndices (some sd) H.norb) = .ok L ∧
      L.map Except.ok = dets.map (genDecomposed H sd) ∧
      (H.norb ≤ 63 → exciteBulk sd (occIndices (some sd)) (virIndices (some sd) H.norb) 1 =
        .ok (dets.map (fun (x : ℕ) => (x : ℤ)))) := by
  have so := sorted_occIndices sd
  have sv := sorted_virIndices sd H.norb
  have ho : ∀ i ∈ occIndices (some sd), sd.testBit i = true := fun i hi => mem_occIndices.1 hi
  have hv : ∀ i ∈ virIndices (some sd) H.norb, sd.testBit i = false := fun i hi => (mem_virIndices.1 hi).2
  have hlo : ∀ i ∈ occIndices (some sd), i < H.norb := fun i hi =>
    lt_two_pow_iff.1 hsd i (mem_occSet.2 (ho i hi))
  have hlv : ∀ i ∈ virIndices (some sd) H.norb, i < H.norb := fun i hi => by
    have := (mem_virIndices.1 hi).1; omega
  have hE := exc_comb so sv ho hv 1
  have hout : OthersOutside sd (occIndices (some sd)) (virIndices (some sd) H.norb) := fun k hk hk' =>
    absurd (mem_occIndices.2 hk) hk'
  have hS := C11_sign_excite_one sd _ _ so sv ho hv hout
  have hguard := guardIdx_ok (n := H.norb) (l := occIndices (some sd) ++ virIndices (some sd) H.norb) (by
    intro i hi
    rcases List.mem_append.1 hi with h | h
    · exact hlo i h
    · exact hlv i h)
  have hbulk : H.norb ≤ 63 → exciteBulk sd (occIndices (some sd)) (virIndices (some sd) H.norb) 1 = _ := fun h63 =>
    exciteBulk_eq so sv ho hv 1 (lt_of_lt_of_le hsd (Nat.pow_le_pow_right (by norm_num) h63))
      (fun i hi => lt_of_lt_of_le (hlv i hi) h63)
  simp only [genSdsOne, hguard, bind, Except.bind, sharedIndicesRemoveOne_zip (nodup_occIndices sd)]
  rw [List.flatMap_map]
  -- the pairs of an occupied and a virtual orbital
  let pairs : List (ℕ × ℕ) := prod (occIndices (some sd)) (virIndices (some sd) H.norb)
  let val : ℕ × ℕ → R × R × R := fun p => (H.one p.1 p.2,
    (((occIndices (some sd)).filter (fun j => decide (j ≠ p.1))).map (fun s => H.two s p.1 s p.2)).sum,
    -(((occIndices (some sd)).filter (fun j => decide (j ≠ p.1))).map (fun s => H.two s p.1 p.2 s)).sum)
  have hvals : ((occIndices (some sd)).flatMap fun i => (virIndices (some sd) H.norb).map fun b => (H.one i b,
      (((occIndices (some sd)).filter (fun j => decide (j ≠ i))).map (fun s => H.two s i s b)).sum,
      -(((occIndices (some sd)).filter (fun j => decide (j ≠ i))).map (fun s => H.two s i b s)).sum)) = pairs.map val := by
    simp only [pairs, prod, List.map_flatMap, List.map_map, Function.comp_def, val]
  have hS' : (signExciteOne (occIndices (some sd)) (virIndices (some sd) H.norb)).map (Except.ok (ε := PyErr)) =
      pairs.map fun p => signExcite (some sd) [p.1] [p.2] := by
    rw [hS]; simp only [pairs, prod, List.map_flatMap, List.map_map, Function.comp_def]
  have hdets : excL sd (comb (occIndices (some sd)) 1) (comb (virIndices (some sd) H.norb) 1) =
      pairs.map fun p => exc sd [p.1] [p.2] := by
    simp only [pairs, prod, excL, comb_one, List.flatMap_map, List.map_flatMap, List.map_map, Function.comp_def]
  obtain ⟨L, e1, e2⟩ := array_eq (signTimes (R := R)) pairs _ _ val (fun p => exc sd [p.1] [p.2]) (genDecomposed H sd) hS' (by
    rintro ⟨i, a⟩ hp
    have hp' : i ∈ occIndices (some sd) ∧ a ∈ virIndices (some sd) H.norb := by
      simpa [pairs, prod] using hp
    have hX := hE [i] (by rw [comb_one]; simp [hp'.1]) [a] (by rw [comb_one]; simp [hp'.2])
    have hs := signExcite_one_one (ho i hp'.1) (hv a hp'.2)
    have hlt : exc sd [i] [a] < 2 ^ H.norb := exc_lt hsd (by simpa using hlv a hp'.2)
    refine ⟨_, hs, ?_⟩
    rw [gen_single H (lt_two_pow_iff.1 hsd) (lt_two_pow_iff.1 hlt) hX.diff hs, hX.shared]
    simp only [signTimes, val, List.mem_singleton])
  refine ⟨excL sd (comb (occIndices (some sd)) 1) (comb (virIndices (some sd) H.norb) 1), L, ?_, ?_, ?_, hbulk⟩
  · rw [excL_excite hE, comb_one, comb_one, List.flatMap_map]
    simp only [List.map_map, Function.comp_def, List.cons_append, List.nil_append]
  · rw [hvals, e1]
  · rw [e2, hdets]

/-- C28, generalized orbitals, double excitations. If there are at least two occupied and two virtual orbitals, the array
contains, position by position, the decomposed matrix elements of `sd` with the determinants that `excite` (and
`excite_bulk`) produces for the pairs of occupied and the pairs of virtual orbitals; otherwise it raises `IndexError`. -/
theorem C28_generalized_two_partial (H : GenHam R) (sd : ℕ) (hsd : sd < 2 ^ H.norb) :
    ∃ (dets : List ℕ), dets.map (fun x => Except.ok (some x)) = (comb (occIndices (some sd)) 2).flatMap (fun o =>
        (comb (virIndices (some sd) H.norb) 2).map fun v => excite (some sd) (o ++ v)) ∧
      (H.norb ≤ 63 → exciteBulk sd (occIndices (some sd)) (virIndices (some sd) H.norb) 2 =
        .ok (dets.map (fun (x : ℕ) => (x : ℤ)))) ∧
      (if (occIndices (some sd)).length > 1 ∧ (virIndices (some sd) H.norb).length > 1 then
        ∃ L : List (R × R × R), genSdsTwo H (occIndices (some sd)) (virIndices (some sd) H.norb) = .ok L ∧
          L.map Except.ok = dets.map (genDecomposed H sd)
      else genSdsTwo H (occIndices (some sd)) (virIndices (some sd) H.norb) = .error .indexError ∧ dets = []) := by
  have so := sorted_occIndices sd
  have sv := sorted_virIndices sd H.norb
  have ho : ∀ i ∈ occIndices (some sd), sd.testBit i = true := fun i hi => mem_occIndices.1 hi
  have hv : ∀ i ∈ virIndices (some sd) H.norb, sd.testBit i = false := fun i hi => (mem_virIndices.1 hi).2
  have hlo : ∀ i ∈ occIndices (some sd), i < H.norb := fun i hi =>
    lt_two_pow_iff.1 hsd i (mem_occSet.2 (ho i hi))
  have hlv : ∀ i ∈ virIndices (some sd) H.norb, i < H.norb := fun i hi => by
    have := (mem_virIndices.1 hi).1; omega
  have hE := exc_comb so sv ho hv 2
  have hout : OthersOutside sd (occIndices (some sd)) (virIndices (some sd) H.norb) := fun k hk hk' =>
    absurd (mem_occIndices.2 hk) hk'
  have hS := C11_sign_excite_two sd _ _ so sv ho hv hout
  have hguard := guardIdx_ok (n := H.norb) (l := occIndices (some sd) ++ virIndices (some sd) H.norb) (by
    intro i hi
    rcases List.mem_append.1 hi with h | h
    · exact hlo i h
    · exact hlv i h)
  have hbulk : H.norb ≤ 63 → exciteBulk sd (occIndices (some sd)) (virIndices (some sd) H.norb) 2 = _ := fun h63 =>
    exciteBulk_eq so sv ho hv 2 (lt_of_lt_of_le hsd (Nat.pow_le_pow_right (by norm_num) h63))
      (fun i hi => lt_of_lt_of_le (hlv i hi) h63)
  refine ⟨excL sd (comb (occIndices (some sd)) 2) (comb (virIndices (some sd) H.norb) 2), excL_excite hE, hbulk, ?_⟩
  generalize occIndices (some sd) = occIdx at *
  generalize virIndices (some sd) (H.norb : ℤ) = virIdx at *
  split_ifs with hlen
  · have n1 : comb occIdx 2 ≠ [] := comb_two_ne_nil hlen.1
    have n2 : comb virIdx 2 ≠ [] := comb_two_ne_nil hlen.2
    simp only [genSdsTwo, pairColumns, if_neg n1, if_neg n2, hguard, bind, Except.bind]
    rw [List.flatMap_map]
    let pairs : List (List ℕ × List ℕ) := prod (comb occIdx 2) (comb virIdx 2)
    let val : List ℕ × List ℕ → R × R × R := fun p => ((0 : R),
      H.two (p.1.getD 0 0) (p.1.getD 1 0) (p.2.getD 0 0) (p.2.getD 1 0),
      -H.two (p.1.getD 0 0) (p.1.getD 1 0) (p.2.getD 1 0) (p.2.getD 0 0))
    have hS' : (signExciteTwo occIdx virIdx).map (Except.ok (ε := PyErr)) =
        pairs.map fun p => signExcite (some sd) p.1 p.2.reverse := by
      rw [hS]; simp only [pairs, prod, List.map_flatMap, List.map_map, Function.comp_def]
    have hdets : excL sd (comb occIdx 2) (comb virIdx 2) = pairs.map fun p => exc sd p.1 p.2 := by
      simp only [pairs, prod, excL, List.map_flatMap, List.map_map, Function.comp_def]
    have hvals : ((comb occIdx 2).flatMap fun a => ((comb virIdx 2).map fun p => (p.getD 0 0, p.getD 1 0)).map fun cd =>
        ((0 : R), H.two (a.getD 0 0) (a.getD 1 0) cd.1 cd.2, -H.two (a.getD 0 0) (a.getD 1 0) cd.2 cd.1)) =
          pairs.map val := by
      simp only [pairs, prod, List.map_flatMap, List.map_map, Function.comp_def, val]
    rw [hvals, hdets]
    apply array_eq (signTimes (R := R)) pairs _ _ val (fun p => exc sd p.1 p.2) (genDecomposed H sd) hS'
    rintro ⟨o, v⟩ hp
    have hp' : o ∈ comb occIdx 2 ∧ v ∈ comb virIdx 2 := by
      simpa [pairs, prod] using hp
    have hX := hE o hp'.1 v hp'.2
    obtain ⟨a, b, rfl⟩ := List.length_eq_two.1 (mem_comb.1 hp'.1).2
    obtain ⟨c, d, rfl⟩ := List.length_eq_two.1 (mem_comb.1 hp'.2).2
    have hab : a ≠ b := by have := hX.nodup_o; simpa using this
    have hcd : c ≠ d := by have := hX.nodup_v; simpa using this
    have hs := signExcite_two_two (hX.ho a (by simp)) (hX.ho b (by simp)) hab (hX.hv c (by simp)) (hX.hv d (by simp)) hcd
    have hlt : exc sd [a, b] [c, d] < 2 ^ H.norb := exc_lt hsd fun i hi =>
      hlv i ((mem_comb.1 hp'.2).1.subset hi)
    refine ⟨_, hs, ?_⟩
    rw [gen_double H (lt_two_pow_iff.1 hsd) (lt_two_pow_iff.1 hlt) hX.diff hs]
    simp only [signTimes, val, List.getD_cons_zero, List.getD_cons_succ, mul_zero]
  · rw [not_and_or] at hlen
    constructor
    · rcases hlen with h | h
      · simp only [genSdsTwo, pairColumns, if_pos (comb_two_nil h), bind, Except.bind]
      · by_cases n1 : comb occIdx 2 = []
        · simp only [genSdsTwo, pairColumns, if_pos n1, bind, Except.bind]
        · simp only [genSdsTwo, pairColumns, if_neg n1, if_pos (comb_two_nil h), bind, Except.bind]
    · rcases hlen with h | h <;> simp [excL, comb_two_nil h]

/-- an array with two occupied and two virtual orbitals -/
example : genSdsOne (GenHam.ofInts 4 (fun i j => (i + 3 * j : ℤ)) (fun i j k l => (i * k + 1) * (j * l + 1) + 2 * i + 2 * j))
    (occIndices (some 0b0101)) (virIndices (some 0b0101) 4) =
      .ok [(3, 9, -7), (-9, -9, 11), (5, 7, -5), (11, 11, -5)] ∧
    genSdsTwo (GenHam.ofInts 4 (fun i j => (i + 3 * j : ℤ)) (fun i j k l => (i * k + 1) * (j * l + 1) + 2 * i + 2 * j))
      (occIndices (some 0b0101)) (virIndices (some 0b0101) 4) = .ok [(0, 11, -7)] := by decide +kernel

theorem gen_total (H : GenHam R) (sd : ℕ) (hsd : sd < 2 ^ H.norb) (h0 : sd ≠ 0) (m : ℕ) (hm : m < 2 ^ H.norb) :
    ∃ t, genDecomposed H sd m = .ok t ∧
      (¬ ((diffOrbs sd m).1.length = (diffOrbs sd m).2.length ∧ (diffOrbs sd m).1.length ≤ 2) → t = 0) := by
  rw [lt_two_pow_iff] at hsd hm
  rcases sdPair_cases sd m with ⟨hl, hc⟩ | ⟨hl, hl2, hc⟩ | ⟨rfl, hd, hs⟩ |
    ⟨a, b, u, hd, hu, ha, hb, hab, e1, e2, hs⟩ |
    ⟨a, b, c, d, u, hd, hu, ha, hb, hc, hdu, hab, hcd, hac, had, hbc, hbd, e1, e2, hs⟩
  · exact ⟨_, gen_far_card _ hl, fun _ => rfl⟩
  · exact ⟨_, gen_far_order _ hl hl2, fun _ => rfl⟩
  · exact ⟨_, gen_same H hsd h0 hd hs, fun h => absurd (by rw [hd]; simp) h⟩
  · exact ⟨_, gen_single H hsd hm hd hs, fun h => absurd (by rw [hd]; simp) h⟩
  · exact ⟨_, gen_double H hsd hm hd hs, fun h => absurd (by rw [hd]; simp) h⟩

omit [CommRing R] in
/-- C27, base class (and `ham/utils.py`). For any matrix elements and any excitation orders without repetition and without
zero, `integrate_sd_wfn` is the sum over `sd` itself and over all determinants with the same number of electrons that
differ from `sd` in a number of orbitals given in `orders`, each one counted once. -/
theorem C27_base {M : Type} [AddCommMonoid M] (mul : R → M → M) (n : ℕ) (elem : ℕ → ℕ → Except PyErr M) (f : ℤ → R)
    (sd : ℕ) (hsd : sd < 2 ^ n) (orders : List ℕ) (hnd : orders.Nodup) (h0 : 0 ∉ orders) (D : ℕ → M)
    (hD : ∀ m < 2 ^ n, elem sd m = .ok (D m)) :
    baseSdWfn mul n elem f sd orders =
      .ok (∑ m ∈ (range (2 ^ n)).filter (fun m => m = sd ∨
        (occSet m).card = (occSet sd).card ∧ (occSet sd \ occSet m).card ∈ orders), mul (f m) (D m)) := by
  have hE := fun k => exc_comb (sd := sd) (sorted_occIndices sd) (sorted_virIndices sd n) (fun _ hi => mem_occIndices.1 hi)
    (fun _ hi => (mem_virIndices.1 hi).2) k
  have hin : ∀ k, ∀ o ∈ comb (occIndices (some sd)) k, ∀ v ∈ comb (virIndices (some sd) n) k,
      baseTerm mul elem f sd o v = .ok (mul (f (exc sd o v)) (D (exc sd o v))) := by
    intro k o ho v hv
    have hlt : exc sd o v < 2 ^ n := exc_lt hsd fun i hi => by
      have := (mem_virIndices.1 ((mem_comb.1 hv).1.subset hi)).1; omega
    simp only [baseTerm, (hE k o ho v hv).excite, bind, Except.bind, hD _ hlt, pure, Except.pure]
  simp only [baseSdWfn, hD sd hsd, bind, Except.bind]
  rw [foldlM_add _ (fun k => ((excL sd (comb (occIndices (some sd)) k) (comb (virIndices (some sd) n) k)).map
    (fun (m : ℕ) => mul (f m) (D m))).sum)]
  · congr 1
    let L := sd :: orders.flatMap fun k => excL sd (comb (occIndices (some sd)) k) (comb (virIndices (some sd) n) k)
    have hL : mul (f sd) (D sd) + (orders.map (fun k =>
        ((excL sd (comb (occIndices (some sd)) k) (comb (virIndices (some sd) n) k)).map
          (fun (m : ℕ) => mul (f m) (D m))).sum)).sum = (L.map (fun (m : ℕ) => mul (f m) (D m))).sum := by
      simp only [L, List.map_cons, List.sum_cons, List.map_flatMap]
      congr 1
      generalize orders = l
      induction l with
      | nil => rfl
      | cons x xs ih => simp [ih]
    rw [hL]
    have hLn : L.Nodup := by
      simp only [L, List.nodup_cons, List.mem_flatMap, not_exists, not_and]
      constructor
      · intro k hk hm
        rw [mem_excL_all hsd, diff_self] at hm
        simp only [List.length_nil] at hm
        exact h0 (by rw [hm.2.1]; exact hk)
      · rw [List.nodup_flatMap]
        refine ⟨fun k _ => nodup_excL_all n sd k, ?_⟩
        apply List.Nodup.pairwise_of_forall_ne hnd
        intro k _ k' _ hne
        rw [Function.onFun, List.disjoint_left]
        intro m h1 h2
        rw [mem_excL_all hsd] at h1 h2
        exact hne (h1.2.1.symm.trans h2.2.1)
    rw [← List.sum_toFinset _ hLn]
    apply Finset.sum_congr
    · ext m
      have hcard : (occSet m).card = (occSet sd).card ↔ (diffOrbs sd m).1.length = (diffOrbs sd m).2.length := by
        rw [diff_lengths_iff]; exact eq_comm
      simp only [L, List.mem_toFinset, List.mem_cons, List.mem_flatMap, Finset.mem_filter, Finset.mem_range,
        mem_excL_all hsd, hcard, ← diffOrbs_fst_length]
      constructor
      · rintro (rfl | ⟨k, hk, h1, h2, h3⟩)
        · exact ⟨hsd, Or.inl rfl⟩
        · exact ⟨h1, Or.inr ⟨by rw [h2, h3], by rw [h2]; exact hk⟩⟩
      · rintro ⟨h1, rfl | ⟨h2, h3⟩⟩
        · exact Or.inl rfl
        · exact Or.inr ⟨_, h3, h1, rfl, h2.symm⟩
    · intro m _; rfl
  · intro acc k _
    rw [foldlM_add _ (fun o => ((comb (virIndices (some sd) n) k).map
      (fun v => mul (f (exc sd o v)) (D (exc sd o v)))).sum)]
    · congr 2
      rw [excL, List.map_flatMap]
      simp only [List.map_map, Function.comp_def]
      generalize comb (occIndices (some sd)) k = l
      induction l with
      | nil => rfl
      | cons x xs ih => simp [ih]
    · intro acc o ho
      rw [foldlM_add _ (fun v => mul (f (exc sd o v)) (D (exc sd o v)))]
      intro acc v hv
      rw [hin k o ho v hv]
      rfl

omit [CommRing R] in
/-- `orders=(1, 2)`, the default, on matrix elements that vanish beyond double excitations -/
theorem base_all {M : Type} [AddCommMonoid M] (mul : R → M → M) (hmul : ∀ c, mul c 0 = 0) (n : ℕ)
    (elem : ℕ → ℕ → Except PyErr M) (f : ℤ → R) (sd : ℕ) (hsd : sd < 2 ^ n) (D : ℕ → M)
    (hD : ∀ m < 2 ^ n, elem sd m = .ok (D m))
    (hS : ∀ m < 2 ^ n, ¬ ((diffOrbs sd m).1.length = (diffOrbs sd m).2.length ∧ (diffOrbs sd m).1.length ≤ 2) → D m = 0) :
    baseSdWfn mul n elem f sd [1, 2] = .ok (∑ m ∈ range (2 ^ n), mul (f m) (D m)) := by
  rw [C27_base mul n elem f sd hsd [1, 2] (by simp) (by simp) D hD]
  congr 1
  apply Finset.sum_subset (Finset.filter_subset _ _)
  intro m hm hn
  rw [Finset.mem_range] at hm
  rw [hS m hm, hmul]
  rintro ⟨h1, h2⟩
  apply hn
  rw [Finset.mem_filter, Finset.mem_range]
  refine ⟨hm, ?_⟩
  by_cases h0 : (diffOrbs sd m).1.length = 0
  · exact Or.inl (eq_of_diff_nil h0 (by rw [← h1, h0]))
  · right
    refine ⟨((diff_lengths_iff sd m).1 h1).symm, ?_⟩
    rw [← diffOrbs_fst_length]
    simp only [List.mem_cons, List.not_mem_nil, or_false]
    omega

/-- C27, generalized orbitals. With at most 63 spin orbitals and at least one electron, `integrate_sd_wfn` is the sum over
all determinants `m` of the overlap with `m` times the decomposed matrix element of `sd` and `m`; the loop of the base
class computes the same, for any number of orbitals. -/
theorem C27_generalized (H : GenHam R) (f : ℤ → R) (sd : ℕ) (hsd : sd < 2 ^ H.norb) (h0 : sd ≠ 0) :
    ∃ D : ℕ → R × R × R, (∀ m < 2 ^ H.norb, genDecomposed H sd m = .ok (D m)) ∧
      baseSdWfn scale H.norb (genDecomposed H) f sd [1, 2] = .ok (∑ m ∈ range (2 ^ H.norb), scale (f m) (D m)) ∧
      (H.norb ≤ 63 → genSdWfn H f sd = .ok (∑ m ∈ range (2 ^ H.norb), scale (f m) (D m))) := by
  have hT := gen_total H sd hsd h0
  let D : ℕ → R × R × R := fun m => if hm : m < 2 ^ H.norb then (hT m hm).choose else 0
  have hD : ∀ m < 2 ^ H.norb, genDecomposed H sd m = .ok (D m) := fun m hm => by
    simp only [D, dif_pos hm]; exact (hT m hm).choose_spec.1
  have hS : ∀ m < 2 ^ H.norb,
      ¬ ((diffOrbs sd m).1.length = (diffOrbs sd m).2.length ∧ (diffOrbs sd m).1.length ≤ 2) → D m = 0 := fun m hm => by
    simp only [D, dif_pos hm]; exact (hT m hm).choose_spec.2
  refine ⟨D, hD, base_all scale scale_zero H.norb _ f sd hsd D hD hS, fun h63 => ?_⟩
  obtain ⟨dets1, L1, hd1, hL1, hE1, hB1⟩ := C28_generalized_one_partial H sd hsd
  obtain ⟨dets2, hd2, hB2, h2⟩ := C28_generalized_two_partial H sd hsd
  have hE := fun k => exc_comb (sd := sd) (sorted_occIndices sd) (sorted_virIndices sd H.norb)
    (fun _ hi => mem_occIndices.1 hi) (fun _ hi => (mem_virIndices.1 hi).2) k
  have hx1 : dets1 = excL sd (comb (occIndices (some sd)) 1) (comb (virIndices (some sd) H.norb) 1) := by
    apply map_ok_some_injective
    rw [hd1, excL_excite (hE 1), comb_one, comb_one, List.flatMap_map]
    simp only [List.map_map, Function.comp_def, List.cons_append, List.nil_append]
  have hx2 : dets2 = excL sd (comb (occIndices (some sd)) 2) (comb (virIndices (some sd) H.norb) 2) := by
    apply map_ok_some_injective
    rw [hd2, excL_excite (hE 2)]
  -- the diagonal part
  have hzero : genSdsZero H (occIndices (some sd)) = .ok (D sd) := by
    rw [← hD sd hsd, gen_same H (lt_two_pow_iff.1 hsd) h0 (diff_self sd) rfl]
    simp only [genSdsZero, bind, Except.bind]
    rw [guardIdx_ok (fun i hi => lt_two_pow_iff.1 hsd i (mem_occSet.2 (mem_occIndices.1 hi)))]
    rfl
  have hval : ∀ {dets : List ℕ} {L : List (R × R × R)}, (∀ m ∈ dets, m < 2 ^ H.norb) →
      L.map Except.ok = dets.map (genDecomposed H sd) → L = dets.map D := by
    intro dets L hlt hL
    have : dets.map (genDecomposed H sd) = (dets.map D).map Except.ok := by
      rw [List.map_map]
      exact List.map_congr_left fun m hm => hD m (hlt m hm)
    rw [this] at hL
    exact List.map_injective_iff.2 (fun a b h => by simpa using h) hL
  have hl1 : ∀ m ∈ dets1, m < 2 ^ H.norb := fun m hm => by rw [hx1, mem_excL_all hsd] at hm; exact hm.1
  have hl2 : ∀ m ∈ dets2, m < 2 ^ H.norb := fun m hm => by rw [hx2, mem_excL_all hsd] at hm; exact hm.1
  have hsum : ∑ m ∈ range (2 ^ H.norb), scale (f m) (D m) =
      scale (f sd) (D sd) + (dets1.map (fun (m : ℕ) => scale (f m) (D m))).sum +
        (dets2.map (fun (m : ℕ) => scale (f m) (D m))).sum := by
    rw [sum_all_eq_list _ _ (sd :: (dets1 ++ dets2))]
    · simp [add_assoc]
    · rw [List.nodup_cons, List.nodup_append', List.mem_append, hx1, hx2, mem_excL_all hsd, mem_excL_all hsd, diff_self]
      refine ⟨by simp, nodup_excL_all _ _ _, nodup_excL_all _ _ _, ?_⟩
      rw [List.disjoint_left]
      intro m h1 h2
      rw [mem_excL_all hsd] at h1 h2
      omega
    · intro m hm
      rcases List.mem_cons.1 hm with rfl | hm
      · exact hsd
      · rcases List.mem_append.1 hm with h | h
        · exact hl1 m h
        · exact hl2 m h
    · intro m hm hn
      rw [hS m hm, scale_zero]
      rintro ⟨e1, e2⟩
      apply hn
      rw [List.mem_cons, List.mem_append, hx1, hx2, mem_excL_all hsd, mem_excL_all hsd]
      by_cases h0 : (diffOrbs sd m).1.length = 0
      · exact Or.inl (eq_of_diff_nil h0 (by rw [← e1, h0]))
      · right
        by_cases h1 : (diffOrbs sd m).1.length = 1
        · exact Or.inl ⟨hm, h1, by rw [← e1, h1]⟩
        · exact Or.inr ⟨hm, by omega, by omega⟩
  rw [hsum]
  simp only [genSdWfn, hzero, hB1 h63, hL1, hB2 h63, bind, Except.bind, dotOverlaps_eq scale dets1 f L1 D (hval hl1 hE1)]
  split_ifs at h2 ⊢ with hc
  · obtain ⟨L2, hL2, hE2⟩ := h2
    simp only [hL2, dotOverlaps_eq scale dets2 f L2 D (hval hl2 hE2)]
    rfl
  · rw [h2.2]
    simp [pure, Except.pure]

example : genSdWfn (GenHam.ofInts 4 (fun i j => (i + 3 * j : ℤ)) (fun i j k l => (i * k + 1) * (j * l + 1) + 2 * i + 2 * j))
    (fun z => z * z + 1) 0b0101 = .ok (-34, 1345, 39) := by decide +kernel

/-- C27, generalized orbitals, no electrons: `integrate_sd_wfn` returns zeros (while `integrate_sd_sd` of the vacuum with
itself raises, see C22_vacuum). -/
theorem C27_generalized_vacuum (H : GenHam R) (f : ℤ → R) : genSdWfn H f 0 = .ok (0, 0, 0) := by
  have h1 : occIndices (some 0) = [] := rfl
  have hb : ∀ k, 0 < k → exciteBulk 0 [] (virIndices (some 0) (H.norb : ℤ)) k = .ok [] := by
    intro k hk
    match k, hk with
    | k + 1, _ => simp [exciteBulk, toInt64, comb, combineBits, bind, Except.bind, pure, Except.pure]
  have h3 : genSdsOne H [] (virIndices (some 0) (H.norb : ℤ)) = .ok [] := by
    simp only [genSdsOne, List.nil_append, bind, Except.bind]
    rw [guardIdx_ok (fun i hi => by have := (mem_virIndices.1 hi).1; omega)]
    simp [mulSigns, signExciteOne]
  have h4 : genSdsZero H [] = .ok (0, 0, 0) := by
    simp [genSdsZero, guardIdx, triuSum, bind, Except.bind, pure, Except.pure]
  simp only [genSdWfn, h1, hb 1 (by norm_num), hb 2 (by norm_num), h3, h4, bind, Except.bind, dotOverlaps]
  simp [scale, pure, Except.pure]

end Fanpy.Props
