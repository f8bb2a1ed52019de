import Verif.Lemmas.UnrArrays

/-!
# The determinants coupled by a spin-blocked Hamiltonian
-/

namespace Fanpy.Lemmas
open Finset Fanpy.Spec Fanpy.Slater Fanpy.Props Fanpy.Ham Fanpy.It

variable {R : Type} [CommRing R]
variable {sd n : ℕ} {oa ob va vb : List ℕ}

/-- the determinant and its spin-conserving single and double excitations -/
def spinExcL (sd n : ℕ) (oa ob va vb : List ℕ) : List ℕ :=
  sd :: (excL sd (comb oa 1) (comb va 1) ++ (excL sd (comb (ob.map (· + n)) 1) (comb (vb.map (· + n)) 1) ++
    (excL sd (comb oa 2) (comb va 2) ++ (excL sd (pairsAB oa (ob.map (· + n))) (pairsAB va (vb.map (· + n))) ++
      excL sd (comb (ob.map (· + n)) 2) (comb (vb.map (· + n)) 2)))))

/-- number of orbitals in which a determinant differs, and how many of them are alpha -/
def excKey (sd n m : ℕ) : ℕ × ℕ := ((diffOrbs sd m).1.length, (diffOrbs sd m).1.countP (fun i => decide (i < n)))

theorem key_excL {os vs : List (List ℕ)} (h : ∀ o ∈ os, ∀ v ∈ vs, Exc sd o v) {k l : ℕ}
    (hk : ∀ o ∈ os, o.length = k ∧ o.countP (fun i => decide (i < n)) = l) : ∀ m ∈ excL sd os vs, excKey sd n m = (k, l) := by
  intro m hm
  have := (mem_excL_diff h).1 hm
  rw [excKey, (hk _ this.1).1, (hk _ this.1).2]

theorem comb_count {l : List ℕ} {k : ℕ} {p : ℕ → Bool} {o : List ℕ} (ho : o ∈ comb l k) (hp : ∀ i ∈ l, p i = true) :
    o.length = k ∧ o.countP p = k := by
  obtain ⟨h1, h2⟩ := mem_comb.1 ho
  exact ⟨h2, by rw [List.countP_eq_length.2 fun i hi => hp i (h1.subset hi), h2]⟩

theorem comb_count_zero {l : List ℕ} {k : ℕ} {p : ℕ → Bool} {o : List ℕ} (ho : o ∈ comb l k) (hp : ∀ i ∈ l, p i = false) :
    o.length = k ∧ o.countP p = 0 := by
  obtain ⟨h1, h2⟩ := mem_comb.1 ho
  exact ⟨h2, List.countP_eq_zero.2 fun i hi => by simp [hp i (h1.subset hi)]⟩

theorem nodup_spinExcL (hB : Blocks n sd oa ob va vb) : (spinExcL sd n oa ob va vb).Nodup := by
  have na := nodup_of_sorted hB.soa
  have nva := nodup_of_sorted hB.sva
  have nb := nodup_of_sorted (sorted_shift hB.sob n)
  have nvb := nodup_of_sorted (sorted_shift hB.svb n)
  have kA : ∀ k, ∀ m ∈ excL sd (comb oa k) (comb va k), excKey sd n m = (k, k) := fun k =>
    key_excL (hB.excA k) fun o ho => comb_count ho fun i hi => by simpa using hB.loa i hi
  have kB : ∀ k, ∀ m ∈ excL sd (comb (ob.map (· + n)) k) (comb (vb.map (· + n)) k), excKey sd n m = (k, 0) := fun k =>
    key_excL (hB.excB k) fun o ho => comb_count_zero ho fun i hi => by simpa using (hB.lob' i hi).1
  have kAB : ∀ m ∈ excL sd (pairsAB oa (ob.map (· + n))) (pairsAB va (vb.map (· + n))), excKey sd n m = (2, 1) :=
    key_excL hB.excAB fun o ho => by
      obtain ⟨a, ha, b, hb, rfl⟩ := mem_pairsAB.1 ho
      have h1 := hB.loa a ha
      have h2 : ¬ b < n := by have := hB.lob' b hb; omega
      simp [h1, h2]
  have k0 : excKey sd n sd = (0, 0) := by rw [excKey, diff_self]; rfl
  have hdis : ∀ {l1 l2 : List ℕ} {c : ℕ × ℕ}, (∀ m ∈ l1, excKey sd n m = c) → (∀ m ∈ l2, excKey sd n m ≠ c) →
      List.Disjoint l1 l2 := by
    intro l1 l2 c h1 h2
    rw [List.disjoint_left]
    intro m hm hm'
    exact h2 m hm' (h1 m hm)
  rw [spinExcL, List.nodup_cons]
  constructor
  · intro h
    simp only [List.mem_append] at h
    rcases h with h | h | h | h | h
    · have := kA 1 _ h; rw [k0] at this; simp at this
    · have := kB 1 _ h; rw [k0] at this; simp at this
    · have := kA 2 _ h; rw [k0] at this; simp at this
    · have := kAB _ h; rw [k0] at this; simp at this
    · have := kB 2 _ h; rw [k0] at this; simp at this
  · rw [List.nodup_append', List.nodup_append', List.nodup_append', List.nodup_append']
    refine ⟨nodup_excL (comb_nodup 1 na) (comb_nodup 1 nva) (hB.excA 1),
      ⟨nodup_excL (comb_nodup 1 nb) (comb_nodup 1 nvb) (hB.excB 1),
        ⟨nodup_excL (comb_nodup 2 na) (comb_nodup 2 nva) (hB.excA 2),
          ⟨nodup_excL (nodup_pairsAB na nb) (nodup_pairsAB nva nvb) hB.excAB,
            nodup_excL (comb_nodup 2 nb) (comb_nodup 2 nvb) (hB.excB 2), hdis kAB ?_⟩, hdis (kA 2) ?_⟩,
        hdis (kB 1) ?_⟩, hdis (kA 1) ?_⟩
    · intro m hm; rw [kB 2 m hm]; simp
    · intro m hm
      rcases List.mem_append.1 hm with h | h
      · rw [kAB m h]; simp
      · rw [kB 2 m h]; simp
    · intro m hm
      simp only [List.mem_append] at hm
      rcases hm with h | h | h
      · rw [kA 2 m h]; simp
      · rw [kAB m h]; simp
      · rw [kB 2 m h]; simp
    · intro m hm
      simp only [List.mem_append] at hm
      rcases hm with h | h | h | h
      · rw [kB 1 m h]; simp
      · rw [kA 2 m h]; simp
      · rw [kAB m h]; simp
      · rw [kB 2 m h]; simp

theorem spinExcL_lt (hB : Blocks n sd oa ob va vb) (hsd : sd < 2 ^ (2 * n)) :
    ∀ m ∈ spinExcL sd n oa ob va vb, m < 2 ^ (2 * n) := by
  have hA : ∀ i ∈ va, i < 2 * n := fun i hi => by have := hB.lva i hi; omega
  have hB' : ∀ i ∈ vb.map (· + n), i < 2 * n := fun i hi => (hB.lvb' i hi).2
  intro m hm
  simp only [spinExcL, List.mem_cons, List.mem_append] at hm
  rcases hm with rfl | h | h | h | h | h
  · exact hsd
  all_goals
    obtain ⟨o, ho, v, hv, rfl⟩ := mem_excL.1 h
    apply exc_lt hsd
    intro i hi
  · exact hA i ((mem_comb.1 hv).1.subset hi)
  · exact hB' i ((mem_comb.1 hv).1.subset hi)
  · exact hA i ((mem_comb.1 hv).1.subset hi)
  · obtain ⟨c, hc, d, hd, rfl⟩ := mem_pairsAB.1 hv
    simp only [List.mem_cons, List.not_mem_nil, or_false] at hi
    rcases hi with rfl | rfl
    · exact hA _ hc
    · exact hB' _ hd
  · exact hB' i ((mem_comb.1 hv).1.subset hi)

/-- the matrix element is defined for all determinants, and zero except for those of `spinExcL` -/
theorem unr_total (H : UnrHam R) (hn : 0 < H.norb) (hB : Blocks H.norb sd oa ob va vb) (hsd : sd < 2 ^ (2 * H.norb))
    (m : ℕ) (hm : m < 2 ^ (2 * H.norb)) :
    ∃ t, unrDecomposed H sd m = .ok t ∧ (m ∉ spinExcL sd H.norb oa ob va vb → t = 0) := by
  have hsp : splitSpin (sharedSd sd m) (H.norb : ℤ) = _ := splitSpin_ok hn
  obtain ⟨-, m1, m2, s1, s2, -⟩ := C04_diff_orbs sd m
  rw [lt_two_pow_iff] at hsd hm
  have inA : ∀ {i}, sd.testBit i = true → i < H.norb → i ∈ oa := fun h1 h2 => (hB.hoa _).2 ⟨h2, h1⟩
  have inB : ∀ {i}, sd.testBit i = true → ¬ i < H.norb → i ∈ ob.map (· + H.norb) := fun {i} h1 h2 => by
    rcases (hB.occ_iff i).1 h1 with h | h
    · exact absurd (hB.loa i h) h2
    · exact h
  have inVA : ∀ {i}, sd.testBit i = false → i < H.norb → i ∈ va := fun h1 h2 => (hB.hva _).2 ⟨h2, h1⟩
  have inVB : ∀ {i}, sd.testBit i = false → ¬ i < H.norb → i < 2 * H.norb → i ∈ vb.map (· + H.norb) := fun {i} h1 h2 h3 =>
    List.mem_map.2 ⟨i - H.norb, (hB.hvb _).2 ⟨by omega, by rwa [show i - H.norb + H.norb = i by omega]⟩, by omega⟩
  rcases sdPair_cases sd m with ⟨hl, hc⟩ | ⟨hl, hl2, hc⟩ | ⟨rfl, hd, hs⟩ |
    ⟨a, b, u, hd, -, -, -, -, e1, e2, hs⟩ |
    ⟨a, b, c, d, u, hd, -, -, -, -, -, hab, hcd, -, -, -, -, e1, e2, hs⟩
  · refine ⟨(0, 0, 0), ?_, fun _ => rfl⟩
    simp only [unrDecomposed, hsp, bind, Except.bind]
    rw [if_pos hl]
  · refine ⟨(0, 0, 0), ?_, fun _ => rfl⟩
    simp only [unrDecomposed, hsp, bind, Except.bind]
    rw [if_neg (not_not.2 hl), if_pos hl2]
  · have g3 := guardIdx_ok (n := H.norb) (l := oa ++ ob) (fun i hi => by
      rcases List.mem_append.1 hi with h | h
      · exact hB.loa i h
      · exact hB.lob i h)
    rw [unr_same H hn hB]
    refine ⟨_, by simp only [unrSdsZero, g3, bind, Except.bind]; rfl, fun h => absurd (by simp [spinExcL]) h⟩
  · rw [hd] at m1 m2
    have ha := (m1 a).1 (by simp)
    have hb := (m2 b).1 (by simp)
    have la := hsd a (mem_occSet.2 ha.1)
    have lb := hm b (mem_occSet.2 hb.1)
    by_cases c1 : a < H.norb
    · by_cases c2 : b < H.norb
      · have hX : Exc sd [a] [b] := ⟨by simp, by simp, by simpa using ha.1, by simpa using hb.2, rfl⟩
        have hmem : m ∈ excL sd (comb oa 1) (comb va 1) := by
          rw [mem_excL_diff (hB.excA 1), hd, comb_one, comb_one]
          exact ⟨List.mem_map_of_mem (inA ha.1 c1), List.mem_map_of_mem (inVA hb.2 c2)⟩
        obtain ⟨L, h1, h2⟩ := unr_arrOneA H hn hB
        obtain ⟨t, ht, he⟩ : ∃ t ∈ L, Except.ok t = unrDecomposed H sd m := by
          have : unrDecomposed H sd m ∈ L.map Except.ok := by rw [h2]; exact List.mem_map_of_mem hmem
          simpa using this
        exact ⟨t, he.symm, fun h => absurd (by simp [spinExcL, hmem]) h⟩
      · have ia : isAlpha (a : ℤ) (H.norb : ℤ) = _ := isAlpha_ok la
        have ib : isAlpha (b : ℤ) (H.norb : ℤ) = _ := isAlpha_ok lb
        have sa' : spatialIndex (a : ℤ) (H.norb : ℤ) = _ := spatialIndex_ok la
        have sb' : spatialIndex (b : ℤ) (H.norb : ℤ) = _ := spatialIndex_ok lb
        refine ⟨(0, 0, 0), ?_, fun _ => rfl⟩
        simp only [unrDecomposed, hsp, bind, Except.bind, hd, List.length_cons, List.length_nil, List.reverse_cons,
          List.reverse_nil, List.nil_append, hs, ne_eq, not_true_eq_false, if_false, unrOne, ia, ib, sa', sb']
        rw [if_neg (by omega), if_neg (by simp), if_pos (by simp)]
        simp [c1, c2, pure, Except.pure, signTimes]
    · by_cases c2 : b < H.norb
      · have ia : isAlpha (a : ℤ) (H.norb : ℤ) = _ := isAlpha_ok la
        have ib : isAlpha (b : ℤ) (H.norb : ℤ) = _ := isAlpha_ok lb
        have sa' : spatialIndex (a : ℤ) (H.norb : ℤ) = _ := spatialIndex_ok la
        have sb' : spatialIndex (b : ℤ) (H.norb : ℤ) = _ := spatialIndex_ok lb
        refine ⟨(0, 0, 0), ?_, fun _ => rfl⟩
        simp only [unrDecomposed, hsp, bind, Except.bind, hd, List.length_cons, List.length_nil, List.reverse_cons,
          List.reverse_nil, List.nil_append, hs, ne_eq, not_true_eq_false, if_false, unrOne, ia, ib, sa', sb']
        rw [if_neg (by omega), if_neg (by simp), if_pos (by simp)]
        simp [c1, c2, pure, Except.pure, signTimes]
      · have hX : Exc sd [a] [b] := ⟨by simp, by simp, by simpa using ha.1, by simpa using hb.2, rfl⟩
        have hmem : m ∈ excL sd (comb (ob.map (· + H.norb)) 1) (comb (vb.map (· + H.norb)) 1) := by
          rw [mem_excL_diff (hB.excB 1), hd, comb_one, comb_one]
          exact ⟨List.mem_map_of_mem (inB ha.1 c1), List.mem_map_of_mem (inVB hb.2 c2 lb)⟩
        obtain ⟨L, h1, h2⟩ := unr_arrOneB H hn hB
        obtain ⟨t, ht, he⟩ : ∃ t ∈ L, Except.ok t = unrDecomposed H sd m := by
          have : unrDecomposed H sd m ∈ L.map Except.ok := by rw [h2]; exact List.mem_map_of_mem hmem
          simpa using this
        exact ⟨t, he.symm, fun h => absurd (by simp only [spinExcL, List.mem_cons, List.mem_append, hmem, true_or, or_true]) h⟩
  · rw [hd] at m1 m2
    have ha := (m1 a).1 (by simp)
    have hb := (m1 b).1 (by simp)
    have hc := (m2 c).1 (by simp)
    have hd' := (m2 d).1 (by simp)
    have la := hsd a (mem_occSet.2 ha.1)
    have lb := hsd b (mem_occSet.2 hb.1)
    have lc := hm c (mem_occSet.2 hc.1)
    have ld := hm d (mem_occSet.2 hd'.1)
    rw [unr_double H hn hd hs, unrTwo_eval H la lb lc ld hab hcd]
    refine ⟨_, rfl, fun hnot => ?_⟩
    have n1 : ¬ (b < H.norb ∧ d < H.norb) := fun h => hnot (by
      have : m ∈ excL sd (comb oa 2) (comb va 2) := by
        rw [mem_excL_diff (hB.excA 2), hd]
        refine ⟨mem_comb_sorted hB.soa (by simpa using hab) ?_, mem_comb_sorted hB.sva (by simpa using hcd) ?_⟩
        · simp only [List.mem_cons, List.not_mem_nil, or_false, forall_eq_or_imp, forall_eq]
          exact ⟨inA ha.1 (by omega), inA hb.1 h.1⟩
        · simp only [List.mem_cons, List.not_mem_nil, or_false, forall_eq_or_imp, forall_eq]
          exact ⟨inVA hc.2 (by omega), inVA hd'.2 h.2⟩
      simp only [spinExcL, List.mem_cons, List.mem_append, this, true_or, or_true])
    have n2 : ¬ (a < H.norb ∧ ¬ b < H.norb ∧ c < H.norb ∧ ¬ d < H.norb) := fun h => hnot (by
      have : m ∈ excL sd (pairsAB oa (ob.map (· + H.norb))) (pairsAB va (vb.map (· + H.norb))) := by
        rw [mem_excL_diff hB.excAB, hd]
        exact ⟨mem_pairsAB.2 ⟨a, inA ha.1 h.1, b, inB hb.1 h.2.1, rfl⟩,
          mem_pairsAB.2 ⟨c, inVA hc.2 h.2.2.1, d, inVB hd'.2 h.2.2.2 ld, rfl⟩⟩
      simp only [spinExcL, List.mem_cons, List.mem_append, this, true_or, or_true])
    have n3 : ¬ (¬ a < H.norb ∧ ¬ c < H.norb) := fun h => hnot (by
      have : m ∈ excL sd (comb (ob.map (· + H.norb)) 2) (comb (vb.map (· + H.norb)) 2) := by
        rw [mem_excL_diff (hB.excB 2), hd]
        refine ⟨mem_comb_sorted (sorted_shift hB.sob _) (by simpa using hab) ?_,
          mem_comb_sorted (sorted_shift hB.svb _) (by simpa using hcd) ?_⟩
        · simp only [List.mem_cons, List.not_mem_nil, or_false, forall_eq_or_imp, forall_eq]
          exact ⟨inB ha.1 h.1, inB hb.1 (by omega)⟩
        · simp only [List.mem_cons, List.not_mem_nil, or_false, forall_eq_or_imp, forall_eq]
          exact ⟨inVB hc.2 h.2 lc, inVB hd'.2 (by omega) ld⟩
      simp only [spinExcL, List.mem_cons, List.mem_append, this, or_true])
    rw [if_neg n1, if_neg n2, if_neg n3, if_neg n1, if_neg n3]
    simp [signTimes]

end Fanpy.Lemmas
