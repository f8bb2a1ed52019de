import Verif.Lemmas.FciMatrix
import Verif.Props.HamSymmetric
import Verif.Props.HamWfnFock
import Mathlib.Data.List.Lex

/-!
# C119: the Hamiltonian matrix of `fci_cimatrix`
-/

namespace Fanpy.Props
open Fanpy.Spec Fanpy.Slater Fanpy.Ham Fanpy.Lemmas Fanpy.Pyscf

variable {R : Type} [Field R]

/-- the matrix and the determinants in terms of addresses -/
theorem fciMatrix_ok (T : H0tril R) (hf : HFData R) (hp : hf.isPyscf = true) (a b : ℕ) (he : electrons hf.nelec = .ok (a, b)) :
    ∃ M P, fciMatrix T hf = .ok (M, P) ∧
      (P = (strings hf.norb a).flatMap fun s => (strings hf.norb b).map fun t => s ||| t <<< hf.norb) ∧
      M.length = P.length ∧ ∀ i < P.length, ∀ j < P.length,
        (M.getD i []).getD j 0 = if i = j then
            hdiagEntry hf.one (fun i j => hf.two i j i j) (fun i j => hf.two i j j i) (occIndices (some (P.getD i 0 % 2 ^ hf.norb)))
              (occIndices (some (P.getD i 0 / 2 ^ hf.norb)))
          else if j < i then
            T hf.one (chemist hf.two) (P.map (· % 2 ^ hf.norb)) (P.map (· / 2 ^ hf.norb)) hf.norb i j
          else T hf.one (chemist hf.two) (P.map (· % 2 ^ hf.norb)) (P.map (· / 2 ^ hf.norb)) hf.norb j i := by
  have hla : ∀ x, ((strings hf.norb a).getD x 0) < 2 ^ hf.norb := by
    intro x
    by_cases h : x < (strings hf.norb a).length
    · rw [List.getD_eq_getElem _ _ h]; exact (mem_strings.1 (List.getElem_mem h)).1
    · rw [List.getD_eq_default _ _ (by omega)]; exact Nat.two_pow_pos _
  have hP : (List.range ((strings hf.norb a).length * (strings hf.norb b).length)).map (fun i =>
      (strings hf.norb a).getD (i / (strings hf.norb b).length) 0 |||
        (strings hf.norb b).getD (i % (strings hf.norb b).length) 0 <<< hf.norb) =
      (strings hf.norb a).flatMap fun s => (strings hf.norb b).map fun t => s ||| t <<< hf.norb :=
    divmod_pairs (fun s t => s ||| t <<< hf.norb) 0 0 _ _
  refine ⟨_, _, by rw [fciMatrix, if_neg (by simp [hp]), he]; rfl, ?_, by simp, ?_⟩
  · simp only [List.length_map]
    exact hP
  · intro i hi j hj
    simp only [List.length_map, List.length_range] at hi hj
    rw [List.getD_eq_getElem (List.map _ (List.range _)) ([] : List R) (by simpa using hi), List.getElem_map, List.getElem_range,
      List.getD_eq_getElem _ _ (by simpa using hj), List.getElem_map, List.getElem_range]
    have e1 : (List.range ((strings hf.norb a).length * (strings hf.norb b).length)).map (fun i =>
        (strings hf.norb a).getD (i / (strings hf.norb b).length) 0) = ((List.range ((strings hf.norb a).length * (strings hf.norb b).length)).map (fun i =>
      (strings hf.norb a).getD (i / (strings hf.norb b).length) 0 |||
        (strings hf.norb b).getD (i % (strings hf.norb b).length) 0 <<< hf.norb)).map (· % 2 ^ hf.norb) := by
      rw [List.map_map]
      apply List.map_congr_left
      intro x _
      exact (combine_parts (hla _) _).1.symm
    have e2 : (List.range ((strings hf.norb a).length * (strings hf.norb b).length)).map (fun i =>
        (strings hf.norb b).getD (i % (strings hf.norb b).length) 0) = ((List.range ((strings hf.norb a).length * (strings hf.norb b).length)).map (fun i =>
      (strings hf.norb a).getD (i / (strings hf.norb b).length) 0 |||
        (strings hf.norb b).getD (i % (strings hf.norb b).length) 0 <<< hf.norb)).map (· / 2 ^ hf.norb) := by
      rw [List.map_map]
      apply List.map_congr_left
      intro x _
      exact (combine_parts (hla _) _).2.1.symm
    simp only [List.length_map]
    rw [e1, e2]
    by_cases hij : i = j
    · subst hij
      have hb : 0 < (strings hf.norb b).length := by
        rcases Nat.eq_zero_or_pos (strings hf.norb b).length with h | h
        · rw [h] at hi; simp at hi
        · exact h
      have hda : i / (strings hf.norb b).length < (strings hf.norb a).length := Nat.div_lt_of_lt_mul (by rwa [Nat.mul_comm])
      have hmb : i % (strings hf.norb b).length < (strings hf.norb b).length := Nat.mod_lt _ hb
      have c := combine_parts (hla (i / (strings hf.norb b).length)) ((strings hf.norb b).getD (i % (strings hf.norb b).length) 0)
      rw [if_pos rfl, if_pos rfl, List.getD_eq_getElem (List.map _ _) (0 : R) (by simpa using hi), List.getElem_map, List.getElem_range,
        List.getD_eq_getElem (List.map _ _) (0 : ℕ) (by simpa using hi), List.getElem_map, List.getElem_range, c.1, c.2.1,
        List.getD_eq_getElem _ ([] : List ℕ) (by simpa using hda), List.getElem_map,
        List.getD_eq_getElem _ ([] : List ℕ) (by simpa using hmb), List.getElem_map, List.getD_eq_getElem _ _ hda,
        List.getD_eq_getElem _ _ hmb]
      rfl
    · rw [if_neg hij, if_neg hij]

/-- C119. The errors of `fci_cimatrix`. -/
theorem C119_errors (T : H0tril R) (hf : HFData R) (e : PyErr) :
    fciMatrix T hf = .error e ↔ (hf.isPyscf = false ∧ e = .typeError) ∨ (hf.isPyscf = true ∧ hf.nelec = .other ∧ e = .valueError) := by
  cases hp : hf.isPyscf
  · rw [fciMatrix, if_pos (by simp [hp])]
    simp [eq_comm]
  · cases hn : hf.nelec with
    | other =>
      have : fciMatrix T hf = .error .valueError := by rw [fciMatrix, if_neg (by simp [hp]), hn]; rfl
      rw [this]
      simp [eq_comm]
    | int n =>
      obtain ⟨M, P, h, -⟩ := fciMatrix_ok T hf hp _ _ (by rw [hn]; rfl)
      rw [h]; simp
    | pair a b =>
      obtain ⟨M, P, h, -⟩ := fciMatrix_ok T hf hp _ _ (by rw [hn]; rfl)
      rw [h]; simp

/-- C119. A number of electrons is divided in two halves, with the odd electron alpha. -/
theorem C119_electrons (n a b : ℕ) : electrons (.int n) = .ok (a, b) ↔ a + b = n ∧ (a = b ∨ a = b + 1) := by
  simp only [electrons, Except.ok.injEq, Prod.mk.injEq]
  omega

/-- C119. The determinants are those with `a` alpha and `b` beta electrons, each once, ordered by the alpha and then by the beta string. -/
theorem C119_determinants (T : H0tril R) (hf : HFData R) (a b : ℕ) (he : electrons hf.nelec = .ok (a, b)) (M : List (List R)) (P : List ℕ)
    (h : fciMatrix T hf = .ok (M, P)) :
    (∀ sd, sd ∈ P ↔ sd < 2 ^ (2 * hf.norb) ∧ totalOcc (some (sd % 2 ^ hf.norb)) = a ∧ totalOcc (some (sd / 2 ^ hf.norb)) = b) ∧
      P.Nodup ∧ P.length = hf.norb.choose a * hf.norb.choose b ∧
      P.Pairwise fun x y => x % 2 ^ hf.norb < y % 2 ^ hf.norb ∨ x % 2 ^ hf.norb = y % 2 ^ hf.norb ∧ x / 2 ^ hf.norb < y / 2 ^ hf.norb := by
  have hp : hf.isPyscf = true := by
    cases hp : hf.isPyscf
    · rw [fciMatrix, if_pos (by simp [hp])] at h; simp at h
    · rfl
  obtain ⟨M', P', h', hP, -⟩ := fciMatrix_ok T hf hp a b he
  rw [h] at h'
  simp only [Except.ok.injEq, Prod.mk.injEq] at h'
  obtain ⟨-, rfl⟩ := h'
  have hpair : P.Pairwise fun x y => x % 2 ^ hf.norb < y % 2 ^ hf.norb ∨
      x % 2 ^ hf.norb = y % 2 ^ hf.norb ∧ x / 2 ^ hf.norb < y / 2 ^ hf.norb := by
    rw [hP, List.pairwise_flatMap]
    refine ⟨?_, ?_⟩
    · intro s hs
      rw [List.pairwise_map]
      refine (strings_lt _ _).imp ?_
      intro t u htu
      have hl := (mem_strings.1 hs).1
      rw [(combine_parts hl t).1, (combine_parts hl t).2.1, (combine_parts hl u).1, (combine_parts hl u).2.1]
      exact Or.inr ⟨rfl, htu⟩
    · refine List.Pairwise.imp_of_mem ?_ (strings_lt _ _)
      intro s s' hs hs' hlt x hx y hy
      obtain ⟨t, -, rfl⟩ := List.mem_map.1 hx
      obtain ⟨u, -, rfl⟩ := List.mem_map.1 hy
      rw [(combine_parts (mem_strings.1 hs).1 t).1, (combine_parts (mem_strings.1 hs').1 u).1]
      exact Or.inl hlt
  refine ⟨?_, ?_, ?_, hpair⟩
  · intro sd
    rw [hP]
    simp only [List.mem_flatMap, List.mem_map]
    constructor
    · rintro ⟨s, hs, t, ht, rfl⟩
      have hs' := mem_strings.1 hs
      have ht' := mem_strings.1 ht
      obtain ⟨c1, c2, c3⟩ := combine_parts hs'.1 t
      rw [c1, c2]
      refine ⟨?_, hs'.2, ht'.2⟩
      rw [c3, two_mul, pow_add]
      have := Nat.mul_le_mul_right (2 ^ hf.norb) (Nat.succ_le_of_lt ht'.1)
      have := hs'.1
      rw [Nat.succ_mul] at *
      omega
    · rintro ⟨h1, h2, h3⟩
      have hm : sd % 2 ^ hf.norb < 2 ^ hf.norb := Nat.mod_lt _ (Nat.two_pow_pos _)
      refine ⟨sd % 2 ^ hf.norb, mem_strings.2 ⟨hm, h2⟩, sd / 2 ^ hf.norb, mem_strings.2 ⟨?_, h3⟩, ?_⟩
      · apply Nat.div_lt_of_lt_mul
        rwa [← pow_add, ← two_mul]
      · rw [(combine_parts hm _).2.2]
        exact Nat.div_add_mod' sd (2 ^ hf.norb)
  · refine hpair.imp ?_
    rintro x y (h | h) rfl <;> omega
  · rw [hP]
    simp [strings_length, List.length_flatMap, Nat.mul_comm]

/-- what `FCIpspace_h0tril` computes: below the diagonal, matrix elements of the second-quantised Hamiltonian with these integrals -/
def TrilSpec (T : H0tril R) (hf : HFData R) : Prop :=
  ∀ (stra strb : List ℕ), (∀ s ∈ stra, s < 2 ^ hf.norb) → (∀ s ∈ strb, s < 2 ^ hf.norb) → stra.length = strb.length →
    ∀ i < stra.length, ∀ j < i, T hf.one (chemist hf.two) stra strb hf.norb i j =
      hamME (2 * hf.norb) (blockOne hf.norb hf.one hf.one)
        (blockTwo hf.norb hf.two hf.two hf.two) (occSet (stra.getD i 0 + 2 ^ hf.norb * strb.getD i 0))
        (occSet (stra.getD j 0 + 2 ^ hf.norb * strb.getD j 0))

theorem sum_map_minus (l : List ℕ) (u v : ℕ → R) : (l.map fun i => u i - v i).sum = (l.map u).sum - (l.map v).sum := by
  induction l with
  | nil => simp
  | cons a l ih => simp only [List.map_cons, List.sum_cons, ih]; ring

theorem hdiag_eq [CharZero R] (n : ℕ) (hn : 0 < n) (h : ℕ → ℕ → R) (g : ℕ → ℕ → ℕ → ℕ → R) (hg : ∀ i j k l, g i j k l = g j i l k)
    (sd : ℕ) (hsd : sd < 2 ^ (2 * n)) :
    resSdSd (GenHam.ofInts n h g) sd sd = .ok (hdiagEntry h (fun i j => g i j i j) (fun i j => g i j j i)
      (occIndices (some (sd % 2 ^ n))) (occIndices (some (sd / 2 ^ n)))) := by
  have hB := blocks n sd hsd
  have hu : (UnrHam.ofInts n h h g g g).norb = n := rfl
  rw [resSdSd, C24_restricted_partial n h g hg, unr_same (UnrHam.ofInts n h h g g g) hn hB]
  have g3 := guardIdx_ok (n := n) (l := occIndices (some (sd % 2 ^ n)) ++ occIndices (some (sd / 2 ^ n))) (fun i hi => by
    rcases List.mem_append.1 hi with h | h
    · exact ((hB.hoa i).1 h).1
    · exact hB.lob i h)
  simp only [unrSdsZero, hu, g3, bind, Except.bind, pure, Except.pure, sumComp, hdiagEntry]
  congr 1
  generalize occIndices (some (sd % 2 ^ n)) = oa
  generalize occIndices (some (sd / 2 ^ n)) = ob
  have e1 : (UnrHam.ofInts n h h g g g).c0IJIJ = fun i j => g i j i j := rfl
  have e2 : (UnrHam.ofInts n h h g g g).c1IJIJ = fun i j => g i j i j := rfl
  have e3 : (UnrHam.ofInts n h h g g g).c2IJIJ = fun i j => g i j i j := rfl
  have e4 : (UnrHam.ofInts n h h g g g).c0IJJI = fun i j => g i j j i := rfl
  have e5 : (UnrHam.ofInts n h h g g g).c2IJJI = fun i j => g i j j i := rfl
  have e6 : (UnrHam.ofInts n h h g g g).oneA = h := rfl
  have e7 : (UnrHam.ofInts n h h g g g).oneB = h := rfl
  rw [e1, e2, e3, e4, e5, e6, e7]
  have key : ∀ l : List ℕ, (l.map fun j => (l.map fun k => g j k j k - g j k k j).sum).sum =
      2 * (triuSum (fun i j => g i j i j) l - triuSum (fun i j => g i j j i) l) := by
    intro l
    have h1 := fullSum_symm (fun i j => g i j i j) (fun i j => hg i j i j) l
    have h2 := fullSum_symm (fun i j => g i j j i) (fun i j => hg i j j i) l
    have h3 : (l.map fun j => (l.map fun k => g j k j k - g j k k j).sum).sum =
        (l.map fun i => (l.map fun j => g i j i j).sum).sum - (l.map fun i => (l.map fun j => g i j j i).sum).sum := by
      rw [← sum_map_minus]
      congr 1
      apply List.map_congr_left
      intro j _
      rw [← sum_map_minus]
    rw [h3, h1, h2]
    ring
  have h4 : (oa.map fun j => (oa.map fun k => g j k j k - g j k k j).sum + (ob.map fun k => g j k j k * 2).sum).sum =
      (oa.map fun j => (oa.map fun k => g j k j k - g j k k j).sum).sum + 2 * fullSum (fun i j => g i j i j) oa ob := by
    rw [List.sum_map_add, fullSum]
    congr 1
    rw [← List.sum_map_mul_left]
    congr 1
    apply List.map_congr_left
    intro j _
    rw [List.sum_map_mul_right, mul_comm]
  rw [h4, key, key]
  have h2 : (2 : R) ≠ 0 := two_ne_zero
  field_simp
  ring

/-- C119. Each entry of the matrix is the matrix element of the two determinants, if the integrals are symmetric and PySCF's function
computes matrix elements below the diagonal. -/
theorem C119_matrix_partial [CharZero R] (T : H0tril R) (hf : HFData R) (hn : 0 < hf.norb) (hT : TrilSpec T hf)
    (hh : ∀ i j, hf.one i j = hf.one j i) (hr : ∀ i j k l, hf.two i j k l = hf.two k l i j)
    (hg : ∀ i j k l, hf.two i j k l = hf.two j i l k) (M : List (List R)) (P : List ℕ) (h : fciMatrix T hf = .ok (M, P)) :
    M.length = P.length ∧ ∀ i < P.length, ∀ j < P.length,
      resSdSd (GenHam.ofInts hf.norb hf.one hf.two) (P.getD i 0) (P.getD j 0) = .ok ((M.getD i []).getD j 0) := by
  have hp : hf.isPyscf = true := by
    cases hp : hf.isPyscf
    · rw [fciMatrix, if_pos (by simp [hp])] at h; simp at h
    · rfl
  obtain ⟨a, b, he⟩ : ∃ a b, electrons hf.nelec = .ok (a, b) := by
    cases he : electrons hf.nelec with
    | ok p => exact ⟨p.1, p.2, rfl⟩
    | error e => rw [fciMatrix, if_neg (by simp [hp]), he] at h; simp [bind, Except.bind] at h
  have hmem := (C119_determinants T hf a b he M P h).1
  obtain ⟨M', P', h', -, hl, hM⟩ := fciMatrix_ok T hf hp a b he
  rw [h] at h'
  simp only [Except.ok.injEq, Prod.mk.injEq] at h'
  obtain ⟨rfl, rfl⟩ := h'
  have hlt : ∀ i < P.length, P.getD i 0 < 2 ^ (2 * hf.norb) := by
    intro i hi
    rw [List.getD_eq_getElem _ _ hi]
    exact ((hmem _).1 (List.getElem_mem hi)).1
  have tri : ∀ i < P.length, ∀ j < i, resSdSd (GenHam.ofInts hf.norb hf.one hf.two) (P.getD i 0) (P.getD j 0) =
      .ok (T hf.one (chemist hf.two) (P.map (· % 2 ^ hf.norb)) (P.map (· / 2 ^ hf.norb)) hf.norb i j) := by
    intro i hi j hj
    have hj' : j < P.length := by omega
    have back : ∀ i < P.length, (P.map (· % 2 ^ hf.norb)).getD i 0 + 2 ^ hf.norb * (P.map (· / 2 ^ hf.norb)).getD i 0 = P.getD i 0 := by
      intro i hi
      rw [List.getD_eq_getElem _ _ (by simpa using hi), List.getD_eq_getElem _ _ (by simpa using hi), List.getElem_map, List.getElem_map,
        List.getD_eq_getElem _ _ hi]
      exact Nat.mod_add_div _ _
    rw [hT _ _ ?_ ?_ (by simp) i (by simpa using hi) j hj, back i hi, back j hj',
      C24_restricted_fock hf.norb hn hf.one hf.two hg _ _ (hlt i hi) (hlt j hj')]
    · intro s hs
      obtain ⟨x, -, rfl⟩ := List.mem_map.1 hs
      exact Nat.mod_lt _ (Nat.two_pow_pos _)
    · intro s hs
      obtain ⟨x, hx, rfl⟩ := List.mem_map.1 hs
      apply Nat.div_lt_of_lt_mul
      rw [← pow_add, ← two_mul]
      exact ((hmem x).1 hx).1
  refine ⟨hl, ?_⟩
  intro i hi j hj
  rw [hM i hi j hj]
  by_cases hij : i = j
  · subst hij
    rw [if_pos rfl]
    exact hdiag_eq hf.norb hn hf.one hf.two hg _ (hlt i hi)
  · rw [if_neg hij]
    by_cases hlt' : j < i
    · rw [if_pos hlt', tri i hi j hlt']
    · rw [if_neg hlt', resSdSd, C26_restricted hf.norb hn hf.one hf.two hh hr hg _ _ (hlt i hi) (hlt j hj)]
      exact tri j hj i (by omega)

/-- C119. The row of a determinant times the overlaps of a wavefunction with the determinants is `integrate_sd_wfn` of the restricted
Hamiltonian. -/
theorem C119_product_partial [CharZero R] (T : H0tril R) (hf : HFData R) (hn : 0 < hf.norb) (h32 : hf.norb ≠ 32) (hT : TrilSpec T hf)
    (hh : ∀ i j, hf.one i j = hf.one j i) (hr : ∀ i j k l, hf.two i j k l = hf.two k l i j)
    (hg : ∀ i j k l, hf.two i j k l = hf.two j i l k) (M : List (List R)) (P : List ℕ) (h : fciMatrix T hf = .ok (M, P))
    (f : ℤ → R) (i : ℕ) (hi : i < P.length) :
    ∃ t, resSdWfn (GenHam.ofInts hf.norb hf.one hf.two) f (P.getD i 0) = .ok t ∧
      sumComp t = ((List.range P.length).map fun j => (M.getD i []).getD j 0 * f (P.getD j 0)).sum := by
  obtain ⟨hl, hM⟩ := C119_matrix_partial T hf hn hT hh hr hg M P h
  have hp : hf.isPyscf = true := by
    cases hp : hf.isPyscf
    · rw [fciMatrix, if_pos (by simp [hp])] at h; simp at h
    · rfl
  obtain ⟨a, b, he⟩ : ∃ a b, electrons hf.nelec = .ok (a, b) := by
    cases he : electrons hf.nelec with
    | ok p => exact ⟨p.1, p.2, rfl⟩
    | error e => rw [fciMatrix, if_neg (by simp [hp]), he] at h; simp [bind, Except.bind] at h
  obtain ⟨hmem, hnd, -⟩ := C119_determinants T hf a b he M P h
  have hsd : P.getD i 0 < 2 ^ (2 * hf.norb) ∧ totalOcc (some (P.getD i 0 % 2 ^ hf.norb)) = a ∧
      totalOcc (some (P.getD i 0 / 2 ^ hf.norb)) = b := by
    rw [List.getD_eq_getElem _ _ hi]
    exact (hmem _).1 (List.getElem_mem hi)
  obtain ⟨D, hD, hS⟩ := C27_restricted_partial hf.norb hn h32 hf.one hf.two hg f _ hsd.1
  refine ⟨_, hS, ?_⟩
  have hB := blocks hf.norb _ hsd.1
  obtain ⟨D', hD', hz, -⟩ := spinCore_eq (UnrHam.ofInts hf.norb hf.one hf.one hf.two hf.two hf.two) f hn hB hsd.1
  have hDD : ∀ m < 2 ^ (2 * hf.norb), D m = D' m := by
    intro m hm
    have h1 := hD m hm
    rw [C24_restricted_partial hf.norb hf.one hf.two hg] at h1
    have h2 := hD' m hm
    exact Except.ok.inj (h1.symm.trans h2)
  rw [sumComp_sum]
  have e1 : ((List.range P.length).map fun j => (M.getD i []).getD j 0 * f (P.getD j 0)) = P.map fun (m : ℕ) => f m * sumComp (D m) := by
    apply List.ext_getElem (by simp)
    intro j h1 h2
    have hj : j < P.length := by simpa using h1
    rw [List.getElem_map, List.getElem_range, List.getElem_map, mul_comm]
    have h3 := hM i hi j hj
    have hlt : P.getD j 0 < 2 ^ (2 * hf.norb) := by
      rw [List.getD_eq_getElem _ _ hj]
      exact ((hmem _).1 (List.getElem_mem hj)).1
    rw [resSdSd, hD _ hlt] at h3
    rw [← Except.ok.inj h3, List.getD_eq_getElem _ _ hj]
  rw [e1, ← List.sum_toFinset _ hnd]
  symm
  apply Finset.sum_subset
  · intro m hm
    rw [List.mem_toFinset] at hm
    exact Finset.mem_range.2 ((hmem m).1 hm).1
  · intro m hm hnot
    have hm' := Finset.mem_range.1 hm
    rw [hDD m hm', hz m hm' ?_]
    · simp [sumComp]
    · intro hin
      apply hnot
      obtain ⟨c1, c2⟩ := spinExcL_card hB hin
      rw [List.mem_toFinset, hmem]
      exact ⟨hm', c1.trans hsd.2.1, c2.trans hsd.2.2⟩

/-! ### The integrals of `PYSCF` -/

/-- swaps the first two and the last two sums -/
theorem sum_swap (l : List ℕ) (u : ℕ → ℕ → R) : (l.map fun a => (l.map fun b => u a b).sum).sum = (l.map fun b => (l.map fun a => u a b).sum).sum := by
  have h : ∀ l' : List ℕ, (l.map fun a => (l'.map fun b => u a b).sum).sum = (l'.map fun b => (l.map fun a => u a b).sum).sum := by
    intro l'
    induction l' with
    | nil => simp
    | cons b l' ih =>
      simp only [List.map_cons, List.sum_cons]
      rw [List.sum_map_add, ih]
  exact h l

theorem oneInt_symm (m : Scf R) (hh : ∀ p q, m.hcore p q = m.hcore q p) (i j : ℕ) : oneInt m i j = oneInt m j i := by
  rw [oneInt, sum_swap, oneInt]
  refine congrArg List.sum (List.map_congr_left fun a _ => congrArg List.sum (List.map_congr_left fun b _ => ?_))
  rw [hh b a]
  ring

theorem moEri_swap (m : Scf R) (he : ∀ p q r s, m.eri p q r s = m.eri r s p q) (i j k l : ℕ) : moEri m i j k l = moEri m k l i j := by
  -- the order p q r s of the sums becomes r s p q
  have h1 : ∀ p, ((List.range m.nao).map fun q => ((List.range m.nao).map fun r => ((List.range m.nao).map fun s =>
      m.coeff p i * m.coeff q j * m.coeff r k * m.coeff s l * m.eri p q r s).sum).sum).sum =
      ((List.range m.nao).map fun r => ((List.range m.nao).map fun s => ((List.range m.nao).map fun q =>
      m.coeff p i * m.coeff q j * m.coeff r k * m.coeff s l * m.eri p q r s).sum).sum).sum := by
    intro p
    rw [sum_swap]
    refine congrArg List.sum (List.map_congr_left fun r _ => ?_)
    rw [sum_swap]
  rw [moEri, List.map_congr_left (fun p _ => h1 p), sum_swap, moEri]
  refine congrArg List.sum (List.map_congr_left fun a _ => ?_)
  rw [sum_swap]
  refine congrArg List.sum (List.map_congr_left fun b _ => congrArg List.sum (List.map_congr_left fun c _ =>
    congrArg List.sum (List.map_congr_left fun d _ => ?_)))
  rw [he c d a b]
  ring

theorem moEri_flip (m : Scf R) (h1 : ∀ p q r s, m.eri p q r s = m.eri q p r s) (h2 : ∀ p q r s, m.eri p q r s = m.eri p q s r)
    (i j k l : ℕ) : moEri m i j k l = moEri m j i l k := by
  rw [moEri, sum_swap, moEri]
  refine congrArg List.sum (List.map_congr_left fun a _ => congrArg List.sum (List.map_congr_left fun b _ => ?_))
  rw [sum_swap]
  refine congrArg List.sum (List.map_congr_left fun c _ => congrArg List.sum (List.map_congr_left fun d _ => ?_))
  rw [h1 b a, h2]
  ring

/-- C119. The integrals of `PYSCF` have the symmetries that the matrix needs, and `fci_cimatrix` hands the integrals `(ij|kl)` of the
molecular orbitals to PySCF. -/
theorem C119_integrals (m : Scf R) (hh : ∀ p q, m.hcore p q = m.hcore q p) (h1 : ∀ p q r s, m.eri p q r s = m.eri q p r s)
    (h2 : ∀ p q r s, m.eri p q r s = m.eri p q s r) (h3 : ∀ p q r s, m.eri p q r s = m.eri r s p q) :
    (∀ i j, (pyscf m).one i j = (pyscf m).one j i) ∧ (∀ i j k l, (pyscf m).two i j k l = (pyscf m).two k l i j) ∧
      (∀ i j k l, (pyscf m).two i j k l = (pyscf m).two j i l k) ∧ ∀ i j k l, chemist (pyscf m).two i j k l = moEri m i j k l :=
  ⟨oneInt_symm m hh, fun i j k l => moEri_flip m h1 h2 i k j l, fun i j k l => moEri_swap m h3 i k j l, fun _ _ _ _ => rfl⟩

/-- C119. `fci_cimatrix(PYSCF(mf))`: for symmetric integrals of the basis functions the entries are the matrix elements of the
second-quantised Hamiltonian of the molecular orbitals. -/
theorem C119_pyscf [CharZero R] (T : H0tril R) (m : Scf R) (hn : 0 < m.nmo) (hT : TrilSpec T (pyscf m))
    (hh : ∀ p q, m.hcore p q = m.hcore q p) (h1 : ∀ p q r s, m.eri p q r s = m.eri q p r s)
    (h2 : ∀ p q r s, m.eri p q r s = m.eri p q s r) (h3 : ∀ p q r s, m.eri p q r s = m.eri r s p q) :
    ∃ M P, fciMatrix T (pyscf m) = .ok (M, P) ∧
      P.length = m.nmo.choose (m.nelectron - m.nelectron / 2) * m.nmo.choose (m.nelectron / 2) ∧
      ∀ i < P.length, ∀ j < P.length, (M.getD i []).getD j 0 =
        hamME (2 * m.nmo) (blockOne m.nmo (oneInt m) (oneInt m))
          (blockTwo m.nmo (pyscf m).two (pyscf m).two (pyscf m).two) (occSet (P.getD i 0)) (occSet (P.getD j 0)) := by
  obtain ⟨s1, s2, s3, -⟩ := C119_integrals m hh h1 h2 h3
  obtain ⟨M, P, h, -⟩ := fciMatrix_ok T (pyscf m) rfl _ _ rfl
  obtain ⟨hmem, -, hlen, -⟩ := C119_determinants T (pyscf m) _ _ rfl M P h
  refine ⟨M, P, h, hlen, ?_⟩
  intro i hi j hj
  have hlt : ∀ i < P.length, P.getD i 0 < 2 ^ (2 * m.nmo) := by
    intro i hi
    rw [List.getD_eq_getElem _ _ hi]
    exact ((hmem _).1 (List.getElem_mem hi)).1
  have h4 := (C119_matrix_partial T (pyscf m) hn hT s1 s2 s3 M P h).2 i hi j hj
  have h5 := C24_restricted_fock m.nmo hn (pyscf m).one (pyscf m).two s3 _ _ (hlt i hi) (hlt j hj)
  exact (Except.ok.inj (h5.symm.trans h4)).symm

/-! ### Cases -/

open Classical in
/-- a function with the specification of PySCF's -/
noncomputable def exactTril (hf : HFData R) : H0tril R := fun _ _ stra strb _ i j =>
  hamME (2 * hf.norb) (blockOne hf.norb hf.one hf.one) (blockTwo hf.norb hf.two hf.two hf.two)
    (occSet (stra.getD i 0 + 2 ^ hf.norb * strb.getD i 0)) (occSet (stra.getD j 0 + 2 ^ hf.norb * strb.getD j 0))

/-- three electrons in four orbitals: the hypotheses of `C119_matrix_partial` and `C119_product_partial` -/
example : ∃ (T : H0tril ℚ) (hf : HFData ℚ) (M : List (List ℚ)) (P : List ℕ), 0 < hf.norb ∧ hf.norb ≠ 32 ∧ TrilSpec T hf ∧
    (∀ i j, hf.one i j = hf.one j i) ∧ (∀ i j k l, hf.two i j k l = hf.two k l i j) ∧ (∀ i j k l, hf.two i j k l = hf.two j i l k) ∧
    fciMatrix T hf = .ok (M, P) ∧ P.length = 24 := by
  let hf : HFData ℚ := ⟨true, 4, fun i j => i + j + 1, fun i j k l => (i * k + 1) * (j * l + 1), .int 3⟩
  obtain ⟨M, P, h, -⟩ := fciMatrix_ok (exactTril hf) hf rfl 2 1 rfl
  refine ⟨exactTril hf, hf, M, P, by decide, by decide, fun _ _ _ _ _ _ _ _ _ => rfl, ?_, ?_, ?_, h, ?_⟩
  · intro i j; simp only [hf]; ring
  · intro i j k l; simp only [hf]; ring
  · intro i j k l; simp only [hf]; ring
  · rw [(C119_determinants (exactTril hf) hf 2 1 rfl M P h).2.2.1]
    rfl

end Fanpy.Props
