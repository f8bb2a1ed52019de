import Verif.Lemmas.PCCD
import Verif.Lemmas.PermanentLists
import Verif.Props.BicliquePmatch
import Verif.Props.AP1roG

/-! Products of pair excitations, and permanents as sums over permutations. -/

namespace Fanpy.PCCD
open Fanpy.Spec Fanpy.Slater Fanpy.Graphs Fanpy.It Fanpy.CC Fanpy.Props Fanpy.Lemmas

/-- both spin orbitals of some spatial orbitals -/
def pairSet (n : ℕ) (I : Finset ℕ) : Finset ℕ := I ∪ I.image (· + n)

theorem mem_pairSet {n : ℕ} {I : Finset ℕ} {x : ℕ} : x ∈ pairSet n I ↔ x ∈ I ∨ (n ≤ x ∧ x - n ∈ I) := by
  rw [pairSet, Finset.mem_union, Finset.mem_image]
  constructor
  · rintro (h | ⟨i, hi, rfl⟩)
    · exact Or.inl h
    · right; exact ⟨by omega, by rwa [Nat.add_sub_cancel]⟩
  · rintro (h | ⟨h1, h2⟩)
    · exact Or.inl h
    · right; exact ⟨x - n, h2, by omega⟩

theorem occSet_pairs {n r : ℕ} (h : r / 2 ^ n = r % 2 ^ n) : occSet r = pairSet n (occSet (r % 2 ^ n)) := by
  ext x
  rw [mem_pairSet, mem_occSet, mem_occSet, mem_occSet, Nat.testBit_mod_two_pow, Nat.testBit_mod_two_pow]
  by_cases hx : x < n
  · simp [hx]
  · have e := testBit_seniority h (x - n)
    rw [Nat.sub_add_cancel (by omega)] at e
    rw [e]
    simp [hx]
    omega

theorem phase_pair {n : ℕ} {I : Finset ℕ} (hI : ∀ i ∈ I, i < n) {i : ℕ} (hi : i < n) :
    phase (pairSet n I) (i + n) = phase (pairSet n I) i * (-1) ^ I.card := by
  rw [phase, phase, ← pow_add]
  congr 1
  have e : (pairSet n I).filter (· < i + n) = I ∪ (((pairSet n I).filter (· < i)).image (· + n)) := by
    ext x
    rw [Finset.mem_filter, mem_pairSet, Finset.mem_union, Finset.mem_image]
    constructor
    · rintro ⟨h | ⟨h1, h2⟩, h3⟩
      · exact Or.inl h
      · right
        exact ⟨x - n, by rw [Finset.mem_filter, mem_pairSet]; exact ⟨Or.inl h2, by omega⟩, by omega⟩
    · rintro (h | ⟨y, hy, rfl⟩)
      · exact ⟨Or.inl h, by have := hI x h; omega⟩
      · rw [Finset.mem_filter, mem_pairSet] at hy
        obtain ⟨h | ⟨h1, h2⟩, h3⟩ := hy
        · exact ⟨Or.inr ⟨by omega, by rwa [Nat.add_sub_cancel]⟩, by omega⟩
        · omega
  rw [e, Finset.card_union_of_disjoint, Finset.card_image_of_injective _ (fun a b h => by simpa using h), add_comm]
  rw [Finset.disjoint_left]
  intro x hx hx'
  obtain ⟨y, -, rfl⟩ := Finset.mem_image.1 hx'
  have := hI _ hx
  omega

variable {R : Type*} [CommRing R]

/-- a pair excitation of paired electrons has the sign `-1` -/
theorem excOp_pair {n : ℕ} {I : Finset ℕ} (hI : ∀ i ∈ I, i < n) {i v : ℕ} (hi : i ∈ I) (hv : v < n) (hvI : v ∉ I) :
    (excOp [i, i + n] [v, v + n] (ket (pairSet n I) : Fock R)) = -ket (pairSet n (insert v (I.erase i))) := by
  have hin := hI i hi
  have hI' : ∀ j ∈ I.erase i, j < n := fun j hj => hI j (Finset.mem_of_mem_erase hj)
  have e1 : ((pairSet n I).erase i).erase (i + n) = pairSet n (I.erase i) := by
    ext x
    rw [Finset.mem_erase, Finset.mem_erase, mem_pairSet, mem_pairSet, Finset.mem_erase, Finset.mem_erase]
    constructor
    · rintro ⟨h1, h2, h | ⟨h3, h4⟩⟩
      · exact Or.inl ⟨h2, h⟩
      · exact Or.inr ⟨h3, by omega, h4⟩
    · rintro (⟨h1, h2⟩ | ⟨h1, h2, h3⟩)
      · exact ⟨by have := hI x h2; omega, h1, Or.inl h2⟩
      · exact ⟨by omega, by omega, Or.inr ⟨h1, h3⟩⟩
  have e2 : insert (v + n) (insert v (pairSet n (I.erase i))) = pairSet n (insert v (I.erase i)) := by
    ext x
    simp only [Finset.mem_insert, mem_pairSet, Finset.mem_erase]
    constructor
    · rintro (h | h | h | ⟨h1, h2⟩)
      · exact Or.inr ⟨by omega, Or.inl (by omega)⟩
      · exact Or.inl (Or.inl h)
      · exact Or.inl (Or.inr h)
      · exact Or.inr ⟨h1, Or.inr h2⟩
    · rintro ((h | h) | ⟨h1, h2 | h2⟩)
      · exact Or.inr (Or.inl h)
      · exact Or.inr (Or.inr (Or.inl h))
      · exact Or.inl (by omega)
      · exact Or.inr (Or.inr (Or.inr ⟨h1, h2⟩))
  have m1 : i ∈ pairSet n I := mem_pairSet.2 (Or.inl hi)
  have m2 : i + n ∈ (pairSet n I).erase i := by
    rw [Finset.mem_erase, mem_pairSet]
    exact ⟨by omega, Or.inr ⟨by omega, by rwa [Nat.add_sub_cancel]⟩⟩
  have m3 : v ∉ pairSet n (I.erase i) := by
    rw [mem_pairSet]
    rintro (h | ⟨h1, -⟩)
    · exact hvI (Finset.mem_of_mem_erase h)
    · omega
  have m4 : v + n ∉ insert v (pairSet n (I.erase i)) := by
    rw [Finset.mem_insert, mem_pairSet]
    rintro (h | h | ⟨h1, h2⟩)
    · omega
    · have := hI' _ h; omega
    · rw [Nat.add_sub_cancel] at h2
      exact hvI (Finset.mem_of_mem_erase h2)
  rw [excOp_apply, annString, creString, ket]
  simp only [List.foldl_cons, List.foldl_nil]
  rw [annOp_single, if_pos m1, annOp_single, if_pos m2, e1, creOp_single, if_neg m3, creOp_single, if_neg m4, e2, ket, ← Finsupp.single_neg]
  congr 1
  rw [phase_erase, if_pos ⟨m1, by omega⟩, phase_pair hI hin, phase_insert, if_pos ⟨m3, by omega⟩, phase_pair hI' hv,
    Finset.card_erase_of_mem hi]
  have hcard : 0 < I.card := Finset.card_pos.2 ⟨i, hi⟩
  obtain ⟨k, hk⟩ : ∃ k, I.card = k + 1 := ⟨I.card - 1, by omega⟩
  rw [hk, Nat.add_sub_cancel]
  have p1 := phase_sq (pairSet n I) i
  have p2 := phase_sq (pairSet n (I.erase i)) v
  have p3 : ((-1 : ℤ) ^ k) * (-1) ^ k = 1 := by rw [← mul_pow]; simp
  generalize phase (pairSet n (I.erase i)) v = y at p2 ⊢
  generalize phase (pairSet n I) i = x at p1 ⊢
  have key : x * -(x * (-1) ^ (k + 1)) * y * -(y * (-1) ^ k) = -1 := by
    rw [pow_succ]
    linear_combination (-(y * y * ((-1 : ℤ) ^ k * (-1) ^ k))) * p1 - ((-1 : ℤ) ^ k * (-1) ^ k) * p2 - p3
  rw [one_mul, ← Int.cast_mul, ← Int.cast_mul, ← Int.cast_mul, key]
  simp

/-- the pair excitation from `i` to `v` -/
def pairBlock (n i v : ℕ) : List ℕ × List ℕ := ([i, i + n], [v, v + n])

theorem prod_pairs {n : ℕ} {I : Finset ℕ} (hI : ∀ i ∈ I, i < n) : ∀ (A q : List ℕ), A.length = q.length → A.Nodup → q.Nodup →
    (∀ i ∈ A, i ∈ I) → (∀ v ∈ q, v < n ∧ v ∉ I) →
    (((List.zipWith (pairBlock n) A q).map fun p => (excOp p.1 p.2 : Module.End R (Fock R))).prod (ket (pairSet n I))) =
      ((-1 : ℤ) ^ A.length) • ket (pairSet n ((I \ A.toFinset) ∪ q.toFinset)) := by
  intro A
  induction A with
  | nil =>
    intro q hl _ _ _ _
    rw [List.length_nil] at hl
    rw [List.length_eq_zero_iff.1 hl.symm]
    simp
  | cons i A ih =>
    intro q hl hA hq hAI hqI
    cases q with
    | nil => simp at hl
    | cons v q =>
      rw [List.nodup_cons] at hA hq
      have h := ih q (by simpa using hl) hA.2 hq.2 (fun j hj => hAI j (by simp [hj])) (fun j hj => hqI j (by simp [hj]))
      rw [List.zipWith_cons_cons, List.map_cons, List.prod_cons, Module.End.mul_apply, h]
      rw [map_zsmul]
      simp only [pairBlock]
      rw [excOp_pair]
      · rw [List.length_cons, pow_succ, mul_neg_one, neg_smul, smul_neg]
        congr 3
        congr 1
        ext x
        have hiI := hAI i (by simp)
        have hvI := hqI v (by simp)
        simp only [Finset.mem_insert, Finset.mem_erase, Finset.mem_union, Finset.mem_sdiff, List.mem_toFinset, List.mem_cons]
        constructor
        · rintro (rfl | ⟨h1, ⟨h2, h3⟩ | h2⟩)
          · exact Or.inr (Or.inl rfl)
          · exact Or.inl ⟨h2, by tauto⟩
          · exact Or.inr (Or.inr h2)
        · rintro (⟨h1, h2⟩ | rfl | h2)
          · exact Or.inr ⟨fun e => h2 (Or.inl e), Or.inl ⟨h1, fun e => h2 (Or.inr e)⟩⟩
          · exact Or.inl rfl
          · refine Or.inr ⟨?_, Or.inr h2⟩
            rintro rfl
            exact (hqI x (by simp [h2])).2 hiI
      · intro j hj
        rw [Finset.mem_union, Finset.mem_sdiff, List.mem_toFinset, List.mem_toFinset] at hj
        rcases hj with ⟨hj, -⟩ | hj
        · exact hI j hj
        · exact (hqI j (by simp [hj])).1
      · rw [Finset.mem_union, Finset.mem_sdiff, List.mem_toFinset]
        exact Or.inl ⟨hAI i (by simp), hA.1⟩
      · exact (hqI v (by simp)).1
      · rw [Finset.mem_union, Finset.mem_sdiff, List.mem_toFinset, List.mem_toFinset]
        rintro (⟨h1, -⟩ | h1)
        · exact (hqI v (by simp)).2 h1
        · exact hq.1 h1

/-- a permanent is a sum over the permutations of the columns -/
theorem perL_perms (f : ℕ → ℕ → R) {A C : List ℕ} (hl : A.length = C.length) :
    ((perms C).map fun q => (List.zipWith f A q).prod).sum = perL f A C := by
  have hA : A = (List.range A.length).map fun i => A.getD i default := by
    apply List.ext_getElem
    · simp
    · intro i h1 h2
      rw [List.getElem_map, List.getElem_range, List.getD_eq_getElem]
  have hC : C = (List.range C.length).map fun i => C.getD i default := by
    apply List.ext_getElem
    · simp
    · intro i h1 h2
      rw [List.getElem_map, List.getElem_range, List.getD_eq_getElem]
  rw [perL, perSpec, if_pos hl.le, ← MathTools.kperms_sum (fun i j => f (A.getD i default) (C.getD j default)), perms]
  conv_lhs => rw [hC]
  rw [permsAux_map, List.map_map, List.length_map, List.length_range, hl]
  congr 1
  apply List.map_congr_left
  intro q _
  rw [Function.comp_apply]
  conv_lhs => rw [hA]
  rw [List.zipWith_map, hl]

end Fanpy.PCCD
