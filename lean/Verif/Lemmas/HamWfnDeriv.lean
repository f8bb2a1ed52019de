import Verif.Props.HamDeriv
import Verif.Props.HamWfn
import Verif.Props.Unitary
import Verif.Model.HamWfnDeriv

/-!
# Lemmas about the vectorised derivatives with respect to orbital rotations
-/

namespace Fanpy.Lemmas
open Finset Fanpy.Spec Fanpy.Slater Fanpy.Props Fanpy.Ham Fanpy.It

variable {R : Type} [CommRing R]

/-! ### Scalar derivatives -/

theorem genDeriv_far (H : GenHam R) {sd1 sd2 : ℕ}
    (h : ¬ ((diffOrbs sd1 sd2).1.length = (diffOrbs sd1 sd2).2.length ∧ (diffOrbs sd1 sd2).1.length ≤ 2)) (P : List (ℕ × ℕ)) :
    genDeriv H sd1 sd2 (P.map fun p => triuPos H.norb p.1 p.2) = .ok (P.map fun _ => 0) := by
  simp only [genDeriv]
  by_cases hl : (diffOrbs sd1 sd2).1.length = (diffOrbs sd1 sd2).2.length
  · rw [if_neg (not_not.2 hl), if_pos (by by_contra h'; exact h ⟨hl, by omega⟩), List.map_map]
    rfl
  · rw [if_pos hl, List.map_map]
    rfl

theorem genDeriv_same (H : GenHam R) {sd : ℕ} (h1 : sd < 2 ^ H.norb) (P : List (ℕ × ℕ))
    (hP : ∀ p ∈ P, p.1 < p.2 ∧ p.2 < H.norb) :
    genDeriv H sd sd (P.map fun p => triuPos H.norb p.1 p.2) =
      .ok (P.map fun p => signTimes 1 (genDerivZero H p.1 p.2 (occIndices (some sd)))) := by
  have h1' := lt_two_pow_iff.1 h1
  have hs : signExcite (some sd) [] [] = .ok 1 := rfl
  simp only [genDeriv, diff_self, List.length_nil, ne_eq, not_true_eq_false, if_false, List.reverse_nil, hs, bind,
    Except.bind, sharedOrbs_self]
  rw [if_neg (by omega), if_neg (not_not.2 (inRange hP)), List.mapM_map]
  apply mapM_eq_ok
  intro p hp
  obtain ⟨hxy, hy⟩ := hP p hp
  simp only [Function.comp_def, C30_position hxy hy, Int.toNat_natCast]
  rw [guardIdx_ok (by
    intro i hi
    simp only [List.append_nil, List.nil_append, List.mem_cons] at hi
    rcases hi with rfl | rfl | hi
    · omega
    · omega
    · exact h1' i (mem_occSet.2 (mem_occIndices.1 hi)))]

theorem shared_lt {n sd1 sd2 : ℕ} (h1 : sd1 < 2 ^ n) : ∀ i ∈ sharedOrbs sd1 sd2, i < n := by
  intro i hi
  apply lt_two_pow_iff.1 h1
  have : i ∈ occSet sd1 ∩ occSet sd2 := by rw [← sharedOrbs_toFinset]; exact List.mem_toFinset.2 hi
  exact (Finset.mem_inter.1 this).1

theorem genDeriv_single (H : GenHam R) {sd1 sd2 a b : ℕ} {s : ℤ} (h1 : sd1 < 2 ^ H.norb) (ha : a < H.norb)
    (hb : b < H.norb) (hd : diffOrbs sd1 sd2 = ([a], [b])) (hs : signExcite (some sd1) [a] [b] = .ok s) (P : List (ℕ × ℕ))
    (hP : ∀ p ∈ P, p.1 < p.2 ∧ p.2 < H.norb) :
    genDeriv H sd1 sd2 (P.map fun p => triuPos H.norb p.1 p.2) =
      .ok (P.map fun p => signTimes s (genDerivOne H a b p.1 p.2 (sharedOrbs sd1 sd2))) := by
  simp only [genDeriv, hd, List.length_cons, List.length_nil, ne_eq, not_true_eq_false, if_false, List.reverse_cons,
    List.reverse_nil, List.nil_append, hs, bind, Except.bind]
  rw [if_neg (by omega), if_neg (not_not.2 (inRange hP)), List.mapM_map]
  apply mapM_eq_ok
  intro p hp
  obtain ⟨hxy, hy⟩ := hP p hp
  simp only [Function.comp_def, C30_position hxy hy, Int.toNat_natCast]
  rw [guardIdx_ok (by
    intro i hi
    simp only [List.cons_append, List.nil_append, List.mem_cons] at hi
    rcases hi with rfl | rfl | rfl | rfl | hi
    · omega
    · omega
    · exact ha
    · exact hb
    · exact shared_lt h1 i hi)]

theorem genDeriv_double (H : GenHam R) {sd1 sd2 a b c d : ℕ} {s : ℤ} (h1 : sd1 < 2 ^ H.norb) (ha : a < H.norb)
    (hb : b < H.norb) (hc : c < H.norb) (hd' : d < H.norb) (hd : diffOrbs sd1 sd2 = ([a, b], [c, d]))
    (hs : signExcite (some sd1) [a, b] [d, c] = .ok s) (P : List (ℕ × ℕ)) (hP : ∀ p ∈ P, p.1 < p.2 ∧ p.2 < H.norb) :
    genDeriv H sd1 sd2 (P.map fun p => triuPos H.norb p.1 p.2) =
      .ok (P.map fun p => signTimes s (genDerivTwo H a b c d p.1 p.2)) := by
  simp only [genDeriv, hd, List.length_cons, List.length_nil, ne_eq, not_true_eq_false, if_false, List.reverse_cons,
    List.reverse_nil, List.nil_append, List.cons_append, hs, bind, Except.bind]
  rw [if_neg (by omega), if_neg (not_not.2 (inRange hP)), List.mapM_map]
  apply mapM_eq_ok
  intro p hp
  obtain ⟨hxy, hy⟩ := hP p hp
  simp only [Function.comp_def, C30_position hxy hy, Int.toNat_natCast]
  rw [guardIdx_ok (by
    intro i hi
    simp only [List.mem_cons] at hi
    rcases hi with rfl | rfl | rfl | rfl | rfl | rfl | hi
    · omega
    · omega
    · exact ha
    · exact hb
    · exact hc
    · exact hd'
    · exact shared_lt h1 i hi)]

/-! ### Entries of the arrays -/

theorem genDerivEntryZero_eq (H : GenHam R) {sd x y : ℕ} (hx : x < H.norb) (hy : y < H.norb) :
    genDerivEntryZero H (occIndices (some sd)) (virIndices (some sd) H.norb) x y =
      genDerivZero H x y (occIndices (some sd)) := by
  have hv : ∀ z, z < H.norb → (z ∈ virIndices (some sd) H.norb ↔ z ∉ occIndices (some sd)) := by
    intro z hz
    rw [mem_virIndices, mem_occIndices]
    constructor
    · rintro ⟨-, h⟩; simp [h]
    · intro h; exact ⟨by omega, by simpa using h⟩
  simp only [genDerivEntryZero, genDerivZero, hv x hx, hv y hy]
  generalize occIndices (some sd) = o
  by_cases h1 : x ∈ o <;> by_cases h2 : y ∈ o <;> simp [h1, h2] <;> ring_nf

theorem genDerivEntryOne_eq (H : GenHam R) {a b x y : ℕ} {shared : List ℕ} (hab : a ≠ b) (ha : a ∉ shared)
    (hb : b ∉ shared) : genDerivEntryOne H a b shared x y = genDerivOne H a b x y shared := by
  have h1 : ∀ z, z = a → z ≠ b ∧ z ∉ shared := by rintro z rfl; exact ⟨hab, ha⟩
  have h2 : ∀ z, z = b → z ≠ a ∧ z ∉ shared := by rintro z rfl; exact ⟨hab.symm, hb⟩
  have hx : (if x = a then
    (-H.one y b, -(shared.map fun s => H.two y s b s).sum, (shared.map fun s => H.two y s s b).sum)
   else if x = b then
    (-H.one a y, -(shared.map fun s => H.two a s y s).sum, (shared.map fun s => H.two a s s y).sum)
   else if x ∈ shared then
    (0, -H.two y a x b - H.two x a y b, H.two y a b x + H.two x a b y)
   else 0) = (if x = a then
    (-H.one y b, -(shared.map fun s => H.two y s b s).sum, (shared.map fun s => H.two y s s b).sum) else 0) +
  (if x = b then
    (-H.one a y, -(shared.map fun s => H.two a s y s).sum, (shared.map fun s => H.two a s s y).sum) else 0) +
  ((if x ∈ shared then (0, -H.two y a x b, 0) else 0) +
  (if x ∈ shared then (0, -H.two x a y b, 0) else 0) +
  (if x ∈ shared then (0, 0, H.two y a b x) else 0) +
  (if x ∈ shared then (0, 0, H.two x a b y) else 0)) := by
    by_cases c1 : x = a
    · simp only [if_pos c1, if_neg (h1 x c1).1, if_neg (h1 x c1).2, add_zero]
    · by_cases c2 : x = b
      · simp only [if_neg c1, if_pos c2, if_neg (h2 x c2).2, add_zero, zero_add]
      · by_cases c3 : x ∈ shared
        · simp only [if_neg c1, if_neg c2, if_pos c3, Prod.mk_add_mk, add_zero, zero_add, sub_eq_add_neg]
        · simp only [if_neg c1, if_neg c2, if_neg c3, add_zero]
  have hy : (if y = a then
    (H.one x b, (shared.map fun s => H.two x s b s).sum, -(shared.map fun s => H.two x s s b).sum)
   else if y = b then
    (H.one a x, (shared.map fun s => H.two a s x s).sum, -(shared.map fun s => H.two a s s x).sum)
   else 0) = (if y = a then
    (H.one x b, (shared.map fun s => H.two x s b s).sum, -(shared.map fun s => H.two x s s b).sum) else 0) +
  (if y = b then
    (H.one a x, (shared.map fun s => H.two a s x s).sum, -(shared.map fun s => H.two a s s x).sum) else 0) := by
    by_cases c1 : y = a
    · simp only [if_pos c1, if_neg (h1 y c1).1, add_zero]
    · simp only [if_neg c1, zero_add]
  have hy2 : (if y ∈ shared then ((0 : R), H.two x a y b + H.two y a x b, -H.two x a b y - H.two y a b x) else 0) =
    (if y ∈ shared then (0, H.two x a y b, 0) else 0) +
    (if y ∈ shared then (0, H.two y a x b, 0) else 0) +
    (if y ∈ shared then (0, 0, -H.two x a b y) else 0) +
    (if y ∈ shared then (0, 0, -H.two y a b x) else 0) := by
    by_cases c3 : y ∈ shared
    · simp only [if_pos c3, Prod.mk_add_mk, add_zero, zero_add, sub_eq_add_neg]
    · simp only [if_neg c3, add_zero]
  rw [genDerivOne, hx, hy, hy2, genDerivEntryOne]
  abel

theorem genDerivEntryTwo_eq (H : GenHam R) {a b c d x y : ℕ} (hab : a ≠ b) (hac : a ≠ c) (had : a ≠ d) (hbc : b ≠ c)
    (hbd : b ≠ d) (hcd : c ≠ d) : genDerivEntryTwo H a b c d x y = genDerivTwo H a b c d x y := by
  have key : ∀ (z : ℕ) (A B C D : R × R × R), (if z = a then A else if z = b then B else if z = c then C else
      if z = d then D else 0) = (if z = a then A else 0) + (if z = b then B else 0) + (if z = c then C else 0) +
        (if z = d then D else 0) := by
    intro z A B C D
    by_cases c1 : z = a
    · subst c1; simp [hab, hac, had]
    · by_cases c2 : z = b
      · subst c2; simp [hab.symm, hbc, hbd]
      · by_cases c3 : z = c
        · subst c3; simp [hac.symm, hbc.symm, hcd]
        · simp [c1, c2, c3]
  rw [genDerivTwo, key x, key y, genDerivEntryTwo]
  abel

/-! ### Assembly -/

/-- `array[:, ham_deriv]` on an array with one column for each pair of orbitals -/
theorem takeCols_eq {α : Type} (n : ℕ) (c : ℕ × ℕ → α) (P : List (ℕ × ℕ)) (hP : ∀ p ∈ P, p.1 < p.2 ∧ p.2 < n) :
    takeCols ((triuIndices n).map c) (P.map fun p => triuPos n p.1 p.2) = .ok (P.map c) := by
  rw [takeCols, List.mapM_map]
  apply mapM_eq_ok
  intro p hp
  obtain ⟨hxy, hy⟩ := hP p hp
  have hmem : (p.1, p.2) ∈ triuIndices n := mem_triuIndices.2 ⟨hxy, hy⟩
  simp only [Function.comp_def, ← C57_triu_position hxy hy, Int.toNat_natCast, List.getElem?_map,
    List.getElem?_idxOf hmem, Option.map_some]

theorem triuIndices_eq_nil {n : ℕ} : triuIndices n = [] ↔ n < 2 := by
  constructor
  · intro h
    by_contra hn
    have : (0, 1) ∈ triuIndices n := mem_triuIndices.2 ⟨by norm_num, by omega⟩
    rw [h] at this
    cases this
  · intro h
    rw [List.eq_nil_iff_forall_not_mem]
    rintro ⟨x, y⟩ hp
    have := mem_triuIndices.1 hp
    omega

/-- a sum over all determinants of a quantity that vanishes beyond double excitations -/
theorem sum_up_to_double {M : Type} [AddCommMonoid M] {n sd : ℕ} (hsd : sd < 2 ^ n) (G : ℕ → M)
    (hG : ∀ m < 2 ^ n, ¬ ((diffOrbs sd m).1.length = (diffOrbs sd m).2.length ∧ (diffOrbs sd m).1.length ≤ 2) → G m = 0) :
    ∑ m ∈ range (2 ^ n), G m = G sd +
      ((excL sd (comb (occIndices (some sd)) 1) (comb (virIndices (some sd) n) 1)).map G).sum +
      ((excL sd (comb (occIndices (some sd)) 2) (comb (virIndices (some sd) n) 2)).map G).sum := by
  rw [sum_all_eq_list _ _ (sd :: (excL sd (comb (occIndices (some sd)) 1) (comb (virIndices (some sd) n) 1) ++
    excL sd (comb (occIndices (some sd)) 2) (comb (virIndices (some sd) n) 2)))]
  · simp [add_assoc]
  · rw [List.nodup_cons, List.nodup_append', List.mem_append, mem_excL_all hsd, mem_excL_all hsd, diff_self]
    refine ⟨by simp, nodup_excL_all _ _ _, nodup_excL_all _ _ _, ?_⟩
    rw [List.disjoint_left]
    intro m h1 h2
    rw [mem_excL_all hsd] at h1 h2
    omega
  · intro m hm
    rcases List.mem_cons.1 hm with rfl | hm
    · exact hsd
    · rcases List.mem_append.1 hm with h | h
      · exact ((mem_excL_all hsd).1 h).1
      · exact ((mem_excL_all hsd).1 h).1
  · intro m hm hn
    apply hG m hm
    rintro ⟨e1, e2⟩
    apply hn
    rw [List.mem_cons, List.mem_append, mem_excL_all hsd, mem_excL_all hsd]
    by_cases h0 : (diffOrbs sd m).1.length = 0
    · exact Or.inl (eq_of_diff_nil h0 (by rw [← e1, h0]))
    · right
      by_cases h1 : (diffOrbs sd m).1.length = 1
      · exact Or.inl ⟨hm, h1, by rw [← e1, h1]⟩
      · exact Or.inr ⟨hm, by omega, by omega⟩

end Fanpy.Lemmas
