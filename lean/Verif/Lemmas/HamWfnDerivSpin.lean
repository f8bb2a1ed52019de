import Verif.Props.HamWfnSpin
import Verif.Lemmas.HamWfnDeriv
import Verif.Model.HamWfnDerivSpin

/-!
# Lemmas about the vectorised derivatives of the spin-blocked Hamiltonians
-/

namespace Fanpy.Lemmas
open Finset Fanpy.Spec Fanpy.Slater Fanpy.Props Fanpy.Ham Fanpy.It

variable {R : Type} [CommRing R]
variable {sd n : ℕ} {oa ob va vb : List ℕ}

/-! ### Entries of the arrays -/

theorem spinEntryZero_alpha (H : UnrHam R) (hB : Blocks H.norb sd oa ob va vb) {x y : ℕ} (hx : x < H.norb)
    (hy : y < H.norb) : spinEntryZero H.oneA H.twoAA H.twoAB oa ob va x y = unrDerivZero H 0 x y oa ob := by
  have hv : ∀ z, z < H.norb → (z ∈ va ↔ z ∉ oa) := by
    intro z hz
    rw [hB.hva, hB.hoa]
    simp [hz]
  simp only [spinEntryZero, unrDerivZero, hv x hx, hv y hy]
  by_cases h1 : x ∈ oa <;> by_cases h2 : y ∈ oa <;> simp [h1, h2] <;> ring_nf

theorem spinEntryZero_beta (H : UnrHam R) (hB : Blocks H.norb sd oa ob va vb) {x y : ℕ} (hx : x < H.norb)
    (hy : y < H.norb) : spinEntryZero H.oneB H.twoBB (fun p s q t => H.twoAB s p t q) ob oa vb x y =
      unrDerivZero H 1 x y oa ob := by
  have hv : ∀ z, z < H.norb → (z ∈ vb ↔ z ∉ ob) := by
    intro z hz
    rw [hB.hvb, hB.hob]
    simp [hz]
  simp only [spinEntryZero, unrDerivZero, hv x hx, hv y hy]
  by_cases h1 : x ∈ ob <;> by_cases h2 : y ∈ ob <;> simp [h1, h2] <;> ring_nf

set_option linter.unusedSimpArgs false in
theorem spinEntryOne_aa (H : UnrHam R) {a b x y : ℕ} (hab : a ≠ b) {sa : List ℕ} (ob : List ℕ) (ha : a ∉ sa) (hb : b ∉ sa) :
    spinEntryOne H.oneA H.twoAA H.twoAB a b sa ob x y = unrDerivOne H a 0 b 0 0 x y sa ob := by
  unfold spinEntryOne unrDerivOne
  simp only [and_self, if_true, zero_ne_one, one_ne_zero, false_and, if_false, true_and, and_true, and_false]
  rcases one_cases hab ha hb x with ⟨h1, h2, h3⟩ | ⟨h1, h2, h3⟩ | ⟨h1, h2, h3⟩ | ⟨h1, h2, h3⟩ <;>
    rcases one_cases hab ha hb y with ⟨k1, k2, k3⟩ | ⟨k1, k2, k3⟩ | ⟨k1, k2, k3⟩ | ⟨k1, k2, k3⟩ <;>
    simp only [h2, h3, k2, k3, ha, hb, hab, Ne.symm hab, or_self, not_false_eq_true, not_true_eq_false, and_true, and_false,
      true_and, if_true, if_false, add_zero, zero_add, h1, k1] <;>
    triple_ring

set_option linter.unusedSimpArgs false in
theorem spinEntryOne_bb (H : UnrHam R) {a b x y : ℕ} (hab : a ≠ b) {sb : List ℕ} (oa : List ℕ) (ha : a ∉ sb) (hb : b ∉ sb) :
    spinEntryOne H.oneB H.twoBB (fun p s q t => H.twoAB s p t q) a b sb oa x y = unrDerivOne H a 1 b 1 1 x y oa sb := by
  unfold spinEntryOne unrDerivOne
  simp only [and_self, if_true, zero_ne_one, one_ne_zero, false_and, if_false, true_and, and_true, and_false]
  rcases one_cases hab ha hb x with ⟨h1, h2, h3⟩ | ⟨h1, h2, h3⟩ | ⟨h1, h2, h3⟩ | ⟨h1, h2, h3⟩ <;>
    rcases one_cases hab ha hb y with ⟨k1, k2, k3⟩ | ⟨k1, k2, k3⟩ | ⟨k1, k2, k3⟩ | ⟨k1, k2, k3⟩ <;>
    simp only [h2, h3, k2, k3, ha, hb, hab, Ne.symm hab, or_self, not_false_eq_true, not_true_eq_false, and_true, and_false,
      true_and, if_true, if_false, add_zero, zero_add, h1, k1] <;>
    triple_ring

theorem spinEntryOther_ba (H : UnrHam R) {a b x y : ℕ} (sa ob : List ℕ) :
    ((0 : R), spinEntryOther H.twoAB a b ob x y, (0 : R)) = unrDerivOne H a 0 b 0 1 x y sa ob := by
  unfold spinEntryOther unrDerivOne
  simp only [and_self, if_true, zero_ne_one, one_ne_zero, false_and, if_false, true_and, and_true, and_false]
  by_cases h1 : x ∈ ob <;> by_cases h2 : y ∈ ob <;> simp only [h1, h2, if_true, if_false] <;> triple_ring

theorem spinEntryOther_ab (H : UnrHam R) {a b x y : ℕ} (oa sb : List ℕ) :
    ((0 : R), spinEntryOther (fun p s q t => H.twoAB s p t q) a b oa x y, (0 : R)) = unrDerivOne H a 1 b 1 0 x y oa sb := by
  unfold spinEntryOther unrDerivOne
  simp only [and_self, if_true, zero_ne_one, one_ne_zero, false_and, if_false, true_and, and_true, and_false]
  by_cases h1 : x ∈ oa <;> by_cases h2 : y ∈ oa <;> simp only [h1, h2, if_true, if_false] <;> triple_ring

theorem pair_split {x a b c d : ℕ} {A B C D : R × R} (hab : a ≠ b) (hac : a ≠ c) (had : a ≠ d) (hbc : b ≠ c)
    (hbd : b ≠ d) (hcd : c ≠ d) :
    emb2 (if x = a then A else 0) + emb2 (if x = b then B else 0) + emb2 (if x = c then C else 0) +
        emb2 (if x = d then D else 0) =
      if x = a then (0, A) else if x = b then (0, B) else if x = c then (0, C) else if x = d then ((0 : R), D) else 0 := by
  rw [← ite_split hab hac had hbc hbd hcd]
  have : ∀ (p : Prop) [Decidable p] (T : R × R), emb2 (if p then T else 0) = if p then ((0 : R), T) else 0 := by
    intro p _ T
    split_ifs <;> simp [emb2]
  simp only [this]

theorem spinEntryTwo_aaa (H : UnrHam R) (hsym : ∀ i j k l, H.twoAA i j k l = H.twoAA j i l k) {a b c d x y : ℕ}
    (hab : a ≠ b) (hac : a ≠ c) (had : a ≠ d) (hbc : b ≠ c) (hbd : b ≠ d) (hcd : c ≠ d) :
    ((0 : R), spinEntryTwo H.twoAA a b c d x y) = unrDerivTwo H a 0 b 0 c 0 d 0 0 x y := by
  have e : ((0 : R), spinEntryTwo H.twoAA a b c d x y) = emb2 (spinEntryTwo H.twoAA a b c d x y) := by simp [emb2]
  rw [e]
  unfold spinEntryTwo unrDerivTwo
  have h := hsym
  simp only [spinCase, and_true, and_self, if_true, map_add]
  rw [h y a d c, h y a c d, h b a y d, h b a y c, h x a d c, h x a c d, h b a x d, h b a x c,
    ← pair_split (x := x) hab hac had hbc hbd hcd, ← pair_split (x := y) hab hac had hbc hbd hcd]
  abel

theorem spinEntryTwo_bbb (H : UnrHam R) (hsym : ∀ i j k l, H.twoBB i j k l = H.twoBB j i l k) {a b c d x y : ℕ}
    (hab : a ≠ b) (hac : a ≠ c) (had : a ≠ d) (hbc : b ≠ c) (hbd : b ≠ d) (hcd : c ≠ d) :
    ((0 : R), spinEntryTwo H.twoBB a b c d x y) = unrDerivTwo H a 1 b 1 c 1 d 1 1 x y := by
  have e : ((0 : R), spinEntryTwo H.twoBB a b c d x y) = emb2 (spinEntryTwo H.twoBB a b c d x y) := by simp [emb2]
  rw [e]
  unfold spinEntryTwo unrDerivTwo
  have h := hsym
  simp only [spinCase, and_true, and_self, if_true, map_add, one_ne_zero, if_false]
  rw [h y a d c, h y a c d, h b a y d, h b a y c, h x a d c, h x a c d, h b a x d, h b a x c,
    ← pair_split (x := x) hab hac had hbc hbd hcd, ← pair_split (x := y) hab hac had hbc hbd hcd]
  abel

theorem one_split {x a c : ℕ} {A C : R} (hac : a ≠ c) :
    emb1 (if x = a then A else 0) + emb1 (if x = c then C else 0) =
      if x = a then (0, A, 0) else if x = c then ((0 : R), C, (0 : R)) else 0 := by
  rw [← ite_split2 hac]
  have : ∀ (p : Prop) [Decidable p] (T : R), emb1 (if p then T else 0) = if p then ((0 : R), T, (0 : R)) else 0 := by
    intro p _ T
    split_ifs <;> simp [emb1]
  simp only [this]

theorem spinEntryTwo_aab (H : UnrHam R) {a b c d x y : ℕ} (hac : a ≠ c) :
    ((0 : R), spinEntryTwoA H.twoAB a b c d x y, (0 : R)) = unrDerivTwo H a 0 b 1 c 0 d 1 0 x y := by
  have e : ((0 : R), spinEntryTwoA H.twoAB a b c d x y, (0 : R)) = emb1 (spinEntryTwoA H.twoAB a b c d x y) := by simp [emb1]
  rw [e]
  unfold spinEntryTwoA unrDerivTwo
  simp only [spinCase, and_true, and_self, if_true, map_add, one_ne_zero, zero_ne_one, and_false, false_and, if_false]
  rw [← one_split (x := x) hac, ← one_split (x := y) hac]
  abel

theorem spinEntryTwo_bab (H : UnrHam R) {a b c d x y : ℕ} (hbd : b ≠ d) :
    ((0 : R), spinEntryTwoB H.twoAB a b c d x y, (0 : R)) = unrDerivTwo H a 0 b 1 c 0 d 1 1 x y := by
  have e : ((0 : R), spinEntryTwoB H.twoAB a b c d x y, (0 : R)) = emb1 (spinEntryTwoB H.twoAB a b c d x y) := by simp [emb1]
  rw [e]
  unfold spinEntryTwoB unrDerivTwo
  simp only [spinCase, and_true, and_self, if_true, map_add, one_ne_zero, zero_ne_one, and_false, false_and, if_false]
  rw [← one_split (x := x) hbd, ← one_split (x := y) hbd]
  abel

/-! ### Scalar derivatives -/

section scalar
variable {m : ℕ}

/-- spatial orbital and spin -/
def spatSpin (n i : ℕ) : ℕ × ℕ := if i < n then (i, 0) else (i - n, 1)

theorem unrDeriv_far (H : UnrHam R) (hn : 0 < H.norb)
    (h : ¬ ((diffOrbs sd m).1.length = (diffOrbs sd m).2.length ∧ (diffOrbs sd m).1.length ≤ 2)) (deriv : List ℤ) :
    unrDeriv H sd m deriv = .ok (deriv.map fun _ => 0) := by
  have hsp : splitSpin (sharedSd sd m) (H.norb : ℤ) = _ := splitSpin_ok hn
  simp only [unrDeriv, hsp, bind, Except.bind]
  by_cases hl : (diffOrbs sd m).1.length = (diffOrbs sd m).2.length
  · rw [if_neg (not_not.2 hl), if_pos (by by_contra h'; exact h ⟨hl, by omega⟩)]
  · rw [if_pos hl]

theorem resDeriv_far (G : GenHam R) (hn : 0 < G.norb)
    (h : ¬ ((diffOrbs sd m).1.length = (diffOrbs sd m).2.length ∧ (diffOrbs sd m).1.length ≤ 2)) (deriv : List ℤ) :
    resDeriv G sd m deriv = .ok (deriv.map fun _ => 0) := by
  have hsp : splitSpin (sharedSd sd m) (G.norb : ℤ) = _ := splitSpin_ok hn
  simp only [resDeriv, hsp, bind, Except.bind]
  by_cases hl : (diffOrbs sd m).1.length = (diffOrbs sd m).2.length
  · rw [if_neg (not_not.2 hl), if_pos (by by_contra h'; exact h ⟨hl, by omega⟩)]
  · rw [if_pos hl]

/-- the shared orbitals of each spin -/
def shA (n sd m : ℕ) : List ℕ := occIndices (some (sharedSd sd m % 2 ^ n))
/-- the shared orbitals of each spin -/
def shB (n sd m : ℕ) : List ℕ := occIndices (some (sharedSd sd m / 2 ^ n))

theorem shA_def (n sd m : ℕ) : shA n sd m = occIndices (some (sharedSd sd m % 2 ^ n)) := rfl
theorem shB_def (n sd m : ℕ) : shB n sd m = occIndices (some (sharedSd sd m / 2 ^ n)) := rfl
theorem spatSpin_def (n i : ℕ) : spatSpin n i = if i < n then (i, 0) else (i - n, 1) := rfl

theorem shA_lt : ∀ i ∈ shA n sd m, i < n := by
  intro i hi
  rw [shA, mem_occIndices, Nat.testBit_mod_two_pow] at hi
  simp at hi; exact hi.1

theorem shB_lt (hsd : sd < 2 ^ (2 * n)) : ∀ i ∈ shB n sd m, i < n := by
  intro i hi
  rw [shB, mem_occIndices, Nat.testBit_div_two_pow, sharedSd, Nat.testBit_and] at hi
  simp only [Bool.and_eq_true] at hi
  have := lt_two_pow_iff.1 hsd _ (mem_occSet.2 hi.1)
  omega

theorem sh_guard (hsd : sd < 2 ^ (2 * n)) {x y : ℕ} (hxy : x < y) (hy : y < n) :
    guardIdx n (x :: y :: (shA n sd m ++ shB n sd m)) = .ok () := by
  apply guardIdx_ok
  intro i hi
  simp only [List.mem_cons, List.mem_append] at hi
  rcases hi with rfl | rfl | hi | hi
  · omega
  · exact hy
  · exact shA_lt i hi
  · exact shB_lt hsd i hi

theorem unrDeriv_same (H : UnrHam R) (hn : 0 < H.norb) (hsd : sd < 2 ^ (2 * H.norb)) (P : List (ℕ × ℕ × ℕ))
    (hP : ∀ p ∈ P, p.1 < 2 ∧ p.2.1 < p.2.2 ∧ p.2.2 < H.norb) :
    unrDeriv H sd sd (P.map fun p => unrPos H.norb p.1 p.2.1 p.2.2) = .ok (P.map fun p =>
      signTimes 1 (unrDerivZero H p.1 p.2.1 p.2.2 (shA H.norb sd sd) (shB H.norb sd sd))) := by
  have hsp : splitSpin (sharedSd sd sd) (H.norb : ℤ) = _ := splitSpin_ok hn
  have hs : signExcite (some sd) [] [] = .ok 1 := rfl
  simp only [unrDeriv, hsp, bind, Except.bind, diff_self, List.length_nil, ne_eq, not_true_eq_false, if_false,
    List.reverse_nil, hs, ← shA_def, ← shB_def]
  rw [if_neg (by omega), if_neg (not_not.2 (unrInRange hP)), List.mapM_map]
  apply mapM_eq_ok
  intro p hp
  obtain ⟨k0, k1, k2⟩ := hP p hp
  simp only [Function.comp_def, unrPos_rowCol k0 k1 k2, Int.toNat_natCast, sh_guard hsd k1 k2, List.append_nil]
  rfl

theorem resDeriv_same (G : GenHam R) (hn : 0 < G.norb) (hsd : sd < 2 ^ (2 * G.norb)) (P : List (ℕ × ℕ))
    (hP : ∀ p ∈ P, p.1 < p.2 ∧ p.2 < G.norb) :
    resDeriv G sd sd (P.map fun p => triuPos G.norb p.1 p.2) = .ok (P.map fun p =>
      signTimes 1 (resDerivZero G p.1 p.2 (shA G.norb sd sd) (shB G.norb sd sd))) := by
  have hsp : splitSpin (sharedSd sd sd) (G.norb : ℤ) = _ := splitSpin_ok hn
  have hs : signExcite (some sd) [] [] = .ok 1 := rfl
  simp only [resDeriv, hsp, bind, Except.bind, diff_self, List.length_nil, ne_eq, not_true_eq_false, if_false,
    List.reverse_nil, hs, ← shA_def, ← shB_def]
  rw [if_neg (by omega), if_neg (not_not.2 (inRange hP)), List.mapM_map]
  apply mapM_eq_ok
  intro p hp
  obtain ⟨k1, k2⟩ := hP p hp
  simp only [Function.comp_def, C30_position k1 k2, Int.toNat_natCast, sh_guard hsd k1 k2, List.append_nil]
  rfl

theorem unrDeriv_single (H : UnrHam R) (hn : 0 < H.norb) (hsd : sd < 2 ^ (2 * H.norb)) {a b : ℕ} {s : ℤ}
    (ha : a < 2 * H.norb) (hb : b < 2 * H.norb) (hd : diffOrbs sd m = ([a], [b]))
    (hs : signExcite (some sd) [a] [b] = .ok s) (P : List (ℕ × ℕ × ℕ))
    (hP : ∀ p ∈ P, p.1 < 2 ∧ p.2.1 < p.2.2 ∧ p.2.2 < H.norb) :
    unrDeriv H sd m (P.map fun p => unrPos H.norb p.1 p.2.1 p.2.2) = .ok (P.map fun p =>
      signTimes s (unrDerivOne H (spatSpin H.norb a).1 (spatSpin H.norb a).2 (spatSpin H.norb b).1 (spatSpin H.norb b).2 p.1 p.2.1 p.2.2
        (shA H.norb sd m) (shB H.norb sd m))) := by
  have hsp : splitSpin (sharedSd sd m) (H.norb : ℤ) = _ := splitSpin_ok hn
  have gd : ∀ i ∈ [a] ++ [b], i < 2 * H.norb := by simp [ha, hb]
  simp only [unrDeriv, hsp, bind, Except.bind, hd, List.length_cons, List.length_nil, ne_eq, not_true_eq_false, if_false,
    List.reverse_cons, List.reverse_nil, List.nil_append, hs, ← shA_def, ← shB_def]
  rw [if_neg (by omega), if_neg (not_not.2 (unrInRange hP)), List.mapM_map]
  apply mapM_eq_ok
  intro p hp
  obtain ⟨k0, k1, k2⟩ := hP p hp
  simp only [Function.comp_def, unrPos_rowCol k0 k1 k2, Int.toNat_natCast, sh_guard hsd k1 k2, guardIdx_ok gd,
    spatialSpin_ok ha, spatialSpin_ok hb, ← spatSpin_def]

theorem resDeriv_single (G : GenHam R) (hn : 0 < G.norb) (hsd : sd < 2 ^ (2 * G.norb)) {a b : ℕ} {s : ℤ}
    (ha : a < 2 * G.norb) (hb : b < 2 * G.norb) (hd : diffOrbs sd m = ([a], [b]))
    (hs : signExcite (some sd) [a] [b] = .ok s) (P : List (ℕ × ℕ))
    (hP : ∀ p ∈ P, p.1 < p.2 ∧ p.2 < G.norb) :
    resDeriv G sd m (P.map fun p => triuPos G.norb p.1 p.2) = .ok (P.map fun p =>
      signTimes s (resDerivOne G a (spatSpin G.norb a).1 (spatSpin G.norb a).2 b (spatSpin G.norb b).1 (spatSpin G.norb b).2 p.1 p.2
        (shA G.norb sd m) (shB G.norb sd m))) := by
  have hsp : splitSpin (sharedSd sd m) (G.norb : ℤ) = _ := splitSpin_ok hn
  have gd : ∀ i ∈ [a] ++ [b], i < 2 * G.norb := by simp [ha, hb]
  simp only [resDeriv, hsp, bind, Except.bind, hd, List.length_cons, List.length_nil, ne_eq, not_true_eq_false, if_false,
    List.reverse_cons, List.reverse_nil, List.nil_append, hs, ← shA_def, ← shB_def]
  rw [if_neg (by omega), if_neg (not_not.2 (inRange hP)), List.mapM_map]
  apply mapM_eq_ok
  intro p hp
  obtain ⟨k1, k2⟩ := hP p hp
  simp only [Function.comp_def, C30_position k1 k2, Int.toNat_natCast, sh_guard hsd k1 k2, guardIdx_ok gd,
    spatialSpin_ok ha, spatialSpin_ok hb, ← spatSpin_def]

theorem unrDeriv_double (H : UnrHam R) (hn : 0 < H.norb) (hsd : sd < 2 ^ (2 * H.norb)) {a b c d : ℕ} {s : ℤ}
    (ha : a < 2 * H.norb) (hb : b < 2 * H.norb) (hc : c < 2 * H.norb) (hd' : d < 2 * H.norb)
    (hd : diffOrbs sd m = ([a, b], [c, d])) (hs : signExcite (some sd) [a, b] [d, c] = .ok s) (P : List (ℕ × ℕ × ℕ))
    (hP : ∀ p ∈ P, p.1 < 2 ∧ p.2.1 < p.2.2 ∧ p.2.2 < H.norb) :
    unrDeriv H sd m (P.map fun p => unrPos H.norb p.1 p.2.1 p.2.2) = .ok (P.map fun p =>
      signTimes s (unrDerivTwo H (spatSpin H.norb a).1 (spatSpin H.norb a).2 (spatSpin H.norb b).1 (spatSpin H.norb b).2
        (spatSpin H.norb c).1 (spatSpin H.norb c).2 (spatSpin H.norb d).1 (spatSpin H.norb d).2 p.1 p.2.1 p.2.2)) := by
  have hsp : splitSpin (sharedSd sd m) (H.norb : ℤ) = _ := splitSpin_ok hn
  have gd : guardIdx (2 * H.norb) [a, b, c, d] = .ok () := guardIdx_ok (by simp [ha, hb, hc, hd'])
  simp only [unrDeriv, hsp, bind, Except.bind, hd, List.length_cons, List.length_nil, ne_eq, not_true_eq_false, if_false,
    List.reverse_cons, List.reverse_nil, List.nil_append, List.cons_append, hs, ← shA_def, ← shB_def]
  rw [if_neg (by omega), if_neg (not_not.2 (unrInRange hP)), List.mapM_map]
  apply mapM_eq_ok
  intro p hp
  obtain ⟨k0, k1, k2⟩ := hP p hp
  simp only [Function.comp_def, unrPos_rowCol k0 k1 k2, Int.toNat_natCast, sh_guard hsd k1 k2, gd,
    spatialSpin_ok ha, spatialSpin_ok hb, spatialSpin_ok hc, spatialSpin_ok hd', ← spatSpin_def]

theorem resDeriv_double (G : GenHam R) (hn : 0 < G.norb) (hsd : sd < 2 ^ (2 * G.norb)) {a b c d : ℕ} {s : ℤ}
    (ha : a < 2 * G.norb) (hb : b < 2 * G.norb) (hc : c < 2 * G.norb) (hd' : d < 2 * G.norb)
    (hd : diffOrbs sd m = ([a, b], [c, d])) (hs : signExcite (some sd) [a, b] [d, c] = .ok s) (P : List (ℕ × ℕ))
    (hP : ∀ p ∈ P, p.1 < p.2 ∧ p.2 < G.norb) :
    resDeriv G sd m (P.map fun p => triuPos G.norb p.1 p.2) = .ok (P.map fun p =>
      signTimes s (resDerivTwo G (spatSpin G.norb a).1 (spatSpin G.norb a).2 (spatSpin G.norb b).1 (spatSpin G.norb b).2
        (spatSpin G.norb c).1 (spatSpin G.norb c).2 (spatSpin G.norb d).1 (spatSpin G.norb d).2 p.1 p.2)) := by
  have hsp : splitSpin (sharedSd sd m) (G.norb : ℤ) = _ := splitSpin_ok hn
  have gd : guardIdx (2 * G.norb) [a, b, c, d] = .ok () := guardIdx_ok (by simp [ha, hb, hc, hd'])
  simp only [resDeriv, hsp, bind, Except.bind, hd, List.length_cons, List.length_nil, ne_eq, not_true_eq_false, if_false,
    List.reverse_cons, List.reverse_nil, List.nil_append, List.cons_append, hs, ← shA_def, ← shB_def]
  rw [if_neg (by omega), if_neg (not_not.2 (inRange hP)), List.mapM_map]
  apply mapM_eq_ok
  intro p hp
  obtain ⟨k1, k2⟩ := hP p hp
  simp only [Function.comp_def, C30_position k1 k2, Int.toNat_natCast, sh_guard hsd k1 k2, gd,
    spatialSpin_ok ha, spatialSpin_ok hb, spatialSpin_ok hc, spatialSpin_ok hd', ← spatSpin_def]

theorem signTimes_add (s : ℤ) (t u : R × R × R) : signTimes s (t + u) = signTimes s t + signTimes s u := by
  simp [signTimes, mul_add]

theorem signTimes_zero (s : ℤ) : signTimes s (0 : R × R × R) = 0 := by simp [signTimes]

/-- the derivative is defined for all determinants, and zero except for those of `spinExcL` -/
theorem unr_derivTable (H : UnrHam R) (hn : 0 < H.norb) (hB : Blocks H.norb sd oa ob va vb) (hsd : sd < 2 ^ (2 * H.norb))
    (hm : m < 2 ^ (2 * H.norb)) :
    ∃ T : ℕ × ℕ × ℕ → R × R × R,
      (∀ P : List (ℕ × ℕ × ℕ), (∀ p ∈ P, p.1 < 2 ∧ p.2.1 < p.2.2 ∧ p.2.2 < H.norb) →
        unrDeriv H sd m (P.map fun p => unrPos H.norb p.1 p.2.1 p.2.2) = .ok (P.map T)) ∧
      (m ∉ spinExcL sd H.norb oa ob va vb → T = 0) := by
  obtain ⟨-, m1, m2, s1, s2, -⟩ := C04_diff_orbs sd m
  have hsd' := hsd
  rw [lt_two_pow_iff] at hsd' hm
  have inA : ∀ {i}, sd.testBit i = true → i < H.norb → i ∈ oa := fun h1 h2 => (hB.hoa _).2 ⟨h2, h1⟩
  have inB : ∀ {i}, sd.testBit i = true → ¬ i < H.norb → i ∈ ob.map (· + H.norb) := fun {i} h1 h2 => by
    rcases (hB.occ_iff i).1 h1 with h | h
    · exact absurd (hB.loa i h) h2
    · exact h
  have inVA : ∀ {i}, sd.testBit i = false → i < H.norb → i ∈ va := fun h1 h2 => (hB.hva _).2 ⟨h2, h1⟩
  have inVB : ∀ {i}, sd.testBit i = false → ¬ i < H.norb → i < 2 * H.norb → i ∈ vb.map (· + H.norb) := fun {i} h1 h2 h3 =>
    List.mem_map.2 ⟨i - H.norb, (hB.hvb _).2 ⟨by omega, by rwa [show i - H.norb + H.norb = i by omega]⟩, by omega⟩
  rcases sdPair_cases sd m with ⟨hl, hc⟩ | ⟨hl, hl2, hc⟩ | ⟨rfl, hd, hs⟩ |
    ⟨a, b, u, hd, -, -, -, -, e1, e2, hs⟩ |
    ⟨a, b, c, d, u, hd, -, -, -, -, -, hab, hcd, -, -, -, -, e1, e2, hs⟩
  · exact ⟨0, fun P _ => by rw [unrDeriv_far H hn (fun h => hl h.1), List.map_map]; rfl, fun _ => rfl⟩
  · exact ⟨0, fun P _ => by rw [unrDeriv_far H hn (fun h => by omega), List.map_map]; rfl, fun _ => rfl⟩
  · exact ⟨_, fun P hP => unrDeriv_same H hn hsd P hP, fun h => absurd (by simp [spinExcL]) h⟩
  · rw [hd] at m1 m2
    have ha := (m1 a).1 (by simp)
    have hb := (m2 b).1 (by simp)
    have la := hsd' a (mem_occSet.2 ha.1)
    have lb := hm b (mem_occSet.2 hb.1)
    refine ⟨_, fun P hP => unrDeriv_single H hn hsd la lb hd hs P hP, fun hnot => ?_⟩
    have hne : (spatSpin H.norb a).2 ≠ (spatSpin H.norb b).2 := by
      intro he
      by_cases c1 : a < H.norb <;> by_cases c2 : b < H.norb <;> simp [spatSpin, c1, c2] at he
      · apply hnot
        have hmem : m ∈ excL sd (comb oa 1) (comb va 1) := by
          rw [mem_excL_diff (hB.excA 1), hd, comb_one, comb_one]
          exact ⟨List.mem_map_of_mem (inA ha.1 c1), List.mem_map_of_mem (inVA hb.2 c2)⟩
        simp only [spinExcL, List.mem_cons, List.mem_append, hmem, true_or, or_true]
      · apply hnot
        have hmem : m ∈ excL sd (comb (ob.map (· + H.norb)) 1) (comb (vb.map (· + H.norb)) 1) := by
          rw [mem_excL_diff (hB.excB 1), hd, comb_one, comb_one]
          exact ⟨List.mem_map_of_mem (inB ha.1 c1), List.mem_map_of_mem (inVB hb.2 c2 lb)⟩
        simp only [spinExcL, List.mem_cons, List.mem_append, hmem, true_or, or_true]
    funext p
    rw [unrDerivOne_ne H _ _ hne, signTimes_zero]
    rfl
  · rw [hd] at m1 m2
    have ha := (m1 a).1 (by simp)
    have hb := (m1 b).1 (by simp)
    have hc := (m2 c).1 (by simp)
    have hd' := (m2 d).1 (by simp)
    have la := hsd' a (mem_occSet.2 ha.1)
    have lb := hsd' b (mem_occSet.2 hb.1)
    have lc := hm c (mem_occSet.2 hc.1)
    have ld := hm d (mem_occSet.2 hd'.1)
    refine ⟨_, fun P hP => unrDeriv_double H hn hsd la lb lc ld hd hs P hP, fun hnot => ?_⟩
    have n1 : ¬ (b < H.norb ∧ d < H.norb) := fun h => hnot (by
      have : m ∈ excL sd (comb oa 2) (comb va 2) := by
        rw [mem_excL_diff (hB.excA 2), hd]
        refine ⟨mem_comb_sorted hB.soa (by simpa using hab) ?_, mem_comb_sorted hB.sva (by simpa using hcd) ?_⟩
        · simp only [List.mem_cons, List.not_mem_nil, or_false, forall_eq_or_imp, forall_eq]
          exact ⟨inA ha.1 (by omega), inA hb.1 h.1⟩
        · simp only [List.mem_cons, List.not_mem_nil, or_false, forall_eq_or_imp, forall_eq]
          exact ⟨inVA hc.2 (by omega), inVA hd'.2 h.2⟩
      simp only [spinExcL, List.mem_cons, List.mem_append, this, true_or, or_true])
    have n2 : ¬ (a < H.norb ∧ ¬ b < H.norb ∧ c < H.norb ∧ ¬ d < H.norb) := fun h => hnot (by
      have : m ∈ excL sd (pairsAB oa (ob.map (· + H.norb))) (pairsAB va (vb.map (· + H.norb))) := by
        rw [mem_excL_diff hB.excAB, hd]
        exact ⟨mem_pairsAB.2 ⟨a, inA ha.1 h.1, b, inB hb.1 h.2.1, rfl⟩,
          mem_pairsAB.2 ⟨c, inVA hc.2 h.2.2.1, d, inVB hd'.2 h.2.2.2 ld, rfl⟩⟩
      simp only [spinExcL, List.mem_cons, List.mem_append, this, true_or, or_true])
    have n3 : ¬ (¬ a < H.norb ∧ ¬ c < H.norb) := fun h => hnot (by
      have : m ∈ excL sd (comb (ob.map (· + H.norb)) 2) (comb (vb.map (· + H.norb)) 2) := by
        rw [mem_excL_diff (hB.excB 2), hd]
        refine ⟨mem_comb_sorted (sorted_shift hB.sob _) (by simpa using hab) ?_,
          mem_comb_sorted (sorted_shift hB.svb _) (by simpa using hcd) ?_⟩
        · simp only [List.mem_cons, List.not_mem_nil, or_false, forall_eq_or_imp, forall_eq]
          exact ⟨inB ha.1 h.1, inB hb.1 (by omega)⟩
        · simp only [List.mem_cons, List.not_mem_nil, or_false, forall_eq_or_imp, forall_eq]
          exact ⟨inVB hc.2 h.2 lc, inVB hd'.2 (by omega) ld⟩
      simp only [spinExcL, List.mem_cons, List.mem_append, this, or_true])
    have h3 : spinCase (spatSpin H.norb a).2 (spatSpin H.norb b).2 (spatSpin H.norb c).2 (spatSpin H.norb d).2 = 3 := by
      by_cases ca : a < H.norb <;> by_cases cb : b < H.norb <;> by_cases cc : c < H.norb <;> by_cases cd : d < H.norb <;>
        first
        | (exfalso; omega)
        | simp only [spatSpin, ca, cb, cc, cd, if_true, if_false, spinCase, zero_ne_one, one_ne_zero, and_false, false_and]
    funext p
    rw [unrDerivTwo_other H _ _ h3, signTimes_zero]
    rfl

/-- the derivative of the matrix element of `sd` and `m` with respect to the rotation of the orbitals `p.2` of spin `p.1` -/
def unrEntry (H : UnrHam R) (sd m : ℕ) (p : ℕ × ℕ × ℕ) : R × R × R :=
  match unrDeriv H sd m [unrPos H.norb p.1 p.2.1 p.2.2] with
  | .ok [t] => t
  | _ => 0

theorem unrEntry_eq {H : UnrHam R} {T : ℕ × ℕ × ℕ → R × R × R}
    (h : ∀ P : List (ℕ × ℕ × ℕ), (∀ p ∈ P, p.1 < 2 ∧ p.2.1 < p.2.2 ∧ p.2.2 < H.norb) →
        unrDeriv H sd m (P.map fun p => unrPos H.norb p.1 p.2.1 p.2.2) = .ok (P.map T)) {p : ℕ × ℕ × ℕ} (h0 : p.1 < 2)
    (h1 : p.2.1 < p.2.2) (h2 : p.2.2 < H.norb) : unrEntry H sd m p = T p := by
  have := h [p] (by intro q hq; rw [List.mem_singleton] at hq; subst hq; exact ⟨h0, h1, h2⟩)
  simp only [List.map_cons, List.map_nil] at this
  rw [unrEntry, this]

/-- the derivatives of the restricted Hamiltonian are the sums of those of both spins -/
theorem res_derivTable (G : GenHam R) (hn : 0 < G.norb) (hsd : sd < 2 ^ (2 * G.norb))
    (hm : m < 2 ^ (2 * G.norb)) (P : List (ℕ × ℕ)) (hP : ∀ p ∈ P, p.1 < p.2 ∧ p.2 < G.norb) :
    resDeriv G sd m (P.map fun p => triuPos G.norb p.1 p.2) =
      .ok (P.map fun p => unrEntry (dup G) sd m (0, p) + unrEntry (dup G) sd m (1, p)) := by
  have hsd' := hsd
  have hm' := hm
  rw [lt_two_pow_iff] at hsd' hm'
  have hnorb : (dup G).norb = G.norb := rfl
  have fin : ∀ (T : ℕ × ℕ × ℕ → R × R × R) (S : ℕ × ℕ → R × R × R),
      (∀ P : List (ℕ × ℕ × ℕ), (∀ p ∈ P, p.1 < 2 ∧ p.2.1 < p.2.2 ∧ p.2.2 < (dup G).norb) →
        unrDeriv (dup G) sd m (P.map fun p => unrPos (dup G).norb p.1 p.2.1 p.2.2) = .ok (P.map T)) →
      (∀ p : ℕ × ℕ, p.1 < p.2 → p.2 < G.norb → S p = T (0, p) + T (1, p)) →
      P.map S = P.map fun p => unrEntry (dup G) sd m (0, p) + unrEntry (dup G) sd m (1, p) := by
    intro T S hT hS
    apply List.map_congr_left
    intro p hp
    rw [unrEntry_eq hT (by simp) (hP p hp).1 (hP p hp).2, unrEntry_eq hT (by simp) (hP p hp).1 (hP p hp).2,
      hS p (hP p hp).1 (hP p hp).2]
  rcases sdPair_cases sd m with ⟨hl, hc⟩ | ⟨hl, hl2, hc⟩ | ⟨rfl, hd, hs⟩ |
    ⟨a, b, u, hd, hu, hau, hbu, hab, e1, e2, hs⟩ |
    ⟨a, b, c, d, u, hd, hu, hau, hbu, hcu, hdu, hab, hcd, hac, had, hbc, hbd, e1, e2, hs⟩
  · rw [resDeriv_far G hn (fun h => hl h.1), List.map_map]
    congr 1
    exact fin (fun _ => 0) (fun _ => 0) (fun P _ => by rw [unrDeriv_far (dup G) hn (fun h => hl h.1), List.map_map]; rfl)
      (fun p _ _ => by simp)
  · rw [resDeriv_far G hn (fun h => by omega), List.map_map]
    congr 1
    exact fin (fun _ => 0) (fun _ => 0) (fun P _ => by rw [unrDeriv_far (dup G) hn (fun h => by omega), List.map_map]; rfl)
      (fun p _ _ => by simp)
  · rw [resDeriv_same G hn hsd P hP]
    congr 1
    refine fin _ _ (fun P hP => unrDeriv_same (dup G) hn hsd P hP) (fun p _ _ => ?_)
    rw [resDerivZero_eq, signTimes_add]
    rfl
  · have la : a < 2 * G.norb := hsd' a (by rw [e1]; simp)
    have lb : b < 2 * G.norb := hm' b (by rw [e2]; simp)
    rw [resDeriv_single G hn hsd la lb hd hs P hP]
    congr 1
    refine fin _ _ (fun P hP => unrDeriv_single (dup G) hn hsd la lb hd hs P hP) (fun p _ _ => ?_)
    have hna : ¬ (sharedSd sd m).testBit a = true := by
      intro h
      apply hau
      rw [← hu, sharedOrbs_toFinset, Finset.mem_inter, mem_occSet, mem_occSet]
      simpa [sharedSd, Nat.testBit_and] using h
    have hnb : ¬ (sharedSd sd m).testBit b = true := by
      intro h
      apply hbu
      rw [← hu, sharedOrbs_toFinset, Finset.mem_inter, mem_occSet, mem_occSet]
      simpa [sharedSd, Nat.testBit_and] using h
    by_cases c1 : a < G.norb <;> by_cases c2 : b < G.norb <;> simp only [hnorb, spatSpin, c1, c2, if_true, if_false]
    · rw [resDerivOne_aa G hab _ _ (by rw [shA, mem_occIndices, Nat.testBit_mod_two_pow]; simp [c1, hna])
        (by rw [shA, mem_occIndices, Nat.testBit_mod_two_pow]; simp [c2, hnb]), signTimes_add]
    · rw [resDerivOne_ne G _ _ (by omega), unrDerivOne_ne _ _ _ (by omega), unrDerivOne_ne _ _ _ (by omega)]
      simp [signTimes_zero]
    · rw [resDerivOne_ne G _ _ (by omega), unrDerivOne_ne _ _ _ (by omega), unrDerivOne_ne _ _ _ (by omega)]
      simp [signTimes_zero]
    · have ea : a - G.norb + G.norb = a := by omega
      have eb : b - G.norb + G.norb = b := by omega
      have k := resDerivOne_bb G (n := G.norb) (x := p.1) (y := p.2) (a := a - G.norb) (b := b - G.norb) (by omega)
        (shA G.norb sd m) (shB G.norb sd m)
        (by rw [shB, mem_occIndices, Nat.testBit_div_two_pow, ea]; exact hna)
        (by rw [shB, mem_occIndices, Nat.testBit_div_two_pow, eb]; exact hnb) (shB_lt hsd)
      rw [ea, eb] at k
      rw [k, signTimes_add]
  · have la : a < 2 * G.norb := hsd' a (by rw [e1]; simp)
    have lb : b < 2 * G.norb := hsd' b (by rw [e1]; simp)
    have lc : c < 2 * G.norb := hm' c (by rw [e2]; simp)
    have ld : d < 2 * G.norb := hm' d (by rw [e2]; simp)
    rw [resDeriv_double G hn hsd la lb lc ld hd hs P hP]
    congr 1
    refine fin _ _ (fun P hP => unrDeriv_double (dup G) hn hsd la lb lc ld hd hs P hP) (fun p _ _ => ?_)
    have other : spinCase (spatSpin G.norb a).2 (spatSpin G.norb b).2 (spatSpin G.norb c).2 (spatSpin G.norb d).2 = 3 →
        resDerivTwo G (spatSpin G.norb a).1 (spatSpin G.norb a).2 (spatSpin G.norb b).1 (spatSpin G.norb b).2 (spatSpin G.norb c).1 (spatSpin G.norb c).2
          (spatSpin G.norb d).1 (spatSpin G.norb d).2 p.1 p.2 =
        unrDerivTwo (dup G) (spatSpin G.norb a).1 (spatSpin G.norb a).2 (spatSpin G.norb b).1 (spatSpin G.norb b).2 (spatSpin G.norb c).1 (spatSpin G.norb c).2
          (spatSpin G.norb d).1 (spatSpin G.norb d).2 0 p.1 p.2 +
        unrDerivTwo (dup G) (spatSpin G.norb a).1 (spatSpin G.norb a).2 (spatSpin G.norb b).1 (spatSpin G.norb b).2 (spatSpin G.norb c).1 (spatSpin G.norb c).2
          (spatSpin G.norb d).1 (spatSpin G.norb d).2 1 p.1 p.2 := by
      intro h
      rw [resDerivTwo_none G h, unrDerivTwo_other _ _ _ h, unrDerivTwo_other _ _ _ h, add_zero]
    rw [hnorb, ← signTimes_add]
    congr 1
    by_cases ca : a < G.norb <;> by_cases cb : b < G.norb <;> by_cases cc : c < G.norb <;> by_cases cd : d < G.norb <;>
      first
      | (exfalso; omega)
      | (apply other
         simp only [spatSpin, ca, cb, cc, cd, if_true, if_false, spinCase, zero_ne_one, one_ne_zero, and_false, false_and]
         done)
      | skip
    · simp only [spatSpin, ca, cb, cc, cd, if_true]
      exact resDerivTwo_same G hab.ne hac had hbc hbd hcd.ne (Or.inl rfl)
    · simp only [spatSpin, ca, cb, cc, cd, if_true, if_false]
      exact resDerivTwo_ab G hac (by omega)
    · simp only [spatSpin, ca, cb, cc, cd, if_false]
      exact resDerivTwo_same G (by omega) (by omega) (by omega) (by omega) (by omega) (by omega) (Or.inr rfl)

end scalar

end Fanpy.Lemmas
