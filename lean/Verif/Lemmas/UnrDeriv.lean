import Verif.Lemmas.HamDeriv
import Mathlib.Tactic.Abel

/-! # The derivatives for unrestricted orbitals as first-order changes -/

namespace Fanpy.Lemmas
open Fanpy.Slater Fanpy.Spec Fanpy.Ham

set_option linter.unusedSimpArgs false

variable {R : Type} [CommRing R]

/-- equality of triples of numbers by `ring` in each component -/
macro "triple_ring" : tactic => `(tactic| (
  refine Prod.ext ?_ (Prod.ext ?_ ?_) <;> simp only [Prod.fst_add, Prod.snd_add, Prod.fst_zero, Prod.snd_zero] <;> ring))

/-- the alpha block as a generalized Hamiltonian -/
def hamA (H : UnrHam R) : GenHam R := GenHam.ofInts H.norb H.oneA H.twoAA
/-- the beta block as a generalized Hamiltonian -/
def hamB (H : UnrHam R) : GenHam R := GenHam.ofInts H.norb H.oneB H.twoBB

/-- the symmetries of real integrals -/
structure RealSym (H : UnrHam R) : Prop where
  oneA : ∀ i j, H.oneA i j = H.oneA j i
  oneB : ∀ i j, H.oneB i j = H.oneB j i
  swapA : ∀ i j k l, H.twoAA i j k l = H.twoAA j i l k
  swapB : ∀ i j k l, H.twoBB i j k l = H.twoBB j i l k
  realA : ∀ i j k l, H.twoAA i j k l = H.twoAA k l i j
  realM : ∀ i j k l, H.twoAB i j k l = H.twoAB k l i j
  realB : ∀ i j k l, H.twoBB i j k l = H.twoBB k l i j

theorem fullSum_comm (f : ℕ → ℕ → R) (l1 l2 : List ℕ) : fullSum f l1 l2 = fullSum (fun i j => f j i) l2 l1 := by
  induction l1 with
  | nil => simp [fullSum]
  | cons a l ih =>
    simp only [fullSum, List.map_cons, List.sum_cons, List.sum_map_add] at ih ⊢
    rw [ih]

theorem fullSum_dTwo13 {x y : ℕ} (hxy : x ≠ y) {g : ℕ → ℕ → ℕ → ℕ → R} (hr : ∀ i j k l, g i j k l = g k l i j)
    (sa sb : List ℕ) (hl : sa.Nodup) :
    fullSum (fun i j => dTwo13 x y g i j i j) sa sb =
      (if y ∈ sa then 2 * (sb.map fun s => g x s y s).sum else 0) -
        (if x ∈ sa then 2 * (sb.map fun s => g x s y s).sum else 0) := by
  rw [fullSum_comm, fullSum]
  have e : ∀ s ∈ sb, (sa.map fun i => dTwo13 x y g i s i s).sum =
      (if y ∈ sa then 2 * g x s y s else 0) - (if x ∈ sa then 2 * g x s y s else 0) := by
    intro s _
    rw [sum_dTwo13_first hxy sa hl, hr y s x s, two_mul]
  rw [sum_congr' e, sum_sub']
  by_cases h1 : x ∈ sa <;> by_cases h2 : y ∈ sa <;> simp [h1, h2, List.sum_map_mul_left]

theorem fullSum_dTwo24 {x y : ℕ} (hxy : x ≠ y) {g : ℕ → ℕ → ℕ → ℕ → R} (hr : ∀ i j k l, g i j k l = g k l i j)
    (sa sb : List ℕ) (hl : sb.Nodup) :
    fullSum (fun i j => dTwo24 x y g i j i j) sa sb =
      (if y ∈ sb then 2 * (sa.map fun s => g s x s y).sum else 0) -
        (if x ∈ sb then 2 * (sa.map fun s => g s x s y).sum else 0) := by
  rw [fullSum]
  have e : ∀ s ∈ sa, (sb.map fun i => dTwo24 x y g s i s i).sum =
      (if y ∈ sb then 2 * g s x s y else 0) - (if x ∈ sb then 2 * g s x s y else 0) := by
    intro s _
    rw [sum_dTwo24_second hxy sb hl, hr s y s x, two_mul]
  rw [sum_congr' e, sum_sub']
  by_cases h1 : x ∈ sb <;> by_cases h2 : y ∈ sb <;> simp [h1, h2, List.sum_map_mul_left]

theorem unrDerivZero_alpha (H : UnrHam R) {x y : ℕ} (hxy : x ≠ y) (hS : RealSym H) (sa sb : List ℕ) (hl : sa.Nodup) :
    unrDerivZero H 0 x y sa sb =
      genDerivZero (hamA H) x y sa + (0, fullSum (fun i j => dTwo13 x y H.twoAB i j i j) sa sb, 0) := by
  rw [fullSum_dTwo13 hxy hS.realM sa sb hl]
  unfold unrDerivZero genDerivZero
  simp only [hamA, GenHam.ofInts, GenHam.cacheTwoInts, zero_ne_one, false_and, if_false, true_and]
  by_cases h1 : x ∈ sa <;> by_cases h2 : y ∈ sa <;>
    simp only [h1, h2, if_true, if_false] <;> triple_ring

theorem unrDerivZero_beta (H : UnrHam R) {x y : ℕ} (hxy : x ≠ y) (hS : RealSym H) (sa sb : List ℕ) (hl : sb.Nodup) :
    unrDerivZero H 1 x y sa sb =
      genDerivZero (hamB H) x y sb + (0, fullSum (fun i j => dTwo24 x y H.twoAB i j i j) sa sb, 0) := by
  rw [fullSum_dTwo24 hxy hS.realM sa sb hl]
  unfold unrDerivZero genDerivZero
  simp only [hamB, GenHam.ofInts, GenHam.cacheTwoInts, one_ne_zero, false_and, if_false, true_and]
  by_cases h1 : x ∈ sb <;> by_cases h2 : y ∈ sb <;>
    simp only [h1, h2, if_true, if_false] <;> triple_ring

/-- the ways in which two different orbitals can coincide with the orbitals of a single excitation -/
theorem one_cases {a b : ℕ} (hab : a ≠ b) {l : List ℕ} (ha : a ∉ l) (hb : b ∉ l) (z : ℕ) :
    (z = a ∧ z ≠ b ∧ z ∉ l) ∨ (z = b ∧ z ≠ a ∧ z ∉ l) ∨ (z ≠ a ∧ z ≠ b ∧ z ∈ l) ∨ (z ≠ a ∧ z ≠ b ∧ z ∉ l) := by
  by_cases h1 : z = a
  · subst h1; exact .inl ⟨rfl, hab, ha⟩
  · by_cases h2 : z = b
    · subst h2; exact .inr (.inl ⟨rfl, h1, hb⟩)
    · by_cases h3 : z ∈ l
      · exact .inr (.inr (.inl ⟨h1, h2, h3⟩))
      · exact .inr (.inr (.inr ⟨h1, h2, h3⟩))

theorem unrDerivOne_aa0 (H : UnrHam R) {x y : ℕ} (hxy : x ≠ y) (hS : RealSym H) {a b : ℕ} (hab : a ≠ b) (sa sb : List ℕ)
    (ha : a ∉ sa) (hb : b ∉ sa) :
    unrDerivOne H a 0 b 0 0 x y sa sb =
      genDerivOne (hamA H) a b x y sa + (0, (sb.map fun s => dTwo13 x y H.twoAB a s b s).sum, 0) := by
  rw [sum_dTwo13_second]
  simp only [dAxis_eq hxy]
  unfold unrDerivOne genDerivOne
  have sw : ∀ p q : ℕ, (p = q) = (q = p) := fun p q => propext eq_comm
  simp only [hamA, GenHam.ofInts, GenHam.cacheTwoInts, zero_ne_one, false_and, if_false, true_and, and_true, and_false,
    sw a x, sw b x, sw a y, sw b y]
  have e1 : H.twoAA x b y a = H.twoAA y a x b := hS.realA x b y a
  have e2 : H.twoAA x b a y = H.twoAA y a b x := (hS.swapA x b a y).trans (hS.realA b x y a)
  rw [e1, e2]
  rcases one_cases hab ha hb x with ⟨h1, h2, h3⟩ | ⟨h1, h2, h3⟩ | ⟨h1, h2, h3⟩ | ⟨h1, h2, h3⟩ <;>
    rcases one_cases hab ha hb y with ⟨k1, k2, k3⟩ | ⟨k1, k2, k3⟩ | ⟨k1, k2, k3⟩ | ⟨k1, k2, k3⟩ <;>
    first
    | (exfalso; omega)
    | (simp only [h1, h2, h3, k1, k2, k3, ha, hb, hab, Ne.symm hab, and_true, true_and, false_and, and_false, if_true,
        if_false, or_self, not_false_eq_true, not_true_eq_false]
       triple_ring)

theorem unrDerivOne_bb1 (H : UnrHam R) {x y : ℕ} (hxy : x ≠ y) (hS : RealSym H) {a b : ℕ} (hab : a ≠ b) (sa sb : List ℕ)
    (ha : a ∉ sb) (hb : b ∉ sb) :
    unrDerivOne H a 1 b 1 1 x y sa sb =
      genDerivOne (hamB H) a b x y sb + (0, (sa.map fun s => dTwo24 x y H.twoAB s a s b).sum, 0) := by
  rw [sum_dTwo24_first]
  simp only [dAxis_eq hxy]
  unfold unrDerivOne genDerivOne
  have sw : ∀ p q : ℕ, (p = q) = (q = p) := fun p q => propext eq_comm
  simp only [hamB, GenHam.ofInts, GenHam.cacheTwoInts, one_ne_zero, false_and, if_false, true_and, and_true, and_false,
    sw a x, sw b x, sw a y, sw b y]
  have e1 : H.twoBB x b y a = H.twoBB y a x b := hS.realB x b y a
  have e2 : H.twoBB x b a y = H.twoBB y a b x := (hS.swapB x b a y).trans (hS.realB b x y a)
  rw [e1, e2]
  rcases one_cases hab ha hb x with ⟨h1, h2, h3⟩ | ⟨h1, h2, h3⟩ | ⟨h1, h2, h3⟩ | ⟨h1, h2, h3⟩ <;>
    rcases one_cases hab ha hb y with ⟨k1, k2, k3⟩ | ⟨k1, k2, k3⟩ | ⟨k1, k2, k3⟩ | ⟨k1, k2, k3⟩ <;>
    first
    | (exfalso; omega)
    | (simp only [h1, h2, h3, k1, k2, k3, ha, hb, hab, Ne.symm hab, and_true, true_and, false_and, and_false, if_true,
        if_false, or_self, not_false_eq_true, not_true_eq_false]
       triple_ring)

theorem unrDerivOne_bb0 (H : UnrHam R) {x y : ℕ} (hxy : x ≠ y) (hS : RealSym H) {a b : ℕ} (sa sb : List ℕ)
    (hl : sa.Nodup) :
    unrDerivOne H a 1 b 1 0 x y sa sb = (0, (sa.map fun s => dTwo13 x y H.twoAB s a s b).sum, 0) := by
  rw [sum_dTwo13_first hxy sa hl]
  unfold unrDerivOne
  rw [hS.realM x b y a]
  simp only [zero_ne_one, one_ne_zero, false_and, and_false, if_false, true_and, and_true]
  by_cases h1 : x ∈ sa <;> by_cases h2 : y ∈ sa <;> simp only [h1, h2, if_true, if_false] <;> triple_ring

theorem unrDerivOne_aa1 (H : UnrHam R) {x y : ℕ} (hxy : x ≠ y) (hS : RealSym H) {a b : ℕ} (sa sb : List ℕ)
    (hl : sb.Nodup) :
    unrDerivOne H a 0 b 0 1 x y sa sb = (0, (sb.map fun s => dTwo24 x y H.twoAB a s b s).sum, 0) := by
  rw [sum_dTwo24_second hxy sb hl]
  unfold unrDerivOne
  rw [hS.realM b x a y]
  simp only [zero_ne_one, one_ne_zero, false_and, and_false, if_false, true_and, and_true]
  by_cases h1 : x ∈ sb <;> by_cases h2 : y ∈ sb <;> simp only [h1, h2, if_true, if_false] <;> triple_ring

theorem unrDerivOne_ne (H : UnrHam R) (x y : ℕ) {a b spA spB spin : ℕ} (hs : spA ≠ spB) (sa sb : List ℕ) :
    unrDerivOne H a spA b spB spin x y sa sb = 0 := by
  unfold unrDerivOne
  simp only [hs, Ne.symm hs, false_and, and_false, if_false, add_zero]

/-! ### Double excitations -/

theorem unrDerivTwo_aa0 (H : UnrHam R) {x y : ℕ} (hS : RealSym H) {a b c d : ℕ} :
    unrDerivTwo H a 0 b 0 c 0 d 0 0 x y = genDerivTwo (hamA H) a b c d x y := by
  unfold unrDerivTwo genDerivTwo
  have h := hS.swapA
  simp only [hamA, GenHam.ofInts, GenHam.cacheTwoInts, spinCase, and_true, and_self, if_true]
  rw [h y a d c, h y a c d, h b a y d, h b a y c, h x a d c, h x a c d, h b a x d, h b a x c]

theorem unrDerivTwo_bb1 (H : UnrHam R) {x y : ℕ} (hS : RealSym H) {a b c d : ℕ} :
    unrDerivTwo H a 1 b 1 c 1 d 1 1 x y = genDerivTwo (hamB H) a b c d x y := by
  unfold unrDerivTwo genDerivTwo
  have h := hS.swapB
  simp only [hamB, GenHam.ofInts, GenHam.cacheTwoInts, spinCase, and_true, and_self, if_true, one_ne_zero, false_and,
    if_false, and_false]
  rw [h y a d c, h y a c d, h b a y d, h b a y c, h x a d c, h x a c d, h b a x d, h b a x c]

theorem unrDerivTwo_aa1 (H : UnrHam R) (x y : ℕ) {a b c d : ℕ} : unrDerivTwo H a 0 b 0 c 0 d 0 1 x y = 0 := by
  unfold unrDerivTwo
  simp only [one_ne_zero, and_false, if_false, add_zero]

theorem unrDerivTwo_bb0 (H : UnrHam R) (x y : ℕ) {a b c d : ℕ} : unrDerivTwo H a 1 b 1 c 1 d 1 0 x y = 0 := by
  unfold unrDerivTwo
  simp only [zero_ne_one, and_false, if_false, add_zero]

theorem unrDerivTwo_ab0 (H : UnrHam R) {x y : ℕ} (hxy : x ≠ y) {a b c d : ℕ} (hac : a ≠ c) :
    unrDerivTwo H a 0 b 1 c 0 d 1 0 x y = (0, dTwo13 x y H.twoAB a b c d, 0) := by
  unfold unrDerivTwo
  have sw : ∀ p q : ℕ, (p = q) = (q = p) := fun p q => propext eq_comm
  simp only [dTwo13, dAxis_eq hxy, sw a x, sw c x, sw a y, sw c y]
  simp only [spinCase, one_ne_zero, zero_ne_one, false_and, and_false, if_false, and_self, if_true, and_true]
  by_cases h1 : x = a <;> by_cases h2 : x = c <;> by_cases h3 : y = a <;> by_cases h4 : y = c <;>
    first
    | (exfalso; omega)
    | (simp only [h1, h2, h3, h4, hac, Ne.symm hac, if_true, if_false]
       triple_ring)

theorem unrDerivTwo_ab1 (H : UnrHam R) {x y : ℕ} (hxy : x ≠ y) {a b c d : ℕ} (hbd : b ≠ d) :
    unrDerivTwo H a 0 b 1 c 0 d 1 1 x y = (0, dTwo24 x y H.twoAB a b c d, 0) := by
  unfold unrDerivTwo
  have sw : ∀ p q : ℕ, (p = q) = (q = p) := fun p q => propext eq_comm
  simp only [dTwo24, dAxis_eq hxy, sw b x, sw d x, sw b y, sw d y]
  simp only [spinCase, one_ne_zero, zero_ne_one, false_and, and_false, if_false, and_self, if_true, and_true]
  by_cases h1 : x = b <;> by_cases h2 : x = d <;> by_cases h3 : y = b <;> by_cases h4 : y = d <;>
    first
    | (exfalso; omega)
    | (simp only [h1, h2, h3, h4, hbd, Ne.symm hbd, if_true, if_false]
       triple_ring)

theorem unrDerivTwo_other (H : UnrHam R) (x y : ℕ) {a b c d spA spB spC spD spin : ℕ} (h : spinCase spA spB spC spD = 3) :
    unrDerivTwo H a spA b spB c spC d spD spin x y = 0 := by
  unfold unrDerivTwo
  rw [h]
  simp only [ite_self, add_zero]

/-! ### Restricted orbitals: the sum of the alpha and the beta derivative -/

/-- the restricted integrals as unrestricted ones -/
abbrev dup (H : GenHam R) : UnrHam R := UnrHam.ofInts H.norb H.one H.one H.two H.two H.two

theorem resDerivZero_eq (H : GenHam R) (x y : ℕ) (sa sb : List ℕ) :
    resDerivZero H x y sa sb = unrDerivZero (dup H) 0 x y sa sb + unrDerivZero (dup H) 1 x y sa sb := by
  unfold resDerivZero unrDerivZero
  simp only [dup, UnrHam.ofInts, UnrHam.cacheTwoInts, zero_ne_one, one_ne_zero, false_and, if_false, true_and]
  abel

theorem resDerivOne_aa (H : GenHam R) {x y a b : ℕ} (hab : a ≠ b) (sa sb : List ℕ) (ha : a ∉ sa) (hb : b ∉ sa) :
    resDerivOne H a a 0 b b 0 x y sa sb =
      unrDerivOne (dup H) a 0 b 0 0 x y sa sb + unrDerivOne (dup H) a 0 b 0 1 x y sa sb := by
  have hf : sa.filter (fun i => decide ¬(i = a ∨ i = b)) = sa := by
    rw [List.filter_eq_self]
    intro i hi
    rw [decide_eq_true_eq]
    rintro (rfl | rfl)
    · exact ha hi
    · exact hb hi
  unfold resDerivOne unrDerivOne
  simp only [dup, UnrHam.ofInts, UnrHam.cacheTwoInts, hf, and_self, if_true, zero_ne_one, one_ne_zero, false_and, if_false,
    true_and, and_true, and_false]
  rcases one_cases hab ha hb x with ⟨h1, h2, h3⟩ | ⟨h1, h2, h3⟩ | ⟨h1, h2, h3⟩ | ⟨h1, h2, h3⟩ <;>
    rcases one_cases hab ha hb y with ⟨k1, k2, k3⟩ | ⟨k1, k2, k3⟩ | ⟨k1, k2, k3⟩ | ⟨k1, k2, k3⟩ <;>
    simp only [h2, h3, k2, k3, ha, hb, hab, Ne.symm hab, or_self, not_false_eq_true, not_true_eq_false, and_true, and_false,
      true_and, if_true, if_false, add_zero, zero_add, h1, k1] <;>
    abel

theorem resDerivOne_bb (H : GenHam R) {n x y a b : ℕ} (hab : a ≠ b) (sa sb : List ℕ) (ha : a ∉ sb) (hb : b ∉ sb)
    (hn : ∀ i ∈ sb, i < n) :
    resDerivOne H (a + n) a 1 (b + n) b 1 x y sa sb =
      unrDerivOne (dup H) a 1 b 1 0 x y sa sb + unrDerivOne (dup H) a 1 b 1 1 x y sa sb := by
  have hf : sb.filter (fun i => decide ¬(i = a + n ∨ i = b + n)) = sb := by
    rw [List.filter_eq_self]
    intro i hi
    rw [decide_eq_true_eq]
    have := hn i hi
    omega
  unfold resDerivOne unrDerivOne
  simp only [dup, UnrHam.ofInts, UnrHam.cacheTwoInts, hf, and_self, if_true, zero_ne_one, one_ne_zero, false_and, if_false,
    true_and, and_true, and_false]
  rcases one_cases hab ha hb x with ⟨h1, h2, h3⟩ | ⟨h1, h2, h3⟩ | ⟨h1, h2, h3⟩ | ⟨h1, h2, h3⟩ <;>
    rcases one_cases hab ha hb y with ⟨k1, k2, k3⟩ | ⟨k1, k2, k3⟩ | ⟨k1, k2, k3⟩ | ⟨k1, k2, k3⟩ <;>
    simp only [h2, h3, k2, k3, ha, hb, hab, Ne.symm hab, or_self, not_false_eq_true, not_true_eq_false, and_true, and_false,
      true_and, if_true, if_false, add_zero, zero_add, h1, k1] <;>
    abel

theorem resDerivOne_ne (H : GenHam R) (x y : ℕ) {ia ib a b spA spB : ℕ} (hs : spA ≠ spB) (sa sb : List ℕ) :
    resDerivOne H ia a spA ib b spB x y sa sb = 0 := by
  unfold resDerivOne
  simp only [hs, false_and, and_false, if_false, add_zero]

theorem ite_split {x a b c d : ℕ} {A B C D : R × R × R} (hab : a ≠ b) (hac : a ≠ c) (had : a ≠ d) (hbc : b ≠ c)
    (hbd : b ≠ d) (hcd : c ≠ d) :
    ((((if x = a then A else 0) + (if x = b then B else 0)) + (if x = c then C else 0)) + (if x = d then D else 0)) =
      if x = a then A else if x = b then B else if x = c then C else if x = d then D else 0 := by
  by_cases h1 : x = a
  · subst h1; simp [hab, hac, had]
  · by_cases h2 : x = b
    · subst h2; simp [h1, hbc, hbd]
    · by_cases h3 : x = c
      · subst h3; simp [h1, h2, hcd]
      · simp [h1, h2, h3]

theorem resDerivTwo_same (H : GenHam R) {x y a b c d k : ℕ} (hab : a ≠ b) (hac : a ≠ c) (had : a ≠ d) (hbc : b ≠ c)
    (hbd : b ≠ d) (hcd : c ≠ d) (hk : k = 0 ∨ k = 1) :
    resDerivTwo H a k b k c k d k x y =
      unrDerivTwo (dup H) a k b k c k d k 0 x y + unrDerivTwo (dup H) a k b k c k d k 1 x y := by
  unfold resDerivTwo unrDerivTwo
  rcases hk with rfl | rfl
  · simp only [dup, UnrHam.ofInts, UnrHam.cacheTwoInts, spinCase, and_self, if_true, one_ne_zero, and_true, and_false,
      if_false, add_zero]
    rw [← ite_split (x := x) hab hac had hbc hbd hcd, ← ite_split (x := y) hab hac had hbc hbd hcd]
    abel
  · simp only [dup, UnrHam.ofInts, UnrHam.cacheTwoInts, spinCase, and_self, if_true, one_ne_zero, zero_ne_one, and_true,
      and_false, if_false, add_zero, zero_add]
    rw [← ite_split (x := x) hab hac had hbc hbd hcd, ← ite_split (x := y) hab hac had hbc hbd hcd]
    abel

theorem ite_split2 {x a c : ℕ} {A C : R × R × R} (hac : a ≠ c) :
    ((if x = a then A else 0) + (if x = c then C else 0)) = if x = a then A else if x = c then C else 0 := by
  by_cases h1 : x = a
  · subst h1; simp [hac]
  · simp [h1]

theorem resDerivTwo_ab (H : GenHam R) {x y a b c d : ℕ} (hac : a ≠ c) (hbd : b ≠ d) :
    resDerivTwo H a 0 b 1 c 0 d 1 x y =
      unrDerivTwo (dup H) a 0 b 1 c 0 d 1 0 x y + unrDerivTwo (dup H) a 0 b 1 c 0 d 1 1 x y := by
  unfold resDerivTwo unrDerivTwo
  simp only [dup, UnrHam.ofInts, UnrHam.cacheTwoInts, spinCase, and_self, if_true, one_ne_zero, zero_ne_one, and_true,
    and_false, false_and, if_false, add_zero, zero_add]
  simp only [← ite_split2 hac, ← ite_split2 hbd]
  abel

theorem resDerivTwo_none (H : GenHam R) {x y a b c d spA spB spC spD : ℕ} (h : spinCase spA spB spC spD = 3) :
    resDerivTwo H a spA b spB c spC d spD x y = 0 := by
  unfold resDerivTwo
  simp only [h, ite_self, add_zero]

end Fanpy.Lemmas
