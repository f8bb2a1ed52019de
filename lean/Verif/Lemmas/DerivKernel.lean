import Verif.Lemmas.UnrDeriv
import Verif.Lemmas.DerivCalc
import Verif.Lemmas.UnrWfn

/-! # Matrix elements with alpha and beta orbitals, their rotation and their derivatives, case by case -/

namespace Fanpy.Lemmas
open Fanpy.Slater Fanpy.Spec Fanpy.Ham

set_option linter.unusedSimpArgs false

/-- the first-order change of the integrals when the alpha orbitals are rotated -/
def varyA (x y : ℕ) (H : UnrHam ℝ) : UnrHam ℝ :=
  UnrHam.ofInts H.norb (dOne x y H.oneA) (fun _ _ => 0) (dTwo x y H.twoAA) (dTwo13 x y H.twoAB) (fun _ _ _ _ => 0)
/-- the first-order change of the integrals when the beta orbitals are rotated -/
def varyB (x y : ℕ) (H : UnrHam ℝ) : UnrHam ℝ :=
  UnrHam.ofInts H.norb (fun _ _ => 0) (dOne x y H.oneB) (fun _ _ _ _ => 0) (dTwo24 x y H.twoAB) (dTwo x y H.twoBB)
/-- the first-order change of the integrals when the spatial orbitals are rotated -/
def varyR (x y : ℕ) (H : GenHam ℝ) : UnrHam ℝ :=
  UnrHam.ofInts H.norb (dOne x y H.one) (dOne x y H.one) (dTwo x y H.two) (dTwo x y H.two) (dTwo x y H.two)

/-- `K'` holds the derivatives of the integrals of `K` -/
structure Fam (K : ℝ → UnrHam ℝ) (K' : UnrHam ℝ) : Prop where
  oneA : ∀ i j, HasDerivAt (fun θ => (K θ).oneA i j) (K'.oneA i j) 0
  oneB : ∀ i j, HasDerivAt (fun θ => (K θ).oneB i j) (K'.oneB i j) 0
  twoAA : ∀ i j k l, HasDerivAt (fun θ => (K θ).twoAA i j k l) (K'.twoAA i j k l) 0
  twoAB : ∀ i j k l, HasDerivAt (fun θ => (K θ).twoAB i j k l) (K'.twoAB i j k l) 0
  twoBB : ∀ i j k l, HasDerivAt (fun θ => (K θ).twoBB i j k l) (K'.twoBB i j k l) 0

/-- `V` is a matrix element, `du` and `dr` its derivatives for unrestricted and restricted orbitals -/
structure Kernel (V : UnrHam ℝ → ℝ × ℝ × ℝ) (du : UnrHam ℝ → ℕ → ℕ → ℕ → ℝ × ℝ × ℝ)
    (dr : GenHam ℝ → ℕ → ℕ → ℝ × ℝ × ℝ) : Prop where
  alpha : ∀ H x y, x ≠ y → RealSym H → du H 0 x y = V (varyA x y H)
  beta : ∀ H x y, x ≠ y → RealSym H → du H 1 x y = V (varyB x y H)
  res : ∀ G x y, x ≠ y → RealSym (dup G) → dr G x y = V (varyR x y G)
  deriv : ∀ K K', Fam K K' → HasDerivAt (fun θ => V (K θ)) (V K') 0

def zeroV (sa sb : List ℕ) (H : UnrHam ℝ) : ℝ × ℝ × ℝ :=
  ((sa.map fun i => H.oneA i i).sum + (sb.map fun i => H.oneB i i).sum,
    triuSum (fun i j => H.twoAA i j i j) sa + triuSum (fun i j => H.twoBB i j i j) sb +
      fullSum (fun i j => H.twoAB i j i j) sa sb,
    -triuSum (fun i j => H.twoAA i j j i) sa - triuSum (fun i j => H.twoBB i j j i) sb)

def oneVA (a b : ℕ) (sa sb : List ℕ) (H : UnrHam ℝ) : ℝ × ℝ × ℝ :=
  (H.oneA a b, (sa.map fun s => H.twoAA s a s b).sum + (sb.map fun s => H.twoAB a s b s).sum,
    -(sa.map fun s => H.twoAA s a b s).sum)

def oneVB (a b : ℕ) (sa sb : List ℕ) (H : UnrHam ℝ) : ℝ × ℝ × ℝ :=
  (H.oneB a b, (sa.map fun s => H.twoAB s a s b).sum + (sb.map fun s => H.twoBB s a s b).sum,
    -(sb.map fun s => H.twoBB s a b s).sum)

def twoVA (a b c d : ℕ) (H : UnrHam ℝ) : ℝ × ℝ × ℝ := (0, H.twoAA a b c d, -H.twoAA a b d c)
def twoVM (a b c d : ℕ) (H : UnrHam ℝ) : ℝ × ℝ × ℝ := (0, H.twoAB a b c d, 0)
def twoVB (a b c d : ℕ) (H : UnrHam ℝ) : ℝ × ℝ × ℝ := (0, H.twoBB a b c d, -H.twoBB a b d c)

theorem triuSum_zero (l : List ℕ) : triuSum (fun _ _ => (0 : ℝ)) l = 0 := by
  induction l with
  | nil => rfl
  | cons a l ih => simp [triuSum, ih]

theorem triuSum_add (f g : ℕ → ℕ → ℝ) (l : List ℕ) :
    triuSum (fun i j => f i j + g i j) l = triuSum f l + triuSum g l := by
  induction l with
  | nil => simp [triuSum]
  | cons a l ih => simp only [triuSum, ih, List.sum_map_add]; ring

theorem fullSum_add (f g : ℕ → ℕ → ℝ) (l1 l2 : List ℕ) :
    fullSum (fun i j => f i j + g i j) l1 l2 = fullSum f l1 l2 + fullSum g l1 l2 := by
  simp only [fullSum, List.sum_map_add]

theorem sum_zero' (l : List ℕ) : (l.map fun _ => (0 : ℝ)).sum = 0 := by simp

/-- the change under a rotation of the spatial orbitals is the sum of the changes under the alpha and beta rotations -/
structure Additive (V : UnrHam ℝ → ℝ × ℝ × ℝ) : Prop where
  add : ∀ (G : GenHam ℝ) x y, V (varyR x y G) = V (varyA x y (dup G)) + V (varyB x y (dup G))

theorem dTwo_split (x y : ℕ) (g : ℕ → ℕ → ℕ → ℕ → ℝ) (i j k l : ℕ) :
    dTwo x y g i j k l = dTwo13 x y g i j k l + dTwo24 x y g i j k l := rfl

theorem zeroV_add (sa sb : List ℕ) : Additive (zeroV sa sb) where
  add G x y := by
    have e : fullSum (fun i j => dTwo x y G.two i j i j) sa sb =
        fullSum (fun i j => dTwo13 x y G.two i j i j) sa sb + fullSum (fun i j => dTwo24 x y G.two i j i j) sa sb :=
      fullSum_add _ _ _ _
    simp only [zeroV, varyR, varyA, varyB, dup, UnrHam.ofInts, UnrHam.cacheTwoInts, triuSum_zero, sum_zero', e]
    triple_ring

theorem oneVA_add (a b : ℕ) (sa sb : List ℕ) : Additive (oneVA a b sa sb) where
  add G x y := by
    have e : (sb.map fun s => dTwo x y G.two a s b s).sum =
        (sb.map fun s => dTwo13 x y G.two a s b s).sum + (sb.map fun s => dTwo24 x y G.two a s b s).sum :=
      List.sum_map_add
    simp only [oneVA, varyR, varyA, varyB, dup, UnrHam.ofInts, UnrHam.cacheTwoInts, triuSum_zero, sum_zero', e]
    triple_ring

theorem oneVB_add (a b : ℕ) (sa sb : List ℕ) : Additive (oneVB a b sa sb) where
  add G x y := by
    have e : (sa.map fun s => dTwo x y G.two s a s b).sum =
        (sa.map fun s => dTwo13 x y G.two s a s b).sum + (sa.map fun s => dTwo24 x y G.two s a s b).sum :=
      List.sum_map_add
    simp only [oneVB, varyR, varyA, varyB, dup, UnrHam.ofInts, UnrHam.cacheTwoInts, triuSum_zero, sum_zero', e]
    triple_ring

theorem zero_kernel : Kernel (fun _ => 0) (fun _ _ _ _ => 0) (fun _ _ _ => 0) where
  alpha _ _ _ _ _ := rfl
  beta _ _ _ _ _ := rfl
  res _ _ _ _ _ := rfl
  deriv _ _ _ := hasDerivAt_const _ _

theorem sign_kernel {V du dr} (σ : ℤ) (h : Kernel V du dr) :
    Kernel (fun H => signTimes σ (V H)) (fun H s x y => signTimes σ (du H s x y)) (fun G x y => signTimes σ (dr G x y)) where
  alpha H x y hxy hS := by rw [h.alpha H x y hxy hS]
  beta H x y hxy hS := by rw [h.beta H x y hxy hS]
  res H x y hxy hS := by rw [h.res H x y hxy hS]
  deriv K K' hF := hasDerivAt_signTimes σ (h.deriv K K' hF)

theorem same_kernel (sa sb : List ℕ) (ha : sa.Nodup) (hb : sb.Nodup) :
    Kernel (zeroV sa sb) (fun H s x y => unrDerivZero H s x y sa sb) (fun G x y => resDerivZero G x y sa sb) := by
  have hA : ∀ H x y, x ≠ y → RealSym H → unrDerivZero H 0 x y sa sb = zeroV sa sb (varyA x y H) := by
    intro H x y hxy hS
    rw [unrDerivZero_alpha H hxy hS sa sb ha, genDerivZero_eq (hamA H) hxy hS.oneA hS.swapA hS.realA sa ha]
    simp only [zeroV, varyA, hamA, GenHam.ofInts, GenHam.cacheTwoInts, UnrHam.ofInts, UnrHam.cacheTwoInts, triuSum_zero,
      sum_zero']
    triple_ring
  have hB : ∀ H x y, x ≠ y → RealSym H → unrDerivZero H 1 x y sa sb = zeroV sa sb (varyB x y H) := by
    intro H x y hxy hS
    rw [unrDerivZero_beta H hxy hS sa sb hb, genDerivZero_eq (hamB H) hxy hS.oneB hS.swapB hS.realB sb hb]
    simp only [zeroV, varyB, hamB, GenHam.ofInts, GenHam.cacheTwoInts, UnrHam.ofInts, UnrHam.cacheTwoInts, triuSum_zero,
      sum_zero']
    triple_ring
  refine ⟨hA, hB, fun G x y hxy hS => ?_, fun K K' hF => ?_⟩
  · rw [resDerivZero_eq, hA _ x y hxy hS, hB _ x y hxy hS, (zeroV_add sa sb).add]
  · exact hasDerivAt_triple
      ((hasDerivAt_listSum _ fun i => hF.oneA i i).add (hasDerivAt_listSum _ fun i => hF.oneB i i))
      (((hasDerivAt_triuSum _ fun i j => hF.twoAA i j i j).add (hasDerivAt_triuSum _ fun i j => hF.twoBB i j i j)).add
        (hasDerivAt_fullSum _ _ fun i j => hF.twoAB i j i j))
      ((hasDerivAt_triuSum _ fun i j => hF.twoAA i j j i).neg.sub (hasDerivAt_triuSum _ fun i j => hF.twoBB i j j i))

theorem singleA_kernel {a b : ℕ} (hab : a ≠ b) (sa sb : List ℕ) (ha : sa.Nodup) (hb : sb.Nodup) (h1 : a ∉ sa)
    (h2 : b ∉ sa) :
    Kernel (oneVA a b sa sb) (fun H s x y => unrDerivOne H a 0 b 0 s x y sa sb)
      (fun G x y => resDerivOne G a a 0 b b 0 x y sa sb) := by
  have hA : ∀ H x y, x ≠ y → RealSym H → unrDerivOne H a 0 b 0 0 x y sa sb = oneVA a b sa sb (varyA x y H) := by
    intro H x y hxy hS
    rw [unrDerivOne_aa0 H hxy hS hab sa sb h1 h2, genDerivOne_eq (hamA H) hxy hS.swapA hab sa ha h1 h2]
    simp only [oneVA, varyA, hamA, GenHam.ofInts, GenHam.cacheTwoInts, UnrHam.ofInts, UnrHam.cacheTwoInts, sum_zero']
    triple_ring
  have hB : ∀ H x y, x ≠ y → RealSym H → unrDerivOne H a 0 b 0 1 x y sa sb = oneVA a b sa sb (varyB x y H) := by
    intro H x y hxy hS
    rw [unrDerivOne_aa1 H hxy hS sa sb hb]
    simp only [oneVA, varyB, UnrHam.ofInts, UnrHam.cacheTwoInts, sum_zero']
    triple_ring
  refine ⟨hA, hB, fun G x y hxy hS => ?_, fun K K' hF => ?_⟩
  · rw [resDerivOne_aa G hab sa sb h1 h2, hA _ x y hxy hS, hB _ x y hxy hS, (oneVA_add a b sa sb).add]
  · exact hasDerivAt_triple (hF.oneA a b)
      ((hasDerivAt_listSum _ fun s => hF.twoAA s a s b).add (hasDerivAt_listSum _ fun s => hF.twoAB a s b s))
      (hasDerivAt_listSum _ fun s => hF.twoAA s a b s).neg

theorem singleB_kernel {n a b : ℕ} (hab : a ≠ b) (sa sb : List ℕ) (ha : sa.Nodup) (hb : sb.Nodup) (h1 : a ∉ sb)
    (h2 : b ∉ sb) (hn : ∀ i ∈ sb, i < n) :
    Kernel (oneVB a b sa sb) (fun H s x y => unrDerivOne H a 1 b 1 s x y sa sb)
      (fun G x y => resDerivOne G (a + n) a 1 (b + n) b 1 x y sa sb) := by
  have hA : ∀ H x y, x ≠ y → RealSym H → unrDerivOne H a 1 b 1 0 x y sa sb = oneVB a b sa sb (varyA x y H) := by
    intro H x y hxy hS
    rw [unrDerivOne_bb0 H hxy hS sa sb ha]
    simp only [oneVB, varyA, UnrHam.ofInts, UnrHam.cacheTwoInts, sum_zero']
    triple_ring
  have hB : ∀ H x y, x ≠ y → RealSym H → unrDerivOne H a 1 b 1 1 x y sa sb = oneVB a b sa sb (varyB x y H) := by
    intro H x y hxy hS
    rw [unrDerivOne_bb1 H hxy hS hab sa sb h1 h2, genDerivOne_eq (hamB H) hxy hS.swapB hab sb hb h1 h2]
    simp only [oneVB, varyB, hamB, GenHam.ofInts, GenHam.cacheTwoInts, UnrHam.ofInts, UnrHam.cacheTwoInts, sum_zero']
    triple_ring
  refine ⟨hA, hB, fun G x y hxy hS => ?_, fun K K' hF => ?_⟩
  · rw [resDerivOne_bb G hab sa sb h1 h2 hn, hA _ x y hxy hS, hB _ x y hxy hS, (oneVB_add a b sa sb).add]
  · exact hasDerivAt_triple (hF.oneB a b)
      ((hasDerivAt_listSum _ fun s => hF.twoAB s a s b).add (hasDerivAt_listSum _ fun s => hF.twoBB s a s b))
      (hasDerivAt_listSum _ fun s => hF.twoBB s a b s).neg

theorem doubleA_kernel {a b c d : ℕ} (hab : a ≠ b) (hac : a ≠ c) (had : a ≠ d) (hbc : b ≠ c) (hbd : b ≠ d) (hcd : c ≠ d) :
    Kernel (twoVA a b c d) (fun H s x y => unrDerivTwo H a 0 b 0 c 0 d 0 s x y)
      (fun G x y => resDerivTwo G a 0 b 0 c 0 d 0 x y) := by
  have hA : ∀ H x y, x ≠ y → RealSym H → unrDerivTwo H a 0 b 0 c 0 d 0 0 x y = twoVA a b c d (varyA x y H) := by
    intro H x y hxy hS
    rw [unrDerivTwo_aa0 H hS, genDerivTwo_eq (hamA H) hxy hab hac had hbc hbd hcd]
    rfl
  have hB : ∀ H x y, x ≠ y → RealSym H → unrDerivTwo H a 0 b 0 c 0 d 0 1 x y = twoVA a b c d (varyB x y H) := by
    intro H x y hxy hS
    rw [unrDerivTwo_aa1 H]
    simp only [twoVA, varyB, UnrHam.ofInts, UnrHam.cacheTwoInts]
    triple_ring
  refine ⟨hA, hB, fun G x y hxy hS => ?_, fun K K' hF => ?_⟩
  · rw [resDerivTwo_same G hab hac had hbc hbd hcd (.inl rfl), hA _ x y hxy hS, hB _ x y hxy hS]
    simp only [twoVA, varyR, varyA, varyB, dup, UnrHam.ofInts, UnrHam.cacheTwoInts]
    triple_ring
  · exact hasDerivAt_triple (hasDerivAt_const _ _) (hF.twoAA a b c d) (hF.twoAA a b d c).neg

theorem doubleB_kernel {a b c d : ℕ} (hab : a ≠ b) (hac : a ≠ c) (had : a ≠ d) (hbc : b ≠ c) (hbd : b ≠ d) (hcd : c ≠ d) :
    Kernel (twoVB a b c d) (fun H s x y => unrDerivTwo H a 1 b 1 c 1 d 1 s x y)
      (fun G x y => resDerivTwo G a 1 b 1 c 1 d 1 x y) := by
  have hA : ∀ H x y, x ≠ y → RealSym H → unrDerivTwo H a 1 b 1 c 1 d 1 0 x y = twoVB a b c d (varyA x y H) := by
    intro H x y hxy hS
    rw [unrDerivTwo_bb0 H]
    simp only [twoVB, varyA, UnrHam.ofInts, UnrHam.cacheTwoInts]
    triple_ring
  have hB : ∀ H x y, x ≠ y → RealSym H → unrDerivTwo H a 1 b 1 c 1 d 1 1 x y = twoVB a b c d (varyB x y H) := by
    intro H x y hxy hS
    rw [unrDerivTwo_bb1 H hS, genDerivTwo_eq (hamB H) hxy hab hac had hbc hbd hcd]
    rfl
  refine ⟨hA, hB, fun G x y hxy hS => ?_, fun K K' hF => ?_⟩
  · rw [resDerivTwo_same G hab hac had hbc hbd hcd (.inr rfl), hA _ x y hxy hS, hB _ x y hxy hS]
    simp only [twoVB, varyR, varyA, varyB, dup, UnrHam.ofInts, UnrHam.cacheTwoInts]
    triple_ring
  · exact hasDerivAt_triple (hasDerivAt_const _ _) (hF.twoBB a b c d) (hF.twoBB a b d c).neg

theorem doubleM_kernel {a b c d : ℕ} (hac : a ≠ c) (hbd : b ≠ d) :
    Kernel (twoVM a b c d) (fun H s x y => unrDerivTwo H a 0 b 1 c 0 d 1 s x y)
      (fun G x y => resDerivTwo G a 0 b 1 c 0 d 1 x y) := by
  have hA : ∀ H x y, x ≠ y → RealSym H → unrDerivTwo H a 0 b 1 c 0 d 1 0 x y = twoVM a b c d (varyA x y H) := by
    intro H x y hxy hS
    rw [unrDerivTwo_ab0 H hxy hac]
    rfl
  have hB : ∀ H x y, x ≠ y → RealSym H → unrDerivTwo H a 0 b 1 c 0 d 1 1 x y = twoVM a b c d (varyB x y H) := by
    intro H x y hxy hS
    rw [unrDerivTwo_ab1 H hxy hbd]
    rfl
  refine ⟨hA, hB, fun G x y hxy hS => ?_, fun K K' hF => ?_⟩
  · rw [resDerivTwo_ab G hac hbd, hA _ x y hxy hS, hB _ x y hxy hS]
    simp only [twoVM, varyR, varyA, varyB, dup, UnrHam.ofInts, UnrHam.cacheTwoInts, dTwo_split]
    triple_ring
  · exact hasDerivAt_triple (hasDerivAt_const _ _) (hF.twoAB a b c d) (hasDerivAt_const _ _)

end Fanpy.Lemmas
