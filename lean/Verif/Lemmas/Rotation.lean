import Verif.Model.Rotation
import Verif.Spec.Rotation
import Mathlib.Algebra.BigOperators.Ring.Finset
import Mathlib.Algebra.Order.BigOperators.Group.LocallyFinite
import Mathlib.Tactic.Ring
import Mathlib.Tactic.LinearCombination

/-! # Lemmas about orbital rotations -/

namespace Fanpy.Lemmas
open Finset Fanpy.Ham Fanpy.Spec

variable {R : Type} [CommRing R]

theorem sum_two {n p q : ℕ} (hp : p < n) (hq : q < n) (hpq : p ≠ q) (f : ℕ → R) (x y : R) :
    ∑ k ∈ range n, f k * (if k = p then x else if k = q then y else 0) = f p * x + f q * y := by
  have : ∀ k ∈ range n, f k * (if k = p then x else if k = q then y else 0) =
      (if k = p then f p * x else 0) + (if k = q then f q * y else 0) := by
    intro k _
    by_cases h1 : k = p
    · subst h1; simp [hpq]
    · by_cases h2 : k = q
      · subst h2; simp [h1]
      · simp [h1, h2]
  rw [sum_congr rfl this, sum_add_distrib, sum_ite_eq' (range n) p, sum_ite_eq' (range n) q]
  simp [hp, hq]

theorem rotAxis_eq {n p q : ℕ} (hp : p < n) (hq : q < n) (hpq : p ≠ q) (c s : R) (f : ℕ → R) {i : ℕ} (hi : i < n) :
    rotAxis c s p q f i = ∑ k ∈ range n, f k * givens c s p q k i := by
  unfold rotAxis givens
  split_ifs with h1 h2
  · rw [sum_two hp hq hpq]; ring
  · rw [sum_two hp hq hpq]; ring
  · simp [hi]

theorem rotAxis_inv {p q : ℕ} (hpq : p ≠ q) (c s : R) (hcs : c * c + s * s = 1) (f : ℕ → R) (i : ℕ) :
    rotAxis c (-s) p q (fun i => rotAxis c s p q f i) i = f i := by
  unfold rotAxis
  by_cases h1 : i = p
  · subst h1
    simp only [if_true, hpq.symm, if_false]
    linear_combination f i * hcs
  · by_cases h2 : i = q
    · subst h2
      simp only [if_true, h1, if_false]
      linear_combination f i * hcs
    · simp [h1, h2]

/-- rotations of two different axes commute -/
theorem rotAxis_comm (c s c' s' : R) (p q p' q' : ℕ) (f : ℕ → ℕ → R) (i j : ℕ) :
    rotAxis c s p q (fun i => rotAxis c' s' p' q' (fun j => f i j) j) i =
      rotAxis c' s' p' q' (fun j => rotAxis c s p q (fun i => f i j) i) j := by
  unfold rotAxis
  split_ifs <;> ring

theorem jacobiOne_inv {p q : ℕ} (hpq : p ≠ q) (c s : R) (hcs : c * c + s * s = 1) (h : ℕ → ℕ → R) :
    jacobiOne c (-s) p q (jacobiOne c s p q h) = h := by
  funext i j
  simp only [jacobiOne]
  have : ∀ i, rotAxis c (-s) p q (fun j => rotAxis c s p q (fun i => rotAxis c s p q (fun j => h i j) j) i) j =
      rotAxis c s p q (fun i => h i j) i := by
    intro i
    rw [← rotAxis_comm c s c (-s) p q p q (fun i j => rotAxis c s p q (fun j => h i j) j) i j]
    simp only [rotAxis_inv hpq c s hcs]
  simp only [this, rotAxis_inv hpq c s hcs]

/-- the four rotations as a function of four independent axes -/
theorem jacobiTwo_inv {p q : ℕ} (hpq : p ≠ q) (c s : R) (hcs : c * c + s * s = 1) (g : ℕ → ℕ → ℕ → ℕ → R) :
    jacobiTwo c (-s) p q (jacobiTwo c s p q g) = g := by
  funext i j k l
  simp only [jacobiTwo]
  simp only [← rotAxis_comm c s c (-s) p q p q, rotAxis_inv hpq c s hcs]

theorem jacobiTwo13_inv {p q : ℕ} (hpq : p ≠ q) (c s : R) (hcs : c * c + s * s = 1) (g : ℕ → ℕ → ℕ → ℕ → R) :
    jacobiTwo13 c (-s) p q (jacobiTwo13 c s p q g) = g := by
  funext i j k l
  simp only [jacobiTwo13]
  simp only [← rotAxis_comm c s c (-s) p q p q, rotAxis_inv hpq c s hcs]

theorem jacobiTwo24_inv {p q : ℕ} (hpq : p ≠ q) (c s : R) (hcs : c * c + s * s = 1) (g : ℕ → ℕ → ℕ → ℕ → R) :
    jacobiTwo24 c (-s) p q (jacobiTwo24 c s p q g) = g := by
  funext i j k l
  simp only [jacobiTwo24]
  simp only [← rotAxis_comm c s c (-s) p q p q, rotAxis_inv hpq c s hcs]

/-! ### Flat forms -/

theorem matrixOne_eq (n : ℕ) (u h : ℕ → ℕ → R) (a b : ℕ) :
    matrixOne n u h a b = ∑ i ∈ range n, ∑ j ∈ range n, u i a * u j b * h i j := by
  simp only [matrixOne, Finset.sum_mul]
  rw [Finset.sum_comm]
  exact sum_congr rfl fun i _ => sum_congr rfl fun j _ => by ring

theorem matrixTwo_eq (n : ℕ) (u v : ℕ → ℕ → R) (g : ℕ → ℕ → ℕ → ℕ → R) (a b c d : ℕ) :
    matrixTwo n u v g a b c d =
      ∑ i ∈ range n, ∑ j ∈ range n, ∑ k ∈ range n, ∑ l ∈ range n, u i a * v j b * u k c * v l d * g i j k l := by
  simp only [matrixTwo, Finset.sum_mul]
  calc ∑ l ∈ range n, ∑ k ∈ range n, ∑ j ∈ range n, ∑ i ∈ range n, g i j k l * u i a * v j b * u k c * v l d
      = ∑ l ∈ range n, ∑ k ∈ range n, ∑ i ∈ range n, ∑ j ∈ range n, g i j k l * u i a * v j b * u k c * v l d :=
        sum_congr rfl fun l _ => sum_congr rfl fun k _ => Finset.sum_comm
    _ = ∑ l ∈ range n, ∑ i ∈ range n, ∑ k ∈ range n, ∑ j ∈ range n, g i j k l * u i a * v j b * u k c * v l d :=
        sum_congr rfl fun l _ => Finset.sum_comm
    _ = ∑ i ∈ range n, ∑ l ∈ range n, ∑ k ∈ range n, ∑ j ∈ range n, g i j k l * u i a * v j b * u k c * v l d :=
        Finset.sum_comm
    _ = ∑ i ∈ range n, ∑ l ∈ range n, ∑ j ∈ range n, ∑ k ∈ range n, g i j k l * u i a * v j b * u k c * v l d :=
        sum_congr rfl fun i _ => sum_congr rfl fun l _ => Finset.sum_comm
    _ = ∑ i ∈ range n, ∑ j ∈ range n, ∑ l ∈ range n, ∑ k ∈ range n, g i j k l * u i a * v j b * u k c * v l d :=
        sum_congr rfl fun i _ => Finset.sum_comm
    _ = _ := sum_congr rfl fun i _ => sum_congr rfl fun j _ => by
        rw [Finset.sum_comm]
        exact sum_congr rfl fun k _ => sum_congr rfl fun l _ => by ring

theorem jacobiOne_eq {n p q : ℕ} (hp : p < n) (hq : q < n) (hpq : p ≠ q) (c s : R) (h : ℕ → ℕ → R) {a b : ℕ}
    (ha : a < n) (hb : b < n) : jacobiOne c s p q h a b = matrixOne n (givens c s p q) h a b := by
  simp only [jacobiOne, matrixOne]
  rw [rotAxis_eq hp hq hpq c s _ ha]
  simp only [rotAxis_eq hp hq hpq c s _ hb, Finset.sum_mul]
  rw [Finset.sum_comm]
  exact sum_congr rfl fun i _ => sum_congr rfl fun j _ => by ring

theorem jacobiTwo_eq {n p q : ℕ} (hp : p < n) (hq : q < n) (hpq : p ≠ q) (c s : R) (g : ℕ → ℕ → ℕ → ℕ → R)
    {i j k l : ℕ} (hi : i < n) (hj : j < n) (hk : k < n) (hl : l < n) :
    jacobiTwo c s p q g i j k l = matrixTwo n (givens c s p q) (givens c s p q) g i j k l := by
  simp only [jacobiTwo]
  rw [matrixTwo_eq, rotAxis_eq hp hq hpq c s _ hi]
  simp only [rotAxis_eq hp hq hpq c s _ hj, rotAxis_eq hp hq hpq c s _ hk, rotAxis_eq hp hq hpq c s _ hl,
    Finset.sum_mul]
  exact sum_congr rfl fun i _ => sum_congr rfl fun j _ => sum_congr rfl fun k _ => sum_congr rfl fun l _ => by ring

theorem sum_idMat {n a : ℕ} (ha : a < n) (f : ℕ → R) : ∑ i ∈ range n, f i * idMat i a = f a := by
  simp [idMat, ha]

theorem jacobiTwo13_eq {n p q : ℕ} (hp : p < n) (hq : q < n) (hpq : p ≠ q) (c s : R) (g : ℕ → ℕ → ℕ → ℕ → R)
    {i j k l : ℕ} (hi : i < n) (hj : j < n) (hk : k < n) (hl : l < n) :
    jacobiTwo13 c s p q g i j k l = matrixTwo n (givens c s p q) idMat g i j k l := by
  simp only [jacobiTwo13, matrixTwo]
  rw [sum_idMat hl, rotAxis_eq hp hq hpq c s _ hi]
  simp only [rotAxis_eq hp hq hpq c s _ hk, sum_idMat hj]
  simp only [Finset.sum_mul]
  rw [Finset.sum_comm]
  exact sum_congr rfl fun i _ => sum_congr rfl fun j _ => by ring

theorem jacobiTwo24_eq {n p q : ℕ} (hp : p < n) (hq : q < n) (hpq : p ≠ q) (c s : R) (g : ℕ → ℕ → ℕ → ℕ → R)
    {i j k l : ℕ} (hi : i < n) (hj : j < n) (hk : k < n) (hl : l < n) :
    jacobiTwo24 c s p q g i j k l = matrixTwo n idMat (givens c s p q) g i j k l := by
  simp only [jacobiTwo24, matrixTwo]
  simp only [sum_idMat hk, sum_idMat hi]
  rw [rotAxis_eq hp hq hpq c s _ hj]
  simp only [rotAxis_eq hp hq hpq c s _ hl, Finset.sum_mul]
  rw [Finset.sum_comm]
  exact sum_congr rfl fun i _ => sum_congr rfl fun j _ => by ring

theorem matrixOne_id {n a b : ℕ} (ha : a < n) (hb : b < n) (h : ℕ → ℕ → R) : matrixOne n idMat h a b = h a b := by
  simp only [matrixOne, sum_idMat ha, sum_idMat hb]

theorem matrixTwo_id {n a b c d : ℕ} (ha : a < n) (hb : b < n) (hc : c < n) (hd : d < n) (g : ℕ → ℕ → ℕ → ℕ → R) :
    matrixTwo n idMat idMat g a b c d = g a b c d := by
  simp only [matrixTwo, sum_idMat ha, sum_idMat hb, sum_idMat hc, sum_idMat hd]

/-! ### Composition -/

theorem contract_comp (n m : ℕ) (u v : ℕ → ℕ → R) (f : ℕ → R) (c : ℕ) :
    ∑ a ∈ range m, (∑ i ∈ range n, f i * u i a) * v a c = ∑ i ∈ range n, f i * ∑ a ∈ range m, u i a * v a c := by
  simp only [Finset.sum_mul, Finset.mul_sum]
  rw [Finset.sum_comm]
  exact sum_congr rfl fun i _ => sum_congr rfl fun j _ => by ring

theorem contract_swap (n m : ℕ) (f : ℕ → ℕ → R) (u v : ℕ → R) :
    ∑ a ∈ range m, (∑ i ∈ range n, f i a * u i) * v a = ∑ i ∈ range n, (∑ a ∈ range m, f i a * v a) * u i := by
  simp only [Finset.sum_mul]
  rw [Finset.sum_comm]
  exact sum_congr rfl fun i _ => sum_congr rfl fun j _ => by ring

theorem matrixOne_comp (n m : ℕ) (u v : ℕ → ℕ → R) (h : ℕ → ℕ → R) (a b : ℕ) :
    matrixOne m v (matrixOne n u h) a b = matrixOne n (matMul m u v) h a b := by
  simp only [matrixOne, matMul]
  conv_lhs =>
    enter [2, j, 1]
    rw [contract_swap n m (fun k i => ∑ i' ∈ range n, h i' k * u i' i) (fun k => u k j) (fun i => v i a)]
  simp only [contract_comp]

theorem matrixTwo_comp (n m : ℕ) (u u' v v' : ℕ → ℕ → R) (g : ℕ → ℕ → ℕ → ℕ → R) (a b c d : ℕ) :
    matrixTwo m v v' (matrixTwo n u u' g) a b c d =
      matrixTwo n (matMul m u v) (matMul m u' v') g a b c d := by
  simp only [matrixTwo, matMul]
  simp only [contract_swap n m _ _ (fun i => v i a), contract_swap n m _ _ (fun i => v' i b),
    contract_swap n m _ _ (fun i => v i c), contract_comp]

end Fanpy.Lemmas
