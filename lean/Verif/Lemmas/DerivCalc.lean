import Verif.Lemmas.UnrDeriv
import Verif.Lemmas.Rotation
import Verif.Lemmas.GenHam
import Verif.Lemmas.SdPair
import Verif.Lemmas.SpinSplit
import Verif.Lemmas.Bits2
import Mathlib.Analysis.SpecialFunctions.Trigonometric.Deriv
import Mathlib.Analysis.Calculus.Deriv.Prod

/-! # Calculus: matrix elements of a family of integrals -/

namespace Fanpy.Lemmas
open Fanpy.Slater Fanpy.Spec Fanpy.Ham

theorem hasDerivAt_rotAxis {x y : ℕ} {f : ℝ → ℕ → ℝ} {f' : ℕ → ℝ}
    (hf : ∀ i, HasDerivAt (fun θ => f θ i) (f' i) 0) (i : ℕ) :
    HasDerivAt (fun θ => rotAxis (Real.cos θ) (Real.sin θ) x y (f θ) i) (dAxis x y (f 0) i + f' i) 0 := by
  have hc : HasDerivAt Real.cos 0 0 := by simpa using Real.hasDerivAt_cos 0
  have hs : HasDerivAt Real.sin 1 0 := by simpa using Real.hasDerivAt_sin 0
  unfold rotAxis dAxis
  by_cases h1 : i = x
  · simp only [h1, if_true]
    have := (hc.mul (hf x)).sub (hs.mul (hf y))
    simp only [Real.cos_zero, Real.sin_zero, zero_mul, one_mul, add_zero, zero_add, sub_eq_add_neg] at this ⊢
    rw [add_comm (-f 0 y)]; exact this
  · by_cases h2 : i = y
    · simp only [h2, h2 ▸ h1, if_true, if_false]
      have := (hs.mul (hf x)).add (hc.mul (hf y))
      simp only [Real.cos_zero, Real.sin_zero, zero_mul, one_mul, add_zero, zero_add] at this ⊢
      exact this
    · simp only [h1, h2, if_false, zero_add]
      exact hf i

theorem rotAxis_zero (x y : ℕ) (f : ℕ → ℝ) (i : ℕ) : rotAxis (Real.cos 0) (Real.sin 0) x y f i = f i := by
  unfold rotAxis
  simp only [Real.cos_zero, Real.sin_zero]
  split_ifs with h1 h2
  · rw [h1]; ring
  · rw [h2]; ring
  · rfl

theorem hasDerivAt_jacobiOne (x y : ℕ) (h : ℕ → ℕ → ℝ) (i j : ℕ) :
    HasDerivAt (fun θ => jacobiOne (Real.cos θ) (Real.sin θ) x y h i j) (dOne x y h i j) 0 := by
  have h1 : ∀ i, HasDerivAt (fun θ => rotAxis (Real.cos θ) (Real.sin θ) x y (fun j => h i j) j)
      (dAxis x y (fun j => h i j) j) 0 := by
    intro i
    simpa using hasDerivAt_rotAxis (x := x) (y := y) (f := fun _ j => h i j) (f' := fun _ => 0)
      (fun j => hasDerivAt_const _ _) j
  have h2 := hasDerivAt_rotAxis (x := x) (y := y)
    (f := fun θ i => rotAxis (Real.cos θ) (Real.sin θ) x y (fun j => h i j) j) (f' := fun i => dAxis x y (fun j => h i j) j)
    h1 i
  simp only [rotAxis_zero] at h2
  exact h2

theorem hasDerivAt_jacobiTwo13 (x y : ℕ) (g : ℕ → ℕ → ℕ → ℕ → ℝ) (i j k l : ℕ) :
    HasDerivAt (fun θ => jacobiTwo13 (Real.cos θ) (Real.sin θ) x y g i j k l) (dTwo13 x y g i j k l) 0 :=
  hasDerivAt_jacobiOne x y (fun i k => g i j k l) i k

theorem hasDerivAt_jacobiTwo24 (x y : ℕ) (g : ℕ → ℕ → ℕ → ℕ → ℝ) (i j k l : ℕ) :
    HasDerivAt (fun θ => jacobiTwo24 (Real.cos θ) (Real.sin θ) x y g i j k l) (dTwo24 x y g i j k l) 0 :=
  hasDerivAt_jacobiOne x y (fun j l => g i j k l) j l

theorem hasDerivAt_jacobiTwo (x y : ℕ) (g : ℕ → ℕ → ℕ → ℕ → ℝ) (i j k l : ℕ) :
    HasDerivAt (fun θ => jacobiTwo (Real.cos θ) (Real.sin θ) x y g i j k l) (dTwo x y g i j k l) 0 := by
  have a1 : ∀ i j k, HasDerivAt (fun θ => rotAxis (Real.cos θ) (Real.sin θ) x y (fun l => g i j k l) l)
      (dAxis x y (fun l => g i j k l) l) 0 := by
    intro i j k
    simpa using hasDerivAt_rotAxis (x := x) (y := y) (f := fun _ l => g i j k l) (f' := fun _ => 0)
      (fun j => hasDerivAt_const _ _) l
  have a2 := fun i j => hasDerivAt_rotAxis (x := x) (y := y)
    (f := fun θ k => rotAxis (Real.cos θ) (Real.sin θ) x y (fun l => g i j k l) l)
    (f' := fun k => dAxis x y (fun l => g i j k l) l) (fun k => a1 i j k) k
  simp only [rotAxis_zero] at a2
  have a3 := fun i => hasDerivAt_rotAxis (x := x) (y := y)
    (f := fun θ j => rotAxis (Real.cos θ) (Real.sin θ) x y
      (fun k => rotAxis (Real.cos θ) (Real.sin θ) x y (fun l => g i j k l) l) k)
    (f' := fun j => dAxis x y (fun k => g i j k l) k + dAxis x y (fun l => g i j k l) l) (fun j => a2 i j) j
  simp only [rotAxis_zero] at a3
  have a4 := hasDerivAt_rotAxis (x := x) (y := y)
    (f := fun θ i => rotAxis (Real.cos θ) (Real.sin θ) x y (fun j => rotAxis (Real.cos θ) (Real.sin θ) x y
      (fun k => rotAxis (Real.cos θ) (Real.sin θ) x y (fun l => g i j k l) l) k) j)
    (f' := fun i => dAxis x y (fun j => g i j k l) j + (dAxis x y (fun k => g i j k l) k + dAxis x y (fun l => g i j k l) l))
    a3 i
  simp only [rotAxis_zero] at a4
  have e : dTwo x y g i j k l = dAxis x y (fun i => g i j k l) i + (dAxis x y (fun j => g i j k l) j +
      (dAxis x y (fun k => g i j k l) k + dAxis x y (fun l => g i j k l) l)) := by
    simp only [dTwo, dTwo13, dTwo24]; ring
  rw [e]
  exact a4

theorem hasDerivAt_listSum {f : ℝ → ℕ → ℝ} {f' : ℕ → ℝ} (l : List ℕ) (hf : ∀ i, HasDerivAt (fun θ => f θ i) (f' i) 0) :
    HasDerivAt (fun θ => (l.map (f θ)).sum) (l.map f').sum 0 := by
  induction l with
  | nil => simpa using hasDerivAt_const (0 : ℝ) (0 : ℝ)
  | cons a l ih => simp only [List.map_cons, List.sum_cons]; exact (hf a).add ih

theorem hasDerivAt_triuSum {f : ℝ → ℕ → ℕ → ℝ} {f' : ℕ → ℕ → ℝ} (l : List ℕ)
    (hf : ∀ i j, HasDerivAt (fun θ => f θ i j) (f' i j) 0) :
    HasDerivAt (fun θ => triuSum (f θ) l) (triuSum f' l) 0 := by
  induction l with
  | nil => simpa [triuSum] using hasDerivAt_const (0 : ℝ) (0 : ℝ)
  | cons a l ih => simp only [triuSum]; exact (hasDerivAt_listSum l (hf a)).add ih

theorem hasDerivAt_fullSum {f : ℝ → ℕ → ℕ → ℝ} {f' : ℕ → ℕ → ℝ} (l1 l2 : List ℕ)
    (hf : ∀ i j, HasDerivAt (fun θ => f θ i j) (f' i j) 0) :
    HasDerivAt (fun θ => fullSum (f θ) l1 l2) (fullSum f' l1 l2) 0 :=
  hasDerivAt_listSum l1 fun i => hasDerivAt_listSum l2 (hf i)

theorem hasDerivAt_triple {f g h : ℝ → ℝ} {f' g' h' : ℝ} (hf : HasDerivAt f f' 0) (hg : HasDerivAt g g' 0)
    (hh : HasDerivAt h h' 0) : HasDerivAt (fun θ => (f θ, g θ, h θ)) (f', g', h') 0 := hf.prodMk (hg.prodMk hh)

theorem hasDerivAt_signTimes (σ : ℤ) {F : ℝ → ℝ × ℝ × ℝ} {F' : ℝ × ℝ × ℝ} (hF : HasDerivAt F F' 0) :
    HasDerivAt (fun θ => signTimes σ (F θ)) (signTimes σ F') 0 := by
  have h1 : HasDerivAt (fun θ => (F θ).1) F'.1 0 := hF.fst
  have h2 : HasDerivAt (fun θ => (F θ).2.1) F'.2.1 0 := hF.snd.fst
  have h3 : HasDerivAt (fun θ => (F θ).2.2) F'.2.2 0 := hF.snd.snd
  exact hasDerivAt_triple (h1.const_mul _) (h2.const_mul _) (h3.const_mul _)

theorem hasDerivAt_sumComp {F : ℝ → ℝ × ℝ × ℝ} {F' : ℝ × ℝ × ℝ} (hF : HasDerivAt F F' 0) :
    HasDerivAt (fun θ => sumComp (F θ)) (sumComp F') 0 := by
  have h1 : HasDerivAt (fun θ => (F θ).1) F'.1 0 := hF.fst
  have h2 : HasDerivAt (fun θ => (F θ).2.1) F'.2.1 0 := hF.snd.fst
  have h3 : HasDerivAt (fun θ => (F θ).2.2) F'.2.2 0 := hF.snd.snd
  exact h1.add (h2.add h3)

end Fanpy.Lemmas
