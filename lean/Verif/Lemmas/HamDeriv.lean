import Verif.Model.HamDeriv
import Verif.Spec.HamDeriv
import Verif.Lemmas.HamSums
import Mathlib.Tactic.Ring
import Mathlib.Tactic.LinearCombination

/-! # Sums of the first-order changes over lists of orbitals -/

namespace Fanpy.Lemmas
open Fanpy.Slater Fanpy.Spec Fanpy.Ham

set_option linter.unusedSimpArgs false

variable {R : Type} [CommRing R]

theorem dAxis_eq {x y : ℕ} (hxy : x ≠ y) (f : ℕ → R) (i : ℕ) :
    dAxis x y f i = (if i = y then f x else 0) - (if i = x then f y else 0) := by
  unfold dAxis
  by_cases h1 : i = x
  · simp [h1, hxy]
  · simp [h1]

theorem sum_ite (l : List ℕ) (hl : l.Nodup) (c : ℕ) (f : ℕ → R) :
    (l.map fun i => if i = c then f i else 0).sum = if c ∈ l then f c else 0 := by
  rw [list_sum_eq hl, Finset.sum_ite_eq' l.toFinset c f]
  simp only [List.mem_toFinset]

theorem sum_delta {x y : ℕ} (l : List ℕ) (hl : l.Nodup) (f : ℕ → R) :
    (l.map fun i => (if i = y then f i else 0) - (if i = x then f i else 0)).sum =
      (if y ∈ l then f y else 0) - (if x ∈ l then f x else 0) := by
  rw [← sum_ite l hl y f, ← sum_ite l hl x f]
  induction l with
  | nil => simp
  | cons a l ih => simp only [List.map_cons, List.sum_cons, ih (List.nodup_cons.1 hl).2]; ring

theorem triuSum_sym (u : ℕ → ℕ → R) (l : List ℕ) (hl : l.Nodup) :
    triuSum (fun i j => u i j + u j i) l = (l.map fun i => ((l.filter (· ≠ i)).map (u i)).sum).sum := by
  induction l with
  | nil => rfl
  | cons a l ih =>
    obtain ⟨ha, hl⟩ := List.nodup_cons.1 hl
    rw [triuSum, ih hl, List.map_cons, List.sum_cons]
    have h1 : (a :: l).filter (fun j => decide (j ≠ a)) = l := by
      rw [List.filter_cons_of_neg (by simp), List.filter_eq_self]
      intro j hj
      simp only [ne_eq, decide_not, Bool.not_eq_eq_eq_not, Bool.not_true, decide_eq_false_iff_not]
      rintro rfl; exact ha hj
    have h2 : ∀ i ∈ l, (((a :: l).filter (fun j => decide (j ≠ i))).map (u i)).sum =
        u i a + ((l.filter (fun j => decide (j ≠ i))).map (u i)).sum := by
      intro i hi
      have hai : a ≠ i := by rintro rfl; exact ha hi
      rw [List.filter_cons_of_pos (by simpa using hai), List.map_cons, List.sum_cons]
    rw [h1, List.map_congr_left h2, List.sum_map_add, List.sum_map_add]
    ring

theorem sum_mul_two (l : List ℕ) (f : ℕ → R) : (l.map fun s => 2 * f s).sum = 2 * (l.map f).sum :=
  List.sum_map_mul_left l f 2

theorem sum_neg' (l : List ℕ) (f : ℕ → R) : (l.map fun s => -f s).sum = -(l.map f).sum := by
  induction l with
  | nil => simp
  | cons a l ih => simp only [List.map_cons, List.sum_cons, ih]; ring

theorem sum_sub' (l : List ℕ) (f g : ℕ → R) : (l.map fun s => f s - g s).sum = (l.map f).sum - (l.map g).sum := by
  induction l with
  | nil => simp
  | cons a l ih => simp only [List.map_cons, List.sum_cons, ih]; ring

theorem sum_congr' {l : List ℕ} {f g : ℕ → R} (h : ∀ i ∈ l, f i = g i) : (l.map f).sum = (l.map g).sum := by
  rw [List.map_congr_left h]

/-- the diagonal sum of the first-order change -/
theorem sum_dOne {x y : ℕ} (hxy : x ≠ y) {h : ℕ → ℕ → R} (hh : ∀ i j, h i j = h j i) (l : List ℕ) (hl : l.Nodup) :
    (l.map fun i => dOne x y h i i).sum = (if y ∈ l then 2 * h x y else 0) - (if x ∈ l then 2 * h x y else 0) := by
  have e : ∀ i ∈ l, dOne x y h i i = (if i = y then 2 * h x y else 0) - (if i = x then 2 * h x y else 0) := by
    intro i _
    rw [dOne, dAxis_eq hxy, dAxis_eq hxy]
    by_cases h1 : i = y <;> by_cases h2 : i = x
    · omega
    · subst h1; simp only [h2, if_true, if_false, hh i x]; ring
    · subst h2; simp only [h1, if_true, if_false, hh y i]; ring
    · simp [h1, h2]
  rw [sum_congr' e]
  exact sum_delta l hl _

theorem triuSum_delta {x y : ℕ} (f : ℕ → ℕ → R) (A : ℕ → R)
    (l : List ℕ) (hl : l.Nodup)
    (hf : ∀ i j, f i j = ((if i = y then A j else 0) - (if i = x then A j else 0)) +
      ((if j = y then A i else 0) - (if j = x then A i else 0))) :
    triuSum f l = (if y ∈ l then ((l.filter (· ≠ y)).map A).sum else 0) -
      (if x ∈ l then ((l.filter (· ≠ x)).map A).sum else 0) := by
  have e : f = fun i j => (fun i j => (if i = y then A j else 0) - (if i = x then A j else 0)) i j +
      (fun i j => (if i = y then A j else 0) - (if i = x then A j else 0)) j i := by
    funext i j; exact hf i j
  rw [e, triuSum_sym _ l hl]
  have e2 : ∀ i ∈ l, ((l.filter (fun j => decide (j ≠ i))).map
        ((fun i j => (if i = y then A j else 0) - (if i = x then A j else 0)) i)).sum =
      (if i = y then ((l.filter (fun j => decide (j ≠ i))).map A).sum else 0) -
        (if i = x then ((l.filter (fun j => decide (j ≠ i))).map A).sum else 0) := by
    intro i _
    have hn := sum_neg' (l.filter (fun j => decide (j ≠ i))) A
    have hz : ((l.filter (fun j => decide (j ≠ i))).map (fun _ => (0 : R))).sum = 0 := by simp
    by_cases h1 : i = y <;> by_cases h2 : i = x
    · simp only [if_pos h1, if_pos h2, sub_self, hz]
    · simp only [if_pos h1, if_neg h2, sub_zero]
    · simp only [if_pos h2, if_neg h1, zero_sub, hn]
    · simp only [if_neg h1, if_neg h2, sub_self, hz]
  rw [sum_congr' e2]
  exact sum_delta l hl (fun i => ((l.filter (fun j => decide (j ≠ i))).map A).sum)

variable {g : ℕ → ℕ → ℕ → ℕ → R}

theorem triuSum_dTwo_coulomb {x y : ℕ} (hxy : x ≠ y) (hg : ∀ i j k l, g i j k l = g j i l k)
    (hr : ∀ i j k l, g i j k l = g k l i j) (l : List ℕ) (hl : l.Nodup) :
    triuSum (fun i j => dTwo x y g i j i j) l =
      (if y ∈ l then 2 * ((l.filter (· ≠ y)).map fun s => g x s y s).sum else 0) -
      (if x ∈ l then 2 * ((l.filter (· ≠ x)).map fun s => g x s y s).sum else 0) := by
  rw [triuSum_delta (x := x) (y := y) (fun i j => dTwo x y g i j i j) (fun j => 2 * g x j y j) l hl, sum_mul_two, sum_mul_two]
  intro i j
  simp only [dTwo, dTwo13, dTwo24, dAxis_eq hxy]
  have e1 : ∀ j, g y j x j = g x j y j := fun j => hr y j x j
  have e2 : ∀ i, g i x i y = g x i y i := fun i => hg i x i y
  have e3 : ∀ i, g i y i x = g x i y i := fun i => (hg i y i x).trans (hr y i x i)
  by_cases h1 : i = y <;> by_cases h2 : i = x <;> by_cases h3 : j = y <;> by_cases h4 : j = x <;>
    first
    | omega
    | (simp only [h1, h2, h3, h4, if_true, if_false, hxy, Ne.symm hxy, e1, e2, e3]; ring)

theorem triuSum_dTwo_exchange {x y : ℕ} (hxy : x ≠ y) (hg : ∀ i j k l, g i j k l = g j i l k)
    (hr : ∀ i j k l, g i j k l = g k l i j) (l : List ℕ) (hl : l.Nodup) :
    triuSum (fun i j => dTwo x y g i j j i) l =
      (if y ∈ l then 2 * ((l.filter (· ≠ y)).map fun s => g x s s y).sum else 0) -
      (if x ∈ l then 2 * ((l.filter (· ≠ x)).map fun s => g x s s y).sum else 0) := by
  rw [triuSum_delta (x := x) (y := y) (fun i j => dTwo x y g i j j i) (fun j => 2 * g x j j y) l hl, sum_mul_two, sum_mul_two]
  intro i j
  simp only [dTwo, dTwo13, dTwo24, dAxis_eq hxy]
  have e1 : ∀ j, g y j j x = g x j j y := fun j => (hg y j j x).trans (hr j y x j)
  have e2 : ∀ j, g j x y j = g x j j y := fun j => hg j x y j
  have e3 : ∀ j, g j y x j = g x j j y := fun j => (hr j y x j)
  by_cases h1 : i = y <;> by_cases h2 : i = x <;> by_cases h3 : j = y <;> by_cases h4 : j = x <;>
    first
    | omega
    | (simp only [h1, h2, h3, h4, if_true, if_false, hxy, Ne.symm hxy, e1, e2, e3]; ring)

/-! ### Sums over the shared orbitals of a single excitation -/

theorem dAxis_sum (x y : ℕ) (l : List ℕ) (f : ℕ → ℕ → R) (i : ℕ) :
    (l.map fun s => dAxis x y (f s) i).sum = dAxis x y (fun i => (l.map fun s => f s i).sum) i := by
  unfold dAxis
  split_ifs
  · exact sum_neg' _ _
  · rfl
  · simp

theorem sum_dTwo13_first {x y : ℕ} (hxy : x ≠ y) (l : List ℕ) (hl : l.Nodup) (a b : ℕ) :
    (l.map fun s => dTwo13 x y g s a s b).sum =
      (if y ∈ l then g x a y b + g y a x b else 0) - (if x ∈ l then g y a x b + g x a y b else 0) := by
  have e : ∀ s ∈ l, dTwo13 x y g s a s b =
      (if s = y then g x a y b + g y a x b else 0) - (if s = x then g y a x b + g x a y b else 0) := by
    intro s _
    simp only [dTwo13, dAxis_eq hxy]
    by_cases h1 : s = y <;> by_cases h2 : s = x <;>
      first
      | omega
      | (simp only [h1, h2, if_true, if_false, hxy, Ne.symm hxy]; ring)
  rw [sum_congr' e, sum_sub', sum_ite l hl y (fun _ => _), sum_ite l hl x (fun _ => _)]

theorem sum_dTwo24_second {x y : ℕ} (hxy : x ≠ y) (l : List ℕ) (hl : l.Nodup) (a b : ℕ) :
    (l.map fun s => dTwo24 x y g a s b s).sum =
      (if y ∈ l then g a x b y + g a y b x else 0) - (if x ∈ l then g a y b x + g a x b y else 0) := by
  have e : ∀ s ∈ l, dTwo24 x y g a s b s =
      (if s = y then g a x b y + g a y b x else 0) - (if s = x then g a y b x + g a x b y else 0) := by
    intro s _
    simp only [dTwo24, dAxis_eq hxy]
    by_cases h1 : s = y <;> by_cases h2 : s = x <;>
      first
      | omega
      | (simp only [h1, h2, if_true, if_false, hxy, Ne.symm hxy]; ring)
  rw [sum_congr' e, sum_sub', sum_ite l hl y (fun _ => _), sum_ite l hl x (fun _ => _)]

theorem sum_dTwo24_first (x y : ℕ) (l : List ℕ) (a b : ℕ) :
    (l.map fun s => dTwo24 x y g s a s b).sum =
      dAxis x y (fun a => (l.map fun s => g s a s b).sum) a + dAxis x y (fun b => (l.map fun s => g s a s b).sum) b := by
  simp only [dTwo24]
  rw [List.sum_map_add, dAxis_sum x y l (fun s a => g s a s b), dAxis_sum x y l (fun s b => g s a s b)]

theorem sum_dTwo13_second (x y : ℕ) (l : List ℕ) (a b : ℕ) :
    (l.map fun s => dTwo13 x y g a s b s).sum =
      dAxis x y (fun a => (l.map fun s => g a s b s).sum) a + dAxis x y (fun b => (l.map fun s => g a s b s).sum) b := by
  simp only [dTwo13]
  rw [List.sum_map_add, dAxis_sum x y l (fun s a => g a s b s), dAxis_sum x y l (fun s b => g a s b s)]

theorem sum_dTwo_first {x y : ℕ} (hxy : x ≠ y) (l : List ℕ) (hl : l.Nodup) (a b : ℕ) :
    (l.map fun s => dTwo x y g s a s b).sum =
      (if y ∈ l then g x a y b + g y a x b else 0) - (if x ∈ l then g y a x b + g x a y b else 0) +
      (dAxis x y (fun a => (l.map fun s => g s a s b).sum) a + dAxis x y (fun b => (l.map fun s => g s a s b).sum) b) := by
  simp only [dTwo]
  rw [List.sum_map_add, sum_dTwo13_first hxy l hl, sum_dTwo24_first]

theorem sum_dTwo_exchange {x y : ℕ} (hxy : x ≠ y) (l : List ℕ) (hl : l.Nodup) (a b : ℕ) :
    (l.map fun s => dTwo x y g s a b s).sum =
      (if y ∈ l then g x a b y + g y a b x else 0) - (if x ∈ l then g y a b x + g x a b y else 0) +
      (dAxis x y (fun a => (l.map fun s => g s a b s).sum) a + dAxis x y (fun b => (l.map fun s => g s a b s).sum) b) := by
  have e : ∀ s ∈ l, dTwo x y g s a b s =
      (if s = y then g x a b y + g y a b x else 0) - (if s = x then g y a b x + g x a b y else 0) +
      (dAxis x y (fun a => g s a b s) a + dAxis x y (fun b => g s a b s) b) := by
    intro s _
    simp only [dTwo, dTwo13, dTwo24]
    rw [dAxis_eq hxy (fun i => g i a b s) s, dAxis_eq hxy (fun l => g s a b l) s]
    by_cases h1 : s = y <;> by_cases h2 : s = x <;>
      first
      | omega
      | (simp only [h1, h2, if_true, if_false, hxy, Ne.symm hxy]; ring)
  rw [sum_congr' e, List.sum_map_add, sum_sub', sum_ite l hl y (fun _ => _), sum_ite l hl x (fun _ => _),
    List.sum_map_add, dAxis_sum x y l (fun s a => g s a b s), dAxis_sum x y l (fun s b => g s a b s)]

/-! ### Generalized orbitals -/

theorem genDerivZero_eq (H : GenHam R) {x y : ℕ} (hxy : x ≠ y) (hh : ∀ i j, H.one i j = H.one j i)
    (hg : ∀ i j k l, H.two i j k l = H.two j i l k) (hr : ∀ i j k l, H.two i j k l = H.two k l i j)
    (l : List ℕ) (hl : l.Nodup) :
    genDerivZero H x y l = ((l.map fun i => dOne x y H.one i i).sum,
      triuSum (fun i j => dTwo x y H.two i j i j) l, -triuSum (fun i j => dTwo x y H.two i j j i) l) := by
  rw [sum_dOne hxy hh l hl, triuSum_dTwo_coulomb hxy hg hr l hl, triuSum_dTwo_exchange hxy hg hr l hl]
  unfold genDerivZero
  by_cases h1 : x ∈ l <;> by_cases h2 : y ∈ l <;>
    simp only [h1, h2, if_true, if_false, Prod.mk_add_mk, zero_add, add_zero, Prod.mk.injEq] <;>
    first
    | (refine ⟨?_, ?_, ?_⟩ <;> ring)
    | (ext <;> simp)

theorem genDerivOne_eq (H : GenHam R) {x y : ℕ} (hxy : x ≠ y) (hg : ∀ i j k l, H.two i j k l = H.two j i l k)
    {a b : ℕ} (hab : a ≠ b) (l : List ℕ) (hl : l.Nodup) (ha : a ∉ l) (hb : b ∉ l) :
    genDerivOne H a b x y l = (dOne x y H.one a b, (l.map fun s => dTwo x y H.two s a s b).sum,
      -(l.map fun s => dTwo x y H.two s a b s).sum) := by
  rw [sum_dTwo_first hxy l hl, sum_dTwo_exchange hxy l hl]
  simp only [dOne, dAxis_eq hxy]
  unfold genDerivOne
  have e1 : ∀ p q, (l.map fun s => H.two p s q s) = l.map fun s => H.two s p s q := fun p q =>
    List.map_congr_left fun s _ => hg p s q s
  have e2 : ∀ p q, (l.map fun s => H.two p s s q) = l.map fun s => H.two s p q s := fun p q =>
    List.map_congr_left fun s _ => hg p s s q
  simp only [e1, e2]
  by_cases h1 : x = a
  · subst h1
    have h5 : y ≠ x := Ne.symm hxy
    by_cases h2 : y = b
    · subst h2
      simp only [ha, hb, if_true, if_false, hxy, h5, Prod.mk_add_mk, zero_add, add_zero, Prod.mk.injEq]
      refine ⟨?_, ?_, ?_⟩ <;> ring
    · by_cases h3 : y ∈ l <;>
      · simp only [ha, h2, h3, Ne.symm h2, if_true, if_false, hxy, h5, hab, Ne.symm hab, Prod.mk_add_mk, zero_add,
          add_zero, Prod.mk.injEq]
        refine ⟨?_, ?_, ?_⟩ <;> ring
  · by_cases h2 : x = b
    · subst h2
      by_cases h3 : y = a
      · subst h3
        simp only [ha, hb, if_true, if_false, hxy, h1, Ne.symm hxy, Prod.mk_add_mk, zero_add, add_zero, Prod.mk.injEq]
        refine ⟨?_, ?_, ?_⟩ <;> ring
      · by_cases h4 : y ∈ l <;>
        · simp only [hb, h1, h3, h4, Ne.symm h3, Ne.symm h1, if_true, if_false, hxy, Ne.symm hxy, Prod.mk_add_mk, zero_add,
            add_zero, Prod.mk.injEq]
          refine ⟨?_, ?_, ?_⟩ <;> ring
    · by_cases h3 : y = a
      · subst h3
        by_cases h4 : x ∈ l <;>
        · simp only [ha, h1, h2, h4, Ne.symm h2, Ne.symm h1, hab, Ne.symm hab, if_true, if_false, hxy, Ne.symm hxy, Prod.mk_add_mk,
            zero_add, add_zero, Prod.mk.injEq]
          refine ⟨?_, ?_, ?_⟩ <;> ring
      · by_cases h4 : y = b
        · subst h4
          by_cases h5 : x ∈ l <;>
          · simp only [hb, h1, h2, h3, h5, Ne.symm h2, Ne.symm h1, Ne.symm h3, hab, Ne.symm hab, if_true, if_false,
              Prod.mk_add_mk, zero_add, add_zero, Prod.mk.injEq]
            refine ⟨?_, ?_, ?_⟩ <;> ring
        · by_cases h5 : x ∈ l <;> by_cases h6 : y ∈ l <;>
            simp only [h1, h2, h3, h4, h5, h6, Ne.symm h2, Ne.symm h1, Ne.symm h3, Ne.symm h4, if_true, if_false,
              Prod.mk_add_mk, zero_add, add_zero, Prod.mk.injEq] <;>
            first
            | (refine ⟨?_, ?_, ?_⟩ <;> ring)
            | (ext <;> simp)

theorem genDerivTwo_eq (H : GenHam R) {x y : ℕ} (hxy : x ≠ y) {a b c d : ℕ} (hab : a ≠ b) (hac : a ≠ c) (had : a ≠ d)
    (hbc : b ≠ c) (hbd : b ≠ d) (hcd : c ≠ d) :
    genDerivTwo H a b c d x y = (0, dTwo x y H.two a b c d, -dTwo x y H.two a b d c) := by
  simp only [dTwo, dTwo13, dTwo24, dAxis_eq hxy]
  unfold genDerivTwo
  have key : ∀ z : ℕ, (z = a ∧ z ≠ b ∧ z ≠ c ∧ z ≠ d) ∨ (z = b ∧ z ≠ a ∧ z ≠ c ∧ z ≠ d) ∨
      (z = c ∧ z ≠ a ∧ z ≠ b ∧ z ≠ d) ∨ (z = d ∧ z ≠ a ∧ z ≠ b ∧ z ≠ c) ∨ (z ≠ a ∧ z ≠ b ∧ z ≠ c ∧ z ≠ d) := by
    intro z; omega
  have sw : ∀ p q : ℕ, (p = q) = (q = p) := fun p q => propext eq_comm
  simp only [sw a x, sw b x, sw c x, sw d x, sw a y, sw b y, sw c y, sw d y]
  rcases key x with ⟨h1, h2, h3, h4⟩ | ⟨h1, h2, h3, h4⟩ | ⟨h1, h2, h3, h4⟩ | ⟨h1, h2, h3, h4⟩ | ⟨h1, h2, h3, h4⟩ <;>
    rcases key y with ⟨k1, k2, k3, k4⟩ | ⟨k1, k2, k3, k4⟩ | ⟨k1, k2, k3, k4⟩ | ⟨k1, k2, k3, k4⟩ | ⟨k1, k2, k3, k4⟩ <;>
    first
    | (exfalso; omega)
    | (simp only [h1, h2, h3, h4, k1, k2, k3, k4, hab, hac, had, hbc, hbd, hcd, Ne.symm hab, Ne.symm hac, Ne.symm had,
        Ne.symm hbc, Ne.symm hbd, Ne.symm hcd, if_true, if_false, Prod.mk_add_mk, zero_add, add_zero, Prod.mk.injEq]
       refine ⟨trivial, ?_, ?_⟩ <;> ring)
    | (simp only [h1, h2, h3, h4, k1, k2, k3, k4, hab, hac, had, hbc, hbd, hcd, Ne.symm hab, Ne.symm hac, Ne.symm had,
        Ne.symm hbc, Ne.symm hbd, Ne.symm hcd, if_true, if_false, add_zero, zero_add, sub_zero, neg_zero]
       try rfl)

end Fanpy.Lemmas
