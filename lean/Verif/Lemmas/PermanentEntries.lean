import Verif.Lemmas.PermanentLists
import Mathlib.Analysis.Calculus.Deriv.Add
import Mathlib.Analysis.Calculus.Deriv.Mul

/-! # Permanents with a changed row or column -/

namespace Fanpy.Props
open Fanpy.MathTools

/-- Changing entries that are all in one row or column changes the permanent by the sum of the changes times the minors. -/
theorem perL_entries {R : Type} [Field R] (P D : ℕ → ℕ → R) {rows cols : List ℕ} (hr : rows.Nodup) (hc : cols.Nodup) :
    ∀ S : List (ℕ × ℕ), S.Nodup → (∀ p ∈ S, ∀ q ∈ S, p.1 = q.1 ∨ p.2 = q.2) →
      perL (fun a b => if (a, b) ∈ S then P a b + D a b else P a b) rows cols =
        perL P rows cols + (S.map fun p => D p.1 p.2 * minorL P rows cols p.1 p.2).sum := by
  intro S
  induction S with
  | nil => intro _ _; simp
  | cons p S ih =>
    intro hn hS
    rw [List.nodup_cons] at hn
    have ih' := ih hn.2 fun a ha b hb => hS a (List.mem_cons_of_mem _ ha) b (List.mem_cons_of_mem _ hb)
    rw [List.map_cons, List.sum_cons]
    have h1 := perL_shift (fun a b => if (a, b) ∈ S then P a b + D a b else P a b) hr hc p.1 p.2 (D p.1 p.2)
    have h2 : minorL (fun a b => if (a, b) ∈ S then P a b + D a b else P a b) rows cols p.1 p.2 =
        minorL P rows cols p.1 p.2 := by
      rw [minorL, minorL]
      split_ifs with hm
      · apply perL_congr
        intro a ha b hb
        have ha' : a ≠ p.1 := by simpa using (List.mem_filter.1 ha).2
        have hb' : b ≠ p.2 := by simpa using (List.mem_filter.1 hb).2
        rw [if_neg]
        intro hab
        rcases hS p (List.mem_cons_self ..) _ (List.mem_cons_of_mem _ hab) with h | h
        · exact ha' h.symm
        · exact hb' h.symm
      · rfl
    rw [h2, ih'] at h1
    rw [add_comm (D p.1 p.2 * _), ← add_assoc, ← h1]
    apply perL_congr
    intro a _ b _
    by_cases hab : a = p.1 ∧ b = p.2
    · have hm : (a, b) = p := Prod.ext hab.1 hab.2
      rw [if_pos (by rw [hm]; exact List.mem_cons_self ..), if_pos hab, if_neg (by rw [hm]; exact hn.1), hab.1, hab.2]
    · have hm : (a, b) ≠ p := fun h => hab ⟨congrArg Prod.fst h, congrArg Prod.snd h⟩
      rw [if_neg hab]
      simp only [List.mem_cons, hm, false_or]

/-- The derivative of a permanent of which one row or column depends on the variable. -/
theorem hasDerivAt_perL (P : ℝ → ℕ → ℕ → ℝ) (P' : ℕ → ℕ → ℝ) (x₀ : ℝ) {rows cols : List ℕ} (hr : rows.Nodup)
    (hc : cols.Nodup) (S : List (ℕ × ℕ)) (hn : S.Nodup) (hS : ∀ p ∈ S, ∀ q ∈ S, p.1 = q.1 ∨ p.2 = q.2)
    (hout : ∀ x, ∀ a ∈ rows, ∀ b ∈ cols, (a, b) ∉ S → P x a b = P x₀ a b)
    (hd : ∀ p ∈ S, HasDerivAt (fun x => P x p.1 p.2) (P' p.1 p.2) x₀) :
    HasDerivAt (fun x => perL (P x) rows cols)
      (S.map fun p => P' p.1 p.2 * minorL (P x₀) rows cols p.1 p.2).sum x₀ := by
  have hf : (fun x => perL (P x) rows cols) = fun x => perL (P x₀) rows cols +
      (S.map fun p => (P x p.1 p.2 - P x₀ p.1 p.2) * minorL (P x₀) rows cols p.1 p.2).sum := by
    funext x
    rw [← perL_entries (P x₀) (fun a b => P x a b - P x₀ a b) hr hc S hn hS]
    apply perL_congr
    intro a ha b hb
    split_ifs with h
    · ring
    · exact hout x a ha b hb h
  rw [hf]
  apply HasDerivAt.const_add
  clear hf hout hS hn
  induction S with
  | nil => simpa using hasDerivAt_const x₀ (0 : ℝ)
  | cons p S ih =>
    simp only [List.map_cons, List.sum_cons]
    exact (((hd p (List.mem_cons_self ..)).sub_const _).mul_const _).fun_add
      (ih fun q hq => hd q (List.mem_cons_of_mem _ hq))

end Fanpy.Props
