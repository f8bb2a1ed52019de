import Verif.Model.CI
import Verif.Props.SdList
import Verif.Lemmas.DensityPairs

/-! # Helper lemmas for the CI wavefunctions -/

namespace Fanpy.Lemmas
open Fanpy.CI Fanpy.Slater Fanpy.SdList Fanpy.Spec Fanpy.Props

theorem dictOf_concat (l : List ℕ) (a : ℕ) : dictOf (l ++ [a]) = Function.update (dictOf l) a (some l.length) := by
  simp [dictOf, List.zipIdx_append]

theorem dictOf_nil : dictOf [] = fun _ => none := rfl

theorem dictOf_none (l : List ℕ) (x : ℕ) : dictOf l x = none ↔ x ∉ l := by
  induction l using List.reverseRecOn with
  | nil => simp [dictOf_nil]
  | append_singleton l a ih =>
    rw [dictOf_concat, Function.update_apply]
    split_ifs with h
    · simp [h]
    · simp [ih, h]

theorem dictOf_some (l : List ℕ) (x i : ℕ) :
    dictOf l x = some i ↔ l[i]? = some x ∧ ∀ j, i < j → l[j]? ≠ some x := by
  induction l using List.reverseRecOn with
  | nil => simp [dictOf_nil]
  | append_singleton l a ih =>
    rw [dictOf_concat, Function.update_apply]
    split_ifs with h
    · subst h
      constructor
      · intro h
        obtain rfl : l.length = i := by simpa using h
        refine ⟨by simp, fun j hj => ?_⟩
        rw [List.getElem?_eq_none (by simp; omega)]
        simp
      · rintro ⟨h1, h2⟩
        have h3 := h2 l.length
        have h4 : i < (l ++ [x]).length := by
          by_contra hc
          rw [List.getElem?_eq_none (by omega)] at h1
          simp at h1
        rw [List.length_append, List.length_singleton] at h4
        by_cases hi : i = l.length
        · rw [hi]
        · exact absurd (by simp) (h3 (by omega))
    · rw [ih]
      constructor
      · rintro ⟨h1, h2⟩
        have h4 : i < l.length := by
          by_contra hc
          rw [List.getElem?_eq_none (by omega)] at h1
          simp at h1
        refine ⟨by rw [List.getElem?_append_left h4]; exact h1, fun j hj => ?_⟩
        by_cases hjl : j < l.length
        · rw [List.getElem?_append_left hjl]; exact h2 j hj
        · rw [List.getElem?_append_right (by omega)]
          rcases Nat.eq_zero_or_pos (j - l.length) with h0 | h0
          · rw [h0]; simpa using fun h' => h h'.symm
          · rw [List.getElem?_eq_none (by simp; omega)]; simp
      · rintro ⟨h1, h2⟩
        have h4 : i < l.length := by
          by_contra hc
          rw [List.getElem?_append_right (by omega)] at h1
          rcases Nat.eq_zero_or_pos (i - l.length) with h0 | h0
          · rw [h0] at h1
            exact h (by simpa using h1.symm)
          · rw [List.getElem?_eq_none (by simp; omega)] at h1; simp at h1
        rw [List.getElem?_append_left h4] at h1
        refine ⟨h1, fun j hj hc => ?_⟩
        have hjl : j < l.length := by
          by_contra hc'
          rw [List.getElem?_eq_none (by omega)] at hc
          simp at hc
        exact h2 j hj (by rw [List.getElem?_append_left hjl]; exact hc)

theorem dictOf_nodup {l : List ℕ} (hn : l.Nodup) (x i : ℕ) : dictOf l x = some i ↔ l[i]? = some x := by
  rw [dictOf_some]
  refine ⟨fun h => h.1, fun h => ⟨h, fun j hj hc => ?_⟩⟩
  have hi : i < l.length := by
    by_contra hc'
    rw [List.getElem?_eq_none (by omega)] at h
    simp at h
  exact hj.ne ((List.getElem?_inj hi hn).1 (h.trans hc.symm))

end Fanpy.Lemmas
