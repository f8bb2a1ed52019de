import Verif.Model.Graphs
import Mathlib.Algebra.BigOperators.Group.Multiset.Defs
import Mathlib.Algebra.Order.BigOperators.Group.Multiset
import Mathlib.Tactic.Common

/-! # Property C18: `int_partition_recursive` -/

namespace Fanpy.Props
open Fanpy.Graphs

/-- C18. For distinct positive coins (of which the first `k` may be used) the generator terminates and yields, each
exactly once, the multisets of these coins whose sum is the requested total. -/
theorem C18_int_partition (coins : List ℕ) (k total : ℕ) (hn : coins.Nodup) (hpos : ∀ c ∈ coins, 0 < c)
    (hk : k ≤ coins.length) :
    ∃ L : List (List ℕ), intPartition coins k total = some L ∧
      (L.map (fun p : List ℕ => (p : Multiset ℕ))).Nodup ∧
      ∀ m : Multiset ℕ, m ∈ L.map (fun p : List ℕ => (p : Multiset ℕ)) ↔ (∀ c ∈ m, c ∈ coins.take k) ∧ m.sum = total := by
  induction total using Nat.strong_induction_on generalizing k with
  | _ total iht =>
  induction k with
  | zero =>
    rw [intPartition]
    by_cases h0 : total = 0
    · subst h0
      refine ⟨[[]], by simp, by simp, ?_⟩
      intro m
      simp only [List.map_cons, List.map_nil, List.mem_singleton, List.take_zero, List.not_mem_nil]
      constructor
      · rintro rfl; simp
      · rintro ⟨h, -⟩
        exact Multiset.eq_zero_of_forall_notMem h
    · refine ⟨[], by simp [h0], by simp, ?_⟩
      intro m
      simp only [List.map_nil, List.not_mem_nil, false_iff, List.take_zero]
      rintro ⟨h, hs⟩
      rw [Multiset.eq_zero_of_forall_notMem h] at hs
      simp at hs; exact h0 hs.symm
  | succ k ihk =>
    rw [intPartition]
    by_cases h0 : total = 0
    · subst h0
      refine ⟨[[]], by simp, by simp, ?_⟩
      intro m
      simp only [List.map_cons, List.map_nil, List.mem_singleton]
      constructor
      · rintro rfl; simp
      · rintro ⟨h, hs⟩
        apply Multiset.eq_zero_of_forall_notMem
        intro c hc
        have h1 := hpos c (List.mem_of_mem_take (h c hc))
        have h2 := Multiset.single_le_sum (fun x _ => Nat.zero_le x) c hc
        omega
    · have hk' : k < coins.length := hk
      set c := coins[k] with hc
      have hcpos : 0 < c := hpos c (List.getElem_mem _)
      have htake : coins.take (k + 1) = coins.take k ++ [c] := by
        rw [List.take_append_getElem]
      have hcnot : c ∉ coins.take k := by
        have : (coins.take (k + 1)).Nodup := hn.sublist (List.take_sublist _ _)
        rw [htake, List.nodup_append] at this
        intro h; exact this.2.2 c h c (by simp) rfl
      obtain ⟨E, hE, hEn, hEm⟩ := ihk (by omega)
      -- the branch that includes the coin
      obtain ⟨I, hI, hIn, hIm⟩ : ∃ I : List (List ℕ),
          (if c ≤ total then intPartition coins (k + 1) (total - c) else some []) = some I ∧
          (I.map (fun p : List ℕ => (p : Multiset ℕ))).Nodup ∧
          ∀ m : Multiset ℕ, m ∈ I.map (fun p : List ℕ => (p : Multiset ℕ)) ↔
            (∀ x ∈ m, x ∈ coins.take (k + 1)) ∧ m.sum + c = total := by
        by_cases hle : c ≤ total
        · obtain ⟨I, hI, hIn, hIm⟩ := iht (total - c) (by omega) (k + 1) hk
          refine ⟨I, by rw [if_pos hle, hI], hIn, fun m => ?_⟩
          rw [hIm]
          constructor
          · rintro ⟨a, b⟩; exact ⟨a, by omega⟩
          · rintro ⟨a, b⟩; exact ⟨a, by omega⟩
        · refine ⟨[], by rw [if_neg hle], by simp, fun m => ?_⟩
          simp only [List.map_nil, List.not_mem_nil, false_iff]
          rintro ⟨-, h⟩; omega
      refine ⟨I.map (c :: ·) ++ E, ?_, ?_, ?_⟩
      · rw [if_neg h0, List.getElem?_eq_getElem hk']
        simp only [← hc]
        rw [dif_neg (by omega)]
        by_cases hle : c ≤ total
        · rw [if_pos hle] at hI ⊢
          rw [hI, hE]; rfl
        · rw [if_neg hle] at hI ⊢
          rw [hE, ← Option.some.inj hI]; rfl
      · rw [List.map_append, List.map_map, List.nodup_append]
        refine ⟨?_, hEn, ?_⟩
        · have : (I.map ((fun p : List ℕ => (p : Multiset ℕ)) ∘ (c :: ·))) =
              (I.map (fun p : List ℕ => (p : Multiset ℕ))).map (c ::ₘ ·) := by
            rw [List.map_map]; rfl
          rw [this]
          exact hIn.map (fun a b h => (Multiset.cons_inj_right c).1 h)
        · intro a ha b hb hab
          subst hab
          obtain ⟨p, hp, rfl⟩ := List.mem_map.1 ha
          have := ((hEm _).1 hb).1 c (by simp)
          exact hcnot this
      · intro m
        rw [List.map_append, List.map_map, List.mem_append, hEm]
        constructor
        · rintro (h | ⟨h1, h2⟩)
          · obtain ⟨p, hp, rfl⟩ := List.mem_map.1 h
            have := (hIm p).1 (List.mem_map_of_mem hp)
            refine ⟨?_, ?_⟩
            · intro x hx
              simp only [Function.comp, Multiset.mem_coe, List.mem_cons] at hx
              rcases hx with rfl | hx
              · rw [htake]; simp
              · exact this.1 x hx
            · simp only [Function.comp, Multiset.sum_coe, List.sum_cons] at this ⊢
              omega
          · exact ⟨fun x hx => by rw [htake]; exact List.mem_append_left _ (h1 x hx), h2⟩
        · rintro ⟨h1, h2⟩
          by_cases hcm : c ∈ m
          · left
            obtain ⟨m', rfl⟩ := Multiset.exists_cons_of_mem hcm
            rw [Multiset.sum_cons] at h2
            have := (hIm m').2 ⟨fun x hx => h1 x (by simp [hx]), by omega⟩
            obtain ⟨p, hp, rfl⟩ := List.mem_map.1 this
            exact List.mem_map.2 ⟨p, hp, rfl⟩
          · right
            refine ⟨fun x hx => ?_, h2⟩
            have := h1 x hx
            rw [htake, List.mem_append, List.mem_singleton] at this
            rcases this with h | h
            · exact h
            · exact absurd (h ▸ hx) hcm

-- coins 1, 2, 5 and total 6
example : ∃ L, intPartition [1, 2, 5] 3 6 = some L ∧ ([5, 1] : Multiset ℕ) ∈ L.map (fun p : List ℕ => (p : Multiset ℕ)) ∧
    ([2, 2, 1, 1] : Multiset ℕ) ∈ L.map (fun p : List ℕ => (p : Multiset ℕ)) := by
  obtain ⟨L, h, -, hm⟩ := C18_int_partition [1, 2, 5] 3 6 (by decide) (by decide) (by decide)
  exact ⟨L, h, (hm _).2 (by decide), (hm _).2 (by decide)⟩

/-- C18. A zero coin among the usable ones never terminates (and an out-of-range number of coin types raises). -/
theorem C18_zero_coin (coins : List ℕ) (k total : ℕ) (ht : total ≠ 0) (h : coins[k]? = some 0 ∨ coins[k]? = none) :
    intPartition coins (k + 1) total = none := by
  rw [intPartition, if_neg ht]
  rcases h with h | h <;> simp [h]

end Fanpy.Props
