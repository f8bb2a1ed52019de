import Mathlib.Algebra.Order.BigOperators.Group.Finset
import Mathlib.Algebra.Order.Ring.Defs
import Mathlib.Algebra.BigOperators.Group.Finset.Piecewise
import Mathlib.Algebra.BigOperators.Ring.List
import Mathlib.Data.List.GetD
import Mathlib.Data.List.Perm.Basic
import Mathlib.Tactic.FieldSimp
import Mathlib.Tactic.Linarith
import Mathlib.Tactic.Ring
import Verif.Model.Alias

/-! Invariant of the loop that fills the alias table. -/

namespace Fanpy
namespace Alias

variable {K : Type} [Field K] [LinearOrder K] [IsStrictOrderedRing K]

/-- Everything that the loop preserves. -/
structure Inv (n : Nat) (w : Nat → K) (c : Nat → K) (iv : Nat → Option Nat)
    (L G : List Nat) : Prop where
  nodup : (L ++ G).Nodup
  bound : ∀ i ∈ L ++ G, i < n
  openEntries : ∀ i < n, (iv i = none ↔ i ∈ L ++ G)
  low : ∀ i < n, i ∉ G → 0 ≤ c i ∧ c i ≤ 1
  high : ∀ i ∈ G, 1 < c i
  target : ∀ i < n, ∀ g, iv i = some g → g < n
  mass : ∀ j < n, c j + ∑ i ∈ Finset.range n, (if iv i = some j then 1 - c i else 0) = w j
  total : ((L ++ G).map c).sum = ((L ++ G).length : K)

theorem sum_map_update (c : Nat → K) (g : Nat) (x : K) (l : List Nat) (h : g ∉ l) :
    (l.map (Function.update c g x)).sum = (l.map c).sum := by
  congr 1
  apply List.map_congr_left
  intro a ha
  rw [Function.update_of_ne]
  rintro rfl; exact h ha

theorem inv_step {n : Nat} {w c : Nat → K} {iv : Nat → Option Nat} {l g : Nat} {ls gs : List Nat}
    (h : Inv n w c iv (l :: ls) (g :: gs)) :
    (1 < c g + c l - 1 → Inv n w (Function.update c g (c g + c l - 1))
      (Function.update iv l (some g)) ls (g :: gs)) ∧
    (¬ 1 < c g + c l - 1 → Inv n w (Function.update c g (c g + c l - 1))
      (Function.update iv l (some g)) (g :: ls) gs) := by
  have hnd := h.nodup
  simp only [List.cons_append, List.nodup_cons, List.mem_append, List.mem_cons, not_or,
    List.nodup_append, List.nodup_cons] at hnd
  obtain ⟨⟨hlls, hlg, hlgs⟩, hls, ⟨hggs, hgs⟩, hdis⟩ := hnd
  have hgls : g ∉ ls := fun hm => hdis g hm g (Or.inl rfl) rfl
  have hln : l < n := h.bound l (by simp)
  have hgn : g < n := h.bound g (by simp)
  have hc : 1 < c g := h.high g (by simp)
  have hl := h.low l hln (by simp [hlg, hlgs])
  have hivl : iv l = none := (h.openEntries l hln).mpr (by simp)
  have hivg : iv g = none := (h.openEntries g hgn).mpr (by simp)
  have hmass : ∀ j < n, Function.update c g (c g + c l - 1) j + ∑ i ∈ Finset.range n,
      (if Function.update iv l (some g) i = some j then
        1 - Function.update c g (c g + c l - 1) i else 0) = w j := by
    intro j hj
    rw [← h.mass j hj]
    have hsum : ∑ i ∈ Finset.range n, (if Function.update iv l (some g) i = some j then
        1 - Function.update c g (c g + c l - 1) i else 0)
        = (∑ i ∈ Finset.range n, (if iv i = some j then 1 - c i else 0))
          + (if g = j then 1 - c l else 0) := by
      have h2 : (if g = j then 1 - c l else 0)
          = ∑ i ∈ Finset.range n, (if i = l then (if g = j then 1 - c l else 0) else 0) := by
        rw [Finset.sum_ite_eq' (Finset.range n) l]
        simp [hln]
      rw [h2, ← Finset.sum_add_distrib]
      apply Finset.sum_congr rfl
      intro i _
      by_cases hil : i = l
      · subst hil
        simp [hivl, Function.update_of_ne hlg]
      · rw [Function.update_of_ne hil, if_neg hil, add_zero]
        by_cases hig : i = g
        · subst hig; simp [hivg]
        · rw [Function.update_of_ne hig]
    rw [hsum]
    by_cases hgj : g = j
    · subst hgj; simp only [Function.update_self, if_true]; ring
    · rw [Function.update_of_ne (Ne.symm hgj)]; simp [hgj]
  have htarget : ∀ i < n, ∀ x, Function.update iv l (some g) i = some x → x < n := by
    intro i hi x hx
    by_cases hil : i = l
    · subst hil; simp only [Function.update_self, Option.some.injEq] at hx; omega
    · rw [Function.update_of_ne hil] at hx; exact h.target i hi x hx
  have htotal : ((ls ++ g :: gs).map (Function.update c g (c g + c l - 1))).sum
      = ((ls ++ g :: gs).length : K) := by
    have ht := h.total
    simp only [List.cons_append, List.map_cons, List.map_append, List.sum_cons, List.sum_append,
      List.length_cons, List.length_append, Nat.cast_add, Nat.cast_one] at ht ⊢
    rw [sum_map_update c g _ ls hgls, sum_map_update c g _ gs hggs, Function.update_self]
    linarith
  have hlow : ∀ i < n, i ∉ g :: gs →
      0 ≤ Function.update c g (c g + c l - 1) i ∧ Function.update c g (c g + c l - 1) i ≤ 1 := by
    intro i hi hm
    have : i ≠ g := fun e => hm (by simp [e])
    rw [Function.update_of_ne this]
    exact h.low i hi hm
  have hopen : ∀ i < n, (Function.update iv l (some g) i = none ↔ i ∈ ls ++ g :: gs) := by
    intro i hi
    by_cases hil : i = l
    · subst hil; simp [hlls, hlg, hlgs]
    · rw [Function.update_of_ne hil, h.openEntries i hi]
      simp [hil]
  constructor
  · intro hgt
    refine ⟨?_, ?_, hopen, hlow, ?_, htarget, hmass, htotal⟩
    · have := h.nodup
      rw [List.cons_append, List.nodup_cons] at this
      exact this.2
    · intro i hi; exact h.bound i (by rw [List.cons_append]; exact List.mem_cons_of_mem _ hi)
    · intro i hi
      by_cases hig : i = g
      · subst hig; rwa [Function.update_self]
      · rw [Function.update_of_ne hig]; exact h.high i hi
  · intro hle
    have hperm : (ls ++ g :: gs).Perm (g :: ls ++ gs) := List.perm_middle
    refine ⟨?_, ?_, ?_, ?_, ?_, htarget, hmass, ?_⟩
    · refine hperm.nodup ?_
      have := h.nodup
      rw [List.cons_append, List.nodup_cons] at this
      exact this.2
    · intro i hi
      exact h.bound i (by rw [List.cons_append]; exact List.mem_cons_of_mem _ (hperm.mem_iff.mpr hi))
    · intro i hi; rw [hopen i hi, hperm.mem_iff]
    · intro i hi hm
      by_cases hig : i = g
      · subst hig; rw [Function.update_self]
        exact ⟨by linarith [hl.1], not_lt.mp hle⟩
      · exact hlow i hi (by simp [hig, hm])
    · intro i hi
      have hig : i ≠ g := fun e => hggs (e ▸ hi)
      rw [Function.update_of_ne hig]
      exact h.high i (List.mem_cons_of_mem _ hi)
    · rw [← hperm.length_eq, ← htotal]
      exact ((hperm.map _).sum_eq).symm

theorem sum_eq_length_low : ∀ (l : List Nat) (c : Nat → K), (∀ i ∈ l, c i ≤ 1) →
    (l.map c).sum = (l.length : K) → ∀ i ∈ l, c i = 1
  | [], _, _, _ => by simp
  | a :: l, c, h, hs => by
    have hle : ∀ l' : List Nat, (∀ i ∈ l', c i ≤ 1) → (l'.map c).sum ≤ (l'.length : K) := by
      intro l'
      induction l' with
      | nil => simp
      | cons b l' ih =>
        intro hb
        have := ih (fun i hi => hb i (List.mem_cons_of_mem _ hi))
        have := hb b (by simp)
        simp only [List.map_cons, List.sum_cons, List.length_cons, Nat.cast_add, Nat.cast_one]
        linarith
    have h1 := hle l (fun i hi => h i (List.mem_cons_of_mem _ hi))
    have h2 := h a (by simp)
    simp only [List.map_cons, List.sum_cons, List.length_cons, Nat.cast_add, Nat.cast_one] at hs
    intro i hi
    rcases List.mem_cons.mp hi with rfl | hi
    · linarith
    · exact sum_eq_length_low l c (fun i hi => h i (List.mem_cons_of_mem _ hi)) (by linarith) i hi

theorem sum_gt_length : ∀ (l : List Nat) (c : Nat → K), (∀ i ∈ l, 1 < c i) → l ≠ [] →
    (l.length : K) < (l.map c).sum
  | [], _, _, h => absurd rfl h
  | [a], c, h, _ => by simpa using h a (by simp)
  | a :: b :: l, c, h, _ => by
    have := sum_gt_length (b :: l) c (fun i hi => h i (List.mem_cons_of_mem _ hi)) (by simp)
    have := h a (by simp)
    simp only [List.map_cons, List.sum_cons, List.length_cons, Nat.cast_add, Nat.cast_one] at *
    linarith

/-- What the finished table satisfies. -/
structure Final (n : Nat) (w : Nat → K) (c : Nat → K) (iv : Nat → Option Nat) : Prop where
  unit : ∀ i < n, 0 ≤ c i ∧ c i ≤ 1
  written : ∀ i < n, iv i = none → c i = 1
  target : ∀ i < n, ∀ g, iv i = some g → g < n
  mass : ∀ j < n, c j + ∑ i ∈ Finset.range n, (if iv i = some j then 1 - c i else 0) = w j

theorem final_of_inv {n : Nat} {w c : Nat → K} {iv : Nat → Option Nat} {L G : List Nat}
    (h : Inv n w c iv L G) (hd : L = [] ∨ G = []) : Final n w c iv := by
  have hG : G = [] := by
    rcases hd with rfl | rfl
    · by_contra hne
      have h1 := sum_gt_length G c h.high hne
      have h2 := h.total
      simp only [List.nil_append] at h2
      linarith
    · rfl
  subst hG
  refine ⟨fun i hi => h.low i hi (by simp), ?_, h.target, h.mass⟩
  intro i hi hn
  have hm := (h.openEntries i hi).mp hn
  refine sum_eq_length_low _ c ?_ h.total i hm
  intro j hj
  exact (h.low j (h.bound j hj) (by simp)).2

theorem populate_final {n : Nat} {w : Nat → K} : ∀ (k : Nat) (c : Nat → K)
    (iv : Nat → Option Nat) (L G : List Nat), L.length + G.length = k → Inv n w c iv L G →
    Final n w (populate c iv L G).1 (populate c iv L G).2
  | k, c, iv, [], G, _, h => by
    rw [populate]; exact final_of_inv h (Or.inl rfl)
  | k, c, iv, l :: ls, [], _, h => by
    rw [populate]
    · exact final_of_inv h (Or.inr rfl)
    · simp
  | 0, c, iv, l :: ls, g :: gs, hk, h => by simp at hk
  | k + 1, c, iv, l :: ls, g :: gs, hk, h => by
    rw [populate]
    simp only [Function.update_self]
    obtain ⟨h1, h2⟩ := inv_step h
    split_ifs with hif
    · exact populate_final k _ _ _ _ (by simp only [List.length_cons] at hk ⊢; omega) (h1 hif)
    · exact populate_final k _ _ _ _ (by simp only [List.length_cons] at hk ⊢; omega) (h2 hif)

omit [IsStrictOrderedRing K] in
theorem sortInto_spec (c : Nat → K) : ∀ (is L G : List Nat),
    (((sortInto c is (L, G)).1 ++ (sortInto c is (L, G)).2).Perm (is ++ (L ++ G))) ∧
    (∀ i ∈ (sortInto c is (L, G)).1, i ∈ L ∨ c i ≤ 1) ∧
    (∀ i ∈ (sortInto c is (L, G)).2, i ∈ G ∨ 1 < c i)
  | [], L, G => by
    refine ⟨by simp [sortInto], ?_, ?_⟩ <;> intro i hi <;> exact Or.inl hi
  | a :: is, L, G => by
    rw [sortInto]
    split_ifs with h
    · obtain ⟨h1, h2, h3⟩ := sortInto_spec c is L (a :: G)
      refine ⟨h1.trans ?_, h2, ?_⟩
      · rw [List.cons_append]
        refine (List.Perm.append_left is List.perm_middle).trans ?_
        exact List.perm_middle
      · intro i hi
        rcases h3 i hi with hi | hi
        · rcases List.mem_cons.mp hi with rfl | hi
          · exact Or.inr h
          · exact Or.inl hi
        · exact Or.inr hi
    · obtain ⟨h1, h2, h3⟩ := sortInto_spec c is (a :: L) G
      refine ⟨h1.trans ?_, ?_, h3⟩
      · rw [List.cons_append, List.cons_append]
        exact List.perm_middle
      · intro i hi
        rcases h2 i hi with hi | hi
        · rcases List.mem_cons.mp hi with rfl | hi
          · exact Or.inr (not_lt.mp h)
          · exact Or.inl hi
        · exact Or.inr hi

/-- The scaled weights. -/
theorem init_final (pvec : List K) (hp : ∀ x ∈ pvec, 0 ≤ x) (hs : 0 < pvec.sum) :
    Final pvec.length (fun i => pvec.getD i 0 * ((pvec.length : K) / pvec.sum))
      (init pvec).cvec (init pvec).ivec := by
  have hspec := sortInto_spec (fun i => pvec.getD i 0 * ((pvec.length : K) / pvec.sum))
    (List.range pvec.length) [] []
  obtain ⟨h1, h2, h3⟩ := hspec
  simp only [List.append_nil, List.not_mem_nil, false_or] at h1 h2 h3
  have hnn : ∀ i < pvec.length, 0 ≤ pvec.getD i 0 * ((pvec.length : K) / pvec.sum) := by
    intro i hi
    rw [List.getD_eq_getElem _ _ hi]
    exact mul_nonneg (hp _ (List.getElem_mem hi)) (div_nonneg (Nat.cast_nonneg _) hs.le)
  refine populate_final _ _ _ _ _ rfl ⟨?_, ?_, ?_, ?_, h3, ?_, ?_, ?_⟩
  · exact h1.symm.nodup List.nodup_range
  · intro i hi; exact List.mem_range.mp (h1.mem_iff.mp hi)
  · intro i hi
    simp only [true_iff]
    exact h1.mem_iff.mpr (List.mem_range.mpr hi)
  · intro i hi hm
    refine ⟨hnn i hi, ?_⟩
    have : i ∈ _ ++ _ := h1.mem_iff.mpr (List.mem_range.mpr hi)
    rcases List.mem_append.mp this with h | h
    · exact h2 i h
    · exact absurd h hm
  · intro i _ g hg; simp at hg
  · intro j _; simp
  · rw [(h1.map _).sum_eq, h1.length_eq, List.length_range, List.sum_map_mul_right]
    have : ((List.range pvec.length).map (fun i => pvec.getD i 0)) = pvec := by
      apply List.ext_getElem (by simp)
      intro i h1 h2
      rw [List.getElem_map, List.getElem_range, List.getD_eq_getElem _ _ h2]
    rw [this]
    field_simp

end Alias
end Fanpy
