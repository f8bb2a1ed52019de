import Verif.Model.FciMatrix
import Verif.Lemmas.UnrCore
import Mathlib.Data.Finset.Powerset

/-!
# Lemmas for `fci_cimatrix`
-/

namespace Fanpy.Pyscf
open Fanpy.Slater Fanpy.Spec Fanpy.Ham Fanpy.Lemmas Fanpy.It

theorem mem_strings {n k s : ℕ} : s ∈ strings n k ↔ s < 2 ^ n ∧ totalOcc (some s) = k := by
  simp [strings]

theorem strings_lt (n k : ℕ) : (strings n k).Pairwise (· < ·) := List.pairwise_lt_range.filter _

theorem strings_length (n k : ℕ) : (strings n k).length = n.choose k := by
  have h1 : (strings n k).toFinset.card = (strings n k).length :=
    List.toFinset_card_of_nodup ((strings_lt n k).imp fun h => ne_of_lt h)
  rw [← h1, ← Finset.card_range n, ← Finset.card_powersetCard, Finset.card_range]
  refine Finset.card_bij (fun s _ => occSet s) ?_ ?_ ?_
  · intro s hs
    rw [List.mem_toFinset, mem_strings] at hs
    rw [Finset.mem_powersetCard, ← totalOcc_eq]
    exact ⟨fun i hi => Finset.mem_range.2 (lt_two_pow_iff.1 hs.1 i hi), hs.2⟩
  · intro s _ t _ h
    exact occSet_injective h
  · intro t ht
    rw [Finset.mem_powersetCard] at ht
    refine ⟨sdOf t, ?_, occSet_sdOf t⟩
    rw [List.mem_toFinset, mem_strings, totalOcc_eq, occSet_sdOf, lt_two_pow_iff, occSet_sdOf]
    exact ⟨fun i hi => Finset.mem_range.1 (ht.1 hi), ht.2⟩

/-- addresses of pairs -/
theorem divmod_pairs {α β γ : Type} (f : α → β → γ) (a₀ : α) (b₀ : β) (a : List α) (b : List β) :
    (List.range (a.length * b.length)).map (fun i => f (a.getD (i / b.length) a₀) (b.getD (i % b.length) b₀)) =
      a.flatMap fun x => b.map fun y => f x y := by
  induction a with
  | nil => simp
  | cons x a ih =>
    rw [List.length_cons, Nat.succ_mul, Nat.add_comm, List.range_add, List.map_append, List.flatMap_cons, ← ih, List.map_map]
    congr 1
    · apply List.ext_getElem (by simp)
      intro i h1 h2
      simp only [List.length_map, List.length_range] at h1
      simp only [List.getElem_map, List.getElem_range, Nat.div_eq_of_lt h1, Nat.mod_eq_of_lt h1, List.getD_cons_zero,
        List.getD_eq_getElem _ _ h1]
    · apply List.map_congr_left
      intro i hi
      have hb : 0 < b.length := by
        rcases Nat.eq_zero_or_pos b.length with h | h
        · rw [h] at hi; simp at hi
        · exact h
      simp only [Function.comp, Nat.add_div_left _ hb, Nat.add_mod_left, List.getD_cons_succ]

theorem combine_parts {n s : ℕ} (hs : s < 2 ^ n) (t : ℕ) :
    (s ||| t <<< n) % 2 ^ n = s ∧ (s ||| t <<< n) / 2 ^ n = t ∧ (s ||| t <<< n) = t * 2 ^ n + s := by
  have e : s ||| t <<< n = t * 2 ^ n + s := by
    rw [Nat.lor_comm, Nat.shiftLeft_eq, Nat.mul_comm, ← Nat.two_pow_add_eq_or_of_lt hs]
  refine ⟨?_, ?_, e⟩
  · rw [e, Nat.mul_comm, Nat.mul_add_mod, Nat.mod_eq_of_lt hs]
  · rw [e, Nat.add_comm, Nat.add_mul_div_right _ _ (Nat.two_pow_pos n), Nat.div_eq_of_lt hs, Nat.zero_add]

theorem fullSum_symm {R : Type} [CommRing R] (f : ℕ → ℕ → R) (hf : ∀ i j, f i j = f j i) (l : List ℕ) :
    (l.map fun i => (l.map fun j => f i j).sum).sum = 2 * triuSum f l + (l.map fun i => f i i).sum := by
  induction l with
  | nil => simp [triuSum]
  | cons a l ih =>
    simp only [List.map_cons, List.sum_cons, triuSum]
    have h1 : (l.map fun i => f i a + (l.map fun j => f i j).sum).sum = (l.map (f a)).sum + (l.map fun i => (l.map fun j => f i j).sum).sum := by
      rw [← List.sum_map_add]
      simp only [hf a]
    rw [h1, ih]
    ring

/-- alpha electrons of a determinant -/
theorem alpha_card (sd n : ℕ) : totalOcc (some (sd % 2 ^ n)) = ((occSet sd).filter (· < n)).card := by
  rw [totalOcc_eq]
  congr 1
  ext i
  rw [mem_occSet, Finset.mem_filter, mem_occSet, Nat.testBit_mod_two_pow]
  simp [and_comm]

/-- beta electrons of a determinant -/
theorem beta_card (sd n : ℕ) : totalOcc (some (sd / 2 ^ n)) = ((occSet sd).filter (fun i => ¬ i < n)).card := by
  rw [totalOcc_eq]
  refine Finset.card_bij (fun i _ => i + n) ?_ ?_ ?_
  · intro i hi
    rw [mem_occSet, Nat.testBit_div_two_pow] at hi
    rw [Finset.mem_filter, mem_occSet]
    exact ⟨hi, by omega⟩
  · intro i _ j _ h
    omega
  · intro i hi
    rw [Finset.mem_filter, mem_occSet] at hi
    refine ⟨i - n, ?_, by omega⟩
    rw [mem_occSet, Nat.testBit_div_two_pow, show i - n + n = i by omega]
    exact hi.1

theorem card_exc {sd : ℕ} {o v : List ℕ} (h : Exc sd o v) (p : ℕ → Prop) [DecidablePred p]
    (hc : (o.toFinset.filter p).card = (v.toFinset.filter p).card) :
    ((occSet (exc sd o v)).filter p).card = ((occSet sd).filter p).card := by
  have e : (occSet sd \ o.toFinset).filter p = (occSet sd).filter p \ o.toFinset.filter p := by
    ext i
    simp only [Finset.mem_filter, Finset.mem_sdiff]
    tauto
  rw [occSet_exc, Finset.filter_union, Finset.card_union_of_disjoint, ← hc, e, Finset.card_sdiff_add_card_eq_card]
  · apply Finset.filter_subset_filter
    intro i hi
    exact mem_occSet.2 (h.ho i (List.mem_toFinset.1 hi))
  · apply Finset.disjoint_filter_filter
    rw [Finset.disjoint_left]
    intro i hi hv
    have := h.hv i (List.mem_toFinset.1 hv)
    have h2 := mem_occSet.1 (Finset.mem_sdiff.1 hi).1
    rw [this] at h2
    exact absurd h2 (by simp)

theorem filter_card_of_all {l : List ℕ} (hl : l.Pairwise (· < ·)) {p : ℕ → Prop} [DecidablePred p] (h : ∀ i ∈ l, p i) :
    (l.toFinset.filter p).card = l.length := by
  rw [Finset.filter_true_of_mem (fun i hi => h i (List.mem_toFinset.1 hi)), List.toFinset_card_of_nodup (hl.imp fun h => ne_of_lt h)]

theorem filter_card_of_none {l : List ℕ} {p : ℕ → Prop} [DecidablePred p] (h : ∀ i ∈ l, ¬ p i) : (l.toFinset.filter p).card = 0 := by
  rw [Finset.filter_false_of_mem (fun i hi => h i (List.mem_toFinset.1 hi)), Finset.card_empty]

/-- the excitations that the Hamiltonian connects have the same number of electrons of each spin -/
theorem spinExcL_card {n sd : ℕ} {oa ob va vb : List ℕ} (hB : Blocks n sd oa ob va vb) {m : ℕ}
    (hm : m ∈ spinExcL sd n oa ob va vb) :
    totalOcc (some (m % 2 ^ n)) = totalOcc (some (sd % 2 ^ n)) ∧ totalOcc (some (m / 2 ^ n)) = totalOcc (some (sd / 2 ^ n)) := by
  simp only [alpha_card, beta_card]
  have la : ∀ i ∈ oa, i < n := fun i hi => ((hB.hoa i).1 hi).1
  have lv : ∀ i ∈ va, i < n := fun i hi => ((hB.hva i).1 hi).1
  have lb : ∀ i ∈ ob.map (· + n), ¬ i < n := by
    intro i hi
    obtain ⟨j, -, rfl⟩ := List.mem_map.1 hi
    omega
  have lw : ∀ i ∈ vb.map (· + n), ¬ i < n := by
    intro i hi
    obtain ⟨j, -, rfl⟩ := List.mem_map.1 hi
    omega
  have alpha : ∀ k, m ∈ excL sd (comb oa k) (comb va k) →
      ((occSet m).filter (· < n)).card = ((occSet sd).filter (· < n)).card ∧
      ((occSet m).filter (fun i => ¬ i < n)).card = ((occSet sd).filter (fun i => ¬ i < n)).card := by
    intro k hm
    obtain ⟨o, ho, v, hv, rfl⟩ := mem_excL.1 hm
    have hE := hB.excA k o ho v hv
    have so := (mem_comb.1 ho).1.subset
    have sv := (mem_comb.1 hv).1.subset
    refine ⟨card_exc hE _ ?_, card_exc hE _ ?_⟩
    · rw [filter_card_of_all hE.so (fun i hi => la i (so hi)), filter_card_of_all hE.sv (fun i hi => lv i (sv hi)), hE.hl]
    · rw [filter_card_of_none (fun i hi => by simpa using la i (so hi)), filter_card_of_none (fun i hi => by simpa using lv i (sv hi))]
  have beta : ∀ k, m ∈ excL sd (comb (ob.map (· + n)) k) (comb (vb.map (· + n)) k) →
      ((occSet m).filter (· < n)).card = ((occSet sd).filter (· < n)).card ∧
      ((occSet m).filter (fun i => ¬ i < n)).card = ((occSet sd).filter (fun i => ¬ i < n)).card := by
    intro k hm
    obtain ⟨o, ho, v, hv, rfl⟩ := mem_excL.1 hm
    have hE := hB.excB k o ho v hv
    have so := (mem_comb.1 ho).1.subset
    have sv := (mem_comb.1 hv).1.subset
    refine ⟨card_exc hE _ ?_, card_exc hE _ ?_⟩
    · rw [filter_card_of_none (fun i hi => lb i (so hi)), filter_card_of_none (fun i hi => lw i (sv hi))]
    · rw [filter_card_of_all hE.so (fun i hi => lb i (so hi)), filter_card_of_all hE.sv (fun i hi => lw i (sv hi)), hE.hl]
  simp only [spinExcL, List.mem_cons, List.mem_append] at hm
  rcases hm with rfl | h | h | h | h | h
  · exact ⟨rfl, rfl⟩
  · exact alpha 1 h
  · exact beta 1 h
  · exact alpha 2 h
  · obtain ⟨o, ho, v, hv, rfl⟩ := mem_excL.1 h
    have hE := hB.excAB o ho v hv
    obtain ⟨a, ha, b, hb, rfl⟩ := mem_pairsAB.1 ho
    obtain ⟨c, hc, d, hd, rfl⟩ := mem_pairsAB.1 hv
    have key : ∀ x y : ℕ, x < n → ¬ y < n → (([x, y].toFinset).filter (· < n)).card = 1 ∧
        (([x, y].toFinset).filter (fun i => ¬ i < n)).card = 1 := by
      intro x y hx hy
      constructor
      · rw [Finset.card_eq_one]
        refine ⟨x, ?_⟩
        ext i
        simp only [Finset.mem_filter, List.mem_toFinset, List.mem_cons, List.not_mem_nil, or_false, Finset.mem_singleton]
        constructor
        · rintro ⟨rfl | rfl, h⟩
          · rfl
          · exact absurd h hy
        · rintro rfl
          exact ⟨Or.inl rfl, hx⟩
      · rw [Finset.card_eq_one]
        refine ⟨y, ?_⟩
        ext i
        simp only [Finset.mem_filter, List.mem_toFinset, List.mem_cons, List.not_mem_nil, or_false, Finset.mem_singleton]
        constructor
        · rintro ⟨rfl | rfl, h⟩
          · exact absurd hx h
          · rfl
        · rintro rfl
          exact ⟨Or.inr rfl, hy⟩
    have k1 := key a b (la a ha) (lb b hb)
    have k2 := key c d (lv c hc) (lw d hd)
    exact ⟨card_exc hE _ (by rw [k1.1, k2.1]), card_exc hE _ (by rw [k1.2, k2.2])⟩
  · exact beta 2 h

end Fanpy.Pyscf
