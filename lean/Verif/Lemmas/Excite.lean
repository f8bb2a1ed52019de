import Verif.Lemmas.Bulk

/-! Sets of excitations: combinations of index lists against finite sets. -/

namespace Fanpy.Slater
open Fanpy.Spec Fanpy.It

theorem sublist_ext {l : List ℕ} (hl : l.Nodup) {c c' : List ℕ} (h1 : c.Sublist l) (h2 : c'.Sublist l)
    (hm : ∀ i, i ∈ c ↔ i ∈ c') : c = c' := by
  induction l generalizing c c' with
  | nil => rw [List.sublist_nil.1 h1, List.sublist_nil.1 h2]
  | cons x l ih =>
    rw [List.nodup_cons] at hl
    cases h1 with
    | cons _ h1 =>
      cases h2 with
      | cons _ h2 => exact ih hl.2 h1 h2 hm
      | cons_cons _ h2 => exact absurd (h1.subset ((hm x).2 (by simp))) hl.1
    | cons_cons _ h1 =>
      cases h2 with
      | cons _ h2 => exact absurd (h2.subset ((hm x).1 (by simp))) hl.1
      | cons_cons _ h2 =>
        congr 1
        apply ih hl.2 h1 h2
        intro i
        have := hm i
        simp only [List.mem_cons] at this
        by_cases hix : i = x
        · subst hix
          exact ⟨fun h => absurd (h1.subset h) hl.1, fun h => absurd (h2.subset h) hl.1⟩
        · simpa [hix] using this

theorem comb_exists (l : List ℕ) (A : Finset ℕ) (hl : l.Nodup) (hA : A ⊆ l.toFinset) :
    ∃ c ∈ comb l A.card, c.toFinset = A := by
  have e : (l.filter (· ∈ A)).toFinset = A := by
    ext i; simp only [List.toFinset_filter, Finset.mem_filter, List.mem_toFinset, decide_eq_true_eq]
    exact ⟨fun h => h.2, fun h => ⟨List.mem_toFinset.1 (hA h), h⟩⟩
  refine ⟨l.filter (· ∈ A), mem_comb.2 ⟨List.filter_sublist, ?_⟩, e⟩
  conv_rhs => rw [← e]
  rw [List.toFinset_card_of_nodup (hl.filter _)]

theorem excite_eq_of_length {sd : Option ℕ} {a c : List ℕ} (h : a.length = c.length) :
    excite sd (a ++ c) = .ok (create (annihilate sd a) c) := by
  have h1 : (a ++ c).length / 2 = a.length := by simp; omega
  have h2 : ¬ ((a ++ c).length % 2 ≠ 0) := by simp; omega
  simp only [excite, if_neg h2, h1, List.take_left, List.drop_left]

theorem create_annihilate_sdOf {sd : ℕ} {o v : List ℕ} (ho : o.Nodup) (hv : v.Nodup)
    (h1 : ∀ i ∈ o, sd.testBit i = true) (h2 : ∀ i ∈ v, sd.testBit i = false) :
    create (annihilate (some sd) o) v = some (sdOf ((occSet sd \ o.toFinset) ∪ v.toFinset)) := by
  rw [annihilate_of ho h1, create_of hv, occSet_sdOf]
  intro i hi
  rw [Bool.eq_false_iff, ne_eq, ← mem_occSet, occSet_sdOf]
  simp [mem_occSet, h2 i hi]

/-- the two index sets of an excitation are recovered from the result -/
theorem excited_recover {S O V : Finset ℕ} (hO : O ⊆ S) (hV : Disjoint S V) :
    S \ ((S \ O) ∪ V) = O ∧ ((S \ O) ∪ V) \ S = V := by
  rw [Finset.disjoint_left] at hV
  constructor
  · ext i
    simp only [Finset.mem_sdiff, Finset.mem_union, not_or, not_and, not_not]
    constructor
    · rintro ⟨h1, h2, h3⟩; exact h2 h1
    · intro h; exact ⟨hO h, fun _ => h, hV (hO h)⟩
  · ext i
    simp only [Finset.mem_sdiff, Finset.mem_union]
    constructor
    · rintro ⟨h1 | h1, h2⟩
      · exact absurd h1.1 h2
      · exact h1
    · intro h; exact ⟨Or.inr h, fun h' => hV h' h⟩

end Fanpy.Slater
