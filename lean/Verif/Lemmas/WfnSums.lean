import Verif.Lemmas.Excitations

/-!
# Sums over excitations
-/

namespace Fanpy.Lemmas
open Finset Fanpy.Spec Fanpy.Slater Fanpy.Props Fanpy.Ham Fanpy.It

theorem foldlM_add {M α : Type} [AddCommMonoid M] (step : M → α → Except PyErr M) (G : α → M) (l : List α)
    (h : ∀ acc, ∀ x ∈ l, step acc x = .ok (acc + G x)) (acc : M) :
    l.foldlM step acc = .ok (acc + (l.map G).sum) := by
  induction l generalizing acc with
  | nil => simp [List.foldlM, pure, Except.pure]
  | cons x xs ih =>
    rw [List.foldlM_cons, h acc x (by simp)]
    simp only [bind, Except.bind]
    rw [ih (fun acc y hy => h acc y (by simp [hy]))]
    simp [add_assoc]

theorem mem_excL_all {n sd m k : ℕ} (hsd : sd < 2 ^ n) :
    m ∈ excL sd (comb (occIndices (some sd)) k) (comb (virIndices (some sd) n) k) ↔
      m < 2 ^ n ∧ (diffOrbs sd m).1.length = k ∧ (diffOrbs sd m).2.length = k := by
  have hE := exc_comb (sd := sd) (sorted_occIndices sd) (sorted_virIndices sd n) (fun _ hi => mem_occIndices.1 hi)
    (fun i hi => (mem_virIndices.1 hi).2) k
  obtain ⟨-, m1, m2, s1, s2, -⟩ := C04_diff_orbs sd m
  constructor
  · intro hm
    have hm' := hm
    rw [mem_excL_diff hE, mem_comb, mem_comb] at hm
    refine ⟨?_, hm.1.2, hm.2.2⟩
    obtain ⟨o, ho, v, hv, rfl⟩ := mem_excL.1 hm'
    apply exc_lt hsd
    intro i hi
    have := mem_virIndices.1 ((mem_comb.1 hv).1.subset hi)
    omega
  · rintro ⟨hm, e1, e2⟩
    rw [mem_excL_diff hE]
    constructor
    · rw [← e1]
      exact mem_comb_sorted (sorted_occIndices sd) s1 fun i hi => mem_occIndices.2 ((m1 i).1 hi).1
    · rw [← e2]
      refine mem_comb_sorted (sorted_virIndices sd n) s2 fun i hi => mem_virIndices.2 ⟨?_, ((m2 i).1 hi).2⟩
      have := lt_two_pow_iff.1 hm i (mem_occSet.2 ((m2 i).1 hi).1)
      omega

theorem nodup_excL_all (n sd k : ℕ) :
    (excL sd (comb (occIndices (some sd)) k) (comb (virIndices (some sd) n) k)).Nodup :=
  nodup_excL (comb_nodup k (nodup_occIndices sd)) (comb_nodup k ((sorted_virIndices sd n).imp fun h => Nat.ne_of_lt h))
    (exc_comb (sd := sd) (sorted_occIndices sd) (sorted_virIndices sd n) (fun _ hi => mem_occIndices.1 hi)
    (fun _ hi => (mem_virIndices.1 hi).2) k)

theorem diff_self (sd : ℕ) : diffOrbs sd sd = ([], []) := by
  apply Prod.ext
  · rw [← List.length_eq_zero_iff, diffOrbs_fst_length]; simp
  · rw [← List.length_eq_zero_iff, diffOrbs_snd_length]; simp

theorem eq_of_diff_nil {sd m : ℕ} (h1 : (diffOrbs sd m).1.length = 0) (h2 : (diffOrbs sd m).2.length = 0) : m = sd := by
  rw [diffOrbs_fst_length, Finset.card_eq_zero, Finset.sdiff_eq_empty_iff_subset] at h1
  rw [diffOrbs_snd_length, Finset.card_eq_zero, Finset.sdiff_eq_empty_iff_subset] at h2
  exact occSet_injective (Finset.Subset.antisymm h2 h1)

theorem dotOverlaps_eq {R α : Type} [CommRing R] [AddCommMonoid α] (mul : R → α → α) (dets : List ℕ) (f : ℤ → R) (L : List α)
    (D : ℕ → α) (h : L = dets.map D) :
    dotOverlaps mul L ((dets.map (fun (x : ℕ) => (x : ℤ))).map f) = .ok (dets.map (fun (m : ℕ) => mul (f m) (D m))).sum := by
  subst h
  rw [dotOverlaps, if_pos (by simp)]
  congr 2
  rw [List.map_map]
  induction dets with
  | nil => rfl
  | cons d ds ih => simp [ih]

theorem scale_zero {R : Type} [CommRing R] (c : R) : scale c 0 = 0 := by simp [scale]

/-- an array of matrix elements: signs times values (`ι` puts the computed components in place) -/
theorem array_eq' {α β γ : Type} (mul : ℤ → α → α) (ι : α → β) (pairs : List γ) (signs : List ℤ) (g : γ → Except PyErr ℤ)
    (val : γ → α) (e : γ → ℕ) (elem : ℕ → Except PyErr β) (h : signs.map (Except.ok (ε := PyErr)) = pairs.map g)
    (he : ∀ p ∈ pairs, ∃ s, g p = .ok s ∧ elem (e p) = .ok (ι (mul s (val p)))) :
    ∃ L, mulSigns mul signs (pairs.map val) = .ok L ∧ L.map (fun t => Except.ok (ι t)) = (pairs.map e).map elem := by
  obtain ⟨e1, e2⟩ := mulSigns_eq mul pairs signs g val h
  refine ⟨_, by rw [mulSigns, if_pos e1], ?_⟩
  have e3 := congrArg (List.map (fun x : Except PyErr α => x.bind fun t => Except.ok (ε := PyErr) (ι t))) e2
  rw [List.map_map, List.map_map] at e3
  refine e3.trans ?_
  rw [List.map_map]
  apply List.map_congr_left
  intro p hp
  obtain ⟨s, h1, h2⟩ := he p hp
  rw [Function.comp, h1, Function.comp, h2]
  rfl

/-- an array of matrix elements: signs times values -/
theorem array_eq {α γ : Type} (mul : ℤ → α → α) (pairs : List γ) (signs : List ℤ) (g : γ → Except PyErr ℤ)
    (val : γ → α) (e : γ → ℕ) (elem : ℕ → Except PyErr α) (h : signs.map (Except.ok (ε := PyErr)) = pairs.map g)
    (he : ∀ p ∈ pairs, ∃ s, g p = .ok s ∧ elem (e p) = .ok (mul s (val p))) :
    ∃ L, mulSigns mul signs (pairs.map val) = .ok L ∧ L.map Except.ok = (pairs.map e).map elem :=
  array_eq' mul id pairs signs g val e elem h he

theorem comb_two_ne_nil {α : Type} {l : List α} (h : l.length > 1) : comb l 2 ≠ [] := by
  match l, h with
  | x :: y :: r, _ =>
    intro e
    have : [x, y] ∈ comb (x :: y :: r) 2 := mem_comb.2 ⟨by simp, rfl⟩
    rw [e] at this
    cases this

theorem comb_two_nil {α : Type} {l : List α} (h : ¬ l.length > 1) : comb l 2 = [] := by
  match l, h with
  | [], _ => rfl
  | [x], _ => rfl
  | x :: y :: r, h => exact absurd (by simp) h

end Fanpy.Lemmas
