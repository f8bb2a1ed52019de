import Verif.Model.Factory
import Verif.Lemmas.WfnSums
import Mathlib.Algebra.BigOperators.Group.Finset.Basic

/-!
# Helper lemmas on the loops of generated Hamiltonians
-/

namespace Fanpy.Lemmas
open Finset Fanpy.Spec Fanpy.Slater Fanpy.It Fanpy.Factory Fanpy.Ham

variable {R : Type} [CommRing R]

theorem foldlM_emb {M V α : Type} [AddCommMonoid M] (ι : M → V) (step : V → α → Except PyErr V) (G : α → M) (l : List α)
    (h : ∀ acc, ∀ x ∈ l, step (ι acc) x = .ok (ι (acc + G x))) (acc : M) :
    l.foldlM step (ι acc) = .ok (ι (acc + (l.map G).sum)) := by
  induction l generalizing acc with
  | nil => simp [List.foldlM, pure, Except.pure]
  | cons x xs ih =>
    rw [List.foldlM_cons, h acc x (by simp)]
    simp only [bind, Except.bind]
    rw [ih (fun acc y hy => h acc y (by simp [hy]))]
    simp [add_assoc]

theorem excL_sum {M : Type} [AddCommMonoid M] (sd : ℕ) (A B : List (List ℕ)) (G : ℕ → M) :
    ((excL sd A B).map G).sum = (A.map fun o => (B.map fun v => G (exc sd o v)).sum).sum := by
  rw [excL, List.map_flatMap]
  simp only [List.map_map, Function.comp_def]
  induction A with
  | nil => rfl
  | cons x xs ih => simp [ih]

/-- how often the loops visit the determinant `m` -/
def visits (sd : ℕ) (orders : List ℤ) (m : ℕ) : ℕ :=
  (if m = sd then 1 else 0) + if (occSet m).card = (occSet sd).card then orders.count ((occSet sd \ occSet m).card : ℤ) else 0

theorem madeLoop_eq {M V : Type} [AddCommMonoid M] (ι : M → V) (sm : R → M → M) (smul : R → V → V) (add : V → V → Except PyErr V)
    (hsm : ∀ r a, smul r (ι a) = ι (sm r a)) (hadd : ∀ a b, add (ι a) (ι b) = .ok (ι (a + b)))
    (n sd : ℕ) (hsd : sd < 2 ^ n) (sdsd : ℕ → ℕ → Except PyErr R) (ov : ℕ → Except PyErr V) (E : ℕ → R) (F : ℕ → M)
    (hE : ∀ m < 2 ^ n, sdsd sd m = .ok (E m)) (hF : ∀ m < 2 ^ n, ov m = .ok (ι (F m))) (orders : List ℤ)
    (ho : ∀ o ∈ orders, 0 ≤ o) :
    madeLoop n sdsd smul add ov sd orders = .ok (ι (∑ m ∈ range (2 ^ n), visits sd orders m • sm (E m) (F m))) := by
  have hX := fun k => exc_comb (sd := sd) (sorted_occIndices sd) (sorted_virIndices sd n) (fun _ hi => mem_occIndices.1 hi)
    (fun _ hi => (mem_virIndices.1 hi).2) k
  have hin : ∀ k, ∀ o ∈ comb (occIndices (some sd)) k, ∀ v ∈ comb (virIndices (some sd) n) k, ∀ acc : M,
      madeStep sdsd smul add ov sd o v (ι acc) = .ok (ι (acc + sm (E (exc sd o v)) (F (exc sd o v)))) := by
    intro k o ho v hv acc
    have hlt : exc sd o v < 2 ^ n := exc_lt hsd fun i hi => by
      have := (mem_virIndices.1 ((mem_comb.1 hv).1.subset hi)).1; omega
    simp only [madeStep, (hX k o ho v hv).excite, bind, Except.bind, hE _ hlt, hF _ hlt, hsm, hadd]
  simp only [madeLoop, hF sd hsd, hE sd hsd, bind, Except.bind, hsm]
  rw [foldlM_emb ι _ (fun k : ℤ => ((excL sd (comb (occIndices (some sd)) k.toNat) (comb (virIndices (some sd) n) k.toNat)).map
    (fun (m : ℕ) => sm (E m) (F m))).sum)]
  · congr 2
    have hL : sm (E sd) (F sd) + (orders.map (fun k : ℤ =>
        ((excL sd (comb (occIndices (some sd)) k.toNat) (comb (virIndices (some sd) n) k.toNat)).map
          (fun (m : ℕ) => sm (E m) (F m))).sum)).sum =
        ∑ m ∈ range (2 ^ n), (if m = sd then sm (E m) (F m) else 0) + (orders.map (fun k : ℤ =>
          ∑ m ∈ range (2 ^ n), if (occSet m).card = (occSet sd).card ∧ (k = ((occSet sd \ occSet m).card : ℤ)) then
            sm (E m) (F m) else 0)).sum := by
      congr 1
      · rw [Finset.sum_ite_eq' (range (2 ^ n)) sd, if_pos (Finset.mem_range.2 hsd)]
      · congr 1
        apply List.map_congr_left
        intro k hk
        rw [← List.sum_toFinset _ (nodup_excL_all n sd k.toNat), ← Finset.sum_filter]
        refine Finset.sum_congr ?_ fun _ _ => rfl
        ext m
        have hcard : (occSet m).card = (occSet sd).card ↔ (diffOrbs sd m).1.length = (diffOrbs sd m).2.length := by
          rw [diff_lengths_iff]; exact eq_comm
        have := ho k hk
        simp only [List.mem_toFinset, Finset.mem_filter, Finset.mem_range, mem_excL_all hsd, hcard, ← diffOrbs_fst_length]
        constructor
        · rintro ⟨h1, h2, h3⟩
          exact ⟨h1, by rw [h2, h3], by omega⟩
        · rintro ⟨h1, h2, h3⟩
          exact ⟨h1, by omega, by omega⟩
    rw [hL]
    clear hL
    induction orders with
    | nil =>
      simp only [List.map_nil, List.sum_nil, add_zero]
      refine Finset.sum_congr rfl fun m _ => ?_
      by_cases hm : m = sd <;> simp [visits, hm]
    | cons k ks ih =>
      rw [List.map_cons, List.sum_cons, add_left_comm, ih fun o h => ho o (List.mem_cons_of_mem _ h), ← Finset.sum_add_distrib]
      refine Finset.sum_congr rfl fun m _ => ?_
      by_cases hc : (occSet m).card = (occSet sd).card
      · by_cases hk : k = ((occSet sd \ occSet m).card : ℤ)
        · rw [if_pos ⟨hc, hk⟩]
          have : visits sd (k :: ks) m = 1 + visits sd ks m := by
            simp only [visits, if_pos hc, hk, List.count_cons_self]; omega
          rw [this, add_smul, one_smul]
        · rw [if_neg (fun h => hk h.2), zero_add]
          have : visits sd (k :: ks) m = visits sd ks m := by
            simp only [visits, if_pos hc, List.count_cons_of_ne hk]
          rw [this]
      · rw [if_neg (fun h => hc h.1), zero_add]
        have : visits sd (k :: ks) m = visits sd ks m := by simp only [visits, if_neg hc]
        rw [this]
  · intro acc k hk
    have h0 : ¬ k < 0 := not_lt.2 (ho k hk)
    simp only [combinations, if_neg h0]
    rw [excL_sum, foldlM_emb ι _ (fun o => ((comb (virIndices (some sd) n) k.toNat).map
      (fun v => sm (E (exc sd o v)) (F (exc sd o v)))).sum)]
    intro acc o hoo
    rw [foldlM_emb ι _ (fun v => sm (E (exc sd o v)) (F (exc sd o v)))]
    intro acc v hv
    exact hin k.toNat o hoo v hv acc

end Fanpy.Lemmas
