import Verif.Props.Permanent
import Mathlib.Data.List.GetD

/-! # A permanent is an affine function of each entry; the slope is the permanent of the minor -/

namespace Fanpy.Props

variable {R : Type*} [CommRing R]

/-- the index without the index `r` -/
def skip (r i : ℕ) : ℕ := if i < r then i else i + 1

theorem skip_succAbove {n : ℕ} (r : Fin (n + 1)) (i : Fin n) : ((r.succAbove i : Fin (n + 1)) : ℕ) = skip r i := by
  rw [skip, Fin.succAbove]
  simp only [Fin.lt_def, Fin.val_castSucc]
  split_ifs <;> rfl

/-- embeddings with a given value at `r` -/
def embInsert {m n : ℕ} (r : Fin (m + 1)) (c : Fin (n + 1)) (e : Fin m ↪ Fin n) : Fin (m + 1) ↪ Fin (n + 1) where
  toFun := r.insertNth (α := fun _ => Fin (n + 1)) c fun i => c.succAbove (e i)
  inj' := by
    intro a b
    refine Fin.succAboveCases r ?_ (fun a => ?_) a <;> refine Fin.succAboveCases r ?_ (fun b => ?_) b
    · intro _; rfl
    · intro h; simp [Fin.insertNth_apply_same, Fin.insertNth_apply_succAbove] at h
    · intro h; simp [Fin.insertNth_apply_same, Fin.insertNth_apply_succAbove] at h
    · intro h
      simp only [Fin.insertNth_apply_succAbove] at h
      rw [e.injective (Fin.succAbove_right_injective h)]

theorem embInsert_same {m n : ℕ} (r : Fin (m + 1)) (c : Fin (n + 1)) (e : Fin m ↪ Fin n) : embInsert r c e r = c := by
  show r.insertNth (α := fun _ => Fin (n + 1)) c (fun i => c.succAbove (e i)) r = c
  rw [Fin.insertNth_apply_same]

theorem embInsert_succAbove {m n : ℕ} (r : Fin (m + 1)) (c : Fin (n + 1)) (e : Fin m ↪ Fin n) (i : Fin m) :
    embInsert r c e (r.succAbove i) = c.succAbove (e i) := by
  show r.insertNth (α := fun _ => Fin (n + 1)) c (fun i => c.succAbove (e i)) (r.succAbove i) = _
  rw [Fin.insertNth_apply_succAbove]

theorem sum_emb_insert {m n : ℕ} (r : Fin (m + 1)) (c : Fin (n + 1)) (g : (Fin (m + 1) ↪ Fin (n + 1)) → R) :
    (∑ e : Fin (m + 1) ↪ Fin (n + 1), if e r = c then g e else 0) = ∑ e : Fin m ↪ Fin n, g (embInsert r c e) := by
  rw [← Finset.sum_filter]
  symm
  refine Finset.sum_bij (fun e _ => embInsert r c e) (fun e _ => ?_) (fun e _ e' _ h => ?_) (fun e he => ?_)
    (fun e _ => rfl)
  · rw [Finset.mem_filter]; exact ⟨Finset.mem_univ _, embInsert_same r c e⟩
  · ext i
    have := congrArg (fun e => e (r.succAbove i)) h
    simp only [embInsert_succAbove] at this
    rw [Fin.succAbove_right_injective this]
  · rw [Finset.mem_filter] at he
    have hex : ∀ i : Fin m, ∃ z, c.succAbove z = e (r.succAbove i) := fun i => by
      apply Fin.exists_succAbove_eq
      rw [← he.2]
      exact fun h => Fin.succAbove_ne r i (e.injective h)
    choose z hz using hex
    refine ⟨⟨z, fun a b h => ?_⟩, Finset.mem_univ _, ?_⟩
    · have := hz a
      rw [h, hz b] at this
      exact (Fin.succAbove_right_injective (e.injective this)).symm
    · ext i
      refine Fin.succAboveCases r ?_ (fun i => ?_) i
      · rw [embInsert_same, he.2]
      · rw [embInsert_succAbove]
        exact congrArg Fin.val (hz i)

theorem perSpec_affine_le {m n : ℕ} (hmn : m ≤ n) (f : ℕ → ℕ → R) {r c : ℕ} (hr : r < m + 1) (hc : c < n + 1) (h : R) :
    perSpec (m + 1) (n + 1) (fun i j => if i = r ∧ j = c then f i j + h else f i j) =
      perSpec (m + 1) (n + 1) f + h * perSpec m n fun i j => f (skip r i) (skip c j) := by
  rw [perSpec, perSpec, perSpec, if_pos (by omega), if_pos (by omega), if_pos hmn]
  have hterm : ∀ e : Fin (m + 1) ↪ Fin (n + 1),
      (∏ i : Fin (m + 1), if (i : ℕ) = r ∧ (e i : ℕ) = c then f i (e i) + h else f i (e i)) =
      ∏ i : Fin (m + 1), f i (e i) + if e ⟨r, hr⟩ = ⟨c, hc⟩ then
        h * ∏ i : Fin m, f ((⟨r, hr⟩ : Fin (m + 1)).succAbove i) (e ((⟨r, hr⟩ : Fin (m + 1)).succAbove i)) else 0 := by
    intro e
    rw [Fin.prod_univ_succAbove _ (⟨r, hr⟩ : Fin (m + 1)), Fin.prod_univ_succAbove _ (⟨r, hr⟩ : Fin (m + 1))]
    have h2 : ∀ i : Fin m, ¬ (((⟨r, hr⟩ : Fin (m + 1)).succAbove i : ℕ) = r ∧
        (e ((⟨r, hr⟩ : Fin (m + 1)).succAbove i) : ℕ) = c) := by
      intro i hi
      exact Fin.succAbove_ne (⟨r, hr⟩ : Fin (m + 1)) i (Fin.ext hi.1)
    simp only [if_neg (h2 _)]
    by_cases hcase : e ⟨r, hr⟩ = ⟨c, hc⟩
    · rw [if_pos ⟨trivial, congrArg Fin.val hcase⟩, if_pos hcase]; ring
    · rw [if_neg (fun hh => hcase (Fin.ext hh.2)), if_neg hcase]; ring
  simp only [hterm]
  rw [Finset.sum_add_distrib, sum_emb_insert, Finset.mul_sum]
  congr 1
  apply Finset.sum_congr rfl
  intro e _
  congr 1
  apply Finset.prod_congr rfl
  intro i _
  rw [embInsert_succAbove, skip_succAbove, skip_succAbove]

theorem perSpec_affine {m n : ℕ} (f : ℕ → ℕ → R) {r c : ℕ} (hr : r < m + 1) (hc : c < n + 1) (h : R) :
    perSpec (m + 1) (n + 1) (fun i j => if i = r ∧ j = c then f i j + h else f i j) =
      perSpec (m + 1) (n + 1) f + h * perSpec m n fun i j => f (skip r i) (skip c j) := by
  rcases le_total m n with hmn | hmn
  · exact perSpec_affine_le hmn f hr hc h
  · rw [← perSpec_transpose, ← perSpec_transpose (m + 1) (n + 1) f, ← perSpec_transpose m n,
      ← perSpec_affine_le hmn (fun i j => f j i) hc hr h]
    congr 1
    ext i j
    simp only [and_comm]

/-- removing an element of a list without repetition -/
theorem filter_ne_getD {l : List ℕ} (hl : l.Nodup) {j : ℕ} (hj : j < l.length) :
    (l.filter (· ≠ l.getD j 0)).length + 1 = l.length ∧
    ∀ i, i + 1 < l.length → (l.filter (· ≠ l.getD j 0)).getD i 0 = l.getD (skip j i) 0 := by
  have h1 : l.filter (· ≠ l.getD j 0) = l.eraseIdx j := by
    rw [List.getD_eq_getElem _ _ hj, ← hl.erase_getElem j hj, hl.erase_eq_filter]
    apply List.filter_congr
    intro x _
    simp [bne, Bool.beq_eq_decide_eq]
  rw [h1]
  refine ⟨List.length_eraseIdx_add_one hj, fun i hi => ?_⟩
  have hlen := List.length_eraseIdx_add_one hj
  rw [List.getD_eq_getElem _ _ (by omega), List.getD_eq_getElem _ _ (by rw [skip]; split_ifs <;> omega),
    List.getElem_eraseIdx]
  simp only [skip]
  split_ifs <;> rfl

end Fanpy.Props
