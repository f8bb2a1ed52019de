import Verif.Lemmas.PermanentLaplace

/-! # Permanents with rows and columns given by lists -/

namespace Fanpy.Props

variable {R : Type*} [CommRing R]

/-- the permanent of the rows `rows` and columns `cols` of `P` -/
noncomputable def perL {α β : Type*} [Inhabited α] [Inhabited β] (P : α → β → R) (rows : List α) (cols : List β) : R :=
  perSpec rows.length cols.length fun i j => P (rows.getD i default) (cols.getD j default)

section
variable {α β : Type*} [Inhabited α] [Inhabited β]

theorem perL_congr {P Q : α → β → R} {rows : List α} {cols : List β} (h : ∀ a ∈ rows, ∀ b ∈ cols, P a b = Q a b) :
    perL P rows cols = perL Q rows cols := by
  apply perSpec_congr
  intro i j hi hj
  rw [List.getD_eq_getElem _ _ hi, List.getD_eq_getElem _ _ hj]
  exact h _ (List.getElem_mem _) _ (List.getElem_mem _)

theorem perL_nil (P : α → β → R) : perL P [] [] = 1 := by simp [perL, perSpec]

theorem perL_map {γ δ : Type*} [Inhabited γ] [Inhabited δ] (P : α → β → R) (f : γ → α) (g : δ → β) (rows : List γ)
    (cols : List δ) : perL P (rows.map f) (cols.map g) = perL (fun a b => P (f a) (g b)) rows cols := by
  rw [perL, perL, List.length_map, List.length_map]
  apply perSpec_congr
  intro i j hi hj
  rw [List.getD_eq_getElem _ _ hi, List.getD_eq_getElem _ _ hj, List.getD_eq_getElem _ _ (by simpa using hi),
    List.getD_eq_getElem _ _ (by simpa using hj), List.getElem_map, List.getElem_map]

theorem perL_tall (P : α → β → R) {rows : List α} {cols : List β} (h : cols.length ≤ rows.length) :
    perL P rows cols = ∑ e : Fin cols.length ↪ Fin rows.length, ∏ j, P (rows.get (e j)) (cols.get j) := by
  rw [perL, ← perSpec_transpose, perSpec, if_pos h]
  apply Finset.sum_congr rfl
  intro e _
  apply Finset.prod_congr rfl
  intro j _
  rw [List.getD_eq_getElem _ _ (e j).2, List.getD_eq_getElem _ _ j.2]
  rfl

/-- the order of the rows does not matter -/
theorem perL_perm_rows [DecidableEq α] (P : α → β → R) {rows rows' : List α} {cols : List β} (h : rows.Perm rows')
    (hn : rows.Nodup) (hl : cols.length ≤ rows.length) : perL P rows cols = perL P rows' cols := by
  have hn' : rows'.Nodup := h.nodup_iff.1 hn
  rw [perL_tall P hl, perL_tall P (h.length_eq ▸ hl)]
  let σ : Fin rows.length ≃ Fin rows'.length :=
    (hn.getEquiv rows).trans ((Equiv.subtypeEquivRight (fun x => h.mem_iff)).trans (hn'.getEquiv rows').symm)
  have hσ : ∀ i, rows'.get (σ i) = rows.get i := by
    intro i
    have : hn'.getEquiv rows' (σ i) = Equiv.subtypeEquivRight (fun x => h.mem_iff) (hn.getEquiv rows i) := by
      simp only [σ, Equiv.trans_apply, Equiv.apply_symm_apply]
    exact congrArg Subtype.val this
  apply Fintype.sum_equiv (Equiv.embeddingCongr (Equiv.refl _) σ)
  intro e
  apply Finset.prod_congr rfl
  intro j _
  rw [← hσ]
  rfl
end

/-! ## Removing a row and a column -/

/-- the slope of the permanent in the parameter `(r, c)` -/
noncomputable def minorL (P : ℕ → ℕ → R) (rows cols : List ℕ) (r c : ℕ) : R :=
  if r ∈ rows ∧ c ∈ cols then perL P (rows.filter (· ≠ r)) (cols.filter (· ≠ c)) else 0

theorem getD_idxOf {l : List ℕ} {a : ℕ} (h : a ∈ l) : l.getD (l.idxOf a) 0 = a := by
  rw [List.getD_eq_getElem _ _ (List.idxOf_lt_length_of_mem h)]
  exact List.getElem_idxOf _

theorem getD_eq_iff {l : List ℕ} (hn : l.Nodup) {a j : ℕ} (h : a ∈ l) (hj : j < l.length) :
    l.getD j 0 = a ↔ j = l.idxOf a := by
  constructor
  · intro hja
    rw [← hja, List.getD_eq_getElem _ _ hj, hn.idxOf_getElem]
  · rintro rfl
    exact getD_idxOf h

theorem perL_shift (P : ℕ → ℕ → R) {rows cols : List ℕ} (hr : rows.Nodup) (hc : cols.Nodup) (r c : ℕ) (h : R) :
    perL (fun a b => if a = r ∧ b = c then P a b + h else P a b) rows cols =
      perL P rows cols + h * minorL P rows cols r c := by
  rw [minorL]
  split_ifs with hm
  · obtain ⟨hmr, hmc⟩ := hm
    have hir := List.idxOf_lt_length_of_mem hmr
    have hic := List.idxOf_lt_length_of_mem hmc
    obtain ⟨m, hm⟩ : ∃ m, rows.length = m + 1 := ⟨rows.length - 1, by omega⟩
    obtain ⟨n, hn⟩ : ∃ n, cols.length = n + 1 := ⟨cols.length - 1, by omega⟩
    obtain ⟨a1, a2⟩ := filter_ne_getD hr hir
    obtain ⟨b1, b2⟩ := filter_ne_getD hc hic
    rw [getD_idxOf hmr] at a1 a2
    rw [getD_idxOf hmc] at b1 b2
    have := perSpec_affine (m := m) (n := n) (fun i j => P (rows.getD i 0) (cols.getD j 0)) (r := rows.idxOf r)
      (c := cols.idxOf c) (by omega) (by omega) h
    rw [perL, perL, perL, show (rows.filter (· ≠ r)).length = m by omega,
      show (cols.filter (· ≠ c)).length = n by omega, hm, hn]
    simp only [Nat.default_eq_zero] at *
    rw [show (perSpec m n fun i j => P ((rows.filter (· ≠ r)).getD i 0) ((cols.filter (· ≠ c)).getD j 0)) =
      perSpec m n fun i j => P (rows.getD (skip (rows.idxOf r) i) 0) (cols.getD (skip (cols.idxOf c) j) 0) from
        perSpec_congr fun i j hi hj => by rw [a2 i (by omega), b2 j (by omega)], ← this]
    apply perSpec_congr
    intro i j hi hj
    simp only [getD_eq_iff hr hmr (by omega : i < rows.length), getD_eq_iff hc hmc (by omega : j < cols.length)]
  · rw [mul_zero, add_zero]
    apply perL_congr
    intro a ha b hb
    rw [if_neg]
    rintro ⟨rfl, rfl⟩
    exact hm ⟨ha, hb⟩

/-- a unit column can be removed, with its row -/
theorem perL_unit (P : ℕ → ℕ → R) {rows cols : List ℕ} (hr : rows.Nodup) (hc : cols.Nodup) {r c : ℕ} (hrm : r ∈ rows)
    (hcm : c ∈ cols) (hl : cols.length ≤ rows.length) (hu : ∀ a ∈ rows, P a c = if a = r then 1 else 0) :
    perL P rows cols = perL P (rows.filter (· ≠ r)) (cols.filter (· ≠ c)) := by
  have h := perL_shift P hr hc r c (-1)
  rw [minorL, if_pos ⟨hrm, hcm⟩] at h
  have h0 : perL (fun a b => if a = r ∧ b = c then P a b + -1 else P a b) rows cols = 0 := by
    rw [perL_tall _ hl]
    apply Finset.sum_eq_zero
    intro e _
    apply Finset.prod_eq_zero (Finset.mem_univ ⟨cols.idxOf c, List.idxOf_lt_length_of_mem hcm⟩)
    have hg : cols.get ⟨cols.idxOf c, List.idxOf_lt_length_of_mem hcm⟩ = c := List.getElem_idxOf _
    rw [hg]
    set a := rows.get (e ⟨cols.idxOf c, List.idxOf_lt_length_of_mem hcm⟩) with ha
    have ham : a ∈ rows := List.get_mem _ _
    simp only [and_true]
    split_ifs with h1
    · rw [hu a ham, if_pos h1]; ring
    · rw [hu a ham, if_neg h1]
  rw [h0] at h
  linear_combination -h

/-- rows and columns with the same label form an identity block that can be removed -/
theorem perL_identity (P : ℕ → ℕ → R) : ∀ (n : ℕ) {rows cols : List ℕ}, rows.length = n → rows.Nodup → cols.Nodup →
    cols.length ≤ rows.length → (∀ a ∈ rows, ∀ c ∈ cols, c ∈ rows → P a c = if a = c then 1 else 0) →
    perL P rows cols = perL P (rows.filter (· ∉ cols)) (cols.filter (· ∉ rows)) := by
  intro n
  induction n using Nat.strong_induction_on with
  | _ n ih =>
    intro rows cols hn hr hc hl hu
    by_cases hex : ∃ c ∈ cols, c ∈ rows
    · obtain ⟨c, hcc, hcr⟩ := hex
      rw [perL_unit P hr hc hcr hcc hl (fun a ha => hu a ha c hcc hcr)]
      have l1 := (filter_ne_getD hr (List.idxOf_lt_length_of_mem hcr)).1
      have l2 := (filter_ne_getD hc (List.idxOf_lt_length_of_mem hcc)).1
      rw [getD_idxOf hcr] at l1
      rw [getD_idxOf hcc] at l2
      rw [ih _ (by omega) rfl (hr.filter _) (hc.filter _) (by omega)]
      · congr 1
        · rw [List.filter_filter]
          apply List.filter_congr
          intro x hx
          simp only [List.mem_filter]
          by_cases hxc : x = c
          · subst hxc; simp [hcc]
          · simp [hxc]
        · rw [List.filter_filter]
          apply List.filter_congr
          intro x hx
          simp only [List.mem_filter]
          by_cases hxc : x = c
          · subst hxc; simp [hcr]
          · simp [hxc]
      · intro a ha b hb hbr
        exact hu a (List.mem_of_mem_filter ha) b (List.mem_of_mem_filter hb) (List.mem_of_mem_filter hbr)
    · push Not at hex
      rw [List.filter_eq_self.2 (fun a ha => by simpa using fun h => hex a h ha),
        List.filter_eq_self.2 (fun c hc => by simpa using hex c hc)]

end Fanpy.Props
