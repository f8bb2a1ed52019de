import Verif.Model.Quasiparticle
import Verif.Lemmas.Determinant
import Verif.Lemmas.Excite
import Verif.Props.APr2G

/-! # C40: sums of permanents and determinants of quasiparticle wavefunctions and their derivatives -/

namespace Fanpy.Props
open Fanpy.Slater Fanpy.Quasi Fanpy.Linalg Fanpy.Spec Fanpy.MathTools Finset

set_option linter.unusedSectionVars false

variable {R : Type} [Field R]

/-- the sum over the choices of the columns of the first `k` rows, of the permanent of these times the determinant of the
rest -/
noncomputable def permsumSpec (P : ℕ → ℕ → R) (bos ferm cols : List ℕ) : R :=
  ∑ S ∈ cols.toFinset.powersetCard bos.length,
    perL P bos (cols.filter (· ∈ S)) * detL P ferm (cols.filter (· ∉ S))

theorem foldlM_sum {α : Type} {f : R → α → Except PyErr R} {g : α → R} : ∀ (l : List α) (v : R),
    (∀ v, ∀ a ∈ l, f v a = .ok (v + g a)) → l.foldlM f v = .ok (v + (l.map g).sum) := by
  intro l
  induction l with
  | nil => intro v _; simp [pure, Except.pure]
  | cons a l ih =>
    intro v h
    rw [List.foldlM_cons, h v a (List.mem_cons_self ..)]
    simp only [bind, Except.bind]
    rw [ih _ fun v b hb => h v b (List.mem_cons_of_mem _ hb), List.map_cons, List.sum_cons, add_assoc]

theorem range_map_getD (l : List ℕ) : (List.range l.length).map (fun j => l.getD j 0) = l := by
  apply List.ext_getElem (by simp)
  intro i h1 h2
  rw [List.getElem_map, List.getElem_range, List.getD_eq_getElem _ _ h2]

/-- the columns selected by their positions -/
theorem filter_positions {cols bos : List ℕ} (hn : cols.Nodup) (hb : bos.Sublist (List.range cols.length)) :
    cols.filter (· ∈ (bos.map fun j => cols.getD j 0).toFinset) = bos.map (fun j => cols.getD j 0) ∧
    cols.filter (· ∉ (bos.map fun j => cols.getD j 0).toFinset) =
      ((List.range cols.length).filter (· ∉ bos)).map fun j => cols.getD j 0 := by
  have hiff : ∀ j ∈ List.range cols.length, cols.getD j 0 ∈ (bos.map fun j => cols.getD j 0).toFinset ↔ j ∈ bos := by
    intro j hj
    rw [List.mem_toFinset, List.mem_map]
    constructor
    · rintro ⟨i, hi, e⟩
      have hi' := List.mem_range.1 (hb.subset hi)
      have hj' := List.mem_range.1 hj
      rw [List.getD_eq_getElem _ _ hi', List.getD_eq_getElem _ _ hj', hn.getElem_inj_iff] at e
      exact e ▸ hi
    · intro h; exact ⟨j, h, rfl⟩
  have hf : (List.range cols.length).filter (· ∈ bos) = bos := by
    apply sorted_lt_ext (List.pairwise_lt_range.sublist List.filter_sublist) (List.pairwise_lt_range.sublist hb)
    intro i
    simp only [List.mem_filter, decide_eq_true_eq]
    exact ⟨fun h => h.2, fun h => ⟨hb.subset h, h⟩⟩
  have key : ∀ q : ℕ → Bool, cols.filter q = ((List.range cols.length).filter fun j => q (cols.getD j 0)).map
      fun j => cols.getD j 0 := by
    intro q
    conv_lhs => rw [← range_map_getD cols]
    rw [List.filter_map]
    rfl
  constructor
  · rw [key]
    conv_rhs => rw [← hf]
    congr 1
    exact List.filter_congr fun j hj => by simpa using hiff j hj
  · rw [key]
    congr 1
    exact List.filter_congr fun j hj => decide_eq_decide.2 (not_congr (hiff j hj))

/-- C40: the value of `compute_permsum` for as many rows as columns. -/
theorem C40_permsum [CharZero R] (P : ℕ → ℕ → R) {k : ℕ} {rows cols : List ℕ} (hn : cols.Nodup)
    (hl : rows.length = cols.length) (h0 : rows.length ≠ 0) (hk : k ≤ rows.length) :
    permsum P k cols rows = .ok (permsumSpec P (rows.take k) (rows.drop k) cols) := by
  rw [permsum, if_neg (by
    rintro (h | h)
    · rw [h] at hl; exact h0 hl
    · rw [h] at h0; exact h0 rfl)]
  rw [foldlM_sum (g := fun bos => perL P (rows.take k) (cols.filter (· ∈ (bos.map fun j => cols.getD j 0).toFinset)) *
      detL P (rows.drop k) (cols.filter (· ∉ (bos.map fun j => cols.getD j 0).toFinset))), zero_add]
  · congr 1
    rw [permsumSpec, ← List.sum_toFinset _ (It.comb_nodup k List.nodup_range), List.length_take, min_eq_left hk]
    refine sum_bij (fun bos _ => (bos.map fun j => cols.getD j 0).toFinset) ?_ ?_ ?_ fun _ _ => rfl
    · intro bos hb
      obtain ⟨h1, h2⟩ := It.mem_comb.1 (List.mem_toFinset.1 hb)
      rw [mem_powersetCard]
      have e := (filter_positions hn h1).1
      constructor
      · intro x hx
        rw [List.mem_toFinset] at hx ⊢
        rw [← e] at hx
        exact (List.mem_filter.1 hx).1
      · rw [List.toFinset_card_of_nodup, List.length_map, h2]
        rw [← e]
        exact hn.filter _
    · intro a ha b hb hab
      obtain ⟨h1, -⟩ := It.mem_comb.1 (List.mem_toFinset.1 ha)
      obtain ⟨h2, -⟩ := It.mem_comb.1 (List.mem_toFinset.1 hb)
      have e1 := (filter_positions hn h1).1
      have e2 := (filter_positions hn h2).1
      rw [hab, e2] at e1
      apply sorted_lt_ext (List.pairwise_lt_range.sublist h1) (List.pairwise_lt_range.sublist h2)
      have inj : ∀ i ∈ List.range cols.length, ∀ j ∈ List.range cols.length, cols.getD i 0 = cols.getD j 0 → i = j := by
        intro i hi j hj e
        have hi' := List.mem_range.1 hi
        have hj' := List.mem_range.1 hj
        rw [List.getD_eq_getElem _ _ hi', List.getD_eq_getElem _ _ hj', hn.getElem_inj_iff] at e
        exact e
      intro i
      constructor
      · intro hi
        have : cols.getD i 0 ∈ b.map fun j => cols.getD j 0 := by rw [e1]; exact List.mem_map_of_mem hi
        obtain ⟨j, hj, e⟩ := List.mem_map.1 this
        exact inj j (h2.subset hj) i (h1.subset hi) e ▸ hj
      · intro hi
        have : cols.getD i 0 ∈ a.map fun j => cols.getD j 0 := by rw [← e1]; exact List.mem_map_of_mem hi
        obtain ⟨j, hj, e⟩ := List.mem_map.1 this
        exact inj j (h1.subset hj) i (h2.subset hi) e ▸ hj
    · intro S hS
      obtain ⟨h1, h2⟩ := mem_powersetCard.1 hS
      have hsub : ((List.range cols.length).filter fun j => cols.getD j 0 ∈ S).Sublist (List.range cols.length) :=
        List.filter_sublist
      have e : (((List.range cols.length).filter fun j => cols.getD j 0 ∈ S).map fun j => cols.getD j 0) =
          cols.filter (· ∈ S) := by
        conv_rhs => rw [← range_map_getD cols]
        rw [List.filter_map]
        rfl
      have e' : (cols.filter (· ∈ S)).toFinset = S := by
        ext x
        simp only [List.mem_toFinset, List.mem_filter, decide_eq_true_eq]
        exact ⟨fun h => h.2, fun h => ⟨List.mem_toFinset.1 (h1 h), h⟩⟩
      refine ⟨(List.range cols.length).filter fun j => cols.getD j 0 ∈ S, ?_, ?_⟩
      · rw [List.mem_toFinset, It.mem_comb]
        refine ⟨hsub, ?_⟩
        have : ((List.range cols.length).filter fun j => cols.getD j 0 ∈ S).length = (cols.filter (· ∈ S)).length := by
          rw [← e, List.length_map]
        rw [this, ← List.toFinset_card_of_nodup (hn.filter _), e', h2]
      · rw [e, e']
  · intro v bos hb
    obtain ⟨h1, h2⟩ := It.mem_comb.1 hb
    obtain ⟨e1, e2⟩ := filter_positions hn h1
    rw [e1, e2, permsumStep]
    have hp : permBos P k rows cols bos = .ok (perL P (rows.take k) (bos.map fun j => cols.getD j 0)) := by
      rw [permBos]
      split_ifs with hk0
      · subst hk0
        rw [permanentOf_eq _ _ (by simp) (by simp)]
        obtain rfl : bos = [] := List.length_eq_zero_iff.1 h2
        rw [List.take_zero, List.map_nil, perL_nil]
        simp [perSpec_square]
      · rw [permanentOf_eq _ _ (by simp only [Geminal.subMatrix, List.length_take]; omega)
          (by simp only [Geminal.subMatrix, List.length_map]; omega)]
        rfl
    have hc : (((List.range cols.length).filter (· ∉ bos)).map fun j => cols.getD j 0).length = cols.length - k := by
      rw [← e2]
      have h3 : (cols.filter (· ∈ (bos.map fun j => cols.getD j 0).toFinset)).length = k := by rw [e1, List.length_map, h2]
      have h4 := List.length_eq_length_filter_add (l := cols) fun x => decide (x ∈ (bos.map fun j => cols.getD j 0).toFinset)
      simp only [← decide_not] at h4
      omega
    have hd : detFerm P k rows cols bos = .ok (detL P (rows.drop k)
        (((List.range cols.length).filter (· ∉ bos)).map fun j => cols.getD j 0)) := by
      rw [detFerm]
      split_ifs with h
      · rw [hc, List.length_drop, hl] at h
        rw [detL_eq (n := 0) (by rw [List.length_drop]; omega), Matrix.det_isEmpty]
      · rw [npDet, if_pos (by rw [hc, List.length_drop, hl])]
    rw [hp, hd]
    rfl

/-! ## Derivatives -/

/-- the matrix of parameters with one parameter changed -/
def bumpParam (P : ℕ → ℕ → R) (r c : ℕ) (h : R) : ℕ → ℕ → R := fun a b => if a = r ∧ b = c then P a b + h else P a b

/-- the sum with a changed parameter in the row of a boson -/
theorem permsumSpec_boson (P : ℕ → ℕ → R) {bos ferm cols : List ℕ} (hb : bos.Nodup) (hc : cols.Nodup)
    (hl : bos.length + ferm.length = cols.length) {r c : ℕ} (h1 : r ∈ bos) (h2 : r ∉ ferm) (h3 : c ∈ cols) (h : R) :
    permsumSpec (bumpParam P r c h) bos ferm cols = permsumSpec P bos ferm cols +
      h * permsumSpec P (bos.filter (· ≠ r)) ferm (cols.filter (· ≠ c)) := by
  have hpos : 0 < bos.length := List.length_pos_of_mem h1
  have hcols : (cols.filter (· ≠ c)).toFinset = cols.toFinset.erase c := by
    ext x
    simp only [List.mem_toFinset, List.mem_filter, decide_eq_true_eq, mem_erase]
    tauto
  have hdet : ∀ S ∈ cols.toFinset.powersetCard bos.length, detL (bumpParam P r c h) ferm (cols.filter (· ∉ S)) =
      detL P ferm (cols.filter (· ∉ S)) := by
    intro S hS
    obtain ⟨hS1, hS2⟩ := mem_powersetCard.1 hS
    apply detL_congr
    · have e' : (cols.filter (· ∈ S)).toFinset = S := by
        ext x
        simp only [List.mem_toFinset, List.mem_filter, decide_eq_true_eq]
        exact ⟨fun h => h.2, fun h => ⟨List.mem_toFinset.1 (hS1 h), h⟩⟩
      have h5 : (cols.filter (· ∈ S)).length = bos.length := by
        rw [← List.toFinset_card_of_nodup (hc.filter _), e', hS2]
      have h4 := List.length_eq_length_filter_add (l := cols) fun x => decide (x ∈ S)
      simp only [← decide_not] at h4
      omega
    · intro a ha b _
      rw [bumpParam, if_neg]
      rintro ⟨rfl, -⟩
      exact h2 ha
  have hper : ∀ S : Finset ℕ, perL (bumpParam P r c h) bos (cols.filter (· ∈ S)) = perL P bos (cols.filter (· ∈ S)) +
      h * if c ∈ S then perL P (bos.filter (· ≠ r)) ((cols.filter (· ∈ S)).filter (· ≠ c)) else 0 := by
    intro S
    have := perL_shift P hb (hc.filter fun x => decide (x ∈ S)) r c h
    rw [minorL] at this
    rw [show bumpParam P r c h = fun a b => if a = r ∧ b = c then P a b + h else P a b from rfl, this]
    congr 2
    by_cases hS : c ∈ S
    · rw [if_pos ⟨h1, List.mem_filter.2 ⟨h3, by simpa using hS⟩⟩, if_pos hS]
    · rw [if_neg fun e => hS (by simpa using (List.mem_filter.1 e.2).2), if_neg hS]
  rw [permsumSpec, sum_congr rfl fun S hS => by rw [hdet S hS, hper S, add_mul], sum_add_distrib]
  congr 1
  rw [permsumSpec, hcols, length_filter_ne hb h1, mul_sum]
  have hfilt : ∀ S : Finset ℕ, (h * if c ∈ S then perL P (bos.filter (· ≠ r)) ((cols.filter (· ∈ S)).filter (· ≠ c)) else 0) *
      detL P ferm (cols.filter (· ∉ S)) = if c ∈ S then h * (perL P (bos.filter (· ≠ r))
        ((cols.filter (· ∈ S)).filter (· ≠ c)) * detL P ferm (cols.filter (· ∉ S))) else 0 := by
    intro S
    split_ifs <;> ring
  rw [sum_congr rfl fun S _ => hfilt S, ← sum_filter]
  refine sum_bij' (fun S _ => S.erase c) (fun S _ => insert c S) ?_ ?_ ?_ ?_ ?_
  · intro S hS
    simp only [mem_filter, mem_powersetCard] at hS
    rw [mem_powersetCard]
    exact ⟨erase_subset_erase _ hS.1.1, by rw [card_erase_of_mem hS.2, hS.1.2]⟩
  · intro S hS
    rw [mem_powersetCard] at hS
    have hcS : c ∉ S := fun e => (mem_erase.1 (hS.1 e)).1 rfl
    simp only [mem_filter, mem_powersetCard, mem_insert_self, and_true]
    refine ⟨?_, by rw [card_insert_of_notMem hcS, hS.2]; omega⟩
    intro x hx
    rcases mem_insert.1 hx with rfl | hx
    · exact List.mem_toFinset.2 h3
    · exact (mem_erase.1 (hS.1 hx)).2
  · intro S hS
    exact insert_erase (mem_filter.1 hS).2
  · intro S hS
    rw [mem_powersetCard] at hS
    exact erase_insert fun e => (mem_erase.1 (hS.1 e)).1 rfl
  · intro S hS
    have hcS := (mem_filter.1 hS).2
    congr 2
    · congr 1
      rw [List.filter_filter, List.filter_filter]
      apply List.filter_congr
      intro x _
      by_cases hx : x = c <;> simp [hx]
    · congr 1
      rw [List.filter_filter]
      apply List.filter_congr
      intro x _
      by_cases hx : x = c <;> simp [hx, hcS]

/-- C40 for the rows of the bosons (the first `k` rows): `compute_permsum(deriv)` is the derivative of
`compute_permsum`, which is affine in every parameter.  For the rows of the fermions the cofactor sign is missing
(`C40_fermion`). -/
theorem C40_boson_partial [CharZero R] (P : ℕ → ℕ → R) {n k ncol r c : ℕ} {cols : List ℕ} (hn : cols.Nodup)
    (hl : cols.length = n) (hk : k ≤ n) (hlt : ∀ c ∈ cols, c < ncol) (hr : r < k) (hc : c ∈ cols) :
    ∃ v d, permsum P k cols (List.range n) = .ok v ∧
      permsumDeriv P ncol k cols (List.range n) (r * ncol + c) = .ok d ∧
      ∀ h, permsum (bumpParam P r c h) k cols (List.range n) = .ok (v + h * d) := by
  have hcn := hlt c hc
  have h1 : (r * ncol + c) / ncol = r := by
    rw [mul_comm, Nat.mul_add_div (by omega), Nat.div_eq_of_lt hcn, add_zero]
  have h2 : (r * ncol + c) % ncol = c := by rw [mul_comm, Nat.mul_add_mod, Nat.mod_eq_of_lt hcn]
  have hrb : r ∈ (List.range n).take k := by
    rw [List.take_range, min_eq_left hk, List.mem_range]; exact hr
  have hrf : r ∉ (List.range n).drop k := by
    intro e
    rw [List.mem_drop_iff_getElem] at e
    obtain ⟨i, hi, e⟩ := e
    rw [List.getElem_range] at e
    omega
  have hlen : ((List.range n).take k).length + ((List.range n).drop k).length = cols.length := by
    rw [List.length_take, List.length_drop, List.length_range]; omega
  have hshift := permsumSpec_boson P (List.nodup_range.sublist (List.take_sublist k _)) hn hlen hrb hrf hc
  refine ⟨_, permsumSpec P (((List.range n).take k).filter (· ≠ r)) ((List.range n).drop k) (cols.filter (· ≠ c)),
    C40_permsum P hn (by rw [List.length_range, hl]) (by rw [List.length_range]; omega) (by rwa [List.length_range]), ?_,
    fun h => ?_⟩
  · have a1 := length_filter_ne (List.nodup_range (n := n)) (a := r) (List.mem_range.2 (by omega))
    have a2 := length_filter_ne hn hc
    rw [List.length_range] at a1
    rw [permsumDeriv, if_neg (by
      rintro (h | h)
      · rw [h] at hc; exact absurd hc (by simp)
      · have := congrArg List.length h; simp at this; omega)]
    simp only [h1, h2]
    rw [if_neg (by rw [List.length_range]; omega), if_pos hr]
    have htk : ((List.range n).filter (· ≠ r)).take (k - 1) = ((List.range n).take k).filter (· ≠ r) ∧
        ((List.range n).filter (· ≠ r)).drop (k - 1) = (List.range n).drop k := by
      have e1 : (List.range n).filter (· ≠ r) = ((List.range n).take k).filter (· ≠ r) ++ (List.range n).drop k := by
        conv_lhs => rw [← List.take_append_drop k (List.range n), List.filter_append]
        congr 1
        rw [List.filter_eq_self]
        intro a ha
        simpa using fun e : a = r => hrf (e ▸ ha)
      have e2 : (((List.range n).take k).filter (· ≠ r)).length = k - 1 := by
        rw [length_filter_ne (List.nodup_range.sublist (List.take_sublist k _)) hrb, List.length_take, List.length_range,
          min_eq_left hk]
      rw [e1, List.take_append_of_le_length (by omega), List.drop_append_of_le_length (by omega), ← e2, List.take_length,
        List.drop_length, List.nil_append]
      exact ⟨rfl, rfl⟩
    split_ifs with h0
    · have hn1 : n = 1 := by omega
      have hk1 : k = 1 := by omega
      subst hn1 hk1
      obtain rfl : r = 0 := by omega
      have : cols.filter (· ≠ c) = [] := List.length_eq_zero_iff.1 (by omega)
      rw [this]
      rw [show ((List.range 1).take 1).filter (· ≠ 0) = [] from rfl, show (List.range 1).drop 1 = [] from rfl]
      simp only [permsumSpec, perL_nil, detL_eq (n := 0) (rows := ([] : List ℕ)) rfl, Matrix.det_isEmpty, List.filter_nil]
      simp
    · rw [C40_permsum P (hn.filter _) (by omega) (by omega) (by omega), htk.1, htk.2]
  · rw [← hshift h]
    exact C40_permsum _ hn (by rw [List.length_range, hl]) (by rw [List.length_range]; omega) (by rwa [List.length_range])

example : ∃ v d : ℚ, permsum (fun i j => (i * 2 + j + 1 : ℚ)) 2 [0, 2, 3] (List.range 3) = .ok v ∧
    permsumDeriv (fun i j => (i * 2 + j + 1 : ℚ)) 4 2 [0, 2, 3] (List.range 3) (1 * 4 + 2) = .ok d ∧
    ∀ h, permsum (bumpParam (fun i j => (i * 2 + j + 1 : ℚ)) 1 2 h) 2 [0, 2, 3] (List.range 3) = .ok (v + h * d) :=
  C40_boson_partial _ (by decide) rfl (by decide) (by decide) (by decide) (by decide)

/-- C40 fails for the rows of fermions: without bosons, the derivative of the determinant of `[[0, 0], [3, 0]]` with respect
to the entry in the first row and second column is `-3`, the code gives `3`. -/
theorem C40_fermion : ∃ P : ℕ → ℕ → ℚ,
    permsumDeriv P 2 0 [0, 1] [0, 1] 1 = .ok 3 ∧ permsum P 0 [0, 1] [0, 1] = .ok 0 ∧
      ∀ h, permsum (bumpParam P 0 1 h) 0 [0, 1] [0, 1] = .ok (0 + h * (-3)) := by
  refine ⟨fun i j => if i = 1 ∧ j = 0 then 3 else 0, by decide +kernel, by decide +kernel, fun h => ?_⟩
  rw [C40_permsum _ (by decide) rfl (by decide) (by decide)]
  congr 1
  have e : ∀ Q : ℕ → ℕ → ℚ, permsumSpec Q ([0, 1].take 0) ([0, 1].drop 0) [0, 1] = Q 0 0 * Q 1 1 - Q 0 1 * Q 1 0 := by
    intro Q
    simp only [permsumSpec, List.take_zero, List.drop_zero, List.length_nil, powersetCard_zero, sum_singleton]
    simp [perL_nil, detL_eq (n := 2) (rows := [0, 1]) rfl, Matrix.det_fin_two]
  rw [e]
  simp [bumpParam]

/-- C40 without bosons: the code gives the derivative up to the sign `(-1)^(row + column)`. -/
theorem C40_no_boson [CharZero R] (P : ℕ → ℕ → R) {n ncol r c : ℕ} {cols : List ℕ} (hn : cols.Nodup)
    (hl : cols.length = n) (hlt : ∀ c ∈ cols, c < ncol) (hr : r < n) (hc : c ∈ cols) :
    ∃ v d, permsum P 0 cols (List.range n) = .ok v ∧
      permsumDeriv P ncol 0 cols (List.range n) (r * ncol + c) = .ok d ∧
      ∀ h, permsum (bumpParam P r c h) 0 cols (List.range n) = .ok (v + h * ((-1) ^ (r + cols.idxOf c) * d)) := by
  have hcn := hlt c hc
  have h1 : (r * ncol + c) / ncol = r := by
    rw [mul_comm, Nat.mul_add_div (by omega), Nat.div_eq_of_lt hcn, add_zero]
  have h2 : (r * ncol + c) % ncol = c := by rw [mul_comm, Nat.mul_add_mod, Nat.mod_eq_of_lt hcn]
  have hval : ∀ (Q : ℕ → ℕ → R) (rows cols : List ℕ), permsumSpec Q (rows.take 0) (rows.drop 0) cols = detL Q rows cols := by
    intro Q rows cols
    simp [permsumSpec, perL_nil]
  refine ⟨detL P (List.range n) cols, detL P ((List.range n).filter (· ≠ r)) (cols.filter (· ≠ c)), ?_, ?_, fun h => ?_⟩
  · rw [C40_permsum P hn (by rw [List.length_range, hl]) (by rw [List.length_range]; omega) (Nat.zero_le _), hval]
  · have a1 := length_filter_ne (List.nodup_range (n := n)) (a := r) (List.mem_range.2 (by omega))
    have a2 := length_filter_ne hn hc
    rw [List.length_range] at a1
    rw [permsumDeriv, if_neg (by
      rintro (h | h)
      · rw [h] at hc; exact absurd hc (by simp)
      · have := congrArg List.length h; simp at this; omega)]
    simp only [h1, h2]
    rw [if_neg (by rw [List.length_range]; omega), if_neg (Nat.not_lt_zero _)]
    split_ifs with h0
    · rw [detL_eq (n := 0) (by omega), Matrix.det_isEmpty]
    · rw [C40_permsum P (hn.filter _) (by omega) (by omega) (by omega), hval]
  · rw [C40_permsum _ hn (by rw [List.length_range, hl]) (by rw [List.length_range]; omega) (Nat.zero_le _), hval,
      show bumpParam P r c h = fun a b => if a = r ∧ b = c then P a b + h else P a b from rfl,
      detL_shift P (by rw [List.length_range, hl]) List.nodup_range hn (List.mem_range.2 hr) hc, pow_add,
      show (List.range n).idxOf r = r from ?_]
    have := (List.nodup_range (n := n)).idxOf_getElem r (by simpa using hr)
    rwa [List.getElem_range] at this

end Fanpy.Props
