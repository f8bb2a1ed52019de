import Verif.Lemmas.Tables
import Mathlib.Data.List.Sort

/-! Helper lemmas: excitation operators as labels. -/

namespace Fanpy.Tables
open Fanpy.Slater Fanpy.Text Fanpy.Spec

theorem flipChars_ok {want new : Char} : ∀ {is : List ℕ} {w : List Char}, is.Nodup → (∀ i ∈ is, w[i]? = some want) →
    ∃ w', flipChars want new is w = .ok w' ∧ w'.length = w.length ∧
      ∀ j, w'[j]? = if j ∈ is then some new else w[j]? := by
  intro is
  induction is with
  | nil => intro w _ _; exact ⟨w, rfl, rfl, by simp⟩
  | cons i is ih =>
    intro w hn hw
    obtain ⟨hni, hn'⟩ := List.nodup_cons.1 hn
    have hi := hw i (by simp)
    have hlt : i < w.length := (List.getElem?_eq_some_iff.1 hi).1
    obtain ⟨w', h1, h2, h3⟩ := ih (w := w.set i new) hn' (by
      intro j hj
      have : i ≠ j := by rintro rfl; exact hni hj
      rw [List.getElem?_set_ne this]
      exact hw j (by simp [hj]))
    refine ⟨w', ?_, by simpa using h2, ?_⟩
    · rw [flipChars, hi]; simp [h1]
    · intro j
      rw [h3]
      by_cases hj : j ∈ is
      · simp [hj]
      · by_cases hji : j = i
        · subst hji; simp [hj, hlt]
        · rw [if_neg hj, if_neg (by simp [hj, hji]), List.getElem?_set_ne (Ne.symm hji)]

theorem flipChars_valid {want new : Char} (hne : want ≠ new) : ∀ {is : List ℕ} {w w' : List Char},
    flipChars want new is w = .ok w' → is.Nodup ∧ ∀ i ∈ is, w[i]? = some want := by
  intro is
  induction is with
  | nil => intro w w' _; simp
  | cons i is ih =>
    intro w w' h
    rw [flipChars] at h
    rcases hi : w[i]? with _ | c
    · rw [hi] at h; cases h
    · rw [hi] at h
      simp only at h
      by_cases hc : c = want
      · subst hc
        rw [if_pos rfl] at h
        obtain ⟨h1, h2⟩ := ih h
        have hlt : i < w.length := (List.getElem?_eq_some_iff.1 hi).1
        have hni : i ∉ is := by
          intro hm
          have := h2 i hm
          simp [hlt] at this
          exact hne this.symm
        refine ⟨List.nodup_cons.2 ⟨hni, h1⟩, ?_⟩
        intro j hj
        rcases List.mem_cons.1 hj with rfl | hj
        · exact hi
        · have := h2 j hj
          rwa [List.getElem?_set_ne (by rintro rfl; exact hni hj)] at this
      · rw [if_neg hc] at h; cases h

/-- the only errors of the loops -/
theorem flipChars_error {want new : Char} : ∀ {is : List ℕ} {w : List Char} {e : PyErr},
    flipChars want new is w = .error e → (∀ i ∈ is, i < w.length) → e = .valueError := by
  intro is
  induction is with
  | nil => intro w e h; cases h
  | cons i is ih =>
    intro w e h hl
    rw [flipChars] at h
    rw [List.getElem?_eq_getElem (hl i (by simp))] at h
    simp only at h
    split_ifs at h with hc
    · exact ih h (by intro j hj; simpa using hl j (by simp [hj]))
    · cases h; rfl

/-- The condition under which an excitation operator has a determinant. -/
def OpValid (ref K : ℕ) (a c : List ℕ) : Prop :=
  a.Nodup ∧ c.Nodup ∧ (∀ i ∈ a, ref.testBit i = true) ∧ ∀ i ∈ c, i < 2 * K ∧ (ref.testBit i = true → i ∈ a)

theorem lt_of_testBit {n i m : ℕ} (h : n.testBit i = true) (hn : n < 2 ^ m) : i < m := by
  by_contra hc
  rw [Nat.testBit_lt_two_pow (lt_of_lt_of_le hn (Nat.pow_le_pow_right (by decide) (by omega)))] at h
  cases h

theorem refChars {ref K : ℕ} (hK : 0 < K) (hr : ref < 2 ^ (2 * K)) (i : ℕ) :
    (fmtBits (2 * K) ref).reverse[i]? = if i < 2 * K then some (if ref.testBit i then '1' else '0') else none := by
  have hl : (fmtBits (2 * K) ref).reverse.length = 2 * K := by
    rw [List.length_reverse]; exact length_fmtBits_of_lt (by omega) hr
  split_ifs with h h'
  · exact getElem?_eq_some_of_getD (d := '0') (by omega) (by rw [getD_reverse_fmtBits]; simp [h'])
  · exact getElem?_eq_some_of_getD (d := '0') (by omega) (by rw [getD_reverse_fmtBits]; simp [h'])
  · rw [List.getElem?_eq_none_iff]; omega

/-- one operator: it has a determinant exactly if it is valid -/
theorem opToSd_ok {ref K : ℕ} (hK : 0 < K) (hr : ref < 2 ^ (2 * K)) (op : List ℕ)
    (hv : OpValid ref K (op.take (op.length / 2)) (op.drop (op.length / 2))) :
    ∃ sd, opToSd ref K (opLabel op) = .ok (.int sd) ∧ sd < 2 ^ (2 * K) ∧ ∀ i, sd.testBit i =
      decide (i ∈ op.drop (op.length / 2) ∨ (ref.testBit i = true ∧ i ∉ op.take (op.length / 2))) := by
  obtain ⟨ha, hc, hao, hcv⟩ := hv
  set a := op.take (op.length / 2) with hA
  set c := op.drop (op.length / 2) with hC
  have hw := refChars (ref := ref) hK hr
  obtain ⟨w1, h1, l1, g1⟩ := flipChars_ok (want := '1') (new := '0') (w := (fmtBits (2 * K) ref).reverse) ha (by
    intro i hi
    have := lt_of_testBit (hao i hi) hr
    rw [hw, if_pos this, if_pos (hao i hi)])
  have hl : (fmtBits (2 * K) ref).reverse.length = 2 * K := by
    rw [List.length_reverse]; exact length_fmtBits_of_lt (by omega) hr
  obtain ⟨w2, h2, l2, g2⟩ := flipChars_ok (want := '0') (new := '1') (w := w1) hc (by
    intro i hi
    obtain ⟨hi2, hi3⟩ := hcv i hi
    rw [g1, hw]
    by_cases hia : i ∈ a
    · simp [hia]
    · have : ref.testBit i = false := by
        by_contra hx; exact hia (hi3 (by simpa using hx))
      simp [hia, hi2, this])
  have hchars : ∀ j, w2[j]? = if j < 2 * K then
      some (if j ∈ c ∨ (ref.testBit j = true ∧ j ∉ a) then '1' else '0') else none := by
    intro j
    rw [g2, g1, hw]
    by_cases hj : j < 2 * K
    · by_cases hjc : j ∈ c
      · simp [hj, hjc]
      · by_cases hja : j ∈ a
        · simp [hj, hjc, hja]
        · simp [hj, hjc, hja]
    · have hjc : j ∉ c := fun h => hj (hcv j h).1
      have hja : j ∉ a := fun h => hj (lt_of_testBit (hao j h) hr)
      simp [hj, hjc, hja]
  obtain ⟨m, hm, hb⟩ := parseInt_bits (s := w2.reverse)
    (by
      intro h
      have := congrArg List.length h
      rw [List.length_reverse, l2, l1, hl, List.length_nil] at this
      omega)
    (by
      intro x hx
      rw [List.mem_reverse, List.mem_iff_getElem?] at hx
      obtain ⟨j, hj⟩ := hx
      rw [hchars] at hj
      split_ifs at hj with h1 h2
      · right; simpa using hj.symm
      · left; simpa using hj.symm)
  have hbit : ∀ i, m.testBit i = decide (i ∈ c ∨ (ref.testBit i = true ∧ i ∉ a)) := by
    intro i
    rw [hb, List.reverse_reverse, List.getD_eq_getElem?_getD, hchars]
    by_cases hi : i < 2 * K
    · rw [if_pos hi]
      by_cases hx : i ∈ c ∨ (ref.testBit i = true ∧ i ∉ a)
      · simp [hx]
      · simp [hx]
    · rw [if_neg hi]
      have hic : i ∉ c := fun h => hi (hcv i h).1
      have hir : ¬ ref.testBit i = true := fun h => hi (lt_of_testBit h hr)
      simp [hic, hir]
  refine ⟨m, ?_, ?_, hbit⟩
  · simp only [opToSd, opLabel]
    rw [mapM_parse_joined]
    have e2 : ((2 * (K : ℤ))).toNat = 2 * K := by omega
    change (flipChars '1' '0' a (fmtBits (2 * (K : ℤ)).toNat ref).reverse >>= _) = _
    rw [e2, h1]
    change (flipChars '0' '1' c w1 >>= _) = _
    rw [h2]
    change (parseInt 2 w2.reverse >>= _) = _
    rw [hm]; rfl
  · apply Nat.lt_pow_two_of_testBit
    intro i hi
    rw [hbit]
    have hic : i ∉ c := fun h => by have := (hcv i h).1; omega
    have hir : ¬ ref.testBit i = true := fun h => by have := lt_of_testBit h hr; omega
    simp [hic, hir]

theorem opToSd_valid {ref K : ℕ} (hK : 0 < K) (hr : ref < 2 ^ (2 * K)) (op : List ℕ) {l : Label}
    (h : opToSd ref K (opLabel op) = .ok l) :
    OpValid ref K (op.take (op.length / 2)) (op.drop (op.length / 2)) := by
  simp only [opToSd, opLabel] at h
  rw [mapM_parse_joined] at h
  have e2 : ((2 * (K : ℤ))).toNat = 2 * K := by omega
  change (flipChars '1' '0' (op.take (op.length / 2)) (fmtBits (2 * (K : ℤ)).toNat ref).reverse >>= _) = _ at h
  rw [e2] at h
  rcases h1 : flipChars '1' '0' (op.take (op.length / 2)) (fmtBits (2 * K) ref).reverse with e | w1
  · rw [h1] at h; cases h
  rw [h1] at h
  change (flipChars '0' '1' (op.drop (op.length / 2)) w1 >>= _) = _ at h
  rcases h2 : flipChars '0' '1' (op.drop (op.length / 2)) w1 with e | w2
  · rw [h2] at h; cases h
  obtain ⟨n1, v1⟩ := flipChars_valid (by decide) h1
  obtain ⟨n2, v2⟩ := flipChars_valid (by decide) h2
  obtain ⟨w1', h1', _, g1⟩ := flipChars_ok (new := '0') n1 v1
  rw [h1] at h1'
  obtain rfl := Except.ok.inj h1'
  have hw := refChars (ref := ref) hK hr
  refine ⟨n1, n2, ?_, ?_⟩
  · intro i hi
    have := v1 i hi
    rw [hw] at this
    split_ifs at this with ha hb
    · exact hb
    · simp at this
  · intro i hi
    have := v2 i hi
    rw [g1] at this
    by_cases hia : i ∈ op.take (op.length / 2)
    · refine ⟨?_, fun _ => hia⟩
      have := v1 i hia
      rw [hw] at this
      by_contra ha
      rw [if_neg ha] at this
      cases this
    · rw [if_neg hia, hw] at this
      by_cases ha : i < 2 * K
      · rw [if_pos ha] at this
        refine ⟨ha, fun hb => ?_⟩
        rw [if_pos hb] at this
        simp at this
      · rw [if_neg ha] at this
        cases this

/-- Without an index past the orbitals the error is a `ValueError`. -/
theorem opToSd_error {ref K : ℕ} (hK : 0 < K) (hr : ref < 2 ^ (2 * K)) (op : List ℕ) (hop : ∀ i ∈ op, i < 2 * K)
    {e : PyErr} (h : opToSd ref K (opLabel op) = .error e) : e = .valueError := by
  simp only [opToSd, opLabel] at h
  rw [mapM_parse_joined] at h
  have e2 : ((2 * (K : ℤ))).toNat = 2 * K := by omega
  change (flipChars '1' '0' (op.take (op.length / 2)) (fmtBits (2 * (K : ℤ)).toNat ref).reverse >>= _) = _ at h
  rw [e2] at h
  have hl : (fmtBits (2 * K) ref).reverse.length = 2 * K := by
    rw [List.length_reverse]; exact length_fmtBits_of_lt (by omega) hr
  rcases h1 : flipChars '1' '0' (op.take (op.length / 2)) (fmtBits (2 * K) ref).reverse with e' | w1
  · rw [h1] at h
    obtain rfl : e' = e := by injection h
    exact flipChars_error h1 (fun i hi => by rw [hl]; exact hop i (List.mem_of_mem_take hi))
  rw [h1] at h
  change (flipChars '0' '1' (op.drop (op.length / 2)) w1 >>= _) = _ at h
  obtain ⟨n1, v1⟩ := flipChars_valid (by decide) h1
  obtain ⟨w1', h1', l1, g1⟩ := flipChars_ok (new := '0') n1 v1
  rw [h1] at h1'
  obtain rfl := Except.ok.inj h1'
  rcases h2 : flipChars '0' '1' (op.drop (op.length / 2)) w1 with e' | w2
  · rw [h2] at h
    obtain rfl : e' = e := by injection h
    exact flipChars_error h2 (fun i hi => by rw [l1, hl]; exact hop i (List.mem_of_mem_drop hi))
  exfalso
  obtain ⟨sd, hsd, _⟩ := opToSd_ok hK hr op (by
    have hw := refChars (ref := ref) hK hr
    obtain ⟨n2, v2⟩ := flipChars_valid (by decide) h2
    refine ⟨n1, n2, ?_, ?_⟩
    · intro i hi
      have := v1 i hi
      rw [hw] at this
      split_ifs at this with ha hb
      · exact hb
      · simp at this
    · intro i hi
      refine ⟨hop i (List.mem_of_mem_drop hi), fun hri => ?_⟩
      by_contra hia
      have := v2 i hi
      rw [g1, if_neg hia, hw, if_pos (hop i (List.mem_of_mem_drop hi)), if_pos hri] at this
      simp at this)
  simp only [opToSd, opLabel] at hsd
  rw [mapM_parse_joined] at hsd
  change (flipChars '1' '0' (op.take (op.length / 2)) (fmtBits (2 * (K : ℤ)).toNat ref).reverse >>= _) = _ at hsd
  rw [e2, h1] at hsd
  change (flipChars '0' '1' (op.drop (op.length / 2)) w1 >>= _) = _ at hsd
  rw [h] at hsd
  cases hsd

/-- the label of a determinant -/
theorem sdToOp_int (ref sd K : ℕ) :
    sdToOp ref K (.int sd) = .ok (opLabel
      ((List.range (2 * K)).filter (fun i => ref.testBit i && !sd.testBit i) ++
        (List.range (2 * K)).filter (fun i => !ref.testBit i && sd.testBit i))) := by
  have e2 : ((2 * (K : ℤ))).toNat = 2 * K := by omega
  simp only [sdToOp, e2]
  congr 2
  have hb : ∀ (n i : ℕ), i < 2 * K → ((List.range (2 * K)).map (fun i => (n >>> i) &&& 1)).getD i 0 =
      if n.testBit i then 1 else 0 := by
    intro n i hi
    rw [List.getD_eq_getElem _ 0 (by simpa using hi)]
    simp only [List.getElem_map, List.getElem_range, Nat.and_one_is_mod, Nat.testBit, Nat.one_and_eq_mod_two]
    have : (n >>> i) % 2 = 0 ∨ (n >>> i) % 2 = 1 := by omega
    rcases this with h | h <;> simp [h]
  congr 1
  all_goals
    apply List.filter_congr
    intro i hi
    rw [List.mem_range] at hi
    rw [hb _ _ hi, hb _ _ hi]
    cases ref.testBit i <;> cases sd.testBit i <;> simp

theorem opLabel_injective {a b : List ℕ} (h : opLabel a = opLabel b) : a = b := by
  simp only [opLabel, Label.str.injEq] at h
  have ha := mapM_parse_joined a
  rw [h, mapM_parse_joined] at ha
  exact (Except.ok.inj ha).symm

end Fanpy.Tables
