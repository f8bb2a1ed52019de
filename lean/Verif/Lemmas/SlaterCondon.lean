import Verif.Spec.Hamiltonian
import Mathlib.Tactic.LinearCombination

/-! Matrix elements of one- and two-body operators between determinants (Slater–Condon rules). -/

namespace Fanpy.Spec
open Finset

variable {R : Type*} [CommRing R]

/-- sign of annihilating `i`, then `j` -/
def eps (s : Finset ℕ) (i j : ℕ) : ℤ := phase s i * phase (s.erase i) j

theorem phase_cast_sq (s : Finset ℕ) (i : ℕ) : ((phase s i : ℤ) : R) * ((phase s i : ℤ) : R) = 1 := by
  rw [← Int.cast_mul, phase_sq]; simp

theorem eps_sq (s : Finset ℕ) (i j : ℕ) : eps s i j * eps s i j = 1 := by
  have h1 := phase_sq s i
  have h2 := phase_sq (s.erase i) j
  rw [eps]; linear_combination (phase (s.erase i) j * phase (s.erase i) j) * h1 + h2

theorem eps_swap (s : Finset ℕ) {i j : ℕ} (hi : i ∈ s) (hj : j ∈ s) (hij : i ≠ j) : eps s j i = - eps s i j := by
  rw [eps, eps, phase_erase, phase_erase]
  rcases lt_or_gt_of_ne hij with h | h
  · rw [if_neg (by intro h'; exact absurd h'.2 h.not_gt), if_pos ⟨hi, h⟩]; ring
  · rw [if_pos ⟨hj, h⟩, if_neg (by intro h'; exact absurd h'.2 h.not_gt)]; ring

theorem ann_ket (s : Finset ℕ) (i : ℕ) :
    annOp i (ket s : Fock R) = if i ∈ s then Finsupp.single (s.erase i) ((phase s i : ℤ) : R) else 0 := by
  rw [ket, annOp_single]; simp

theorem ann2_ket (s : Finset ℕ) (i j : ℕ) :
    annOp j (annOp i (ket s : Fock R)) =
      if i ∈ s ∧ j ∈ s ∧ i ≠ j then Finsupp.single ((s.erase i).erase j) ((eps s i j : ℤ) : R) else 0 := by
  rw [ann_ket]
  by_cases hi : i ∈ s
  · rw [if_pos hi, annOp_single]
    by_cases hj : j ∈ s ∧ i ≠ j
    · rw [if_pos (Finset.mem_erase.2 ⟨hj.2.symm, hj.1⟩), if_pos ⟨hi, hj.1, hj.2⟩, eps]; push_cast; rfl
    · rw [if_neg (fun h => hj ⟨(Finset.mem_erase.1 h).2, (Finset.mem_erase.1 h).1.symm⟩), if_neg (fun h => hj h.2)]
  · rw [if_neg hi, map_zero, if_neg (fun h => hi h.1)]

theorem inner_ket_cre (s : Finset ℕ) (i : ℕ) (v : Fock R) :
    inner (ket s) (creOp i v) = if i ∈ s then ((phase s i : ℤ) : R) * v (s.erase i) else 0 := by
  have hz : inner (ket s) (0 : Fock R) = 0 := by simp [ket, inner_single]
  induction v using Finsupp.induction_linear with
  | zero => rw [map_zero, hz]; simp
  | add u v hu hv =>
    have : inner (ket s) (creOp i (u + v)) = inner (ket s) (creOp i u) + inner (ket s) (creOp i v) := by
      rw [map_add]; simp [ket, inner_single]
    rw [this, hu, hv]
    split_ifs
    · rw [Finsupp.add_apply]; ring
    · ring
  | single t c =>
    have := annOp_adjoint (R := R) i s t 1 c
    rw [ket, ← this, annOp_single]
    split_ifs with h
    · rw [inner_single]; ring
    · simp [inner]

theorem oneME_eq (s t : Finset ℕ) (i j : ℕ) :
    oneME R s t i j = if i ∈ s ∧ j ∈ t ∧ s.erase i = t.erase j then ((phase s i * phase t j : ℤ) : R) else 0 := by
  rw [oneME, inner_ket_cre, ann_ket]
  by_cases hi : i ∈ s
  · rw [if_pos hi]
    by_cases hj : j ∈ t
    · rw [if_pos hj, Finsupp.single_apply]
      by_cases e : s.erase i = t.erase j
      · rw [if_pos e.symm, if_pos ⟨hi, hj, e⟩]; push_cast; ring
      · rw [if_neg (fun h => e h.symm), if_neg (fun h => e h.2.2)]; ring
    · rw [if_neg hj, if_neg (fun h => hj h.2.1)]; simp
  · rw [if_neg hi, if_neg (fun h => hi h.1)]

theorem twoME_eq (s t : Finset ℕ) (i j k l : ℕ) :
    twoME R s t i j k l = if (i ∈ s ∧ j ∈ s ∧ i ≠ j) ∧ (k ∈ t ∧ l ∈ t ∧ k ≠ l) ∧
      (s.erase i).erase j = (t.erase k).erase l then ((eps s i j * eps t k l : ℤ) : R) else 0 := by
  rw [twoME, inner_ket_cre, ann2_ket]
  by_cases hi : i ∈ s
  · rw [if_pos hi]
    by_cases hkl : k ∈ t ∧ l ∈ t ∧ k ≠ l
    · rw [if_pos hkl]
      have h := inner_ket_cre (R := R) (s.erase i) j
        (Finsupp.single ((t.erase k).erase l) ((eps t k l : ℤ) : R))
      rw [ket, inner_single, one_mul] at h
      rw [h, Finsupp.single_apply]
      by_cases hj : j ∈ s ∧ i ≠ j
      · rw [if_pos (Finset.mem_erase.2 ⟨hj.2.symm, hj.1⟩)]
        by_cases e : (s.erase i).erase j = (t.erase k).erase l
        · rw [if_pos e.symm, if_pos ⟨⟨hi, hj.1, hj.2⟩, hkl, e⟩, eps.eq_1 s]; push_cast; ring
        · rw [if_neg (fun h => e h.symm), if_neg (fun h => e h.2.2)]; ring
      · rw [if_neg (fun h => hj ⟨(Finset.mem_erase.1 h).2, (Finset.mem_erase.1 h).1.symm⟩),
          if_neg (fun h => hj h.1.2), mul_zero]
    · rw [if_neg hkl, if_neg (fun h => hkl h.2.1)]; simp
  · rw [if_neg hi, if_neg (fun h => hi h.1.1)]

/-! ### one-body -/

theorem oneME_same (s : Finset ℕ) (i j : ℕ) : oneME R s s i j = if i = j ∧ i ∈ s then 1 else 0 := by
  rw [oneME_eq]
  by_cases h : i = j ∧ i ∈ s
  · obtain ⟨rfl, hi⟩ := h
    rw [if_pos ⟨hi, hi, rfl⟩, if_pos ⟨rfl, hi⟩]; push_cast; exact phase_cast_sq s i
  · rw [if_neg h, if_neg]
    rintro ⟨hi, hj, e⟩
    apply h
    refine ⟨?_, hi⟩
    by_contra hne
    have : i ∈ s.erase j := Finset.mem_erase.2 ⟨hne, hi⟩
    rw [← e] at this
    exact Finset.notMem_erase i s this

theorem oneME_single (u : Finset ℕ) {a b : ℕ} (ha : a ∉ u) (hb : b ∉ u) (hab : a ≠ b) (i j : ℕ) :
    oneME R (insert a u) (insert b u) i j = if i = a ∧ j = b then ((phase u a * phase u b : ℤ) : R) else 0 := by
  rw [oneME_eq]
  by_cases h : i = a ∧ j = b
  · obtain ⟨rfl, rfl⟩ := h
    rw [if_pos ⟨Finset.mem_insert_self _ _, Finset.mem_insert_self _ _, by
      rw [Finset.erase_insert ha, Finset.erase_insert hb]⟩, if_pos ⟨rfl, rfl⟩, phase_insert, phase_insert]
    simp
  · rw [if_neg h, if_neg]
    rintro ⟨hi, hj, e⟩
    apply h
    constructor
    · by_contra hne
      have : a ∈ (insert a u).erase i := Finset.mem_erase.2 ⟨fun e => hne e.symm, Finset.mem_insert_self _ _⟩
      rw [e] at this
      simp [ha, hab] at this
    · by_contra hne
      have : b ∈ (insert b u).erase j := Finset.mem_erase.2 ⟨fun e => hne e.symm, Finset.mem_insert_self _ _⟩
      rw [← e] at this
      simp [hb, Ne.symm hab] at this

theorem oneME_ne_zero {s t : Finset ℕ} {i j : ℕ} (h : oneME R s t i j ≠ 0) :
    s.card = t.card ∧ (s \ t).card ≤ 1 := by
  rw [oneME_eq] at h
  have h' : i ∈ s ∧ j ∈ t ∧ s.erase i = t.erase j := by
    by_contra hc; rw [if_neg hc] at h; exact h rfl
  obtain ⟨hi, hj, e⟩ := h'
  refine ⟨?_, ?_⟩
  · have h1 := Finset.card_erase_add_one hi
    have h2 := Finset.card_erase_add_one hj
    rw [e] at h1; omega
  · have : s \ t ⊆ {i} := by
      intro x hx
      rw [Finset.mem_sdiff] at hx
      rw [Finset.mem_singleton]
      by_contra hne
      have : x ∈ s.erase i := Finset.mem_erase.2 ⟨hne, hx.1⟩
      rw [e] at this
      exact hx.2 (Finset.mem_of_mem_erase this)
    exact (Finset.card_le_card this).trans (by simp)

/-! ### two-body -/

theorem twoME_ne_zero {s t : Finset ℕ} {i j k l : ℕ} (h : twoME R s t i j k l ≠ 0) :
    s.card = t.card ∧ (s \ t).card ≤ 2 := by
  rw [twoME_eq] at h
  have h' : (i ∈ s ∧ j ∈ s ∧ i ≠ j) ∧ (k ∈ t ∧ l ∈ t ∧ k ≠ l) ∧ (s.erase i).erase j = (t.erase k).erase l := by
    by_contra hc; rw [if_neg hc] at h; exact h rfl
  obtain ⟨⟨hi, hj, hij⟩, ⟨hk, hl, hkl⟩, e⟩ := h'
  refine ⟨?_, ?_⟩
  · have h1 := Finset.card_erase_add_one hi
    have h2 := Finset.card_erase_add_one hk
    have h3 := Finset.card_erase_add_one (Finset.mem_erase.2 ⟨hij.symm, hj⟩)
    have h4 := Finset.card_erase_add_one (Finset.mem_erase.2 ⟨hkl.symm, hl⟩)
    rw [e] at h3; omega
  · have : s \ t ⊆ {i, j} := by
      intro x hx
      rw [Finset.mem_sdiff] at hx
      rw [Finset.mem_insert, Finset.mem_singleton]
      by_contra hne
      push Not at hne
      have : x ∈ (s.erase i).erase j := Finset.mem_erase.2 ⟨hne.2, Finset.mem_erase.2 ⟨hne.1, hx.1⟩⟩
      rw [e] at this
      exact hx.2 (Finset.mem_of_mem_erase (Finset.mem_of_mem_erase this))
    exact (Finset.card_le_card this).trans Finset.card_le_two

theorem twoME_swap_left (s t : Finset ℕ) (i j k l : ℕ) : twoME R s t j i k l = - twoME R s t i j k l := by
  rw [twoME_eq, twoME_eq]
  by_cases h : (i ∈ s ∧ j ∈ s ∧ i ≠ j) ∧ (k ∈ t ∧ l ∈ t ∧ k ≠ l) ∧ (s.erase i).erase j = (t.erase k).erase l
  · rw [if_pos h, if_pos ⟨⟨h.1.2.1, h.1.1, h.1.2.2.symm⟩, h.2.1, by rw [Finset.erase_right_comm]; exact h.2.2⟩,
      eps_swap s h.1.1 h.1.2.1 h.1.2.2]
    push_cast; ring
  · rw [if_neg h, if_neg, neg_zero]
    intro h'
    exact h ⟨⟨h'.1.2.1, h'.1.1, h'.1.2.2.symm⟩, h'.2.1, by rw [Finset.erase_right_comm]; exact h'.2.2⟩

theorem twoME_swap_right (s t : Finset ℕ) (i j k l : ℕ) : twoME R s t i j l k = - twoME R s t i j k l := by
  rw [twoME_eq, twoME_eq]
  by_cases h : (i ∈ s ∧ j ∈ s ∧ i ≠ j) ∧ (k ∈ t ∧ l ∈ t ∧ k ≠ l) ∧ (s.erase i).erase j = (t.erase k).erase l
  · rw [if_pos h, if_pos ⟨h.1, ⟨h.2.1.2.1, h.2.1.1, h.2.1.2.2.symm⟩, by
      rw [Finset.erase_right_comm (s := t)]; exact h.2.2⟩, eps_swap t h.2.1.1 h.2.1.2.1 h.2.1.2.2]
    push_cast; ring
  · rw [if_neg h, if_neg, neg_zero]
    intro h'
    exact h ⟨h'.1, ⟨h'.2.1.2.1, h'.2.1.1, h'.2.1.2.2.symm⟩, by rw [Finset.erase_right_comm (s := t)]; exact h'.2.2⟩

/-- adjointness: real matrix elements are symmetric -/
theorem oneME_symm (s t : Finset ℕ) (i j : ℕ) : oneME R t s j i = oneME R s t i j := by
  rw [oneME_eq, oneME_eq]
  by_cases h : i ∈ s ∧ j ∈ t ∧ s.erase i = t.erase j
  · rw [if_pos h, if_pos ⟨h.2.1, h.1, h.2.2.symm⟩]; push_cast; ring
  · rw [if_neg h, if_neg (fun h' => h ⟨h'.2.1, h'.1, h'.2.2.symm⟩)]

theorem twoME_symm (s t : Finset ℕ) (i j k l : ℕ) : twoME R t s k l i j = twoME R s t i j k l := by
  rw [twoME_eq, twoME_eq]
  by_cases h : (i ∈ s ∧ j ∈ s ∧ i ≠ j) ∧ (k ∈ t ∧ l ∈ t ∧ k ≠ l) ∧ (s.erase i).erase j = (t.erase k).erase l
  · rw [if_pos h, if_pos ⟨h.2.1, h.1, h.2.2.symm⟩]; push_cast; ring
  · rw [if_neg h, if_neg (fun h' => h ⟨h'.2.1, h'.1, h'.2.2.symm⟩)]

theorem twoME_same (s : Finset ℕ) (i j k l : ℕ) : twoME R s s i j k l =
    (if i = k ∧ j = l ∧ i ∈ s ∧ j ∈ s then 1 else 0) - (if i = l ∧ j = k ∧ i ∈ s ∧ j ∈ s then 1 else 0) := by
  rw [twoME_eq]
  by_cases hi : i ∈ s
  swap
  · simp [hi]
  by_cases hj : j ∈ s
  swap
  · simp [hj]
  by_cases hij : i = j
  · subst hij
    simp only [hi, ne_eq, not_true_eq_false, and_false, false_and, if_false, and_true]
    by_cases h : i = k ∧ i = l
    · rw [if_pos h, if_pos h.symm, sub_self]
    · rw [if_neg h, if_neg (fun h' => h h'.symm), sub_self]
  by_cases h1 : i = k ∧ j = l
  · obtain ⟨rfl, rfl⟩ := h1
    rw [if_pos ⟨⟨hi, hj, hij⟩, ⟨hi, hj, hij⟩, rfl⟩, if_pos ⟨rfl, rfl, hi, hj⟩,
      if_neg (fun h => hij h.1), eps_sq]; simp
  by_cases h2 : i = l ∧ j = k
  · obtain ⟨rfl, rfl⟩ := h2
    rw [if_pos ⟨⟨hi, hj, hij⟩, ⟨hj, hi, Ne.symm hij⟩, Finset.erase_right_comm⟩,
      if_neg (fun h => hij h.1), if_pos ⟨rfl, rfl, hi, hj⟩, eps_swap s hi hj hij, mul_neg, eps_sq]; simp
  rw [if_neg, if_neg (fun h => h1 ⟨h.1, h.2.1⟩), if_neg (fun h => h2 ⟨h.1, h.2.1⟩), sub_self]
  rintro ⟨-, ⟨hk, hl, hkl⟩, e⟩
  have hik : i = k ∨ i = l := by
    by_contra hne
    push Not at hne
    have : i ∈ (s.erase k).erase l := Finset.mem_erase.2 ⟨hne.2, Finset.mem_erase.2 ⟨hne.1, hi⟩⟩
    rw [← e] at this
    simp at this
  have hjk : j = k ∨ j = l := by
    by_contra hne
    push Not at hne
    have : j ∈ (s.erase k).erase l := Finset.mem_erase.2 ⟨hne.2, Finset.mem_erase.2 ⟨hne.1, hj⟩⟩
    rw [← e] at this
    simp at this
  rcases hik with rfl | rfl <;> rcases hjk with rfl | rfl <;> simp_all

/-- one orientation of the single excitation -/
theorem twoME_single_aux (u : Finset ℕ) {a b : ℕ} (ha : a ∉ u) (hb : b ∉ u) (j l : ℕ) (hl : l ≠ b) :
    twoME R (insert a u) (insert b u) a j b l =
      if j = l ∧ j ∈ u then ((phase u a * phase u b : ℤ) : R) else 0 := by
  rw [twoME_eq, Finset.erase_insert ha, Finset.erase_insert hb]
  by_cases h : j = l ∧ j ∈ u
  · obtain ⟨rfl, hj⟩ := h
    have hja : a ≠ j := by rintro rfl; exact ha hj
    rw [if_pos ⟨⟨Finset.mem_insert_self _ _, Finset.mem_insert_of_mem hj, hja⟩,
      ⟨Finset.mem_insert_self _ _, Finset.mem_insert_of_mem hj, hl.symm⟩, rfl⟩, if_pos ⟨rfl, hj⟩]
    have e1 : phase (insert a u) a = phase u a := by rw [phase_insert]; simp
    have e2 : phase (insert b u) b = phase u b := by rw [phase_insert]; simp
    rw [eps, eps, Finset.erase_insert ha, Finset.erase_insert hb, e1, e2]
    have := phase_sq u j
    congr 1
    linear_combination (phase u a * phase u b) * this
  · rw [if_neg h, if_neg]
    rintro ⟨⟨-, hj, haj⟩, ⟨-, hl', -⟩, e⟩
    have hju : j ∈ u := (Finset.mem_insert.1 hj).resolve_left (Ne.symm haj)
    refine h ⟨?_, hju⟩
    by_contra hne
    have : j ∈ u.erase l := Finset.mem_erase.2 ⟨hne, hju⟩
    rw [← e] at this
    simp at this

theorem twoME_single (u : Finset ℕ) {a b : ℕ} (ha : a ∉ u) (hb : b ∉ u) (hab : a ≠ b) (i j k l : ℕ) :
    twoME R (insert a u) (insert b u) i j k l = ((phase u a * phase u b : ℤ) : R) *
      ((if i = a ∧ k = b ∧ j = l ∧ j ∈ u then 1 else 0) - (if i = a ∧ l = b ∧ j = k ∧ j ∈ u then 1 else 0)
        - (if j = a ∧ k = b ∧ i = l ∧ i ∈ u then 1 else 0) + (if j = a ∧ l = b ∧ i = k ∧ i ∈ u then 1 else 0)) := by
  have hzero : (i ≠ a ∧ j ≠ a) ∨ (k ≠ b ∧ l ≠ b) ∨ (i = a ∧ j = a) ∨ (k = b ∧ l = b) →
      twoME R (insert a u) (insert b u) i j k l = 0 := by
    intro h
    rw [twoME_eq, if_neg]
    rintro ⟨⟨hi, hj, hij⟩, ⟨hk, hl, hkl⟩, e⟩
    rcases h with h | h | h | h
    · have : a ∈ ((insert a u).erase i).erase j :=
        Finset.mem_erase.2 ⟨h.2.symm, Finset.mem_erase.2 ⟨h.1.symm, Finset.mem_insert_self _ _⟩⟩
      rw [e] at this
      simp [ha, hab] at this
    · have : b ∈ ((insert b u).erase k).erase l :=
        Finset.mem_erase.2 ⟨h.2.symm, Finset.mem_erase.2 ⟨h.1.symm, Finset.mem_insert_self _ _⟩⟩
      rw [← e] at this
      simp [hb, Ne.symm hab] at this
    · exact hij (h.1.trans h.2.symm)
    · exact hkl (h.1.trans h.2.symm)
  by_cases h0 : (i ≠ a ∧ j ≠ a) ∨ (k ≠ b ∧ l ≠ b) ∨ (i = a ∧ j = a) ∨ (k = b ∧ l = b)
  · rw [hzero h0, if_neg, if_neg, if_neg, if_neg]
    · ring
    all_goals
      rintro ⟨e1, e2, e3, h⟩
      rcases h0 with ⟨f1, f2⟩ | ⟨f1, f2⟩ | ⟨f1, f2⟩ | ⟨f1, f2⟩ <;> simp_all
  have h1 : (i = a ∧ j ≠ a) ∨ (i ≠ a ∧ j = a) := by tauto
  have h2 : (k = b ∧ l ≠ b) ∨ (k ≠ b ∧ l = b) := by tauto
  rcases h1 with ⟨hia, hja⟩ | ⟨hia, hja⟩ <;> rcases h2 with ⟨hkb, hlb⟩ | ⟨hkb, hlb⟩
  · rw [hia, hkb, twoME_single_aux u ha hb j l hlb]
    simp only [hja, hlb, true_and, false_and, and_false, if_false]
    split_ifs <;> simp
  · rw [hia, hlb, twoME_swap_right, twoME_single_aux u ha hb j k hkb]
    simp only [hja, hkb, true_and, false_and, and_false, if_false]
    split_ifs <;> simp
  · rw [hja, hkb, twoME_swap_left, twoME_single_aux u ha hb i l hlb]
    simp only [hia, hlb, true_and, false_and, and_false, if_false]
    split_ifs <;> simp
  · rw [hja, hlb, twoME_swap_left, twoME_swap_right, twoME_single_aux u ha hb i k hkb]
    simp only [hia, hkb, true_and, false_and, and_false, if_false]
    split_ifs <;> simp

theorem twoME_double (u : Finset ℕ) {a b c d : ℕ} (ha : a ∉ u) (hb : b ∉ u) (hc : c ∉ u) (hd : d ∉ u)
    (hab : a ≠ b) (hcd : c ≠ d) (hac : a ≠ c) (had : a ≠ d) (hbc : b ≠ c) (hbd : b ≠ d) (i j k l : ℕ) :
    twoME R (insert a (insert b u)) (insert c (insert d u)) i j k l =
      ((eps (insert a (insert b u)) a b * eps (insert c (insert d u)) c d : ℤ) : R) *
      ((if i = a ∧ j = b ∧ k = c ∧ l = d then 1 else 0) - (if i = a ∧ j = b ∧ k = d ∧ l = c then 1 else 0)
        - (if i = b ∧ j = a ∧ k = c ∧ l = d then 1 else 0) + (if i = b ∧ j = a ∧ k = d ∧ l = c then 1 else 0)) := by
  have hmain : twoME R (insert a (insert b u)) (insert c (insert d u)) a b c d =
      ((eps (insert a (insert b u)) a b * eps (insert c (insert d u)) c d : ℤ) : R) := by
    rw [twoME_eq, if_pos]
    refine ⟨⟨by simp, by simp, hab⟩, ⟨by simp, by simp, hcd⟩, ?_⟩
    rw [Finset.erase_insert (by simp [hab, ha]), Finset.erase_insert hb, Finset.erase_insert (by simp [hcd, hc]),
      Finset.erase_insert hd]
  have hnz : twoME R (insert a (insert b u)) (insert c (insert d u)) i j k l ≠ 0 →
      ((i = a ∧ j = b) ∨ (i = b ∧ j = a)) ∧ ((k = c ∧ l = d) ∨ (k = d ∧ l = c)) := by
    intro h
    rw [twoME_eq] at h
    have h' : (i ∈ insert a (insert b u) ∧ j ∈ insert a (insert b u) ∧ i ≠ j) ∧
        (k ∈ insert c (insert d u) ∧ l ∈ insert c (insert d u) ∧ k ≠ l) ∧
        ((insert a (insert b u)).erase i).erase j = ((insert c (insert d u)).erase k).erase l := by
      by_contra hc; rw [if_neg hc] at h; exact h rfl
    obtain ⟨⟨hi, hj, hij⟩, ⟨hk, hl, hkl⟩, e⟩ := h'
    have key : ∀ x, x ∈ ((insert a (insert b u)).erase i).erase j ↔ x ∈ ((insert c (insert d u)).erase k).erase l := by
      intro x; rw [e]
    simp only [Finset.mem_erase, Finset.mem_insert] at key
    have ka := key a
    have kb := key b
    have kc := key c
    have kd := key d
    have e1 : i = a ∨ j = a := by
      by_contra hne; push Not at hne
      have := ka.1 ⟨hne.2.symm, hne.1.symm, Or.inl rfl⟩
      rcases this.2.2 with h | h | h
      · exact hac h
      · exact had h
      · exact ha h
    have e2 : i = b ∨ j = b := by
      by_contra hne; push Not at hne
      have := kb.1 ⟨hne.2.symm, hne.1.symm, Or.inr (Or.inl rfl)⟩
      rcases this.2.2 with h | h | h
      · exact hbc h
      · exact hbd h
      · exact hb h
    have e3 : k = c ∨ l = c := by
      by_contra hne; push Not at hne
      have := kc.2 ⟨hne.2.symm, hne.1.symm, Or.inl rfl⟩
      rcases this.2.2 with h | h | h
      · exact hac h.symm
      · exact hbc h.symm
      · exact hc h
    have e4 : k = d ∨ l = d := by
      by_contra hne; push Not at hne
      have := kd.2 ⟨hne.2.symm, hne.1.symm, Or.inr (Or.inl rfl)⟩
      rcases this.2.2 with h | h | h
      · exact had h.symm
      · exact hbd h.symm
      · exact hd h
    constructor
    · rcases e1 with rfl | rfl
      · rcases e2 with h | h
        · exact absurd h hab
        · exact Or.inl ⟨rfl, h⟩
      · rcases e2 with h | h
        · exact Or.inr ⟨h, rfl⟩
        · exact absurd h hab
    · rcases e3 with rfl | rfl
      · rcases e4 with h | h
        · exact absurd h hcd
        · exact Or.inl ⟨rfl, h⟩
      · rcases e4 with h | h
        · exact Or.inr ⟨h, rfl⟩
        · exact absurd h hcd
  by_cases h : ((i = a ∧ j = b) ∨ (i = b ∧ j = a)) ∧ ((k = c ∧ l = d) ∨ (k = d ∧ l = c))
  · obtain ⟨⟨rfl, rfl⟩ | ⟨rfl, rfl⟩, ⟨rfl, rfl⟩ | ⟨rfl, rfl⟩⟩ := h
    · rw [hmain]; simp [hab, hcd, Ne.symm hab, Ne.symm hcd]
    · rw [twoME_swap_right, hmain]; simp [hab, hcd, Ne.symm hab, Ne.symm hcd]
    · rw [twoME_swap_left, hmain]; simp [hab, hcd, Ne.symm hab, Ne.symm hcd]
    · rw [twoME_swap_left, twoME_swap_right, hmain]; simp [hab, hcd, Ne.symm hab, Ne.symm hcd]
  · have hz : twoME R (insert a (insert b u)) (insert c (insert d u)) i j k l = 0 := by
      by_contra hne; exact h (hnz hne)
    rw [hz, if_neg (by tauto), if_neg (by tauto), if_neg (by tauto), if_neg (by tauto)]
    ring

end Fanpy.Spec
