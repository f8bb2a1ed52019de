import Mathlib.Tactic.Tauto
import Verif.Lemmas.CCPairs
import Verif.Spec.Seniority

/-! The seniority-raising operators commute. -/

namespace Fanpy.CC
open Fanpy.Spec Fanpy.Slater Fanpy.Graphs Fanpy.It Fanpy.Props

theorem partner_lt {K i : ℕ} (h : i < 2 * K) : partner K i < 2 * K := by unfold partner; split_ifs <;> omega

theorem partner_partner {K i : ℕ} (h : i < 2 * K) : partner K (partner K i) = i := by unfold partner; split_ifs <;> omega

section
variable {R : Type*} [CommRing R]

theorem number_single (i : ℕ) (s : Finset ℕ) (x : R) :
    (creOp i * annOp i : Module.End R (Fock R)) (Finsupp.single s x) = if i ∈ s then Finsupp.single s x else 0 := by
  show creOp i (annOp i (Finsupp.single s x)) = _
  rw [annOp_single]
  split_ifs with h
  · rw [creOp_single, if_neg (by simp), Finset.insert_erase h, phase_erase, if_neg (by simp), mul_assoc, ← Int.cast_mul, phase_sq]
    simp
  · simp

theorem pairProj_single (K : ℕ) (a c : List ℕ) (s : Finset ℕ) (x : R) :
    pairProj K a c (Finsupp.single s x) = if Paired K a c s then Finsupp.single s x else 0 := by
  have h1 : ∀ (a : List ℕ), ((a.map fun i => (creOp (partner K i) * annOp (partner K i) : Module.End R (Fock R))).prod)
      (Finsupp.single s x) = if ∀ i ∈ a, partner K i ∈ s then Finsupp.single s x else 0 := by
    intro a
    induction a with
    | nil => simp
    | cons i a ih =>
      rw [List.map_cons, List.prod_cons, Module.End.mul_apply, ih]
      by_cases h : ∀ j ∈ a, partner K j ∈ s
      · rw [if_pos h, number_single]
        by_cases hi : partner K i ∈ s
        · rw [if_pos hi, if_pos (by simpa [hi] using h)]
        · rw [if_neg hi, if_neg (by simp [hi])]
      · rw [if_neg h, map_zero, if_neg]
        intro h'; exact h fun j hj => h' j (by simp [hj])
  have h2 : ∀ (c : List ℕ), ((c.map fun i => (1 - creOp (partner K i) * annOp (partner K i) : Module.End R (Fock R))).prod)
      (Finsupp.single s x) = if ∀ i ∈ c, partner K i ∉ s then Finsupp.single s x else 0 := by
    intro c
    induction c with
    | nil => simp
    | cons i c ih =>
      rw [List.map_cons, List.prod_cons, Module.End.mul_apply, ih]
      by_cases h : ∀ j ∈ c, partner K j ∉ s
      · rw [if_pos h, LinearMap.sub_apply, number_single, Module.End.one_apply]
        by_cases hi : partner K i ∈ s
        · rw [if_pos hi, sub_self, if_neg (by simp [hi])]
        · rw [if_neg hi, sub_zero, if_pos (by simpa [hi] using h)]
      · rw [if_neg h, map_zero, if_neg]
        intro h'; exact h fun j hj => h' j (by simp [hj])
  rw [pairProj, Module.End.mul_apply, h2]
  by_cases hc : ∀ i ∈ c, partner K i ∉ s
  · rw [if_pos hc, h1]
    by_cases ha : ∀ i ∈ a, partner K i ∈ s
    · rw [if_pos ha, if_pos (show Paired K a c s from ⟨ha, hc⟩)]
    · rw [if_neg ha, if_neg fun h : Paired K a c s => ha h.1]
  · rw [if_neg hc, map_zero, if_neg fun h : Paired K a c s => hc h.2]

theorem senOp_single (K : ℕ) (a c : List ℕ) (s : Finset ℕ) (x : R) :
    senOp K a c (Finsupp.single s x) = if Paired K a c s then excOp a c (Finsupp.single s x) else 0 := by
  rw [senOp, Module.End.mul_apply, pairProj_single]
  split_ifs
  · rfl
  · simp

theorem excOp_support (a c : List ℕ) (s : Finset ℕ) (x : R) : excOp a c (Finsupp.single s x) = 0 ∨
    (a.toFinset ⊆ s ∧ Disjoint c.toFinset (s \ a.toFinset) ∧
      ∃ e : ℤ, excOp a c (Finsupp.single s x) = Finsupp.single (s \ a.toFinset ∪ c.toFinset) (x * (e : R)) ∧ e * e = 1) := by
  rw [excOp_apply]
  rcases annString_support a s x with h | ⟨-, h1, e, h2, h3⟩
  · left; rw [h]; simp
  · rw [h2]
    rcases creString_support c (s \ a.toFinset) (x * (e : R)) with h | ⟨-, g1, f, g2, g3⟩
    · left; exact h
    · right
      refine ⟨h1, g1, e * f, ?_, ?_⟩
      · rw [g2]; congr 1; push_cast; ring
      · linear_combination (f * f) * h3 + g3

/-- two operators that touch a spatial orbital in common -/
def Share (K : ℕ) (p q : List ℕ × List ℕ) : Prop := ∃ i ∈ p.1 ++ p.2, ∃ j ∈ q.1 ++ q.2, i = j ∨ i = partner K j

theorem share_zero {K : ℕ} {V : Finset ℕ} {p q : List ℕ × List ℕ} (hp : Op V p) (hq : Op V q) (hK : ∀ i ∈ q.1 ++ q.2, i < 2 * K)
    (h : Share K p q) (s : Finset ℕ) (x : R) : senOp K p.1 p.2 (senOp K q.1 q.2 (Finsupp.single s x)) = 0 := by
  rw [senOp_single]
  by_cases hq1 : Paired K q.1 q.2 s
  swap
  · rw [if_neg hq1, map_zero]
  rw [if_pos hq1]
  rcases excOp_support q.1 q.2 s x with h0 | ⟨q2, q3, e, q4, -⟩
  · rw [h0, map_zero]
  rw [q4, senOp_single]
  split_ifs with hp1
  swap
  · rfl
  rcases excOp_support p.1 p.2 (s \ q.1.toFinset ∪ q.2.toFinset) (x * (e : R)) with h0 | ⟨p2, p3, -⟩
  · exact h0
  exfalso
  have inA : ∀ i ∈ p.1, i ∈ s \ q.1.toFinset ∪ q.2.toFinset := fun i hi => p2 (List.mem_toFinset.2 hi)
  have outC : ∀ i ∈ p.2, i ∉ s \ q.1.toFinset ∪ q.2.toFinset := by
    intro i hi hs
    have := Finset.disjoint_left.1 p3 (List.mem_toFinset.2 hi)
    rw [Finset.mem_sdiff, not_and, not_not] at this
    exact hp.ann i (List.mem_toFinset.1 (this hs)) (hp.cre i hi)
  have qA : ∀ i ∈ q.1, i ∈ s := fun i hi => q2 (List.mem_toFinset.2 hi)
  have qC : ∀ i ∈ q.2, i ∉ s := by
    intro i hi hs
    have := Finset.disjoint_left.1 q3 (List.mem_toFinset.2 hi)
    rw [Finset.mem_sdiff, not_and, not_not] at this
    exact hq.ann i (List.mem_toFinset.1 (this hs)) (hq.cre i hi)
  have mem' : ∀ i, i ∈ s \ q.1.toFinset ∪ q.2.toFinset ↔ (i ∈ s ∧ i ∉ q.1) ∨ i ∈ q.2 := by
    intro i; simp
  simp only [mem'] at inA outC
  have pA := hp1.1
  have pC := hp1.2
  simp only [mem'] at pA pC
  obtain ⟨i, hi, j, hj, hij⟩ := h
  have hjK := partner_partner (hK j hj)
  rw [List.mem_append] at hi hj
  have a1 := hp.ann i
  have c1 := hp.cre i
  have a2 := hq.ann j
  have c2 := hq.cre j
  have a3 := hq.ann i
  have c3 := hq.cre i
  have i1 := inA i
  have o1 := outC i
  have p1 := pA i
  have p2 := pC i
  have j1 := qA j
  have j2 := qC j
  have j3 := hq1.1 j
  have j4 := hq1.2 j
  rcases hij with rfl | rfl
  · rcases hi with hi | hi <;> rcases hj with hj | hj <;> simp_all
  · rw [hjK] at p1 p2
    rcases hi with hi | hi <;> rcases hj with hj | hj
    · rcases p1 hi with h | h
      · exact h.2 hj
      · exact a2 hj (c2 h)
    · rcases i1 hi with h | h
      · exact j4 hj h.1
      · exact a1 hi (c3 h)
    · exact o1 hi (Or.inl ⟨j3 hj, fun h => a3 h (c1 hi)⟩)
    · exact p2 hi (Or.inr hj)

theorem not_share_symm {K : ℕ} {p q : List ℕ × List ℕ} (hp : ∀ i ∈ p.1 ++ p.2, i < 2 * K) (hq : ∀ i ∈ q.1 ++ q.2, i < 2 * K) :
    Share K p q ↔ Share K q p := by
  constructor
  · rintro ⟨i, hi, j, hj, rfl | rfl⟩
    · exact ⟨i, hj, i, hi, Or.inl rfl⟩
    · exact ⟨j, hj, _, hi, Or.inr (partner_partner (hq j hj)).symm⟩
  · rintro ⟨i, hi, j, hj, rfl | rfl⟩
    · exact ⟨i, hj, i, hi, Or.inl rfl⟩
    · exact ⟨j, hj, _, hi, Or.inr (partner_partner (hp j hj)).symm⟩

theorem senOp_two {K : ℕ} {p q : List ℕ × List ℕ} (h : ¬ Share K p q) (hp : ∀ i ∈ p.1 ++ p.2, i < 2 * K) (s : Finset ℕ) (x : R) :
    senOp K p.1 p.2 (senOp K q.1 q.2 (Finsupp.single s x)) =
      if Paired K p.1 p.2 s ∧ Paired K q.1 q.2 s then excOp p.1 p.2 (excOp q.1 q.2 (Finsupp.single s x)) else 0 := by
  rw [senOp_single]
  by_cases hq : Paired K q.1 q.2 s
  swap
  · rw [if_neg hq, map_zero, if_neg fun h => hq h.2]
  rw [if_pos hq]
  rcases excOp_support q.1 q.2 s x with h0 | ⟨-, -, e, q4, -⟩
  · rw [h0]; simp
  rw [q4, senOp_single]
  have key : Paired K p.1 p.2 (s \ q.1.toFinset ∪ q.2.toFinset) ↔ Paired K p.1 p.2 s := by
    have hn : ∀ i ∈ p.1 ++ p.2, partner K i ∉ q.1 ∧ partner K i ∉ q.2 := by
      intro i hi
      rw [← not_or, ← List.mem_append]
      intro hq
      exact h ⟨i, hi, _, hq, Or.inr (partner_partner (hp i hi)).symm⟩
    unfold Paired
    constructor
    · rintro ⟨h1, h2⟩
      refine ⟨fun i hi => ?_, fun i hi hs => ?_⟩
      · have := h1 i hi
        have := hn i (by simp [hi])
        simp_all
      · have := h2 i hi
        have := hn i (by simp [hi])
        simp_all
    · rintro ⟨h1, h2⟩
      refine ⟨fun i hi => ?_, fun i hi hs => ?_⟩
      · have := h1 i hi
        have := hn i (by simp [hi])
        simp_all
      · have := h2 i hi
        have := hn i (by simp [hi])
        simp_all
  by_cases h1 : Paired K p.1 p.2 s
  · rw [if_pos (key.2 h1), if_pos ⟨h1, hq⟩]
  · rw [if_neg fun h => h1 (key.1 h), if_neg fun h => h1 h.1]

theorem senOp_commute {K : ℕ} {V : Finset ℕ} {p q : List ℕ × List ℕ} (hp : Op V p) (hq : Op V q) (hpK : ∀ i ∈ p.1 ++ p.2, i < 2 * K)
    (hqK : ∀ i ∈ q.1 ++ q.2, i < 2 * K) : Commute (senOp K p.1 p.2 : Module.End R (Fock R)) (senOp K q.1 q.2) := by
  apply Finsupp.lhom_ext
  intro s x
  show senOp K p.1 p.2 (senOp K q.1 q.2 _) = senOp K q.1 q.2 (senOp K p.1 p.2 _)
  by_cases h : Share K p q
  · rw [share_zero hp hq hqK h, share_zero hq hp hpK ((not_share_symm hpK hqK).1 h)]
  · rw [senOp_two h hpK, senOp_two (fun h' => h ((not_share_symm hpK hqK).2 h')) hqK]
    have e : excOp p.1 p.2 (excOp q.1 q.2 (Finsupp.single s x)) = excOp q.1 q.2 (excOp p.1 p.2 (Finsupp.single s x : Fock R)) :=
      LinearMap.congr_fun (excOp_commute hp hq) _
    rw [e]
    simp only [and_comm]

/-- a product of the operators is zero on a determinant, or what the product without the restrictions gives -/
theorem senProd_cases (K : ℕ) (S : List (List ℕ × List ℕ)) (s : Finset ℕ) (x : R) :
    ((S.map fun p => (senOp K p.1 p.2 : Module.End R (Fock R))).prod (Finsupp.single s x) = 0 ∨
      (S.map fun p => (senOp K p.1 p.2 : Module.End R (Fock R))).prod (Finsupp.single s x) =
        (S.map fun p => (excOp p.1 p.2 : Module.End R (Fock R))).prod (Finsupp.single s x)) ∧
    ∃ s' y, (S.map fun p => (excOp p.1 p.2 : Module.End R (Fock R))).prod (Finsupp.single s x) = Finsupp.single s' y := by
  induction S with
  | nil => exact ⟨Or.inr rfl, s, x, rfl⟩
  | cons p S ih =>
    obtain ⟨h1, s', y, h2⟩ := ih
    simp only [List.map_cons, List.prod_cons, Module.End.mul_apply]
    refine ⟨?_, ?_⟩
    · rcases h1 with h1 | h1
      · left; rw [h1, map_zero]
      · rw [h1, h2, senOp_single]
        split_ifs
        · right; rfl
        · left; rfl
    · rw [h2]
      rcases excOp_support p.1 p.2 s' y with h | ⟨-, -, e, h, -⟩
      · exact ⟨s', 0, by rw [h]; simp⟩
      · exact ⟨_, _, h⟩

/-- `∏ (1 + x)` -/
theorem prod_one_add {α A : Type*} [Ring A] (x : α → A) (l : List α) :
    (l.map fun p => 1 + x p).prod = (l.sublists'.map fun S => (S.map x).prod).sum := by
  induction l with
  | nil => simp
  | cons p l ih =>
    rw [List.map_cons, List.prod_cons, ih, List.sublists'_cons, List.map_append, List.sum_append, add_mul, one_mul, List.map_map]
    congr 1
    rw [← List.sum_map_mul_left]
    rfl

end

end Fanpy.CC
