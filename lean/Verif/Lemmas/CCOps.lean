import Verif.Lemmas.Grassmann
import Verif.Spec.Cluster
import Verif.Model.CC

/-! Products of excitation operators from one set of orbitals to a disjoint one. -/

namespace Fanpy.CC
open Fanpy.Spec Fanpy.Slater

variable {R : Type*} [CommRing R]

theorem ann_anti (i j : ℕ) : (annOp i * annOp j : Module.End R (Fock R)) = -(annOp j * annOp i) :=
  LinearMap.ext fun v => eq_neg_of_add_eq_zero_left (car_ann i j v)

theorem cre_anti (i j : ℕ) : (creOp i * creOp j : Module.End R (Fock R)) = -(creOp j * creOp i) :=
  LinearMap.ext fun v => eq_neg_of_add_eq_zero_left (car_cre i j v)

theorem ann_cre_anti {i j : ℕ} (h : i ≠ j) : (annOp i * creOp j : Module.End R (Fock R)) = -(creOp j * annOp i) :=
  LinearMap.ext fun v => eq_neg_of_add_eq_zero_left (by
    have := car_ann_cre (R := R) i j v
    rwa [if_neg h] at this)

theorem ann_sq (i : ℕ) : (annOp i * annOp i : Module.End R (Fock R)) = 0 := by
  apply Finsupp.lhom_ext
  intro s c
  show annOp i (annOp i _) = 0
  rw [annOp_single]
  split_ifs <;> simp

theorem cre_sq (i : ℕ) : (creOp i * creOp i : Module.End R (Fock R)) = 0 := by
  apply Finsupp.lhom_ext
  intro s c
  show creOp i (creOp i _) = 0
  rw [creOp_single]
  split_ifs <;> simp

theorem annProd_apply (l : List ℕ) (v : Fock R) : ((l.reverse.map annOp).prod : Module.End R (Fock R)) v = annString l v := by
  induction l generalizing v with
  | nil => rfl
  | cons i l ih =>
    rw [annString_cons, ← ih, List.reverse_cons, List.map_append, List.prod_append]
    simp

theorem creProd_apply' (l : List ℕ) (v : Fock R) : ((l.reverse.map creOp).prod : Module.End R (Fock R)) v = creString l v := by
  induction l generalizing v with
  | nil => rfl
  | cons i l ih =>
    rw [creString_cons, ← ih, List.reverse_cons, List.map_append, List.prod_append]
    simp

theorem excOp_apply (a c : List ℕ) (v : Fock R) : excOp a c v = creString c (annString a v) := by
  rw [← creProd_apply', ← annProd_apply]; rfl

/-- one generator for every orbital: creators on `V`, annihilators elsewhere -/
noncomputable def gen (V : Finset ℕ) (i : ℕ) : Module.End R (Fock R) := if i ∈ V then creOp i else annOp i

theorem gen_anti (V : Finset ℕ) (i j : ℕ) : (gen V i * gen V j : Module.End R (Fock R)) = -(gen V j * gen V i) := by
  unfold gen
  by_cases hi : i ∈ V <;> by_cases hj : j ∈ V <;> simp only [hi, hj, if_true, if_false]
  · exact cre_anti i j
  · have h := ann_cre_anti (R := R) (i := j) (j := i) (by rintro rfl; exact hj hi)
    refine LinearMap.ext fun v => ?_
    have := LinearMap.congr_fun h v
    rw [LinearMap.neg_apply] at this ⊢
    rw [this, neg_neg]
  · exact ann_cre_anti (by rintro rfl; exact hi hj)
  · exact ann_anti i j

theorem gen_sq (V : Finset ℕ) (i : ℕ) : (gen V i * gen V i : Module.End R (Fock R)) = 0 := by
  unfold gen
  split_ifs
  · exact cre_sq i
  · exact ann_sq i

theorem excOp_gen {V : Finset ℕ} {a c : List ℕ} (ha : ∀ i ∈ a, i ∉ V) (hc : ∀ i ∈ c, i ∈ V) :
    (excOp a c : Module.End R (Fock R)) = ((c.reverse ++ a.reverse).map (gen V)).prod := by
  rw [List.map_append, List.prod_append, excOp]
  congr 2
  · exact List.map_congr_left fun i hi => by rw [gen, if_pos (hc i (List.mem_reverse.1 hi))]
  · exact List.map_congr_left fun i hi => by rw [gen, if_neg (ha i (List.mem_reverse.1 hi))]

/-- an operator from orbitals that are not in `V` to orbitals of `V` -/
structure Op (V : Finset ℕ) (p : List ℕ × List ℕ) : Prop where
  ann : ∀ i ∈ p.1, i ∉ V
  cre : ∀ i ∈ p.2, i ∈ V
  len : p.1.length = p.2.length
  pos : p.1 ≠ []

theorem excOp_commute {V : Finset ℕ} {p q : List ℕ × List ℕ} (hp : Op V p) (hq : Op V q) :
    Commute (excOp p.1 p.2 : Module.End R (Fock R)) (excOp q.1 q.2) := by
  rw [Commute, SemiconjBy, excOp_gen hp.ann hp.cre, excOp_gen hq.ann hq.cre, prod_anticomm (A := Module.End R (Fock R)) _ _ _ _ fun i _ j _ => gen_anti V i j]
  have e : Even ((p.2.reverse ++ p.1.reverse).length * (q.2.reverse ++ q.1.reverse).length) := by
    simp only [List.length_append, List.length_reverse, hp.len]
    exact (Even.add_self _).mul_right _
  rw [e.neg_one_pow, one_smul]

theorem excOp_sq {V : Finset ℕ} {p : List ℕ × List ℕ} (hp : Op V p) : (excOp p.1 p.2 * excOp p.1 p.2 : Module.End R (Fock R)) = 0 := by
  rw [excOp_gen hp.ann hp.cre, ← List.prod_append, ← List.map_append]
  apply prod_dup_zero (A := Module.End R (Fock R)) _ (gen_anti V) (gen_sq V)
  intro h
  have h2 := (List.nodup_append.1 h).2.2
  obtain ⟨x, hx⟩ := List.exists_mem_of_ne_nil _ hp.pos
  exact h2 x (by simp [hx]) x (by simp [hx]) rfl

/-- `num_hops` of a list of operators -/
def hops : ℕ → List (List ℕ × List ℕ) → ℕ
  | _, [] => 0
  | prev, p :: r => prev * p.1.length + hops (prev + p.1.length) r

theorem prod_excOp_aux {V : Finset ℕ} (S : List (List ℕ × List ℕ)) (hS : ∀ p ∈ S, Op V p) (a c : List ℕ) (ha : a.length = c.length)
    (hc : ∀ i ∈ c, i ∈ V) :
    ((S.reverse.map fun p => (excOp p.1 p.2 : Module.End R (Fock R))).prod * excOp a c) =
      ((-1 : ℤ) ^ hops a.length S) • excOp (a ++ S.flatMap Prod.fst) (c ++ S.flatMap Prod.snd) := by
  induction S generalizing a c with
  | nil => simp [hops]
  | cons p S ih =>
    have hp := hS p (by simp)
    rw [List.reverse_cons, List.map_append, List.prod_append, mul_assoc]
    have e : (([p].map fun p => (excOp p.1 p.2 : Module.End R (Fock R))).prod * excOp a c) =
        ((-1 : ℤ) ^ (a.length * p.1.length)) • excOp (a ++ p.1) (c ++ p.2) := by
      simp only [List.map_cons, List.map_nil, List.prod_cons, List.prod_nil, mul_one]
      unfold excOp
      have := prod_anticomm (A := Module.End R (Fock R)) annOp creOp p.1.reverse c.reverse (fun i hi j hj => ann_cre_anti (by
        rintro rfl
        exact hp.ann i (List.mem_reverse.1 hi) (hc i (List.mem_reverse.1 hj))))
      rw [mul_assoc, ← mul_assoc (List.prod (List.map annOp p.1.reverse)), this, smul_mul_assoc, mul_smul_comm, List.length_reverse,
        List.length_reverse, ha, mul_comm p.1.length, List.reverse_append, List.reverse_append, List.map_append, List.map_append,
        List.prod_append, List.prod_append]
      simp only [mul_assoc]
    rw [e, mul_smul_comm, ih (fun q hq => hS q (by simp [hq])) (a ++ p.1) (c ++ p.2) (by simp [ha, hp.len]) (by
      intro i hi
      rcases List.mem_append.1 hi with h | h
      · exact hc i h
      · exact hp.cre i h), smul_smul, ← pow_add, hops, List.length_append]
    simp

/-- a product of excitation operators with all creators moved to the left -/
theorem prod_excOp {V : Finset ℕ} (S : List (List ℕ × List ℕ)) (hS : ∀ p ∈ S, Op V p) :
    (S.map fun p => (excOp p.1 p.2 : Module.End R (Fock R))).prod =
      ((-1 : ℤ) ^ hops 0 S) • excOp (S.flatMap Prod.fst) (S.flatMap Prod.snd) := by
  have h1 := prod_excOp_aux (R := R) S hS [] [] rfl (by simp)
  have h2 : (S.map fun p => (excOp p.1 p.2 : Module.End R (Fock R))).prod =
      (S.reverse.map fun p => (excOp p.1 p.2 : Module.End R (Fock R))).prod := by
    apply List.Perm.prod_eq'
    · exact (List.reverse_perm S).symm.map _
    · rw [List.pairwise_map]
      refine List.pairwise_iff_forall_sublist.2 fun {p q} h => ?_
      exact excOp_commute (hS p (h.subset (by simp))) (hS q (h.subset (by simp)))
  have h3 : (excOp [] [] : Module.End R (Fock R)) = 1 := by simp [excOp]
  rw [h3, mul_one] at h1
  rw [h2, h1]; rfl

theorem annString_support (l : List ℕ) (s : Finset ℕ) (c : R) : annString l (Finsupp.single s c) = 0 ∨
    (l.Nodup ∧ l.toFinset ⊆ s ∧ ∃ e : ℤ, annString l (Finsupp.single s c) = Finsupp.single (s \ l.toFinset) (c * (e : R)) ∧ e * e = 1) := by
  induction l generalizing s c with
  | nil => exact Or.inr ⟨by simp, by simp, 1, by simp [annString], by simp⟩
  | cons i l ih =>
    rw [annString_cons, annOp_single]
    by_cases hi : i ∈ s
    · rw [if_pos hi]
      rcases ih (s.erase i) (c * ((phase s i : ℤ) : R)) with h | ⟨h1, h2, e, h3, h4⟩
      · exact Or.inl h
      · have hil : i ∉ l := fun h => by
          have := h2 (List.mem_toFinset.2 h)
          simp at this
        refine Or.inr ⟨List.nodup_cons.2 ⟨hil, h1⟩, ?_, phase s i * e, ?_, ?_⟩
        · intro x hx
          rw [List.toFinset_cons, Finset.mem_insert] at hx
          rcases hx with rfl | hx
          · exact hi
          · exact Finset.mem_of_mem_erase (h2 hx)
        · rw [h3]
          congr 1
          · ext x; simp; tauto
          · push_cast; ring
        · linear_combination (e * e) * phase_sq s i + h4
    · rw [if_neg hi]; left; simp

theorem creString_support (l : List ℕ) (s : Finset ℕ) (c : R) : creString l (Finsupp.single s c) = 0 ∨
    (l.Nodup ∧ Disjoint l.toFinset s ∧ ∃ e : ℤ, creString l (Finsupp.single s c) = Finsupp.single (s ∪ l.toFinset) (c * (e : R)) ∧
      e * e = 1) := by
  induction l generalizing s c with
  | nil => exact Or.inr ⟨by simp, by simp, 1, by simp [creString], by simp⟩
  | cons i l ih =>
    rw [creString_cons, creOp_single]
    by_cases hi : i ∈ s
    · rw [if_pos hi]; left; simp
    · rw [if_neg hi]
      rcases ih (insert i s) (c * ((phase s i : ℤ) : R)) with h | ⟨h1, h2, e, h3, h4⟩
      · exact Or.inl h
      · rw [Finset.disjoint_left] at h2
        have hil : i ∉ l := fun h => h2 (List.mem_toFinset.2 h) (by simp)
        refine Or.inr ⟨List.nodup_cons.2 ⟨hil, h1⟩, ?_, phase s i * e, ?_, ?_⟩
        · rw [Finset.disjoint_left]
          intro x hx hs
          rw [List.toFinset_cons, Finset.mem_insert] at hx
          rcases hx with rfl | hx
          · exact hi hs
          · exact h2 hx (by simp [hs])
        · rw [h3]
          congr 1
          · ext x; simp
          · push_cast; ring
        · linear_combination (e * e) * phase_sq s i + h4

/-- the determinant reached by a product of operators determines its orbitals -/
theorem excOp_ket_ne {V s t : Finset ℕ} {a c : List ℕ} (ha : ∀ i ∈ a, i ∉ V) (hc : ∀ i ∈ c, i ∈ V)
    (h : (excOp a c (ket s : Fock R)) t ≠ 0) : a.Nodup ∧ c.Nodup ∧ a.toFinset = s \ t ∧ c.toFinset = t \ s := by
  rw [excOp_apply, ket] at h
  rcases annString_support a s (1 : R) with h1 | ⟨a1, a2, e, a3, -⟩
  · rw [h1] at h; simp at h
  · rw [a3] at h
    rcases creString_support c (s \ a.toFinset) (1 * (e : R)) with h1 | ⟨c1, c2, f, c3, -⟩
    · rw [h1] at h; simp at h
    · rw [c3, Finsupp.single_apply] at h
      have ht : s \ a.toFinset ∪ c.toFinset = t := by
        by_contra hne; rw [if_neg hne] at h; exact h rfl
      rw [Finset.disjoint_left] at c2
      have hac : ∀ i ∈ c.toFinset, i ∉ s := by
        intro i hi his
        have := c2 hi
        rw [Finset.mem_sdiff, not_and, not_not] at this
        exact ha i (List.mem_toFinset.1 (this his)) (hc i (List.mem_toFinset.1 hi))
      refine ⟨a1, c1, ?_, ?_⟩
      · ext i
        rw [← ht]
        simp only [Finset.mem_sdiff, Finset.mem_union, not_or, not_and, not_not]
        constructor
        · exact fun hi => ⟨a2 hi, fun _ => hi, fun hi' => hac i hi' (a2 hi)⟩
        · exact fun hi => hi.2.1 hi.1
      · ext i
        rw [← ht]
        simp only [Finset.mem_sdiff, Finset.mem_union]
        constructor
        · exact fun hi => ⟨Or.inr hi, hac i hi⟩
        · rintro ⟨h1 | h1, h2⟩
          · exact absurd h1.1 h2
          · exact h1

/-- reordering annihilators and creators -/
theorem excOp_perm {a a' c c' : List ℕ} (ha : a.Perm a') (hc : c.Perm c') (hl : a.length = c.length) (hna : a.Nodup) (hnc : c.Nodup)
    (ha' : a'.Pairwise (· < ·)) (hc' : c'.Pairwise (· < ·)) :
    (excOp a c : Module.End R (Fock R)) = (listSign a * listSign c) • excOp a' c' := by
  have sq : ∀ (l l' : List ℕ) (f : ℕ → Module.End R (Fock R)), (∀ i j, f i * f j = -(f j * f i)) → l.Perm l' →
      (l.reverse.map f).prod = (listSign l.reverse * listSign l'.reverse) • (l'.reverse.map f).prod := by
    intro l l' f hf hp
    have := prod_perm_sign f hf ((List.reverse_perm l).trans (hp.trans (List.reverse_perm l').symm))
    rw [mul_smul, ← this, smul_smul, listSign_sq, one_smul]
  unfold excOp
  rw [sq c c' _ cre_anti hc, sq a a' _ ann_anti ha, smul_mul_smul_comm]
  congr 1
  rw [listSign_reverse hna, listSign_reverse hnc, listSign_reverse (ha.nodup_iff.1 hna), listSign_reverse (hc.nodup_iff.1 hnc),
    listSign_sorted ha', listSign_sorted hc', ← ha.length_eq, ← hc.length_eq, hl]
  have : ((-1 : ℤ) ^ (c.length * (c.length - 1) / 2)) * (-1) ^ (c.length * (c.length - 1) / 2) = 1 := by
    rw [← mul_pow]; simp
  linear_combination (listSign a * listSign c * ((-1 : ℤ) ^ (c.length * (c.length - 1) / 2) * (-1) ^ (c.length * (c.length - 1) / 2) + 1)) * this

end Fanpy.CC
