import Mathlib.Tactic.NormNum
import Verif.Lemmas.EqnDeriv
import Verif.Props.EqnParams

/-! # C48, C49, C52: energies, the norm constraint, the local energy, and their gradients -/

namespace Fanpy.Props
open Fanpy.Eqn Fanpy.Lemmas.Eqn

/-! ## Values -/

section
variable {R : Type} [Field R]

theorem assignIf_ok (s : Sys R) (sel : Selection) {st st' : Store R} {x : List R} (h : assignParams s.accept sel st x = (st', none)) :
    assignIf s sel true st x = .ok st' := by
  rw [assignIf, if_pos rfl, h]

theorem assignIf_error (s : Sys R) (sel : Selection) {st st' : Store R} {x : List R} {e : PyErr}
    (h : assignParams s.accept sel st x = (st', some e)) : assignIf s sel true st x = .error e := by
  rw [assignIf, if_pos rfl, h]

/-- the pairs of reference coefficient and determinant: the overlaps for a list of determinants, the parameters for a CI
wavefunction (whose determinants are as many as its parameters) -/
def refTerms (s : Sys R) (st : Store R) : Ref → List (R × ℕ)
  | .sds l => l.map fun m => (s.overlap st m, m)
  | .ci w l => (st w).zip l

theorem dot_ref (s : Sys R) (st : Store R) (ref : Ref) (f : ℕ → R) :
    dot (ref.coeffs s st) (ref.dets.map f) = ((refTerms s st ref).map fun p => p.1 * f p.2).sum := by
  cases ref with
  | sds l => rw [Ref.coeffs, Ref.dets, dot_map, refTerms, List.map_map]; rfl
  | ci w l =>
    rw [Ref.coeffs, Ref.dets, dot, refTerms, List.zipWith_map_right]
    congr 1
    rw [List.map_zip_eq_zipWith]
    rfl

/-- The objective is the sum of `f(m)⟨m|H|Ψ⟩` over the sum of `f(m)⟨m|Ψ⟩` at the new parameters. -/
theorem C48_objective (s : Sys R) (sel : Selection) (ref : Ref) {st st' : Store R} {x : List R}
    (h : assignParams s.accept sel st x = (st', none)) :
    oneObjective s sel ref st x = .ok (st', ((refTerms s st' ref).map fun p => p.1 * s.integral st' p.2).sum /
      ((refTerms s st' ref).map fun p => p.1 * s.overlap st' p.2).sum) := by
  rw [oneObjective, assignIf_ok s sel h]
  rw [← dot_ref, ← dot_ref]; rfl

/-- A refused assignment is an error of the objective and of the gradient. -/
theorem C48_refused (s : Sys R) (sel : Selection) (ref : Ref) {st st' : Store R} {x : List R} {e : PyErr}
    (h : assignParams s.accept sel st x = (st', some e)) (normalize : Bool) :
    oneObjective s sel ref st x true normalize = .error e ∧ oneGradient s sel ref st x true normalize = .error e := by
  rw [oneObjective, oneGradient, assignIf_error s sel h]
  exact ⟨rfl, rfl⟩

theorem sum_smul_right {α : Type} (l : List α) (f g : α → R) (a : R) (h : ∀ p ∈ l, f p = a * g p) : (l.map f).sum = a * (l.map g).sum := by
  rw [← List.sum_map_mul_left]
  congr 1
  exact List.map_congr_left h

/-- If `⟨m|H|Ψ⟩ = E⟨m|Ψ⟩` for the determinants of the reference, and the norm is not zero, the energy is `E`. -/
theorem C48_eigen (s : Sys R) (st : Store R) (ref : Ref) (E : R) (h : ∀ m ∈ ref.dets, s.integral st m = E * s.overlap st m)
    (hn : normOne s st ref ≠ 0) : energyOne s st ref = E := by
  have hm : ∀ p ∈ refTerms s st ref, p.2 ∈ ref.dets := by
    cases ref with
    | sds l => intro p hp; obtain ⟨m, hm, rfl⟩ := List.mem_map.1 hp; exact hm
    | ci w l => intro p hp; exact (List.of_mem_zip hp).2
  rw [energyOne, dot_ref]
  rw [sum_smul_right _ _ (fun p => p.1 * s.overlap st p.2) E fun p hp => by rw [h p.2 (hm p hp)]; ring]
  rw [normOne, dot_ref] at hn ⊢
  exact mul_div_cancel_right₀ E hn

/-- Scaling `Ψ` does not change the energy. -/
theorem C48_scale (s : Sys R) (st st' : Store R) (ref : Ref) (a : R) (ha : a ≠ 0) (ho : ∀ m ∈ ref.dets, s.overlap st' m = a * s.overlap st m)
    (hi : ∀ m ∈ ref.dets, s.integral st' m = a * s.integral st m) (hci : ∀ w l, ref = .ci w l → st' w = st w) :
    energyOne s st' ref = energyOne s st ref := by
  cases ref with
  | sds l =>
    rw [energyOne, energyOne, normOne, normOne, dot_ref, dot_ref, dot_ref, dot_ref]
    simp only [refTerms, List.map_map, Function.comp_def]
    rw [sum_smul_right l _ (fun m => s.overlap st m * s.integral st m) (a * a) fun m hm => by rw [ho m hm, hi m hm]; ring,
      sum_smul_right l (fun m => s.overlap st' m * s.overlap st' m) (fun m => s.overlap st m * s.overlap st m) (a * a)
        fun m hm => by rw [ho m hm]; ring, mul_div_mul_left _ _ (mul_ne_zero ha ha)]
  | ci w l =>
    rw [energyOne, energyOne, normOne, normOne, dot_ref, dot_ref, dot_ref, dot_ref]
    have e : refTerms s st' (.ci w l) = refTerms s st (.ci w l) := by rw [refTerms, refTerms, hci w l rfl]
    rw [e]
    have hm : ∀ p ∈ refTerms s st (.ci w l), p.2 ∈ l := fun p hp => (List.of_mem_zip hp).2
    rw [sum_smul_right _ _ (fun p => p.1 * s.integral st p.2) a fun p hp => by rw [hi p.2 (hm p hp)]; ring,
      sum_smul_right (refTerms s st (.ci w l)) (fun p => p.1 * s.overlap st' p.2) (fun p => p.1 * s.overlap st p.2) a
        fun p hp => by rw [ho p.2 (hm p hp)]; ring, mul_div_mul_left _ _ ha]

/-- The two-sided objective is the double sum over the left and the right space over the sum of the squares; the spaces are the left
one by default. -/
theorem C49_objective (s : Sys R) (sel : Selection) (l : List ℕ) (r n : Option (List ℕ)) {st st' : Store R} {x : List R}
    (h : assignParams s.accept sel st x = (st', none)) :
    twoObjective s sel l r n st x = .ok (st',
      (l.map fun i => ((match r with | some r => r | none => l).map fun j =>
        s.overlap st' i * s.element st' i j * s.overlap st' j).sum).sum /
      ((match n with | some n => n | none => l).map fun i => s.overlap st' i * s.overlap st' i).sum) := by
  rw [twoObjective, assignIf_ok s sel h]
  have e1 : ∀ o : Option (List ℕ), o.getD l = match o with | some r => r | none => l := by
    intro o; cases o <;> rfl
  show Except.ok (st', energyTwo s st' l r n) = _
  rw [energyTwo, sumTwo, normTwo, e1, e1]
  simp only [pow_two]

theorem C49_refused (s : Sys R) (sel : Selection) (l : List ℕ) (r n : Option (List ℕ)) {st st' : Store R} {x : List R} {e : PyErr}
    (h : assignParams s.accept sel st x = (st', some e)) :
    twoObjective s sel l r n st x = .error e ∧ twoGradient s sel l r n st x = .error e := by
  rw [twoObjective, twoGradient, assignIf_error s sel h]
  exact ⟨rfl, rfl⟩

/-- If the right space is enough to give the integrals `⟨i|H|Ψ⟩` of the left one (as the space of all determinants is), the two-sided
energy is the one-sided energy of the left space.  This includes `EnergyVariational`, where all spaces are the same. -/
theorem C49_full (s : Sys R) (st : Store R) (l r : List ℕ)
    (h : ∀ i ∈ l, s.integral st i = (r.map fun j => s.element st i j * s.overlap st j).sum) :
    energyTwo s st l (some r) (some l) = energyOne s st (.sds l) ∧ energyTwo s st l (some r) none = energyOne s st (.sds l) ∧
    (r = l → energyTwo s st l none none = energyOne s st (.sds l)) := by
  have key : sumTwo l r (fun i j => s.overlap st i * s.element st i j * s.overlap st j) / normTwo s st l = energyOne s st (.sds l) := by
    rw [energyOne, normOne, dot_ref, dot_ref, refTerms, List.map_map, List.map_map, sumTwo, normTwo]
    congr 1
    · congr 1
      refine List.map_congr_left fun i hi => ?_
      rw [Function.comp_apply, h i hi, ← List.sum_map_mul_left]
      congr 1
      exact List.map_congr_left fun j _ => mul_assoc _ _ _
    · congr 1
      exact List.map_congr_left fun i _ => pow_two _
  exact ⟨key, key, fun e => by subst e; exact key⟩

/-- For an eigenfunction, with such a right space, it is the eigenvalue. -/
theorem C49_eigen (s : Sys R) (st : Store R) (l r : List ℕ) (E : R)
    (h : ∀ i ∈ l, s.integral st i = (r.map fun j => s.element st i j * s.overlap st j).sum)
    (he : ∀ i ∈ l, s.integral st i = E * s.overlap st i) (hn : (l.map fun i => s.overlap st i * s.overlap st i).sum ≠ 0) :
    energyTwo s st l (some r) none = E := by
  rw [(C49_full s st l r h).2.1]
  refine C48_eigen s st (.sds l) E he ?_
  rw [normOne, dot_ref, refTerms, List.map_map]
  exact hn

/-- The norm constraint is the sum of `f(m)⟨m|Ψ⟩` minus one. -/
theorem C52_norm_objective (s : Sys R) (sel : Selection) (ref : Ref) {st st' : Store R} {x : List R}
    (h : assignParams s.accept sel st x = (st', none)) :
    normObjective s sel ref st x = .ok (st', ((refTerms s st' ref).map fun p => p.1 * s.overlap st' p.2).sum - 1) := by
  rw [normObjective, assignIf_ok s sel h, ← dot_ref]; rfl

/-- The local energies are added; for an eigenfunction each of them is `E`. -/
theorem C52_local_objective (s : Sys R) (sel : Selection) (p : List ℕ) {st st' : Store R} {x : List R}
    (h : assignParams s.accept sel st x = (st', none)) :
    localObjective s sel p st x = .ok (st', (p.map fun i => s.integral st' i / s.overlap st' i).sum) ∧
    ∀ E : R, (∀ m ∈ p, s.integral st' m = E * s.overlap st' m) → (∀ m ∈ p, s.overlap st' m ≠ 0) →
      localObjective s sel p st x = .ok (st', p.length * E) := by
  have e : localObjective s sel p st x = .ok (st', (p.map fun i => s.integral st' i / s.overlap st' i).sum) := by
    rw [localObjective, assignIf_ok s sel h]; rfl
  refine ⟨e, fun E h1 h2 => ?_⟩
  rw [e]
  have : (p.map fun i => s.integral st' i / s.overlap st' i) = p.map fun _ => E :=
    List.map_congr_left fun i hi => by rw [h1 i hi, mul_div_cancel_right₀ _ (h2 i hi)]
  rw [this, List.map_const', List.sum_replicate, nsmul_eq_mul]

theorem C52_refused (s : Sys R) (sel : Selection) (ref : Ref) (p : List ℕ) {st st' : Store R} {x : List R} {e : PyErr}
    (h : assignParams s.accept sel st x = (st', some e)) :
    normObjective s sel ref st x = .error e ∧ normGradient s sel ref st x = .error e ∧
    localObjective s sel p st x = .error e ∧ localGradient s sel p st x = .error e := by
  rw [normObjective, normGradient, localObjective, localGradient, assignIf_error s sel h]
  exact ⟨rfl, rfl, rfl, rfl⟩

end

/-! ## Gradients -/

/-- The gradient is the derivative of the objective: both succeed, and entry `j` of the gradient is the derivative with respect to entry
`j` of the vector. -/
def IsGradient (sel : Selection) (x : List ℝ) (objective : List ℝ → Except PyErr (Store ℝ × ℝ))
    (gradient : List ℝ → Except PyErr (Store ℝ × (ℕ → ℝ))) : Prop :=
  ∃ st' g, gradient x = .ok (st', g) ∧ ∀ j < activeNparams sel, ∃ f : ℝ → ℝ,
    (∀ t, ∃ st'', objective (x.set j t) = .ok (st'', f t)) ∧ HasDerivAt f (g j) (x.getD j 0)

/-- the components refuse no parameters of the right shape -/
def Accepts {R : Type} (s : Sys R) (sel : Selection) (st : Store R) : Prop :=
  ∀ c ∈ sel.map Prod.fst, ∀ v : List R, v.length = (st c).length → s.accept c v = none

theorem slot_exists {sel : Selection} {j : ℕ} (hj : j < activeNparams sel) : ∃ c k, (slots sel)[j]? = some (c, k) := by
  rw [← length_slots] at hj
  exact ⟨_, _, List.getElem?_eq_getElem hj⟩

/-- from derivatives with respect to single parameters to derivatives with respect to entries of the vector -/
theorem isGradient_of {s : Sys ℝ} {sel : Selection} {st st' : Store ℝ} (h : Valid st sel) (ha : Accepts s sel st) {x : List ℝ}
    (hx : assignParams s.accept sel st x = (st', none)) (F : Store ℝ → ℝ) (G : Store ℝ → ℕ → ℝ)
    (hF : ∀ j c k, (slots sel)[j]? = some (c, k) → HasDerivAt (fun t => F (move st' c k t)) (G st' j) ((st' c).getD k 0)) :
    IsGradient sel x (fun y => do let st ← assignIf s sel true st y; return (st, F st))
      (fun y => do let st ← assignIf s sel true st y; return (st, G st)) := by
  obtain ⟨hl, -, -, h4, -⟩ := C47_assign s.accept h hx
  refine ⟨st', G st', by simp only [assignIf_ok s sel hx]; rfl, fun j hj => ?_⟩
  obtain ⟨c, k, hs⟩ := slot_exists hj
  have hm := assign_move (accept := s.accept) h ha hl hs
  rw [hx] at hm
  refine ⟨fun t => F (move st' c k t), fun t => ⟨move st' c k t, ?_⟩, ?_⟩
  · simp only [assignIf_ok s sel (hm t)]; rfl
  · have : x.getD j 0 = (st' c).getD k 0 := by
      obtain ⟨s1, e1, -, -, p1⟩ := assign_ok (accept := s.accept) h ha hl
      rw [hx] at e1
      obtain rfl : st' = s1 := congrArg Prod.fst e1
      rw [List.getD_eq_getElem?_getD, ← p1 _ _ _ hs, ← List.getD_eq_getElem?_getD]
    rw [this]
    exact hF j c k hs

theorem valid_assign {s : Sys ℝ} {sel : Selection} {st st' : Store ℝ} (h : Valid st sel) {x : List ℝ}
    (hx : assignParams s.accept sel st x = (st', none)) : Valid st' sel := (C47_assign s.accept h hx).2.2.1

/-- The gradient of the one-sided energy (without normalization) is its derivative, for lists of determinants and CI references. -/
theorem C48_gradient {s : Sys ℝ} {sel : Selection} {st st' : Store ℝ} (ref : Ref) (h : Valid st sel) (ha : Accepts s sel st) {x : List ℝ}
    (hx : assignParams s.accept sel st x = (st', none)) (hc : Correct s st') (hn : normOne s st' ref ≠ 0) :
    IsGradient sel x (oneObjective s sel ref st) (oneGradient s sel ref st · true false) :=
  isGradient_of h ha hx (fun s' => energyOne s s' ref) (fun s' => dEnergyOne s sel s' ref)
    fun _ _ _ hs => hasDeriv_energyOne hc (valid_assign h hx) hs ref hn

/-- The gradient of the two-sided energy is its derivative. -/
theorem C49_gradient {s : Sys ℝ} {sel : Selection} {st st' : Store ℝ} (l : List ℕ) (r n : Option (List ℕ)) (h : Valid st sel) (ha : Accepts s sel st)
    {x : List ℝ} (hx : assignParams s.accept sel st x = (st', none)) (hc : Correct s st') (hn : normTwo s st' (n.getD l) ≠ 0) :
    IsGradient sel x (twoObjective s sel l r n st) (twoGradient s sel l r n st) :=
  isGradient_of h ha hx (fun s' => energyTwo s s' l r n) (fun s' => dEnergyTwo s sel s' l r n)
    fun _ _ _ hs => hasDeriv_energyTwo hc (valid_assign h hx) hs l r n hn

/-- The gradient of the norm constraint is its derivative. -/
theorem C52_norm_gradient {s : Sys ℝ} {sel : Selection} {st st' : Store ℝ} (ref : Ref) (h : Valid st sel) (ha : Accepts s sel st) {x : List ℝ}
    (hx : assignParams s.accept sel st x = (st', none)) (hc : Correct s st') :
    IsGradient sel x (normObjective s sel ref st) (normGradient s sel ref st) :=
  isGradient_of h ha hx (fun s' => normOne s s' ref - 1) (fun s' => dNormOne s sel s' ref)
    fun _ _ _ hs => (hasDeriv_normOne hc (valid_assign h hx) hs ref).sub_const 1

/-- The gradient of the local energy is its derivative where no overlap is zero. -/
theorem C52_local_gradient {s : Sys ℝ} {sel : Selection} {st st' : Store ℝ} (p : List ℕ) (h : Valid st sel) (ha : Accepts s sel st) {x : List ℝ}
    (hx : assignParams s.accept sel st x = (st', none)) (hc : Correct s st') (hn : ∀ i ∈ p, s.overlap st' i ≠ 0) :
    IsGradient sel x (localObjective s sel p st) (localGradient s sel p st) := by
  refine isGradient_of h ha hx (fun s' => (p.map fun i => s.integral s' i / s.overlap s' i).sum) (fun s' j => (p.map fun i =>
    dInt s sel s' i j / s.overlap s' i - s.integral s' i / s.overlap s' i ^ 2 * dOlp s sel s' i j).sum) fun j c k hs => ?_
  have hv := valid_assign h hx
  refine hasDeriv_listSum p fun i hi => ?_
  have h1 := (hasDeriv_int hc hv hs i).fun_div (hasDeriv_olp hc hv hs i) (by rw [move_self]; exact hn i hi)
  refine h1.congr_deriv ?_
  simp only [move_self]
  have := hn i hi
  field_simp

/-! ## Cases -/

/-- Two determinants; the overlaps are the parameters of the object 0; the Hamiltonian (object 1) is `[[h, 1], [1, 0]]` with `h` its
parameter. -/
noncomputable def exSys : Sys ℝ where
  comps := [0]
  ham := 1
  accept := fun _ _ => none
  overlap := fun st m => (st 0).getD m 0
  dOverlap := fun _ m _ k => if m = k then 1 else 0
  integral := fun st m => if m = 0 then (st 1).getD 0 0 * (st 0).getD 0 0 + (st 0).getD 1 0 else (st 0).getD 0 0
  dIntegral := fun st m c k => if c = 0 then (if m = 0 then (if k = 0 then (st 1).getD 0 0 else if k = 1 then 1 else 0) else if k = 0 then 1 else 0)
    else if m = 0 then (if k = 0 then (st 0).getD 0 0 else 0) else 0
  element := fun st i j => if i = 0 ∧ j = 0 then (st 1).getD 0 0 else if i + j = 1 then 1 else 0
  dElement := fun _ i j k => if i = 0 ∧ j = 0 ∧ k = 0 then 1 else 0
  normalize := fun st _ => st

theorem move_getD (st : Store ℝ) (c k c' i : ℕ) (t : ℝ) :
    (move st c k t c').getD i 0 = if c' = c ∧ i = k ∧ k < (st c).length then t else (st c').getD i 0 := by
  rw [move]
  by_cases hc : c' = c
  · subst hc
    rw [Function.update_self, List.getD_eq_getElem?_getD, List.getElem?_set, List.getD_eq_getElem?_getD]
    by_cases hi : k = i
    · subst hi
      by_cases hl : k < (st c').length
      · simp [hl]
      · simp [hl]
    · simp [hi, Ne.symm hi]
  · rw [Function.update_of_ne hc]; simp [hc]

theorem hasDeriv_move (st : Store ℝ) (c k c' i : ℕ) (hk : k < (st c).length) :
    HasDerivAt (fun t => (move st c k t c').getD i 0) (if c' = c ∧ i = k then 1 else 0) ((st c).getD k 0) := by
  simp only [move_getD]
  by_cases h : c' = c ∧ i = k
  · rw [if_pos h]
    simp only [h.1, h.2, hk, and_self, if_true]
    exact hasDerivAt_id _
  · rw [if_neg h]
    have : ∀ t : ℝ, (if c' = c ∧ i = k ∧ k < (st c).length then t else (st c').getD i 0) = (st c').getD i 0 :=
      fun t => if_neg fun hh => h ⟨hh.1, hh.2.1⟩
    simp only [this]
    exact hasDerivAt_const _ _

theorem exSys_correct (st : Store ℝ) : Correct exSys st := by
  intro c k hk
  have h0 := hasDeriv_move st c k 0 0 hk
  have h1 := hasDeriv_move st c k 0 1 hk
  have h2 := hasDeriv_move st c k 1 0 hk
  refine ⟨fun sd => ?_, fun sd => ?_, fun i j => ?_⟩
  · refine (hasDeriv_move st c k 0 sd hk).congr_deriv ?_
    by_cases hc : c = 0
    · subst hc; simp [exSys]
    · simp [exSys, hc, Ne.symm hc]
  · by_cases hsd : sd = 0
    · subst hsd
      refine ((h2.fun_mul h0).fun_add h1).congr_deriv ?_
      simp only [move_self, exSys]
      by_cases hc : c = 0
      · subst hc
        by_cases hk0 : k = 0
        · subst hk0; simp
        · by_cases hk1 : k = 1
          · subst hk1; simp
          · simp [Ne.symm hk0, Ne.symm hk1, hk0, hk1]
      · have hc' : ¬ 0 = c := fun e => hc e.symm
        by_cases hc1 : c = 1
        · subst hc1
          by_cases hk0 : k = 0
          · subst hk0; simp
          · simp [Ne.symm hk0, hk0]
        · simp [hc, hc', hc1, Ne.symm hc1]
    · have e : (fun t => exSys.integral (move st c k t) sd) = fun t => (move st c k t 0).getD 0 0 := by
        funext t; simp [exSys, hsd]
      rw [e]
      refine h0.congr_deriv ?_
      simp only [exSys, hsd, if_false]
      by_cases hc : c = 0
      · subst hc; simp [eq_comm]
      · have hc' : ¬ 0 = c := fun e => hc e.symm
        simp [hc, hc']
  · by_cases hij : i = 0 ∧ j = 0
    · have e : (fun t => exSys.element (move st c k t) i j) = fun t => (move st c k t 1).getD 0 0 := by
        funext t; simp [exSys, hij]
      rw [e]
      refine h2.congr_deriv ?_
      simp only [exSys, hij.1, hij.2]
      by_cases hc : c = 1
      · subst hc; simp [eq_comm]
      · simp [hc, Ne.symm hc]
    · have e : (fun t => exSys.element (move st c k t) i j) = fun _ => if i + j = 1 then 1 else 0 := by
        funext t; simp only [exSys, if_neg hij]
      rw [e]
      refine (hasDerivAt_const _ _).congr_deriv ?_
      have : ¬ (i = 0 ∧ j = 0 ∧ k = 0) := fun h => hij ⟨h.1, h.2.1⟩
      simp only [exSys, this, if_false, ite_self]

/-- the wavefunction has two parameters, the Hamiltonian one -/
noncomputable def exSt : Store ℝ := fun c => if c = 0 then [1, 1] else if c = 1 then [3] else []

theorem exValid : Valid exSt [(0, [0, 1]), (1, [0])] := by
  refine ⟨by decide, ?_⟩
  intro p hp
  simp only [List.mem_cons, List.not_mem_nil, or_false] at hp
  rcases hp with rfl | rfl
  · refine ⟨by decide, ?_⟩
    intro i hi; simp at hi; simp [exSt]; omega
  · refine ⟨by decide, ?_⟩
    intro i hi; simp at hi; simp [exSt]; omega

/-- all hypotheses of the theorems on gradients hold for the new parameters 2, 1 (of the wavefunction) and 5 (of the Hamiltonian) -/
example : ∃ st', assignParams exSys.accept [(0, [0, 1]), (1, [0])] exSt [2, 1, 5] = (st', none) ∧ Correct exSys st' ∧
    normOne exSys st' (.sds [0, 1]) ≠ 0 ∧ normTwo exSys st' [0, 1] ≠ 0 ∧ (∀ i ∈ [0, 1], exSys.overlap st' i ≠ 0) := by
  obtain ⟨st', e, -, -, h3⟩ := assign_ok (accept := exSys.accept) exValid (fun _ _ _ _ => rfl) (x := [2, 1, 5]) (by rfl)
  have o0 : (st' 0).getD 0 0 = 2 := by rw [List.getD_eq_getElem?_getD, h3 0 0 0 rfl]; rfl
  have o1 : (st' 0).getD 1 0 = 1 := by rw [List.getD_eq_getElem?_getD, h3 1 0 1 rfl]; rfl
  have e0 : exSys.overlap st' 0 = 2 := o0
  have e1 : exSys.overlap st' 1 = 1 := o1
  refine ⟨st', e, exSys_correct st', ?_, ?_, ?_⟩
  · simp [normOne, dot, Ref.coeffs, Ref.dets, e0, e1]; norm_num
  · simp [normTwo, e0, e1]; norm_num
  · intro i hi
    simp only [List.mem_cons, List.not_mem_nil, or_false] at hi
    rcases hi with rfl | rfl
    · rw [e0]; norm_num
    · rw [e1]; norm_num

/-! ## The default of the gradient -/

/-- `exSys` over the rational numbers, with the normalization of a geminal wavefunction with one geminal and the reference `0`: the
parameters are divided by the square root of the norm, which is the (positive) overlap. -/
def exNormSys : Sys ℚ where
  comps := [0]
  ham := 1
  accept := fun _ _ => none
  overlap := fun st m => (st 0).getD m 0
  dOverlap := fun _ m _ k => if m = k then 1 else 0
  integral := fun st m => if m = 0 then (st 1).getD 0 0 * (st 0).getD 0 0 + (st 0).getD 1 0 else (st 0).getD 0 0
  dIntegral := fun st m c k => if c = 0 then (if m = 0 then (if k = 0 then (st 1).getD 0 0 else if k = 1 then 1 else 0) else if k = 0 then 1 else 0)
    else if m = 0 then (if k = 0 then (st 0).getD 0 0 else 0) else 0
  element := fun st i j => if i = 0 ∧ j = 0 then (st 1).getD 0 0 else if i + j = 1 then 1 else 0
  dElement := fun _ i j k => if i = 0 ∧ j = 0 ∧ k = 0 then 1 else 0
  normalize := fun st _ => Function.update st 0 ((st 0).map fun v => v / (st 0).getD 0 0)

/-- the numbers of `gradient`, without the store -/
def gradAt (r : Except PyErr (Store ℚ × (ℕ → ℚ))) (j : ℕ) : Option ℚ := match r with | .ok (_, g) => some (g j) | .error _ => none

/-- the number of `objective`, without the store -/
def valAt (r : Except PyErr (Store ℚ × ℚ)) : Option ℚ := match r with | .ok (_, v) => some v | .error _ => none

/-- By default `gradient` normalizes the wavefunction and `objective` does not.  The energy of the reference `0` at the parameters `a`,
`b` is `h + b / a`; at `2`, `1` its derivatives are `-1/4` and `1/2`, those returned by default are `-1/2` and `1` (the derivatives at
the normalized parameters `1`, `1/2`). -/
theorem C48_gradient_default :
    let st : Store ℚ := fun c => if c = 0 then [1, 1] else if c = 1 then [3] else []
    let g := oneGradient exNormSys [(0, [0, 1])] (.sds [0]) st [2, 1] true false
    let d := oneGradient exNormSys [(0, [0, 1])] (.sds [0]) st [2, 1]
    gradAt g 0 = some (-1 / 4) ∧ gradAt g 1 = some (1 / 2) ∧ gradAt d 0 = some (-1 / 2) ∧ gradAt d 1 = some 1 := by
  decide +kernel

/-- If the wavefunction has no `normalize` (or it changes nothing), the defaults agree with the derivative. -/
theorem C48_gradient_no_normalize {s : Sys ℝ} {sel : Selection} {st st' : Store ℝ} (ref : Ref) (h : Valid st sel) (ha : Accepts s sel st)
    {x : List ℝ} (hx : assignParams s.accept sel st x = (st', none)) (hc : Correct s st') (hn : normOne s st' ref ≠ 0)
    (hno : s.normalize st' ref = st') : IsGradient sel x (oneObjective s sel ref st ·) (oneGradient s sel ref st ·) := by
  obtain ⟨a, g, e, hg⟩ := C48_gradient ref h ha hx hc hn
  refine ⟨a, g, ?_, hg⟩
  rw [← e]
  simp only [oneGradient, assignIf_ok s sel hx]
  show Except.ok (s.normalize st' ref, dEnergyOne s sel (s.normalize st' ref) ref) = Except.ok (st', dEnergyOne s sel st' ref)
  rw [hno]

/-! ## Components of components -/

/-- a linear combination (object 0) of a linear combination (object 2) that has a component 3: the overlap depends on the parameter of 3,
but only the components of the wavefunction are asked for derivatives -/
def exNested : Sys ℚ where
  comps := [0, 2]
  ham := 1
  accept := fun _ _ => none
  overlap := fun st _ => (st 0).getD 0 0 * ((st 2).getD 0 0 * (st 3).getD 0 0)
  dOverlap := fun st _ c _ => if c = 0 then (st 2).getD 0 0 * (st 3).getD 0 0 else if c = 2 then (st 0).getD 0 0 * (st 3).getD 0 0
    else (st 0).getD 0 0 * (st 2).getD 0 0
  integral := fun _ _ => 0
  dIntegral := fun _ _ _ _ => 0
  element := fun _ _ _ => 0
  dElement := fun _ _ _ _ => 0
  normalize := fun st _ => st

/-- The gradient of the norm with respect to an active parameter of a component of a component is returned as zero, while the norm
changes with it. -/
theorem C52_nested_component :
    let st : Store ℚ := fun c => if c = 1 then [] else [1]
    let sel : Selection := [(3, [0])]
    gradAt (normGradient exNested sel (.sds [0]) st [2]) 0 = some 0 ∧
    valAt (normObjective exNested sel (.sds [0]) st [2]) = some 3 ∧ valAt (normObjective exNested sel (.sds [0]) st [3]) = some 8 := by
  decide +kernel

end Fanpy.Props
