import Verif.Props.FanCIObjective

/-!
# C79 and C80: values and selections of the FanCI objective, frozen parameters
-/

namespace Fanpy.Props

open Fanpy.FanCI Fanpy.Eqn

theorem range_map_take {R : Type} [Zero R] (x : List R) (k : ℕ) (hk : k ≤ x.length) :
    ((List.range k).map fun i => x.getD i 0) = x.take k := by
  apply List.ext_getElem
  · simp; omega
  · intro i h1 h2
    simp only [List.length_map, List.length_range] at h1
    rw [List.getElem_map, List.getElem_range, List.getElem_take, List.getD_eq_getElem _ _ (by omega)]

/-- **C79.**  Values of the FanCI objective: the first `nproj` entries are
`sum_n <m|H|n> <n|Psi> - E <m|Psi>`, where `Psi` has the first `k` parameters from `x` and keeps the
other ones, and `E` is the last entry of `x`. -/
theorem C79_objective_partial {R : Type} [Field R] (o : Obj R) (st : Store R) (k : ℕ) (h : Single o st k)
    (x : List R) (hx : x.length = (st o.wfn).length + 1) (hP : o.nproj ≤ o.sds.length) (m : ℕ) (hm : m < o.nproj) :
    (computeObjective o st x).length = nequation o ∧
    (computeObjective o st x).getD m 0
      = ((List.range o.sds.length).map fun n => o.ciOp m n
          * o.overlap (Function.update st o.wfn (x.take k ++ (st o.wfn).drop k)) (o.sds.getD n 0)).sum
        - x.getD (st o.wfn).length 0
          * o.overlap (Function.update st o.wfn (x.take k ++ (st o.wfn).drop k)) (o.sds.getD m 0) := by
  have hk := h.le
  have hfed : feedOverlap o st x.dropLast = Function.update st o.wfn (x.take k ++ (st o.wfn).drop k) := by
    rw [feedOverlap_eq h, fed, range_map_take _ _ (by simp; omega)]
    congr 2
    rw [List.dropLast_eq_take, List.take_take]
    congr 1
    omega
  refine ⟨by simp [computeObjective, nequation], ?_⟩
  rw [computeObjective]
  rw [List.getD_append _ _ _ _ (by simpa using hm), List.getD_eq_getElem _ _ (by simpa using hm),
    List.getElem_map, List.getElem_range, computeOverlap, hfed, getLastD_getD x (st o.wfn).length (by omega)]
  congr 1
  · rw [applyOp]
    congr 1
    apply List.map_congr_left
    intro n hn
    have hn' := List.mem_range.mp hn
    rw [List.getD_eq_getElem _ _ (by simpa using hn'), List.getElem_map, List.getD_eq_getElem _ _ hn']
  · have hms : m < o.sds.length := by omega
    rw [mul_comm]
    congr 1
    rw [List.getD_eq_getElem _ _ (by simpa using hms), List.getElem_map, List.getD_eq_getElem _ _ hms]

/-! ## Selections for which the derivative or the overlap is wrong -/

/-- A wavefunction with two parameters and the overlap `p_1 ** 2`; only `p_1` is selected. -/
noncomputable def frozenObj : Obj ℝ where
  sel := [(0, [1])]
  wfn := 0
  product := none
  mask := defaultMask (fun _ => 2) [(0, [1])]
  nproj := 1
  sds := [1]
  ciOp := fun _ _ => 1
  constraints := []
  avail := 1
  overlap := fun s _ => (s 0).getD 1 0 ^ 2
  dOverlap := fun s _ _ i => if i = 1 then 2 * (s 0).getD 1 0 else 0

theorem frozen_overlapDeriv : OverlapDeriv frozenObj := by
  intro s sd i hi
  simp only [frozenObj, Function.update_self] at hi ⊢
  by_cases h : i = 1
  · subst h
    have e : ∀ t : ℝ, ((s 0).set 1 t).getD 1 0 = t := by
      intro t
      rw [List.getD_eq_getElem _ _ (by simpa using hi), List.getElem_set_self]
    simp only [e, if_true]
    simpa using hasDerivAt_pow 2 ((s 0).getD 1 0)
  · have e : ∀ t : ℝ, ((s 0).set i t).getD 1 0 = (s 0).getD 1 0 := by
      intro t
      rw [List.getD_eq_getElem?_getD, List.getElem?_set_ne h, ← List.getD_eq_getElem?_getD]
    simp only [e, if_neg h]
    exact hasDerivAt_const _ _

/-- **C79, disagreement.**  If only the parameter 1 of a wavefunction is selected, then
`compute_overlap_deriv` writes the entry 0 of `x` to it, while `compute_overlap` writes the entry 1:
the Jacobian is not the derivative of the objective.  Here the overlap is `p_1 ** 2`, `x` has the
parameters `3, 5` and the energy `0`; the derivative is `10` and the Jacobian has `6`. -/
theorem C79_frozen :
    OverlapDeriv frozenObj ∧ computeJacobian frozenObj (fun _ => [0, 0]) [3, 5, 0] = .ok [[6, -25]] ∧
    HasDerivAt (fun t => (computeObjective frozenObj (fun _ => [0, 0]) (([3, 5, 0] : List ℝ).set 1 t)).getD 0 0)
      10 5 := by
  refine ⟨frozen_overlapDeriv, ?_, ?_⟩
  · have hm : frozenObj.mask = [false, true, true] := by rw [frozenObj]; decide
    have hn : nwfn frozenObj = 1 := by rw [nwfn, nactive, energyActive, hm]; decide
    have hdi : derivIndices frozenObj = [1] := by rw [derivIndices, nparam, hm]; decide
    have he : energyActive frozenObj = true := by rw [energyActive, hm]; decide
    rw [computeJacobian_ok (by simp [frozenObj])]
    have hr : derivRow frozenObj (fun _ => [0, 0]) [3, 5] 1 = [6] := by
      rw [derivRow]
      change (derivIndices frozenObj).map _ = _
      rw [hdi]
      norm_num [frozenObj, feedDeriv, feed, indicesObjective, getItem, setMany, List.range'_succ]
    have : projRow frozenObj (fun _ => [0, 0]) [3, 5, 0] 0 = [6, -25] := by
      rw [projRow, hn, he]
      have e : ([3, 5, 0] : List ℝ).dropLast = [3, 5] := rfl
      rw [e]
      have e2 : computeOverlapDeriv frozenObj (fun _ => [0, 0]) [3, 5] frozenObj.sds = [[6]] := by
        change [derivRow frozenObj (fun _ => [0, 0]) [3, 5] 1] = _
        rw [hr]
      rw [e2]
      norm_num [applyOp, computeOverlap, frozenObj, feedOverlap, feed, getItem, setMany, List.range_succ]
    simp only [frozenObj, List.range_succ, List.range_zero, List.nil_append, List.map_cons, List.map_nil,
      List.append_nil]
    exact congrArg (fun r => Except.ok [r]) this
  · have e : ∀ t : ℝ, (computeObjective frozenObj (fun _ => [0, 0]) (([3, 5, 0] : List ℝ).set 1 t)).getD 0 0
        = t ^ 2 := by
      intro t
      simp [computeObjective, applyOp, computeOverlap, frozenObj, feedOverlap, feed, getItem, setMany]
    rw [funext e]
    simpa using (hasDerivAt_pow 2 (5 : ℝ)).congr_deriv (by norm_num)

/-- A product of two wavefunctions with one parameter each; the overlap is the product of the parameters. -/
def productObj {R : Type} [Field R] : Obj R where
  sel := [(0, [0]), (1, [0])]
  wfn := 2
  product := some [0, 1]
  mask := defaultMask (fun _ => 1) [(0, [0]), (1, [0])]
  nproj := 1
  sds := [1]
  ciOp := fun _ _ => 1
  constraints := []
  avail := 1
  overlap := fun s _ => (s 0).getD 0 0 * (s 1).getD 0 0
  dOverlap := fun s _ c _ => if c = 0 then (s 1).getD 0 0 else (s 0).getD 0 0

/-- **C79, disagreement.**  For a product of two wavefunctions `compute_overlap` gives the entry 0 of
`x` to the first parameter of both components, although `x` lists the parameters of one component
after those of the other: the overlap is `a * a` instead of `a * b` and does not depend on the
parameter `b` of the second component.  `compute_overlap_deriv` uses both and gives `b, a`. -/
theorem C79_product {R : Type} [Field R] (st : Store R) (h0 : (st 0).length = 1) (h1 : (st 1).length = 1) (a b : R) :
    computeOverlap productObj st [a, b] [1] = [a * a] ∧
    computeOverlapDeriv productObj st [a, b] [1] = [[b, a]] := by
  obtain ⟨p, hp⟩ := List.length_eq_one_iff.mp h0
  obtain ⟨q, hq⟩ := List.length_eq_one_iff.mp h1
  have hn : nwfn (productObj (R := R)) = 2 := by
    rfl
  constructor
  · simp [computeOverlap, productObj, feedOverlap, feed, getItem, setMany, hp, hq, List.lookup]
  · simp only [computeOverlapDeriv, List.map_cons, List.map_nil, derivRow, hn]
    simp [productObj, feedDeriv, feed, indicesObjective, getItem, setMany, hp, hq, List.lookup, writeComp, writeSlice,
      List.range_succ]

/-! ## C80 -/

section
variable {R : Type}

theorem scatter_length : ∀ (m : List Bool) (r z : List R), (scatter m r z).length = r.length
  | true :: m, a :: r, b :: z => by simp [scatter, scatter_length m r z]
  | true :: m, a :: r, [] => by simp [scatter]
  | true :: m, [], z => by cases z <;> simp [scatter]
  | false :: m, a :: r, z => by simp [scatter, scatter_length m r z]
  | false :: m, [], z => by simp [scatter]
  | [], r, z => by simp [scatter]

theorem gather_length : ∀ (m : List Bool) (r : List R), m.length = r.length → (gather m r).length = m.count true
  | [], [], _ => rfl
  | true :: m, a :: r, h => by simp [gather, gather_length m r (by simpa using h)]
  | false :: m, a :: r, h => by simp [gather, gather_length m r (by simpa using h)]

theorem scatter_gather : ∀ (m : List Bool) (r : List R), scatter m r (gather m r) = r
  | [], r => by simp [scatter]
  | true :: m, [] => by simp [scatter, gather]
  | true :: m, a :: r => by simp [scatter, gather, scatter_gather m r]
  | false :: m, [] => by simp [scatter]
  | false :: m, a :: r => by simp [scatter, gather, scatter_gather m r]

theorem gather_scatter : ∀ (m : List Bool) (r z : List R), m.length = r.length → z.length = m.count true →
    gather m (scatter m r z) = z
  | [], [], [], _, _ => rfl
  | [], [], b :: z, _, h => by simp at h
  | true :: m, a :: r, [], _, h => by simp at h
  | true :: m, a :: r, b :: z, h, hz => by
    simp [scatter, gather, gather_scatter m r z (by simpa using h) (by simpa using hz)]
  | false :: m, a :: r, z, h, hz => by
    simp [scatter, gather, gather_scatter m r z (by simpa using h) (by simpa using hz)]

theorem scatter_frozen : ∀ (m : List Bool) (r z : List R) (i : ℕ), m.getD i false = false →
    (scatter m r z)[i]? = r[i]?
  | [], r, z, i, _ => by simp [scatter]
  | true :: m, [], z, i, _ => by cases z <;> simp [scatter]
  | true :: m, a :: r, [], i, _ => by simp [scatter]
  | true :: m, a :: r, b :: z, 0, h => by simp at h
  | true :: m, a :: r, b :: z, i + 1, h => by
    simpa [scatter] using scatter_frozen m r z i (by simpa using h)
  | false :: m, [], z, i, _ => by simp [scatter]
  | false :: m, a :: r, z, 0, _ => by simp [scatter]
  | false :: m, a :: r, z, i + 1, h => by
    simpa [scatter] using scatter_frozen m r z i (by simpa using h)

theorem scatter_active : ∀ (m : List Bool) (r z : List R) (i : ℕ), m.length = r.length → z.length = m.count true →
    m.getD i false = true → (scatter m r z)[i]? = z[(m.take i).count true]?
  | [], r, z, i, _, _, h => by simp at h
  | true :: m, a :: r, [], i, _, hz, _ => by simp at hz
  | true :: m, a :: r, b :: z, 0, _, _, _ => by simp [scatter]
  | true :: m, a :: r, b :: z, i + 1, hl, hz, h => by
    simpa [scatter] using scatter_active m r z i (by simpa using hl) (by simpa using hz) (by simpa using h)
  | false :: m, a :: r, z, 0, _, _, h => by simp at h
  | false :: m, a :: r, z, i + 1, hl, hz, h => by
    simpa [scatter] using scatter_active m r z i (by simpa using hl) (by simpa using hz) (by simpa using h)

theorem scatter_set : ∀ (m : List Bool) (r z : List R) (i : ℕ) (t : R), m.length = r.length →
    z.length = m.count true → m.getD i false = true →
    scatter m r (z.set ((m.take i).count true) t) = (scatter m r z).set i t
  | [], r, z, i, _, _, _, h => by simp at h
  | true :: m, a :: r, [], i, _, _, hz, _ => by simp at hz
  | true :: m, a :: r, b :: z, 0, _, _, _, _ => by simp [scatter]
  | true :: m, a :: r, b :: z, i + 1, t, hl, hz, h => by
    simpa [scatter] using scatter_set m r z i t (by simpa using hl) (by simpa using hz) (by simpa using h)
  | false :: m, a :: r, z, 0, _, _, _, h => by simp at h
  | false :: m, a :: r, z, i + 1, t, hl, hz, h => by
    simpa [scatter] using scatter_set m r z i t (by simpa using hl) (by simpa using hz) (by simpa using h)

theorem exists_position : ∀ (m : List Bool) (a : ℕ), a < m.count true →
    ∃ i, m.getD i false = true ∧ (m.take i).count true = a
  | [], a, h => by simp at h
  | true :: m, 0, _ => ⟨0, rfl, rfl⟩
  | true :: m, a + 1, h => by
    obtain ⟨i, h1, h2⟩ := exists_position m a (by simpa using h)
    exact ⟨i + 1, by simpa using h1, by simpa using h2⟩
  | false :: m, a, h => by
    obtain ⟨i, h1, h2⟩ := exists_position m a (by simpa using h)
    exact ⟨i + 1, by simpa using h1, by simpa using h2⟩

theorem scatter_full (m : List Bool) (r z : List R) (hm : m.length = r.length) (hc : m.count true = m.length)
    (hz : z.length = m.length) : scatter m r z = z := by
  apply List.ext_getElem?
  intro i
  by_cases hi : i < m.length
  · have hall : ∀ b ∈ m, b = true := fun b hb => ((List.count_eq_length.mp hc) b hb).symm
    have ha : m.getD i false = true := by
      rw [List.getD_eq_getElem _ _ hi]; exact hall _ (List.getElem_mem _)
    rw [scatter_active m r z i hm (by omega) ha]
    congr 1
    have : (m.take i).count true = (m.take i).length :=
      List.count_eq_length.mpr fun b hb => (hall b (List.mem_of_mem_take hb)).symm
    rw [this, List.length_take]; omega
  · rw [List.getElem?_eq_none (by rw [scatter_length]; omega), List.getElem?_eq_none (by omega)]

end

section
variable {R : Type} [Field R]

theorem optimizeArgs_ok (o : Obj R) (st : Store R) (x0 : List R) (mode : Mode) (hx : x0.length = nparam o)
    (hmode : mode = .lstsq ∨ (mode = .root ∧ nequation o = nactive o)) :
    optimizeArgs o st x0 mode = .ok (if nactive o < nparam o
      then (fun z => computeObjective o st (scatter o.mask x0 z), fun z => computeJacobian o st (scatter o.mask x0 z),
        gather o.mask x0)
      else (computeObjective o st, computeJacobian o st, x0)) := by
  rw [optimizeArgs, if_neg (by simpa using hx)]
  rcases hmode with rfl | ⟨rfl, h⟩
  · rfl
  · simp only [h, ne_eq, not_true_eq_false, if_false]

/-- **C80.**  `optimize(x0, mode)` gives the optimizer the active entries of `x0`, and a function of
a vector with one number for each active parameter.  Its value is the objective at the vector
`y` that has these numbers at the active positions, in order, and the entries of `x0` at the frozen
ones; at the initial guess it is the objective at `x0`. -/
theorem C80_arguments (o : Obj R) (st : Store R) (x0 : List R) (mode : Mode) (hx : x0.length = nparam o)
    (hmode : mode = .lstsq ∨ (mode = .root ∧ nequation o = nactive o)) :
    ∃ f j z0, optimizeArgs o st x0 mode = .ok (f, j, z0) ∧ z0.length = nactive o ∧
      f z0 = computeObjective o st x0 ∧ j z0 = computeJacobian o st x0 ∧
      ∀ z, z.length = nactive o → ∃ y, y.length = nparam o ∧
        f z = computeObjective o st y ∧ j z = computeJacobian o st y ∧
        (∀ i, o.mask.getD i false = true → y[i]? = z[(o.mask.take i).count true]?) ∧
        ∀ i, o.mask.getD i false = false → y[i]? = x0[i]? := by
  have hl : o.mask.length = x0.length := hx.symm
  rw [optimizeArgs_ok o st x0 mode hx hmode]
  by_cases h : nactive o < nparam o
  · rw [if_pos h]
    refine ⟨_, _, _, rfl, gather_length _ _ hl, by simp only [scatter_gather], by simp only [scatter_gather], ?_⟩
    intro z hz
    refine ⟨scatter o.mask x0 z, by rw [scatter_length, hx], rfl, rfl, ?_, ?_⟩
    · intro i hi; exact scatter_active _ _ _ _ hl hz hi
    · intro i hi; exact scatter_frozen _ _ _ _ hi
  · rw [if_neg h]
    have hc : o.mask.count true = o.mask.length := by
      have := List.count_le_length (a := true) (l := o.mask)
      rw [nactive, nparam] at h
      omega
    refine ⟨_, _, _, rfl, by rw [hx, nparam, nactive, hc], rfl, rfl, ?_⟩
    intro z hz
    rw [nactive, hc] at hz
    refine ⟨z, hz, rfl, rfl, ?_, ?_⟩
    · intro i hi
      rw [← scatter_active o.mask x0 z i hl (by rw [hz, hc]) hi, scatter_full _ _ _ hl hc hz]
    · intro i hi
      have hall : ∀ b ∈ o.mask, b = true := fun b hb => ((List.count_eq_length.mp hc) b hb).symm
      have hge : o.mask.length ≤ i := by
        by_contra hlt
        rw [List.getD_eq_getElem _ _ (not_le.mp hlt), hall _ (List.getElem_mem _)] at hi
        cases hi
      rw [List.getElem?_eq_none (by omega), List.getElem?_eq_none (by omega)]

/-- **C80.**  The checks: a guess of the wrong length, `root` for a system that is not square and an
unknown mode raise a `ValueError`; nothing else does. -/
theorem C80_errors (o : Obj R) (st : Store R) (x0 : List R) (mode : Mode) (e : PyErr) :
    optimizeArgs o st x0 mode = .error e ↔
      e = .valueError ∧ (x0.length ≠ nparam o ∨ mode = .other ∨ (mode = .root ∧ nequation o ≠ nactive o)) := by
  rw [optimizeArgs]
  by_cases hx : x0.length = nparam o
  · rw [if_neg (by simpa using hx)]
    cases mode with
    | lstsq => simp [hx]
    | root =>
      by_cases h : nequation o = nactive o
      · simp [hx, h]
      · simp [hx, h, eq_comm]
    | other => simp [eq_comm]
  · rw [if_pos hx]
    simp [hx, eq_comm]

end

/-- **C80.**  The Jacobian that `optimize` passes with `use_jac` is the derivative of the function
that it passes, with respect to each entry of the vector of active parameters (same hypotheses as
`C79_jacobian_partial`). -/
theorem C80_jacobian_partial (o : Obj ℝ) (st : Store ℝ) (k : ℕ) (h : Single o st k) (hd : OverlapDeriv o)
    (x0 : List ℝ) (hx : x0.length = nparam o) (hs : o.sds ≠ []) (hP : o.nproj ≤ o.sds.length)
    (hcu : ∀ x, CustomDeriv o x) (z : List ℝ) (hz : z.length = nactive o) :
    ∃ f j z0, optimizeArgs o st x0 .lstsq = .ok (f, j, z0) ∧ ∃ J, j z = .ok J ∧
      ∀ a < nactive o, ∀ m < nequation o,
        HasDerivAt (fun t => (f (z.set a t)).getD m 0) ((J.getD m []).getD a 0) (z.getD a 0) := by
  have hl : o.mask.length = x0.length := hx.symm
  have hargs : ∃ f j z0, optimizeArgs o st x0 .lstsq = .ok (f, j, z0) ∧
      (∀ z, z.length = nactive o → f z = computeObjective o st (scatter o.mask x0 z)) ∧
      (∀ z, z.length = nactive o → j z = computeJacobian o st (scatter o.mask x0 z)) := by
    rw [optimizeArgs, if_neg (by simpa using hx)]
    simp only
    split_ifs with hlt
    · exact ⟨_, _, _, rfl, fun _ _ => rfl, fun _ _ => rfl⟩
    · have hc : o.mask.count true = o.mask.length := by
        have := List.count_le_length (a := true) (l := o.mask)
        rw [nactive, nparam] at hlt
        omega
      refine ⟨_, _, _, rfl, ?_, ?_⟩ <;> intro z hz <;>
        rw [scatter_full _ _ _ hl hc (by rw [hz, nactive, hc])]
  obtain ⟨f, j, z0, h1, h2, h3⟩ := hargs
  have hlen : (scatter o.mask x0 z).length = (st o.wfn).length + 1 := by
    rw [scatter_length, hx, nparam, h.mask]
  obtain ⟨J, hJ, -, -, hD⟩ := C79_jacobian_partial h hd hlen hs hP (hcu _)
  refine ⟨f, j, z0, h1, J, by rw [h3 z hz, hJ], ?_⟩
  intro a ha m hm
  obtain ⟨i, hi1, hi2⟩ := exists_position o.mask a ha
  have := hD i hi1 m hm
  rw [hi2] at this
  have e : ∀ t, f (z.set a t) = computeObjective o st ((scatter o.mask x0 z).set i t) := by
    intro t
    rw [h2 _ (by simpa using hz), ← hi2, scatter_set _ _ _ _ _ hl hz hi1]
  have e2 : (scatter o.mask x0 z).getD i 0 = z.getD a 0 := by
    rw [List.getD_eq_getElem?_getD, scatter_active _ _ _ _ hl hz hi1, hi2, List.getD_eq_getElem?_getD]
  rw [e2] at this
  simp only [e]
  exact this

/-- **C80.**  If the energy is active, then `results["energy"]` is the energy of the solution. -/
theorem C80_energy_partial {R : Type} [Field R] (o : Obj R) (x0 z : List R) (hx : x0.length = nparam o)
    (hz : z.length = nactive o) (he : energyActive o = true) :
    resultEnergy z = (scatter o.mask x0 z).getLastD 0 := by
  have hl : o.mask.length = x0.length := hx.symm
  have hpos : 0 < o.mask.length := by
    rw [energyActive] at he
    cases hm : o.mask with
    | nil => rw [hm] at he; simp at he
    | cons a l => simp
  have hlast : o.mask.getD (o.mask.length - 1) false = true := by
    rw [energyActive, List.getLastD_eq_getLast?, List.getLast?_eq_getElem?] at he
    rw [List.getD_eq_getElem?_getD]; exact he
  have hcount : (o.mask.take (o.mask.length - 1)).count true = nactive o - 1 := by
    have hlt : o.mask.length - 1 < o.mask.length := by omega
    have : o.mask = o.mask.take (o.mask.length - 1) ++ [o.mask[o.mask.length - 1]] := by
      rw [← List.take_succ_eq_append_getElem hlt, Nat.sub_add_cancel hpos, List.take_length]
    rw [List.getD_eq_getElem _ _ hlt] at hlast
    rw [nactive]
    conv_rhs => rw [this]
    rw [List.count_append, hlast]
    simp
  rw [resultEnergy, List.getLastD_eq_getLast?, List.getLastD_eq_getLast?, List.getLast?_eq_getElem?,
    List.getLast?_eq_getElem?, scatter_length, ← hl, scatter_active _ _ _ _ hl hz hlast, hcount, hz]

/-- **C80, disagreement.**  If the energy is frozen, then `results["energy"]` is the last active
parameter of the wavefunction: with the mask `[True, False]` and the energy `-7` a solution `[2]`
reports the energy `2`. -/
theorem C80_frozen_energy :
    resultEnergy ([2] : List ℚ) = 2 ∧ (scatter [true, false] ([0, -7] : List ℚ) [2]).getLastD 0 = -7 := by
  constructor <;> rfl

/-- The hypotheses of the C79 and C80 theorems hold for a wavefunction with two parameters, of which
one was frozen afterwards, and the norm as a constraint. -/
noncomputable def normObj : Obj ℝ where
  sel := [(0, [0, 1])]
  wfn := 0
  product := none
  mask := [true, false, true]
  nproj := 1
  sds := [1, 2]
  ciOp := fun m n => m + n + 1
  constraints := [.norm, .det 0 1, .param 0 2]
  avail := 0
  overlap := fun s sd => (s 0).getD (sd - 1) 0
  dOverlap := fun _ sd _ i => if i = sd - 1 then 1 else 0

example : Single normObj (fun _ => [1, 2]) 2 ∧ (∀ x, CustomDeriv normObj x) ∧ normObj.sds ≠ [] ∧
    normObj.nproj ≤ normObj.sds.length := by
  refine ⟨⟨rfl, rfl, le_rfl, rfl, fun i hi _ => hi⟩, ?_, by simp [normObj], by simp [normObj]⟩
  intro x f df hm
  simp [normObj] at hm

example : OverlapDeriv normObj := by
  intro s sd i hi
  simp only [normObj, Function.update_self] at hi ⊢
  by_cases h : i = sd - 1
  · subst h
    have e : ∀ t : ℝ, ((s 0).set (sd - 1) t).getD (sd - 1) 0 = t := by
      intro t
      rw [List.getD_eq_getElem _ _ (by simpa using hi), List.getElem_set_self]
    simp only [e, if_true]
    exact hasDerivAt_id _
  · have e : ∀ t : ℝ, ((s 0).set i t).getD (sd - 1) 0 = (s 0).getD (sd - 1) 0 := by
      intro t
      rw [List.getD_eq_getElem?_getD, List.getElem?_set_ne h, ← List.getD_eq_getElem?_getD]
    simp only [e, if_neg h]
    exact hasDerivAt_const _ _

end Fanpy.Props
