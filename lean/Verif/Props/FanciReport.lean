import Verif.Model.FanciReport
import Verif.Props.FanCIOptimize

/-!
# C118: second derivatives, reports and checkpoints of the FanCI interface
-/

namespace Fanpy.Props
open Fanpy.Eqn Fanpy.FanCI

variable {R : Type}

/-! ### Second derivatives -/

/-- C118. When `compute_overlap_double_deriv` raises. -/
theorem C118_hessian_errors [Zero R] (o : Obj R) (cc : Bool) (hess : Store R → ℕ → ℕ → ℕ → R) (st : Store R) (x : List R) (space : Space)
    (e : PyErr) : computeHessians o cc hess st x space = .error e ↔
      (space = .other ∧ e = .valueError) ∨
      (space ≠ .other ∧ cc = false ∧ e = .notImplemented) ∨
      (cc = true ∧ e = .indexError ∧ (space = .p ∧ (o.nproj = 0 ∨ o.sds = []) ∨ space = .s ∧ o.sds = [] ∨ space = .rows [])) := by
  have key : ∀ l : List ℕ, (spaceSds o space = .ok l) → (computeHessians o cc hess st x space = .error e ↔
      (cc = false ∧ e = .notImplemented) ∨ (cc = true ∧ e = .indexError ∧ l = [])) := by
    intro l hl
    have e1 : computeHessians o cc hess st x space = if !cc then .error .notImplemented else if l = [] then .error .indexError else
        .ok (l.map fun sd => (List.range (feedOverlap o st x o.wfn).length).map fun a =>
          (List.range (feedOverlap o st x o.wfn).length).map fun b => hess (feedOverlap o st x) sd a b) := by
      rw [computeHessians, hl]; rfl
    rw [e1]
    cases cc
    · rw [if_pos (by rfl)]; simp [eq_comm]
    · rw [if_neg (by simp)]
      by_cases h : l = []
      · rw [if_pos h]; simp [h, eq_comm]
      · rw [if_neg h]; simp [h]
  cases space with
  | p => rw [key _ rfl]; simp
  | s => rw [key _ rfl]; simp
  | rows r => rw [key _ rfl]; simp
  | other =>
    have : computeHessians o cc hess st x .other = .error .valueError := rfl
    rw [this]
    simp [eq_comm]

/-- C118. With one wavefunction of which the first `k` parameters are selected, the entry `(i, j)` of the matrix of a determinant is the
derivative along parameter `j` of the entry of `compute_overlap_deriv` that belongs to the active parameter `i`, if the second
derivatives of the wavefunction are the derivatives of its derivatives. -/
theorem C118_hessian (o : Obj ℝ) (st : Store ℝ) (k : ℕ) (h : Single o st k) (hess : Store ℝ → ℕ → ℕ → ℕ → ℝ)
    (hh : ∀ (s : Store ℝ) (sd i j : ℕ), i < (s o.wfn).length → j < (s o.wfn).length →
      HasDerivAt (fun t => o.dOverlap (Function.update s o.wfn ((s o.wfn).set j t)) sd o.wfn i) (hess s sd i j) ((s o.wfn).getD j 0))
    (x : List ℝ) (hx : x.length = (st o.wfn).length) (hs : o.sds ≠ []) :
    ∃ H, computeHessians o true hess st x .s = .ok H ∧ H.length = o.sds.length ∧
      ∀ n < o.sds.length, ∀ i < (st o.wfn).length, o.mask.getD i false = true → ∀ j < k,
        HasDerivAt (fun t => ((computeOverlapDeriv o st (x.set j t) o.sds).getD n []).getD ((o.mask.take i).count true) 0)
          (((H.getD n []).getD i []).getD j 0) (x.getD j 0) := by
  have hlen : (feedOverlap o st x o.wfn).length = (st o.wfn).length := by rw [feedOverlap_eq h, fed_length h]
  refine ⟨_, by simp only [computeHessians, spaceSds, bind, Except.bind, Bool.not_true, Bool.false_eq_true, if_false, if_neg hs]; rfl,
    by simp, ?_⟩
  intro n hn i hi ha j hj
  have hj' : j < (st o.wfn).length := lt_of_lt_of_le hj h.le
  have e : ∀ t, ((computeOverlapDeriv o st (x.set j t) o.sds).getD n []).getD ((o.mask.take i).count true) 0 =
      o.dOverlap (Function.update (fed o st k x) o.wfn ((fed o st k x o.wfn).set j t)) o.sds[n] o.wfn i := by
    intro t
    rw [computeOverlapDeriv, List.getD_eq_getElem (List.map _ o.sds) _ (by simpa using hn), List.getElem_map, derivRow_getD h hi ha,
      fed_set h _ _ _ hj (by omega)]
  rw [funext e, List.getD_eq_getElem (List.map _ o.sds) _ (by simpa using hn), List.getElem_map,
    List.getD_eq_getElem (List.map _ (List.range _)) ([] : List ℝ) (by simpa [hlen] using hi), List.getElem_map, List.getElem_range,
    List.getD_eq_getElem _ _ (by simpa [hlen] using hj'), List.getElem_map, List.getElem_range, feedOverlap_eq h]
  have := hh (fed o st k x) o.sds[n] i j (by rw [fed_length h]; exact hi) (by rw [fed_length h]; exact hj')
  rwa [fed_getD _ _ hj] at this

/-- C118, disagreement. The matrices are over all parameters of the wavefunction, frozen or not, while `compute_overlap_deriv` has a
column for each active one: the sizes agree only if every parameter is active. -/
theorem C118_hessian_all (o : Obj ℝ) (st : Store ℝ) (k : ℕ) (h : Single o st k) (hess : Store ℝ → ℕ → ℕ → ℕ → ℝ) (x : List ℝ)
    (H : List (List (List ℝ))) (hH : computeHessians o true hess st x .s = .ok H) :
    (∀ M ∈ H, M.length = (st o.wfn).length ∧ ∀ row ∈ M, row.length = (st o.wfn).length) ∧
      (∀ row ∈ computeOverlapDeriv o st x o.sds, row.length = nwfn o) ∧
      (nwfn o = (st o.wfn).length ↔ ∀ i < (st o.wfn).length, o.mask.getD i false = true) := by
  have hlen : (feedOverlap o st x o.wfn).length = (st o.wfn).length := by rw [feedOverlap_eq h, fed_length h]
  refine ⟨?_, ?_, ?_⟩
  · simp only [computeHessians, spaceSds, bind, Except.bind, Bool.not_true, Bool.false_eq_true, if_false] at hH
    split_ifs at hH with hs
    simp only [Except.ok.injEq] at hH
    subst hH
    intro M hM
    obtain ⟨sd, -, rfl⟩ := List.mem_map.1 hM
    refine ⟨by simp [hlen], fun row hr => ?_⟩
    obtain ⟨a, -, rfl⟩ := List.mem_map.1 hr
    simp [hlen]
  · intro row hr
    obtain ⟨sd, -, rfl⟩ := List.mem_map.1 hr
    exact derivRow_length h x sd
  · rw [nwfn_eq h]
    have hl : (o.mask.take (st o.wfn).length).length = (st o.wfn).length := by rw [List.length_take, h.mask]; omega
    constructor
    · intro e i hi
      have : List.count true (o.mask.take (st o.wfn).length) = (o.mask.take (st o.wfn).length).length := by rw [hl]; exact e
      rw [List.count_eq_length] at this
      have hm : i < (o.mask.take (st o.wfn).length).length := by omega
      have h2 := this _ (List.getElem_mem hm)
      rw [List.getElem_take] at h2
      rw [List.getD_eq_getElem _ _ (by rw [h.mask]; omega)]
      exact h2.symm
    · intro hall
      conv_rhs => rw [← hl]
      rw [List.count_eq_length]
      intro b hb
      obtain ⟨i, hi, rfl⟩ := List.getElem_of_mem hb
      rw [List.getElem_take]
      have h2 := hall i (by omega)
      rw [List.getD_eq_getElem _ _ (by rw [h.mask]; omega)] at h2
      exact h2.symm

/-! ### Reports -/

theorem getKey_setKey_self (q : Queue R) (key : String) (v : R) : getKey (setKey q key v) key = some v := by
  unfold setKey getKey
  by_cases h : q.any (fun e => e.1 = key)
  · rw [if_pos h]
    induction q with
    | nil => simp at h
    | cons e q ih =>
      by_cases he : e.1 = key
      · simp [he]
      · rw [List.map_cons, if_neg he]
        have h1 : (key == e.1) = false := by simpa using fun h => he h.symm
        rw [show e = (e.1, e.2) from rfl, List.lookup_cons, h1]
        exact ih (by simpa [he] using h)
  · rw [if_neg h]
    have : q.lookup key = none := by
      rw [List.lookup_eq_none_iff]
      intro e he
      simp only [List.any_eq_true, decide_eq_true_eq, not_exists, not_and] at h
      simpa using fun hk => h e he hk.symm
    rw [List.lookup_append, this]
    simp [List.lookup]

theorem getKey_setKey_ne (q : Queue R) (key key' : String) (v : R) (hne : key ≠ key') : getKey (setKey q key v) key' = getKey q key' := by
  unfold setKey getKey
  have h3 : (key' == key) = false := by simpa using hne.symm
  by_cases h : q.any (fun e => e.1 = key)
  · rw [if_pos h]
    clear h
    induction q with
    | nil => rfl
    | cons e q ih =>
      by_cases he : e.1 = key
      · rw [List.map_cons, if_pos he, List.lookup_cons, h3, show e = (e.1, e.2) from rfl, List.lookup_cons, he, h3]
        exact ih
      · rw [List.map_cons, if_neg he, show e = (e.1, e.2) from rfl, List.lookup_cons, List.lookup_cons, ih]
  · rw [if_neg h, List.lookup_append]
    simp [List.lookup, h3]

variable [Field R]

/-- C118. After any calls the queue has the energy and the costs of the last call of the objective; together the costs are the sum of the
squares of the objective, which least squares minimizes. -/
theorem C118_queue (o : Obj R) (norm : List (List R) → R) (opt : Options) (s₁ s₂ : Session R) (x : List R) (after : List (List R))
    (h : runCalls o norm opt (objectiveCall o opt s₁ x).1 (after.map .jacobian) = .ok s₂) :
    getKey s₂.queue "Electronic Energy" = some (x.getLastD 0) ∧
      ∃ c d, getKey s₂.queue "Cost" = some c ∧ getKey s₂.queue "Cost from constraints" = some d ∧
        c = (((computeObjective o s₁.store x).take o.nproj).map fun v => v ^ 2).sum ∧
        c + d = ((computeObjective o s₁.store x).map fun v => v ^ 2).sum := by
  have key : ∀ (after : List (List R)) (s : Session R), runCalls o norm opt s (after.map .jacobian) = .ok s₂ →
      ∀ k, k ≠ "Norm of the Jacobian" → getKey s₂.queue k = getKey s.queue k := by
    intro after
    induction after with
    | nil => intro s h k _; simp only [List.map_nil, runCalls, Except.ok.injEq] at h; rw [h]
    | cons y ys ih =>
      intro s h k hk
      simp only [List.map_cons, runCalls, jacobianCall, bind, Except.bind] at h
      cases hj : computeJacobian o s.store y with
      | error e => rw [hj] at h; simp at h
      | ok J =>
        rw [hj] at h
        simp only [pure, Except.pure] at h
        rw [ih _ h k hk]
        exact getKey_setKey_ne _ _ _ _ (Ne.symm hk)
  refine ⟨?_, _, (((computeObjective o s₁.store x).drop o.nproj).map fun v => v ^ 2).sum, ?_, ?_, rfl, ?_⟩
  · rw [key after _ h _ (by decide)]
    simp only [objectiveCall]
    rw [getKey_setKey_ne _ _ _ _ (by decide), getKey_setKey_ne _ _ _ _ (by decide), getKey_setKey_self]
  · rw [key after _ h _ (by decide)]
    simp only [objectiveCall]
    rw [getKey_setKey_ne _ _ _ _ (by decide), getKey_setKey_self]
  · rw [key after _ h _ (by decide)]
    simp only [objectiveCall]
    rw [getKey_setKey_self]
  · rw [← List.sum_append, ← List.map_append, List.take_append_drop]

/-- C118. Other entries of the queue are not touched by any calls. -/
theorem C118_queue_others (o : Obj R) (norm : List (List R) → R) (opt : Options) (calls : List (Call R)) (s₁ s₂ : Session R)
    (h : runCalls o norm opt s₁ calls = .ok s₂) (k : String)
    (hk : k ∉ ["Electronic Energy", "Cost", "Cost from constraints", "Norm of the Jacobian"]) : getKey s₂.queue k = getKey s₁.queue k := by
  simp only [List.mem_cons, List.not_mem_nil, or_false, not_or] at hk
  obtain ⟨k1, k2, k3, k4⟩ := hk
  induction calls generalizing s₁ with
  | nil => simp only [runCalls, Except.ok.injEq] at h; rw [h]
  | cons c calls ih =>
    cases c with
    | objective x =>
      rw [ih _ h]
      simp only [objectiveCall]
      rw [getKey_setKey_ne _ _ _ _ (Ne.symm k3), getKey_setKey_ne _ _ _ _ (Ne.symm k2), getKey_setKey_ne _ _ _ _ (Ne.symm k1)]
    | jacobian x =>
      simp only [runCalls, jacobianCall, bind, Except.bind] at h
      cases hj : computeJacobian o s₁.store x with
      | error e => rw [hj] at h; simp at h
      | ok J =>
        rw [hj] at h
        simp only [pure, Except.pure] at h
        rw [ih _ h]
        exact getKey_setKey_ne _ _ _ _ (Ne.symm k4)

/-- C118. The lines printed by `compute_objective`, in their order: the norm for each constraint of the norm, the energy, the cost and,
with constraints, their cost; nothing without `step_print`. -/
theorem C118_printed (o : Obj R) (opt : Options) (s : Session R) (x : List R) :
    (objectiveCall o opt s x).1.printed.map Prod.fst = s.printed.map Prod.fst ++ (if opt.stepPrint then
      (o.constraints.filter fun c => match c with | .norm => true | _ => false).map (fun _ => "Norm of wavefunction") ++
        ["Electronic Energy", "Cost"] ++ (if o.constraints = [] then [] else ["Cost from constraints"]) else []) := by
  have hc : ∀ l : List (Constraint R), (l.flatMap (constraintLines o s.store x)).map Prod.fst =
      (l.filter fun c => match c with | .norm => true | _ => false).map (fun _ => "Norm of wavefunction") := by
    intro l
    induction l with
    | nil => rfl
    | cons c l ih =>
      rw [List.flatMap_cons, List.map_append, ih]
      cases c <;> simp [constraintLines]
  simp only [objectiveCall]
  cases opt.stepPrint
  · simp
  · simp only [if_true, List.map_append, hc]
    by_cases he : o.constraints = [] <;> simp [he]

/-- C118. The numbers on the lines: that of the norm is the sum of the squares of the overlaps with the `S` space, the others are those of
the queue. -/
theorem C118_printed_values (o : Obj R) (opt : Options) (s : Session R) (x : List R) :
    ∃ lines, (objectiveCall o opt s x).1.printed = s.printed ++ lines ∧ ∀ line ∈ lines,
      (line.1 = "Norm of wavefunction" → line.2 =
        (o.sds.map fun sd => o.overlap (feedOverlap o s.store x.dropLast) sd * o.overlap (feedOverlap o s.store x.dropLast) sd).sum) ∧
      (line.1 ≠ "Norm of wavefunction" → getKey (objectiveCall o opt s x).1.queue line.1 = some line.2) := by
  cases hp : opt.stepPrint
  · exact ⟨[], by simp [objectiveCall, hp], by simp⟩
  · refine ⟨_, by simp only [objectiveCall, hp, if_true]; rfl, ?_⟩
    intro line hl
    simp only [List.mem_append, List.mem_flatMap, List.mem_cons, List.not_mem_nil, or_false] at hl
    rcases hl with (⟨c, -, hc⟩ | rfl | rfl) | hl
    · cases c <;> simp only [constraintLines, List.not_mem_nil, List.mem_cons, or_false] at hc
      subst hc
      refine ⟨fun _ => ?_, fun h => absurd rfl h⟩
      simp only [computeOverlap, List.map_map, pow_two]
      rfl
    · refine ⟨fun h => absurd h (by simp), fun _ => ?_⟩
      simp only [objectiveCall]
      rw [getKey_setKey_ne _ _ _ _ (by decide), getKey_setKey_ne _ _ _ _ (by decide), getKey_setKey_self]
    · refine ⟨fun h => absurd h (by simp), fun _ => ?_⟩
      simp only [objectiveCall]
      rw [getKey_setKey_ne _ _ _ _ (by decide), getKey_setKey_self]
    · split_ifs at hl
      · simp at hl
      · simp only [List.mem_cons, List.not_mem_nil, or_false] at hl
        subst hl
        refine ⟨fun h => absurd h (by simp), fun _ => ?_⟩
        simp only [objectiveCall]
        rw [getKey_setKey_self]

/-! ### Checkpoints -/

omit [Field R] in
theorem fed_single [Zero R] {o : Obj R} {st : Store R} {k : ℕ} (h : Single o st k) (y : List R) : Single o (fed o st k y) k :=
  ⟨h.product, h.sel, by rw [fed_length h]; exact h.le, by rw [fed_length h]; exact h.mask, by rw [fed_length h]; exact h.active⟩

omit [Field R] in
theorem fed_fed [Zero R] {o : Obj R} {st : Store R} {k : ℕ} (x y : List R) : fed o (fed o st k y) k x = fed o st k x := by
  simp only [fed, Function.update_self, Function.update_idem]
  congr 1
  rw [List.drop_append_of_le_length (by simp)]
  simp

theorem feedJacobian_single {o : Obj R} {st : Store R} {k : ℕ} (h : Single o st k) (x : List R) :
    feedJacobian o st x = fed o st k x.dropLast := by
  have h2 := fed_single h x.dropLast
  unfold feedJacobian
  have start : (if energyActive o then feedOverlap o (feedDeriv o st x.dropLast) x.dropLast else feedDeriv o st x.dropLast) =
      fed o st k x.dropLast := by
    rw [feedDeriv_eq h, feedOverlap_eq h2, fed_fed, ite_self]
  rw [start]
  generalize o.constraints = l
  induction l with
  | nil => rfl
  | cons c l ih =>
    rw [List.foldl_cons]
    have : feedConstraintGrad o x (fed o st k x.dropLast) c = fed o st k x.dropLast := by
      cases c <;> simp only [feedConstraintGrad]
      · rw [feedDeriv_eq h2, fed_fed]
      · rw [feedOverlap_eq h2, fed_fed, feedDeriv_eq h2, fed_fed]
    rw [this, ih]

theorem objective_store {o : Obj R} {s : Session R} {k : ℕ} (h : Single o s.store k) (opt : Options) (x : List R) :
    (objectiveCall o opt s x).1.store = fed o s.store k x.dropLast := by
  have h2 := fed_single h x.dropLast
  simp only [objectiveCall]
  rw [feedOverlap_eq h]
  generalize o.constraints = l
  induction l with
  | nil => rfl
  | cons c l ih =>
    rw [List.foldl_cons]
    have : feedConstraint o x (fed o s.store k x.dropLast) c = fed o s.store k x.dropLast := by
      cases c <;> simp only [feedConstraint]
      · rw [feedOverlap_eq h2, fed_fed]
      · rw [feedOverlap_eq h2, fed_fed]
    rw [this, ih]

/-- the variables of a call -/
def callArg : Call R → List R
  | .objective x => x
  | .jacobian x => x

/-- C118. With one wavefunction of which the first `k` parameters are selected, after any calls of the objective and the Jacobian the
wavefunction has the parameters of the last call (the other parameters are as at the start), and so has the file, if `step_save` is set
and there is a `tmpfile`; else no file is written. -/
theorem C118_file (o : Obj R) (norm : List (List R) → R) (opt : Options) (s₁ s₂ : Session R) (k : ℕ) (h : Single o s₁.store k)
    (calls : List (Call R)) (last : Call R) (hr : runCalls o norm opt s₁ (calls ++ [last]) = .ok s₂) :
    s₂.store = Function.update s₁.store o.wfn
        (((List.range k).map fun i => (callArg last).dropLast.getD i 0) ++ (s₁.store o.wfn).drop k) ∧
      s₂.file = if opt.stepSave && opt.tmpfile then some s₂.store else s₁.file := by
  induction calls generalizing s₁ with
  | nil =>
    cases last with
    | objective x =>
      simp only [List.nil_append, runCalls, Except.ok.injEq] at hr
      subst hr
      exact ⟨objective_store h opt x, rfl⟩
    | jacobian x =>
      simp only [List.nil_append, runCalls, jacobianCall, bind, Except.bind] at hr
      cases hj : computeJacobian o s₁.store x with
      | error e => rw [hj] at hr; simp at hr
      | ok J =>
        rw [hj] at hr
        simp only [pure, Except.pure, Except.ok.injEq] at hr
        subst hr
        exact ⟨feedJacobian_single h x, rfl⟩
  | cons c calls ih =>
    have key : ∀ s : Session R, (∃ y, s.store = fed o s₁.store k y) →
        (s.file = if opt.stepSave && opt.tmpfile then some s.store else s₁.file) → runCalls o norm opt s (calls ++ [last]) = .ok s₂ →
        s₂.store = Function.update s₁.store o.wfn
          (((List.range k).map fun i => (callArg last).dropLast.getD i 0) ++ (s₁.store o.wfn).drop k) ∧
        s₂.file = if opt.stepSave && opt.tmpfile then some s₂.store else s₁.file := by
      rintro s ⟨y, hy⟩ hf hr
      obtain ⟨h1, h2⟩ := ih s (by rw [hy]; exact fed_single h y) hr
      refine ⟨?_, ?_⟩
      · have : s₂.store = fed o s.store k (callArg last).dropLast := h1
        rw [this, hy, fed_fed]
        rfl
      · rw [h2]
        by_cases ho : (opt.stepSave && opt.tmpfile) = true
        · rw [if_pos ho, if_pos ho]
        · rw [if_neg ho, if_neg ho, hf, if_neg ho]
    cases c with
    | objective x => exact key _ ⟨_, objective_store h opt x⟩ rfl hr
    | jacobian x =>
      simp only [List.cons_append, runCalls, jacobianCall, bind, Except.bind] at hr
      cases hj : computeJacobian o s₁.store x with
      | error e => rw [hj] at hr; simp at hr
      | ok J =>
        rw [hj] at hr
        simp only [pure, Except.pure] at hr
        exact key _ ⟨_, feedJacobian_single h x⟩ rfl hr

/-- the wavefunction of C79's disagreement (only its parameter 1 is selected) with a constraint of the norm -/
noncomputable def frozenNorm : Obj ℝ := { frozenObj with constraints := [.norm] }

/-- C118, disagreement. If only the parameter 1 is selected, then the objective at `[3, 5, 0]` leaves and saves the parameters `[0, 5]`,
and the Jacobian at the same point leaves and saves `[0, 3]`: the parameter that is not selected is written over the one that is. -/
theorem C118_checkpoints_disagree (norm : List (List ℝ) → ℝ) (q : Queue ℝ) (p : List (String × ℝ)) :
    (objectiveCall frozenNorm ⟨false, true, true⟩ ⟨fun _ => [0, 0], q, p, none⟩ [3, 5, 0]).1.store 0 = [0, 5] ∧
      ∃ r, jacobianCall frozenNorm norm ⟨false, true, true⟩ ⟨fun _ => [0, 0], q, p, none⟩ [3, 5, 0] = .ok r ∧
        r.1.store 0 = [0, 3] ∧ ∃ f, r.1.file = some f ∧ f 0 = [0, 3] := by
  have hm : frozenNorm.mask = [false, true, true] := by rw [frozenNorm, frozenObj]; decide
  have he : energyActive frozenNorm = true := by rw [energyActive, hm]; decide
  have hj : feedJacobian frozenNorm (fun _ => [0, 0]) [3, 5, 0] 0 = [0, 3] := by
    rw [feedJacobian, he]
    norm_num [frozenNorm, frozenObj, feedConstraintGrad, feedDeriv, feedOverlap, feed, indicesObjective, getItem, setMany,
      List.range'_succ]
  refine ⟨?_, ?_⟩
  · simp only [objectiveCall]
    norm_num [frozenNorm, frozenObj, feedConstraint, feedOverlap, feed, getItem, setMany]
  · have hJ := computeJacobian_ok (o := frozenNorm) (st := fun _ => [0, 0]) (x := [3, 5, 0]) (by simp [frozenNorm, frozenObj])
    refine ⟨_, by rw [jacobianCall, hJ]; rfl, hj, _, rfl, hj⟩

/-! ### Cases -/

/-- a wavefunction with the overlap `p₀ p₁` -/
noncomputable def bilinearObj : Obj ℝ :=
  { normObj with
    overlap := fun s _ => (s 0).getD 0 0 * (s 0).getD 1 0
    dOverlap := fun s _ _ i => if i ≤ 1 then (s 0).getD (1 - i) 0 else 0 }

/-- the hypotheses of `C118_hessian`, `C118_hessian_all` and `C118_file` -/
example : Single bilinearObj (fun _ => [1, 2]) 2 ∧ bilinearObj.sds ≠ [] ∧
    ∀ (s : Store ℝ) (sd i j : ℕ), i < (s bilinearObj.wfn).length → j < (s bilinearObj.wfn).length →
      HasDerivAt (fun t => bilinearObj.dOverlap (Function.update s bilinearObj.wfn ((s bilinearObj.wfn).set j t)) sd bilinearObj.wfn i)
        (if i + j = 1 then 1 else 0) ((s bilinearObj.wfn).getD j 0) := by
  refine ⟨⟨rfl, rfl, le_rfl, rfl, fun i hi _ => hi⟩, by simp [bilinearObj, normObj], ?_⟩
  intro s sd i j hi hj
  simp only [bilinearObj, normObj, Function.update_self] at hi hj ⊢
  by_cases h1 : i ≤ 1
  · simp only [if_pos h1]
    by_cases h : i + j = 1
    · have hj1 : 1 - i = j := by omega
      have e : ∀ t : ℝ, ((s 0).set j t).getD j 0 = t := by
        intro t
        rw [List.getD_eq_getElem _ _ (by simpa using hj), List.getElem_set_self]
      simp only [hj1, e, if_pos h]
      exact hasDerivAt_id _
    · have e : ∀ t : ℝ, ((s 0).set j t).getD (1 - i) 0 = (s 0).getD (1 - i) 0 := by
        intro t
        rw [List.getD_eq_getElem?_getD, List.getElem?_set_ne (by omega), ← List.getD_eq_getElem?_getD]
      simp only [e, if_neg h]
      exact hasDerivAt_const _ _
  · simp only [if_neg h1, if_neg (show ¬i + j = 1 by omega)]
    exact hasDerivAt_const _ _

/-- sequences of calls that end without exceptions exist: the hypothesis of `C118_queue` and `C118_file` -/
example (norm : List (List ℝ) → ℝ) (opt : Options) (s : Session ℝ) (x y z : List ℝ) :
    ∃ r, runCalls bilinearObj norm opt s [.jacobian y, .objective x, .jacobian z] = .ok r := by
  have hs : bilinearObj.sds ≠ [] := by simp [bilinearObj, normObj]
  simp only [runCalls, jacobianCall, computeJacobian_ok hs, bind, Except.bind, pure, Except.pure]
  exact ⟨_, rfl⟩

end Fanpy.Props
