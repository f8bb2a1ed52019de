import Verif.Model.SolverRun
import Verif.Props.Params

/-!
# C95: what the optimizers see, and what is left behind

For every optimizer (any program asking for values, derivatives and the callback).
-/

set_option linter.unusedSimpArgs false
set_option linter.unusedSectionVars false

namespace Fanpy.Props
open Fanpy.Solver Fanpy.Ham Fanpy.Spec

variable {H R V J : Type}

/-! ## Optimizers of functions -/

/-- the optimizer applied to a function `f` with derivative `g` -/
def pureRun (f : List R → V) (g : List R → J) : Strat R V J → Result R V
  | .done r => r
  | .objective x k => pureRun f g (k (f x))
  | .deriv x k => pureRun f g (k (g x))
  | .callback k => pureRun f g k

/-- the points at which it asks for something, in order -/
def points (f : List R → V) (g : List R → J) : Strat R V J → List (List R)
  | .done _ => []
  | .objective x k => x :: points f g (k (f x))
  | .deriv x k => x :: points f g (k (g x))
  | .callback k => points f g k

/-- the last point when the callback is called, for each call; `y` is the point before -/
def callbackPoints (f : List R → V) (g : List R → J) : Strat R V J → List R → List (List R)
  | .done _, _ => []
  | .objective x k, _ => callbackPoints f g (k (f x)) x
  | .deriv x k, _ => callbackPoints f g (k (g x)) x
  | .callback k, y => y :: callbackPoints f g k y

/-- the points at which the objective is evaluated -/
def objectivePoints (f : List R → V) (g : List R → J) : Strat R V J → List (List R)
  | .done _ => []
  | .objective x k => x :: objectivePoints f g (k (f x))
  | .deriv x k => objectivePoints f g (k (g x))
  | .callback k => objectivePoints f g k

/-- derivatives are asked for only at the point of the last objective; `y` is that point -/
def DerivAtLast (f : List R → V) (g : List R → J) : Strat R V J → List R → Prop
  | .done _, _ => True
  | .objective x k, _ => DerivAtLast f g (k (f x)) x
  | .deriv x k, y => x = y ∧ DerivAtLast f g (k (g x)) y
  | .callback k, y => DerivAtLast f g k y

/-- no derivatives are asked for -/
def NoDeriv (f : List R → V) : Strat R V J → Prop
  | .done _ => True
  | .objective x k => NoDeriv f (k (f x))
  | .deriv _ _ => False
  | .callback k => NoDeriv f k

/-! ## `minimize` -/

/-- What is used of `ham.assign_params`: without `update_prev_params` the last parameters decide.  `Inv` holds for constructed Hamiltonians,
`Ok` for parameters of the right size. -/
structure Lawful (P : Prob H R V J) (Inv : H → Prop) (Ok : List R → Prop) : Prop where
  inv : ∀ b h p, Inv h → Ok p → Inv (P.assign b h p)
  last : ∀ h p q, Inv h → Ok p → Ok q → P.assign false (P.assign false h p) q = P.assign false h q
  okParams : ∀ h, Inv h → Ok (P.paramsOf h)
  okActive : ∀ x, Ok (P.hamParams x)

/-- the Hamiltonian for active parameters `x`, starting from the Hamiltonian `h` -/
def hamAt (P : Prob H R V J) (h : H) (x : List R) : H := if P.hamActive then P.assign false h (P.hamParams x) else h

theorem runMinimize_eq {P : Prob H R V J} {Inv : H → Prop} {Ok : List R → Prop} (hL : Lawful P Inv Ok) {h₀ : H} (s : Strat R V J) (w : World H R)
    (hi : Inv w.ham) (hu : w.update = false)
    (hr : P.hamActive = true → ∀ q, Ok q → P.assign false w.ham q = P.assign false h₀ q) (hf : P.hamActive = false → w.ham = h₀) :
    (runMinimize P s w).2 = pureRun (fun x => P.value x (hamAt P h₀ x)) (fun x => P.deriv x (hamAt P h₀ x)) s ∧
    (runMinimize P s w).1.active =
      (points (fun x => P.value x (hamAt P h₀ x)) (fun x => P.deriv x (hamAt P h₀ x)) s).getLastD w.active ∧
    (runMinimize P s w).1.energy =
      ((points (fun x => P.value x (hamAt P h₀ x)) (fun x => P.deriv x (hamAt P h₀ x)) s).map fun x =>
        P.energyOf x (hamAt P h₀ x)).getLastD w.energy ∧
    (runMinimize P s w).1.saved = w.saved ++
      callbackPoints (fun x => P.value x (hamAt P h₀ x)) (fun x => P.deriv x (hamAt P h₀ x)) s w.active ∧
    (runMinimize P s w).1.update = false := by
  have hlast : ∀ (x d : List R) l, (x :: l).getLastD d = l.getLastD x := fun x d l => by cases l <;> rfl
  have hlast' : ∀ (x d : R) l, (x :: l).getLastD d = l.getLastD x := fun x d l => by cases l <;> rfl
  have step : ∀ (w : World H R) (x : List R), Inv w.ham → w.update = false →
      (P.hamActive = true → ∀ q, Ok q → P.assign false w.ham q = P.assign false h₀ q) → (P.hamActive = false → w.ham = h₀) →
      (w.assign P x).ham = hamAt P h₀ x ∧ Inv (w.assign P x).ham ∧
      (P.hamActive = true → ∀ q, Ok q → P.assign false (w.assign P x).ham q = P.assign false h₀ q) := by
    intro w x hi hu hr hf
    simp only [World.assign, hamAt]
    cases ha : P.hamActive with
    | true =>
      simp only [if_true, hu]
      refine ⟨hr ha _ (hL.okActive x), hL.inv _ _ _ hi (hL.okActive x), fun _ q hq => ?_⟩
      rw [hL.last _ _ _ hi (hL.okActive x) hq, hr ha q hq]
    | false =>
      simp only [Bool.false_eq_true, if_false]
      exact ⟨hf ha, hi, fun h => absurd h (by decide)⟩
  induction s generalizing w with
  | done r => exact ⟨rfl, rfl, rfl, (List.append_nil _).symm, hu⟩
  | objective x k ih =>
    obtain ⟨s1, s2, s3⟩ := step w x hi hu hr hf
    have hv : (w.evalObjective P x).2 = P.value x (hamAt P h₀ x) := by rw [World.evalObjective, ← s1]
    have hen : (w.evalObjective P x).1.energy = P.energyOf x (hamAt P h₀ x) := by rw [← s1]; rfl
    obtain ⟨i1, i2, i3, i4, i5⟩ := ih (P.value x (hamAt P h₀ x)) (w.evalObjective P x).1 s2 hu s3 (fun ha => by
      show (w.assign P x).ham = h₀
      rw [s1, hamAt, ha]; rfl)
    simp only [runMinimize, pureRun, points, callbackPoints, List.map_cons, hv, hlast, hlast']
    refine ⟨i1, i2, i3.trans (by rw [hen]), i4, i5⟩
  | deriv x k ih =>
    obtain ⟨s1, s2, s3⟩ := step w x hi hu hr hf
    have hv : (w.evalGradient P x).2 = P.deriv x (hamAt P h₀ x) := by rw [World.evalGradient, ← s1]
    have hen : (w.evalGradient P x).1.energy = P.energyOf x (hamAt P h₀ x) := by rw [← s1]; rfl
    obtain ⟨i1, i2, i3, i4, i5⟩ := ih (P.deriv x (hamAt P h₀ x)) (w.evalGradient P x).1 s2 hu s3 (fun ha => by
      show (w.assign P x).ham = h₀
      rw [s1, hamAt, ha]; rfl)
    simp only [runMinimize, pureRun, points, callbackPoints, List.map_cons, hv, hlast, hlast']
    refine ⟨i1, i2, i3.trans (by rw [hen]), i4, i5⟩
  | callback k ih =>
    have hw : (w.updateIteration P).active = w.active ∧ (w.updateIteration P).energy = w.energy ∧
        (w.updateIteration P).saved = w.saved ++ [w.active] ∧ (w.updateIteration P).update = false ∧ Inv (w.updateIteration P).ham ∧
        (P.hamActive = true → ∀ q, Ok q → P.assign false (w.updateIteration P).ham q = P.assign false h₀ q) ∧
        (P.hamActive = false → (w.updateIteration P).ham = h₀) := by
      simp only [World.updateIteration, World.save]
      cases ha : P.hamActive with
      | true =>
        simp only [if_true, hu]
        refine ⟨trivial, trivial, trivial, trivial, hL.inv _ _ _ hi (hL.okParams _ hi), fun _ q hq => ?_, fun h => absurd h (by decide)⟩
        rw [hL.last _ _ _ hi (hL.okParams _ hi) hq, hr ha q hq]
      | false =>
        simp only [Bool.false_eq_true, if_false]
        exact ⟨trivial, trivial, trivial, hu, hi, fun h => absurd h (by decide), fun _ => hf ha⟩
    obtain ⟨w1, w2, w3, w4, w5, w6, w7⟩ := hw
    obtain ⟨i1, i2, i3, i4, i5⟩ := ih (w.updateIteration P) w5 w4 w6 w7
    simp only [runMinimize, pureRun, points, callbackPoints]
    rw [w1] at i2 i4
    rw [w2] at i3
    rw [w3] at i4
    exact ⟨i1, i2, i3, by rw [i4, List.append_assoc]; rfl, i5⟩

/-- C95: for every optimizer `minimize` returns what the optimizer finds for the function that takes the active parameters to the objective,
with the Hamiltonian always rotated from where it was at the start: nothing that happens in between changes the function.  The objective is
left with the parameters of the last evaluation.  Each call of the callback saves the parameters of the last evaluation before it. -/
theorem C95_minimize {P : Prob H R R J} {Inv : H → Prop} {Ok : List R → Prop} (hL : Lawful P Inv Ok) (kind : Kind) (hk : kind ≠ .notEqn)
    (opt : List R → Strat R R J) (w : World H R) (hi : Inv w.ham) :
    ∃ w' out, minimize P kind 1 opt w = (w', .ok out) ∧
      (∀ f g, f = (fun x => P.value x (hamAt P w.ham x)) → g = (fun x => P.deriv x (hamAt P w.ham x)) →
        out.params = (pureRun f g (opt w.active)).x ∧ out.success = (pureRun f g (opt w.active)).success ∧
        out.value = (pureRun f g (opt w.active)).value ∧
        w'.active = (points f g (opt w.active)).getLastD w.active ∧
        w'.saved = w.saved ++ callbackPoints f g (opt w.active) w.active ∧
        (kind = .energy → out.energy = some out.value) ∧
        (kind = .leastSquares → out.energy =
          some (((points f g (opt w.active)).map fun x => P.energyOf x (hamAt P w.ham x)).getLastD w.energy)) ∧
        (kind = .projected ∨ kind = .otherEqn → out.energy = none)) ∧ w'.update = false := by
  obtain ⟨h1, h2, h3, h4, h5⟩ := runMinimize_eq hL (h₀ := w.ham) (opt w.active) { w with update := false } hi rfl (fun _ _ _ => rfl) (fun _ => rfl)
  refine ⟨_, _, by rw [minimize, if_neg hk, if_neg (by simp)], ?_, h5⟩
  rintro f g rfl rfl
  refine ⟨by rw [h1], by rw [h1], by rw [h1], h2, h4, ?_, ?_, ?_⟩
  · rintro rfl; rfl
  · rintro rfl
    simp only [energyKey]
    rw [h3]
  · rintro (rfl | rfl) <;> rfl

/-- C95: objectives that `minimize` refuses, and nothing is changed then. -/
theorem C95_minimize_refuses (P : Prob H R R J) (kind : Kind) (numEqns : ℕ) (opt : List R → Strat R R J) (w : World H R) :
    (kind = .notEqn → minimize P kind numEqns opt w = (w, .error .typeError)) ∧
    (kind ≠ .notEqn → numEqns ≠ 1 → minimize P kind numEqns opt w = (w, .error .valueError)) := by
  refine ⟨fun h => by rw [minimize, if_pos h], fun h h1 => by rw [minimize, if_neg h, if_pos h1]⟩

/-! ## `cma` -/

theorem runCma_eq {P : Prob H R V J} [Inhabited J] {Inv : H → Prop} {Ok : List R → Prop} (hL : Lawful P Inv Ok) {h₀ : H} (g : List R → J) (s : Strat R V J)
    (w : World H R) (hs : NoDeriv (fun x => P.value x (hamAt P h₀ x)) s)
    (hi : Inv w.ham) (hu : w.update = false)
    (hr : P.hamActive = true → ∀ q, Ok q → P.assign false w.ham q = P.assign false h₀ q) (hf : P.hamActive = false → w.ham = h₀) :
    (runCma P s w).2 = pureRun (fun x => P.value x (hamAt P h₀ x)) g s ∧
    (runCma P s w).1.energy =
      ((points (fun x => P.value x (hamAt P h₀ x)) g s).map fun x => P.energyOf x (hamAt P h₀ x)).getLastD w.energy ∧
    (runCma P s w).1.saved = w.saved ∧ (runCma P s w).1.update = false ∧
    (∀ x, ((runCma P s w).1.assign P x).ham = hamAt P h₀ x) := by
  have hlast' : ∀ (x d : R) l, (x :: l).getLastD d = l.getLastD x := fun x d l => by cases l <;> rfl
  induction s generalizing w with
  | done r =>
    refine ⟨rfl, rfl, rfl, hu, fun x => ?_⟩
    simp only [runCma, World.assign, hamAt]
    cases ha : P.hamActive with
    | true => simp only [if_true, hu]; exact hr ha _ (hL.okActive x)
    | false => simp only [Bool.false_eq_true, if_false]; exact hf ha
  | objective x k ih =>
    have s1 : (w.assign P x).ham = hamAt P h₀ x := by
      simp only [World.assign, hamAt]
      cases ha : P.hamActive with
      | true => simp only [if_true, hu]; exact hr ha _ (hL.okActive x)
      | false => simp only [Bool.false_eq_true, if_false]; exact hf ha
    have s2 : Inv (w.assign P x).ham := by
      simp only [World.assign]
      split_ifs
      · exact hL.inv _ _ _ hi (hL.okActive x)
      · exact hi
    have s3 : P.hamActive = true → ∀ q, Ok q → P.assign false (w.assign P x).ham q = P.assign false h₀ q := by
      intro ha q hq
      simp only [World.assign, ha, if_true, hu]
      rw [hL.last _ _ _ hi (hL.okActive x) hq, hr ha q hq]
    have hv : (w.evalObjective P x).2 = P.value x (hamAt P h₀ x) := by rw [World.evalObjective, ← s1]
    have hen : (w.evalObjective P x).1.energy = P.energyOf x (hamAt P h₀ x) := by rw [← s1]; rfl
    obtain ⟨i1, i2, i3, i4, i5⟩ := ih (P.value x (hamAt P h₀ x)) (w.evalObjective P x).1 hs s2 hu s3 (fun ha => by
      show (w.assign P x).ham = h₀
      rw [s1, hamAt, ha]; rfl)
    simp only [runCma, pureRun, points, List.map_cons, hv, hlast']
    exact ⟨i1, i2.trans (by rw [hen]), i3, i4, i5⟩
  | deriv x k ih => exact hs.elim
  | callback k ih => exact ih w hs hi hu hr hf

/-- C95: for every optimizer without derivatives `cma` returns what the optimizer finds for the objective as a function of the active
parameters, and leaves the objective at the solution, saved.  For `LeastSquaresEquations` the energy of the output is the one of the last
evaluation (not of the solution). -/
theorem C95_cma {P : Prob H R R J} [Inhabited J] {Inv : H → Prop} {Ok : List R → Prop} (hL : Lawful P Inv Ok) (kind : Kind) (hk : kind ≠ .notEqn)
    (opt : List R → Strat R R J) (w : World H R) (hi : Inv w.ham) (h1 : w.active.length ≠ 1) (g : List R → J)
    (hs : NoDeriv (fun x => P.value x (hamAt P w.ham x)) (opt w.active)) :
    ∃ w' out, cma P kind 1 opt w = (w', .ok out) ∧
      (∀ f, f = (fun x => P.value x (hamAt P w.ham x)) →
        out.params = (pureRun f g (opt w.active)).x ∧ out.value = (pureRun f g (opt w.active)).value ∧
        (kind = .energy → out.energy = some out.value) ∧
        (kind = .leastSquares → out.energy =
          some (((points f g (opt w.active)).map fun x => P.energyOf x (hamAt P w.ham x)).getLastD w.energy))) ∧
      w'.active = out.params ∧ w'.ham = hamAt P w.ham out.params ∧ w'.saved = w.saved ++ [out.params] := by
  obtain ⟨i1, i2, i3, i4, i5⟩ := runCma_eq hL (h₀ := w.ham) g (opt w.active) { w with update := false } hs hi rfl (fun _ _ _ => rfl) (fun _ => rfl)
  have e : cma P kind 1 opt w = (((runCma P (opt w.active) { w with update := false }).1.assign P
      (runCma P (opt w.active) { w with update := false }).2.x).save, .ok ⟨(runCma P (opt w.active) { w with update := false }).2.success,
      (runCma P (opt w.active) { w with update := false }).2.x, (runCma P (opt w.active) { w with update := false }).2.value,
      energyKey kind (runCma P (opt w.active) { w with update := false }).1 (runCma P (opt w.active) { w with update := false }).2.value⟩) := by
    rw [cma, if_neg hk, if_neg (by simp)]
    exact if_neg h1
  refine ⟨_, _, e, ?_, rfl, i5 _, ?_⟩
  · rintro f rfl
    refine ⟨by rw [i1], by rw [i1], ?_, ?_⟩
    · rintro rfl; rfl
    · rintro rfl
      simp only [energyKey]
      rw [i2]
  · simp only [World.save, World.assign, i3]

/-- C95: objectives that `cma` refuses.  The single parameter is refused after `update_prev_params` was changed. -/
theorem C95_cma_refuses (P : Prob H R R J) [Inhabited J] (kind : Kind) (numEqns : ℕ) (opt : List R → Strat R R J) (w : World H R) :
    (kind = .notEqn → cma P kind numEqns opt w = (w, .error .typeError)) ∧
    (kind ≠ .notEqn → numEqns ≠ 1 → cma P kind numEqns opt w = (w, .error .valueError)) ∧
    (kind ≠ .notEqn → numEqns = 1 → w.active.length = 1 → cma P kind numEqns opt w = ({ w with update := false }, .error .valueError)) := by
  refine ⟨fun h => by rw [cma, if_pos h], fun h h1 => by rw [cma, if_neg h, if_pos h1], fun h h1 h2 => ?_⟩
  rw [cma, if_neg h, if_neg (by simp [h1])]
  simp only
  rw [if_pos h2]

/-! ## `least_squares` and `root` -/

theorem runSystem_eq {P : Prob H R V J} (ha : P.hamActive = false) (s : Strat R V J) (w : World H R)
    (hd : DerivAtLast (fun x => P.value x w.ham) (fun x => P.deriv x w.ham) s w.active) :
    (runSystem P s w).2 = pureRun (fun x => P.value x w.ham) (fun x => P.deriv x w.ham) s ∧
    (runSystem P s w).1.active =
      (objectivePoints (fun x => P.value x w.ham) (fun x => P.deriv x w.ham) s).getLastD w.active ∧
    (runSystem P s w).1.energy =
      ((objectivePoints (fun x => P.value x w.ham) (fun x => P.deriv x w.ham) s).map fun x => P.energyOf x w.ham).getLastD w.energy ∧
    (runSystem P s w).1.ham = w.ham := by
  have hlast : ∀ (x d : List R) l, (x :: l).getLastD d = l.getLastD x := fun x d l => by cases l <;> rfl
  have hlast' : ∀ (x d : R) l, (x :: l).getLastD d = l.getLastD x := fun x d l => by cases l <;> rfl
  induction s generalizing w with
  | done r => exact ⟨rfl, rfl, rfl, rfl⟩
  | objective x k ih =>
    have hh : (w.evalObjective P x).1.ham = w.ham := by simp [World.evalObjective, World.assign, ha]
    have hv : (w.evalObjective P x).2 = P.value x w.ham := by simp [World.evalObjective, World.assign, ha]
    have hen : (w.evalObjective P x).1.energy = P.energyOf x w.ham := by simp [World.evalObjective, World.assign, ha]
    have := ih (P.value x w.ham) (w.evalObjective P x).1 (by rw [hh]; exact hd)
    rw [hh, hen] at this
    simp only [runSystem, pureRun, objectivePoints, List.map_cons, hv, hlast, hlast']
    exact this
  | deriv x k ih =>
    obtain ⟨rfl, hd⟩ := hd
    have hw : w.hackedUpdate P = w.save := by simp [World.hackedUpdate, ha]
    have := ih (P.deriv w.active w.ham) w.save hd
    simp only [runSystem, pureRun, objectivePoints, hw, World.evalJacobian]
    exact this
  | callback k ih => exact ih w hd

/-- C95: `least_squares` without active parameters of the Hamiltonian, for an optimizer that asks for the Jacobian only where it evaluated the
objective last: it returns what the optimizer finds for the objective and its Jacobian, and the energy of the last evaluation. -/
theorem C95_least_squares_partial {P : Prob H R V J} (ha : P.hamActive = false) (kind : Kind) (hk : kind = .projected ∨ kind = .leastSquares)
    (opt : List R → Strat R V J) (w : World H R)
    (hd : DerivAtLast (fun x => P.value x w.ham) (fun x => P.deriv x w.ham) (opt w.active) w.active) :
    ∃ w' out, leastSquares P kind opt w = (w', .ok out) ∧
      ∀ f g, f = (fun x => P.value x w.ham) → g = (fun x => P.deriv x w.ham) →
        out.params = (pureRun f g (opt w.active)).x ∧ out.value = (pureRun f g (opt w.active)).value ∧
        out.energy = some (((objectivePoints f g (opt w.active)).map fun x => P.energyOf x w.ham).getLastD w.energy) ∧
        w'.active = (objectivePoints f g (opt w.active)).getLastD w.active := by
  obtain ⟨h1, h2, h3, h4⟩ := runSystem_eq ha (opt w.active) { w with update := false } hd
  have hp : isProjected kind = true := by rcases hk with rfl | rfl <;> decide
  refine ⟨_, _, by rw [leastSquares, if_neg (by rw [hp]; simp)], ?_⟩
  rintro f g rfl rfl
  exact ⟨by rw [h1], by rw [h1], by rw [h3], h2⟩

/-- C95: the same for `root`. -/
theorem C95_root_partial {P : Prob H R V J} (ha : P.hamActive = false) (kind : Kind) (hk : kind = .projected ∨ kind = .leastSquares) (numEqns : ℕ)
    (opt : List R → Strat R V J) (w : World H R) (hn : w.active.length ≤ numEqns)
    (hd : DerivAtLast (fun x => P.value x w.ham) (fun x => P.deriv x w.ham) (opt w.active) w.active) :
    ∃ w' out, root P kind numEqns opt w = (w', .ok out) ∧
      ∀ f g, f = (fun x => P.value x w.ham) → g = (fun x => P.deriv x w.ham) →
        out.params = (pureRun f g (opt w.active)).x ∧ out.value = (pureRun f g (opt w.active)).value ∧
        out.energy = some (((objectivePoints f g (opt w.active)).map fun x => P.energyOf x w.ham).getLastD w.energy) ∧
        w'.active = (objectivePoints f g (opt w.active)).getLastD w.active := by
  obtain ⟨h1, h2, h3, h4⟩ := runSystem_eq ha (opt w.active) { w with update := false } hd
  have hp : isProjected kind = true := by rcases hk with rfl | rfl <;> decide
  refine ⟨_, _, by rw [root, if_neg (by rw [hp]; simp), if_neg (by omega)], ?_⟩
  rintro f g rfl rfl
  exact ⟨by rw [h1], by rw [h1], by rw [h3], h2⟩

/-- C95: objectives that `least_squares` and `root` refuse. -/
theorem C95_system_refuses (P : Prob H R V J) (kind : Kind) (numEqns : ℕ) (opt : List R → Strat R V J) (w : World H R) :
    (kind ≠ .projected → kind ≠ .leastSquares → leastSquares P kind opt w = (w, .error .typeError) ∧
      root P kind numEqns opt w = (w, .error .typeError)) ∧
    (kind = .projected ∨ kind = .leastSquares → numEqns < w.active.length → root P kind numEqns opt w = (w, .error .valueError)) := by
  constructor
  · intro h1 h2
    have hp : isProjected kind = false := by cases kind <;> simp_all [isProjected]
    exact ⟨by rw [leastSquares, if_pos (by rw [hp]; simp)], by rw [root, if_pos (by rw [hp]; simp)]⟩
  · intro hk hn
    have hp : isProjected kind = true := by rcases hk with rfl | rfl <;> decide
    rw [root, if_neg (by rw [hp]; simp), if_pos hn]

/-! ### Disagreements -/

/-- the equation `x² - 4 = 0` with derivative `2 x`; the energy is `x` -/
def squareProb : Prob Unit ℤ (List ℤ) (List ℤ) := ⟨false, fun _ => [], fun _ h _ => h, fun _ => [], fun x _ => [x.headD 0 ^ 2 - 4],
  fun x _ => [2 * x.headD 0], fun x _ => x.headD 0⟩

/-- C95 (disagreement): an optimizer that rejects the last trial `y`: it evaluates at `x`, then at `y`, and returns `x`.  The energy in the
output belongs to `y`, and the objective is left at `y`. -/
theorem C95_energy_of_last (x y : List ℤ) :
    (leastSquares squareProb .projected (fun _ => .objective x fun vx => .objective y fun _ => .done ⟨true, x, vx⟩) ⟨(), true, [0], 0, []⟩)
      = (⟨(), false, y, y.headD 0, []⟩, .ok ⟨true, x, [x.headD 0 ^ 2 - 4], some (y.headD 0)⟩) := rfl

/-- C95 (disagreement): the Jacobian at `x` that is asked for after a trial at `y` is the Jacobian at `y`. -/
theorem C95_stale_jacobian (x y : List ℤ) :
    (root squareProb .projected 1 (fun _ => .objective x fun _ => .objective y fun _ => .deriv x fun j => .done ⟨true, x, j⟩)
      ⟨(), true, [0], 0, []⟩).2 = .ok ⟨true, x, [2 * y.headD 0], some (y.headD 0)⟩ := rfl

-- an optimizer with the property in the hypothesis: one step of Newton from 3
example : DerivAtLast (fun x => squareProb.value x ()) (fun x => squareProb.deriv x ())
    (.objective [3] fun v => .deriv [3] fun j => .objective [3 - v.headD 0 / j.headD 0] fun v' => .done ⟨true, [3 - v.headD 0 / j.headD 0], v'⟩)
    [3] := ⟨rfl, trivial⟩

/-! ## The chemical Hamiltonians -/

section
variable [CommRing R]

/-- a Hamiltonian that was constructed from these integrals -/
def Built (n : ℕ) (one : ℕ → ℕ → R) (two : ℕ → ℕ → ℕ → ℕ → R) (S : GenState R) : Prop :=
  S.ham.norb = n ∧ S.refNorb = n ∧ S.refOne = one ∧ S.refTwo = two ∧ S.params.length = n * (n - 1) / 2 ∧
    ∃ q M, S.prev = some (q, n, M) ∧ q.length = n * (n - 1) / 2

/-- what `assign_params` does to a constructed Hamiltonian -/
theorem genAssign_eq {um : List R → Except PyErr (ℕ × (ℕ → ℕ → R))} {n : ℕ} {U : List R → ℕ → ℕ → R} (hU : Gives um n U) {S : GenState R}
    (hn : S.ham.norb = n) (hr : S.refNorb = n) {q : List R} {M : ℕ → ℕ → R} (hq : q.length = n * (n - 1) / 2) (hp : S.prev = some (q, n, M))
    (b : Bool) {p : List R} (hl : p.length = n * (n - 1) / 2) :
    genAssign um b S p = { S with
      ham := GenHam.ofInts n (matrixOne n (matMul n M (U (subParams p q))) S.refOne)
        (matrixTwo n (matMul n M (U (subParams p q))) (matMul n M (U (subParams p q))) S.refTwo)
      params := p
      prev := some (if b then (p, n, matMul n M (U (subParams p q))) else (q, n, M))
      update := b } := by
  have h := assign_step hU { S with update := b } hn hr q M hq (.inl hp) (some p) (fun q' hq' => by cases hq'; exact hl)
  rw [genAssign, h]
  rfl

theorem genAssign_built {um : List R → Except PyErr (ℕ × (ℕ → ℕ → R))} {n : ℕ} {U : List R → ℕ → ℕ → R} (hU : Gives um n U) {one : ℕ → ℕ → R}
    {two : ℕ → ℕ → ℕ → ℕ → R} {S : GenState R} (hS : Built n one two S) (b : Bool) {p : List R} (hl : p.length = n * (n - 1) / 2) :
    Built n one two (genAssign um b S p) := by
  obtain ⟨h1, h2, h3, h4, h5, q, M, h6, h7⟩ := hS
  rw [genAssign_eq hU h1 h2 h7 h6 b hl]
  refine ⟨rfl, h2, h3, h4, hl, ?_⟩
  cases b
  · exact ⟨q, M, rfl, h7⟩
  · exact ⟨p, _, rfl, hl⟩

/-- C95: a constructed generalized or restricted Hamiltonian satisfies what `C95_minimize` and `C95_cma` assume, for parameters of the right
size. -/
theorem C95_lawful {V J : Type} {um : List R → Except PyErr (ℕ × (ℕ → ℕ → R))} {n : ℕ} {U : List R → ℕ → ℕ → R} (hU : Gives um n U) (one : ℕ → ℕ → R)
    (two : ℕ → ℕ → ℕ → ℕ → R) (active : Bool) (hamParams : List R → List R) (hh : ∀ x, (hamParams x).length = n * (n - 1) / 2)
    (value : List R → GenState R → V) (deriv : List R → GenState R → J) (energy : List R → GenState R → R) :
    Lawful (⟨active, hamParams, genAssign um, fun S => S.params, value, deriv, energy⟩ : Prob (GenState R) R V J) (Built n one two)
      (fun p => p.length = n * (n - 1) / 2) := by
  refine ⟨fun b h p hi hp => genAssign_built hU hi b hp, fun S p q hS hp hq => ?_, fun S hS => hS.2.2.2.2.1, hh⟩
  obtain ⟨h1, h2, h3, h4, h5, r, M, h6, h7⟩ := hS
  show genAssign um false (genAssign um false S p) q = genAssign um false S q
  have e1 := genAssign_eq hU h1 h2 h7 h6 false hp
  have e2 := genAssign_eq hU h1 h2 h7 h6 false hq
  have e3 := genAssign_eq (S := genAssign um false S p) hU (by rw [e1]; rfl) (by rw [e1]; exact h2) h7 (by rw [e1]; rfl) false hq
  rw [e2, e3, e1]

/-- the constructor gives a constructed Hamiltonian -/
theorem init_built {um : List R → Except PyErr (ℕ × (ℕ → ℕ → R))} {n : ℕ} {U : List R → ℕ → ℕ → R} (hU : Gives um n U) (one : ℕ → ℕ → R)
    (two : ℕ → ℕ → ℕ → ℕ → R) (p : Option (List R)) (hp : Fits (n * (n - 1) / 2) p) (b : Bool) :
    ∃ S, GenState.init um n one two p b = .ok S ∧ Built n one two S := by
  have h := assign_step hU ⟨GenHam.ofInts n one two, n, one, two, [], none, b⟩ rfl rfl _ _ (List.length_replicate ..) (.inr ⟨rfl, rfl, rfl⟩) p hp
  refine ⟨_, h, rfl, rfl, rfl, rfl, valueOf_length hp, ?_⟩
  cases b
  · exact ⟨_, _, rfl, List.length_replicate ..⟩
  · exact ⟨_, _, rfl, valueOf_length hp⟩

/-- C95: what the evaluation at `q` sees after `hacked_jacobian`: the orbitals are rotated by the rotation at the call, which was for the
parameters `p` of the Hamiltonian at that moment, and then by the exponential of `q - p`. -/
theorem C95_rebase {um : List R → Except PyErr (ℕ × (ℕ → ℕ → R))} {n : ℕ} {U : List R → ℕ → ℕ → R} (hU : Gives um n U)
    {S : GenState R} (hn : S.ham.norb = n) (hr : S.refNorb = n) {r p q : List R} {M : ℕ → ℕ → R} (hl : r.length = n * (n - 1) / 2)
    (hprev : S.prev = some (r, n, M)) (hp : p.length = n * (n - 1) / 2) (hq : q.length = n * (n - 1) / 2) :
    (genAssign um false (genAssign um true S p) q).ham =
      GenHam.ofInts n (matrixOne n (matMul n (matMul n M (U (subParams p r))) (U (subParams q p))) S.refOne)
        (matrixTwo n (matMul n (matMul n M (U (subParams p r))) (U (subParams q p)))
          (matMul n (matMul n M (U (subParams p r))) (U (subParams q p))) S.refTwo) := by
  have e1 := genAssign_eq hU hn hr hl hprev true hp
  have e3 := genAssign_eq (S := genAssign um true S p) hU (by rw [e1]; rfl) (by rw [e1]; exact hr) hp (by rw [e1]; rfl) false hq
  rw [e3, e1]

/-! ### What is saved -/

theorem matMul_idMat (n : ℕ) (M : ℕ → ℕ → R) (i : ℕ) {j : ℕ} (hj : j < n) : matMul n M idMat i j = M i j := by
  rw [matMul, Finset.sum_eq_single j]
  · simp [idMat]
  · intro k _ hk; simp [idMat, hk]
  · intro h; exact absurd (Finset.mem_range.2 hj) h

theorem subParams_self (p : List R) : subParams p p = List.replicate p.length 0 := by
  induction p with
  | nil => rfl
  | cons a p ih =>
    simp only [subParams, List.zipWith_cons_cons, sub_self, List.length_cons, List.replicate_succ] at ih ⊢
    rw [ih]

theorem matrixOne_congr {n : ℕ} {u v : ℕ → ℕ → R} (h : ∀ i, ∀ j < n, u i j = v i j) (x : ℕ → ℕ → R) {i j : ℕ} (hi : i < n) (hj : j < n) :
    matrixOne n u x i j = matrixOne n v x i j := by
  simp only [matrixOne]
  refine Finset.sum_congr rfl fun l _ => ?_
  rw [h l j hj]
  congr 1
  exact Finset.sum_congr rfl fun k _ => by rw [h k i hi]

theorem matrixTwo_congr {n : ℕ} {u v u' v' : ℕ → ℕ → R} (h : ∀ i, ∀ j < n, u i j = u' i j) (h' : ∀ i, ∀ j < n, v i j = v' i j)
    (x : ℕ → ℕ → ℕ → ℕ → R) {i j k l : ℕ} (hi : i < n) (hj : j < n) (hk : k < n) (hl : l < n) :
    matrixTwo n u v x i j k l = matrixTwo n u' v' x i j k l := by
  simp only [matrixTwo]
  refine Finset.sum_congr rfl fun d _ => ?_
  rw [h' d l hl]
  congr 1
  refine Finset.sum_congr rfl fun c _ => ?_
  rw [h c k hk]
  congr 1
  refine Finset.sum_congr rfl fun b _ => ?_
  rw [h' b j hj]
  congr 1
  exact Finset.sum_congr rfl fun a _ => by rw [h a i hi]

/-- assignments with and without `update_prev_params` -/
def assignOps (um : List R → Except PyErr (ℕ × (ℕ → ℕ → R))) (S : GenState R) (ops : List (Bool × List R)) : GenState R :=
  ops.foldl (fun S o => genAssign um o.1 S o.2) S

/-- C95: after any assignments with any settings of `update_prev_params`, what `save_params` writes are the parameters and a matrix that
takes the reference integrals to the present integrals. -/
theorem C95_save {um : List R → Except PyErr (ℕ × (ℕ → ℕ → R))} {n : ℕ} {U : List R → ℕ → ℕ → R} (hU : Gives um n U)
    (h0 : U (List.replicate (n * (n - 1) / 2) 0) = idMat) (one : ℕ → ℕ → R) (two : ℕ → ℕ → ℕ → ℕ → R) (p : Option (List R))
    (hp : Fits (n * (n - 1) / 2) p) (b : Bool) (ops : List (Bool × List R)) (ho : ∀ o ∈ ops, o.2.length = n * (n - 1) / 2) :
    ∃ S₀ W, GenState.init um n one two p b = .ok S₀ ∧
      saveParams um (assignOps um S₀ ops) = .ok ((assignOps um S₀ ops).params, n, W) ∧
      (∀ i < n, ∀ j < n, (assignOps um S₀ ops).ham.one i j = matrixOne n W one i j) ∧
      (∀ i < n, ∀ j < n, ∀ k < n, ∀ l < n, (assignOps um S₀ ops).ham.two i j k l = matrixTwo n W W two i j k l) ∧
      ((assignOps um S₀ ops).params = ((ops.map Prod.snd).getLastD (valueOf (n * (n - 1) / 2) p))) := by
  have key : ∀ (S : GenState R) (q : List R) (M : ℕ → ℕ → R) (b : Bool) (p : List R), q.length = n * (n - 1) / 2 → p.length = n * (n - 1) / 2 →
      S.prev = some (if b then (p, n, matMul n M (U (subParams p q))) else (q, n, M)) → S.params = p → S.ham = GenHam.ofInts n
        (matrixOne n (matMul n M (U (subParams p q))) one) (matrixTwo n (matMul n M (U (subParams p q))) (matMul n M (U (subParams p q))) two) →
      ∃ W, saveParams um S = .ok (S.params, n, W) ∧ (∀ i < n, ∀ j < n, S.ham.one i j = matrixOne n W one i j) ∧
        (∀ i < n, ∀ j < n, ∀ k < n, ∀ l < n, S.ham.two i j k l = matrixTwo n W W two i j k l) := by
    intro S q M b p hq hp h1 h2 h3
    rw [saveParams, h1]
    cases b with
    | false =>
      have hd := subParams_length p q _ hp hq
      simp only [Bool.false_eq_true, if_false, h2, hU _ hd, bind, Except.bind, dotSquare, ne_eq, not_true, pure, Except.pure]
      exact ⟨_, rfl, fun i _ j _ => by rw [h3]; rfl, fun i _ j _ k _ l _ => by rw [h3]; rfl⟩
    | true =>
      have hd := subParams_length p p _ hp hp
      have hz : U (subParams p p) = idMat := by rw [subParams_self, hp, h0]
      simp only [if_true, h2, hU _ hd, bind, Except.bind, dotSquare, ne_eq, not_true, pure, Except.pure, if_false, hz]
      have e : ∀ i, ∀ j < n, matMul n M (U (subParams p q)) i j =
          (fun i j => ∑ k ∈ Finset.range n, matMul n M (U (subParams p q)) i k * idMat k j) i j := fun i j hj =>
        (matMul_idMat n _ i hj).symm
      exact ⟨_, rfl, fun i hi j hj => by rw [h3]; exact matrixOne_congr e one hi hj,
        fun i hi j hj k hk l hl => by rw [h3]; exact matrixTwo_congr e e two hi hj hk hl⟩
  have hinit := assign_step hU ⟨GenHam.ofInts n one two, n, one, two, [], none, b⟩ rfl rfl _ _ (List.length_replicate ..) (.inr ⟨rfl, rfl, rfl⟩) p hp
  obtain ⟨S₀, hS₀⟩ : ∃ S, S = GenState.assignParams um ⟨GenHam.ofInts n one two, n, one, two, [], none, b⟩ p := ⟨_, rfl⟩
  rw [hinit] at hS₀
  suffices h : ∀ S, (assignOps um S [] = S) → Built n one two S → S.params = valueOf (n * (n - 1) / 2) p →
      (∃ W, saveParams um S = .ok (S.params, n, W) ∧ (∀ i < n, ∀ j < n, S.ham.one i j = matrixOne n W one i j) ∧
        (∀ i < n, ∀ j < n, ∀ k < n, ∀ l < n, S.ham.two i j k l = matrixTwo n W W two i j k l)) →
      (∃ W, saveParams um (assignOps um S ops) = .ok ((assignOps um S ops).params, n, W) ∧
        (∀ i < n, ∀ j < n, (assignOps um S ops).ham.one i j = matrixOne n W one i j) ∧
        (∀ i < n, ∀ j < n, ∀ k < n, ∀ l < n, (assignOps um S ops).ham.two i j k l = matrixTwo n W W two i j k l)) ∧
        (assignOps um S ops).params = (ops.map Prod.snd).getLastD (valueOf (n * (n - 1) / 2) p) by
    have hb : Built n one two _ := (init_built hU one two p hp b).elim fun S hS => by
      have := hS.1.symm.trans hinit
      cases this
      exact hS.2
    obtain ⟨⟨W, h1, h2, h3⟩, h4⟩ := h _ rfl hb rfl (key _ _ _ b _ (List.length_replicate ..) (valueOf_length hp) rfl rfl rfl)
    exact ⟨_, W, hinit, h1, h2, h3, h4⟩
  intro S _ hB hpar hW
  induction ops using List.reverseRecOn with
  | nil => exact ⟨hW, hpar⟩
  | append_singleton ops o ih =>
    obtain ⟨⟨W, h1, h2, h3⟩, h4⟩ := ih fun o' ho' => ho o' (List.mem_append_left _ ho')
    have hlen := ho o (by simp)
    have hbuilt : Built n one two (assignOps um S ops) := by
      clear h1 h2 h3 h4 ih
      have hops : ∀ o ∈ ops, o.2.length = n * (n - 1) / 2 := fun o' ho' => ho o' (List.mem_append_left _ ho')
      clear ho
      induction ops using List.reverseRecOn with
      | nil => exact hB
      | append_singleton ops o ih =>
        rw [assignOps, List.foldl_append]
        exact genAssign_built hU (ih fun o' ho' => hops o' (List.mem_append_left _ ho')) o.1 (hops o (by simp))
    have e : assignOps um S (ops ++ [o]) = genAssign um o.1 (assignOps um S ops) o.2 := by rw [assignOps, List.foldl_append]; rfl
    obtain ⟨b1, b2, b3, b4, b5, q, M, b6, b7⟩ := hbuilt
    have e2 := genAssign_eq hU b1 b2 b7 b6 o.1 hlen
    rw [e]
    refine ⟨key _ q M o.1 o.2 b7 hlen (by rw [e2]) (by rw [e2]) (by rw [e2, b3, b4]), ?_⟩
    rw [e2]
    simp

/-! ### Unrestricted orbitals -/

/-- an unrestricted Hamiltonian that was constructed from these integrals -/
def BuiltU (n : ℕ) (H : UnrHam R) (S : UnrState R) : Prop :=
  S.ham.norb = n ∧ S.ref = H ∧ H.norb = n ∧ S.params.length = n * (n - 1) ∧ ∃ q M N, S.prev = some (q, (n, M), (n, N)) ∧ q.length = n * (n - 1)

theorem unrAssign_eq {um : List R → Except PyErr (ℕ × (ℕ → ℕ → R))} {n : ℕ} {U : List R → ℕ → ℕ → R} (hU : Gives um n U) {S : UnrState R}
    (hn : S.ham.norb = n) (hr : S.ref.norb = n) {q : List R} {M N : ℕ → ℕ → R} (hq : q.length = n * (n - 1)) (hp : S.prev = some (q, (n, M), (n, N)))
    (b : Bool) {p : List R} (hl : p.length = n * (n - 1)) :
    unrAssign um b S p = { S with
      ham := rotatedU S.ref n (matMul n M (U ((subParams p q).take (n * (n - 1) / 2)))) (matMul n N (U ((subParams p q).drop (n * (n - 1) / 2))))
      params := p
      prev := some (if b then (p, (n, matMul n M (U ((subParams p q).take (n * (n - 1) / 2)))),
        (n, matMul n N (U ((subParams p q).drop (n * (n - 1) / 2))))) else (q, (n, M), (n, N)))
      update := b } := by
  have h := assign_stepU hU { S with update := b } hn hr q M N hq (.inl hp) (some p) (fun q' hq' => by cases hq'; exact hl)
  rw [unrAssign, h]
  rfl

theorem unrAssign_built {um : List R → Except PyErr (ℕ × (ℕ → ℕ → R))} {n : ℕ} {U : List R → ℕ → ℕ → R} (hU : Gives um n U) {H : UnrHam R}
    {S : UnrState R} (hS : BuiltU n H S) (b : Bool) {p : List R} (hl : p.length = n * (n - 1)) : BuiltU n H (unrAssign um b S p) := by
  obtain ⟨h1, h2, h3, h4, q, M, N, h6, h7⟩ := hS
  rw [unrAssign_eq hU h1 (by rw [h2, h3]) h7 h6 b hl]
  refine ⟨rfl, h2, h3, hl, ?_⟩
  cases b
  · exact ⟨q, M, N, rfl, h7⟩
  · exact ⟨p, _, _, rfl, hl⟩

/-- C95: the same as `C95_lawful` for unrestricted orbitals. -/
theorem C95_lawfulU {V J : Type} {um : List R → Except PyErr (ℕ × (ℕ → ℕ → R))} {n : ℕ} {U : List R → ℕ → ℕ → R} (hU : Gives um n U) (H : UnrHam R)
    (active : Bool) (hamParams : List R → List R) (hh : ∀ x, (hamParams x).length = n * (n - 1))
    (value : List R → UnrState R → V) (deriv : List R → UnrState R → J) (energy : List R → UnrState R → R) :
    Lawful (⟨active, hamParams, unrAssign um, fun S => S.params, value, deriv, energy⟩ : Prob (UnrState R) R V J) (BuiltU n H)
      (fun p => p.length = n * (n - 1)) := by
  refine ⟨fun b h p hi hp => unrAssign_built hU hi b hp, fun S p q hS hp hq => ?_, fun S hS => hS.2.2.2.1, hh⟩
  obtain ⟨h1, h2, h3, h4, r, M, N, h6, h7⟩ := hS
  have hr : S.ref.norb = n := by rw [h2, h3]
  show unrAssign um false (unrAssign um false S p) q = unrAssign um false S q
  have e1 := unrAssign_eq hU h1 hr h7 h6 false hp
  have e2 := unrAssign_eq hU h1 hr h7 h6 false hq
  have e3 := unrAssign_eq (S := unrAssign um false S p) hU (by rw [e1]; rfl) (by rw [e1]; exact hr) h7 (by rw [e1]; rfl) false hq
  rw [e2, e3, e1]

/-- assignments with and without `update_prev_params` -/
def assignOpsU (um : List R → Except PyErr (ℕ × (ℕ → ℕ → R))) (S : UnrState R) (ops : List (Bool × List R)) : UnrState R :=
  ops.foldl (fun S o => unrAssign um o.1 S o.2) S

/-- the integrals of `K` are the integrals of `H` rotated by `u` and `v` -/
def RotatedBy (n : ℕ) (u v : ℕ → ℕ → R) (H K : UnrHam R) : Prop :=
  (∀ i < n, ∀ j < n, K.oneA i j = matrixOne n u H.oneA i j ∧ K.oneB i j = matrixOne n v H.oneB i j) ∧
  ∀ i < n, ∀ j < n, ∀ k < n, ∀ l < n, K.twoAA i j k l = matrixTwo n u u H.twoAA i j k l ∧ K.twoAB i j k l = matrixTwo n u v H.twoAB i j k l ∧
    K.twoBB i j k l = matrixTwo n v v H.twoBB i j k l

/-- C95: unrestricted orbitals: after any assignments with any settings of `update_prev_params`, what `save_params` writes are the
parameters and two matrices that take the reference integrals to the present integrals. -/
theorem C95_saveU {um : List R → Except PyErr (ℕ × (ℕ → ℕ → R))} {n : ℕ} {U : List R → ℕ → ℕ → R} (hU : Gives um n U)
    (h0 : U (List.replicate (n * (n - 1) / 2) 0) = idMat) (H : UnrHam R) (hH : H.norb = n) (p : Option (List R))
    (hp : Fits (n * (n - 1)) p) (b : Bool) (ops : List (Bool × List R)) (ho : ∀ o ∈ ops, o.2.length = n * (n - 1)) :
    ∃ S₀ Wa Wb, UnrState.init um H p b = .ok S₀ ∧
      saveParamsU um (assignOpsU um S₀ ops) = .ok ((assignOpsU um S₀ ops).params, (n, Wa), n, Wb) ∧
      RotatedBy n Wa Wb H (assignOpsU um S₀ ops).ham ∧
      (assignOpsU um S₀ ops).params = (ops.map Prod.snd).getLastD (valueOf (n * (n - 1)) p) := by
  have key : ∀ (S : UnrState R) (q : List R) (M N : ℕ → ℕ → R) (b : Bool) (p : List R), q.length = n * (n - 1) → p.length = n * (n - 1) →
      S.prev = some (if b then (p, (n, matMul n M (U ((subParams p q).take (n * (n - 1) / 2)))),
        (n, matMul n N (U ((subParams p q).drop (n * (n - 1) / 2))))) else (q, (n, M), (n, N))) → S.params = p →
      S.ham = rotatedU H n (matMul n M (U ((subParams p q).take (n * (n - 1) / 2)))) (matMul n N (U ((subParams p q).drop (n * (n - 1) / 2)))) →
      ∃ Wa Wb, saveParamsU um S = .ok (S.params, (n, Wa), n, Wb) ∧ RotatedBy n Wa Wb H S.ham := by
    intro S q M N b p hq hp h1 h2 h3
    have hN : S.ham.norb = n := by rw [h3]; rfl
    rw [saveParamsU, h1]
    cases b with
    | false =>
      have hd := half_length n _ (subParams_length p q _ hp hq)
      simp only [Bool.false_eq_true, if_false, h2, hN, hU _ hd.1, hU _ hd.2, bind, Except.bind, dotSquare, ne_eq, not_true, pure, Except.pure]
      exact ⟨_, _, rfl, fun i _ j _ => by rw [h3]; exact ⟨rfl, rfl⟩, fun i _ j _ k _ l _ => by rw [h3]; exact ⟨rfl, rfl, rfl⟩⟩
    | true =>
      have hd := half_length n _ (subParams_length p p _ hp hp)
      have hh : n * (n - 1) / 2 + n * (n - 1) / 2 = n * (n - 1) := by
        have h := hd.1
        have h' := hd.2
        rw [List.length_take] at h
        rw [List.length_drop] at h'
        have := subParams_length p p _ hp hp
        omega
      have hz : U ((subParams p p).take (n * (n - 1) / 2)) = idMat := by
        rw [subParams_self, hp, List.take_replicate, min_eq_left (by omega), h0]
      have hz' : U ((subParams p p).drop (n * (n - 1) / 2)) = idMat := by
        rw [subParams_self, hp, List.drop_replicate, show n * (n - 1) - n * (n - 1) / 2 = n * (n - 1) / 2 by omega, h0]
      simp only [if_true, h2, hN, hU _ hd.1, hU _ hd.2, bind, Except.bind, dotSquare, ne_eq, not_true, pure, Except.pure, if_false, hz, hz']
      have e : ∀ (M : ℕ → ℕ → R) i, ∀ j < n, M i j = (fun i j => ∑ k ∈ Finset.range n, M i k * idMat k j) i j := fun M i j hj =>
        (matMul_idMat n _ i hj).symm
      refine ⟨_, _, rfl, fun i hi j hj => ?_, fun i hi j hj k hk l hl => ?_⟩
      · rw [h3]
        exact ⟨matrixOne_congr (e _) _ hi hj, matrixOne_congr (e _) _ hi hj⟩
      · rw [h3]
        exact ⟨matrixTwo_congr (e _) (e _) _ hi hj hk hl, matrixTwo_congr (e _) (e _) _ hi hj hk hl, matrixTwo_congr (e _) (e _) _ hi hj hk hl⟩
  have hinit := assign_stepU hU ⟨H.cacheTwoInts, H, [], none, b⟩ hH hH _ _ _ (List.length_replicate ..) (.inr ⟨rfl, rfl, rfl, rfl⟩) p hp
  suffices h : ∀ S, BuiltU n H S → S.params = valueOf (n * (n - 1)) p →
      (∃ Wa Wb, saveParamsU um S = .ok (S.params, (n, Wa), n, Wb) ∧ RotatedBy n Wa Wb H S.ham) →
      (∃ Wa Wb, saveParamsU um (assignOpsU um S ops) = .ok ((assignOpsU um S ops).params, (n, Wa), n, Wb) ∧
        RotatedBy n Wa Wb H (assignOpsU um S ops).ham) ∧ BuiltU n H (assignOpsU um S ops) ∧
        (assignOpsU um S ops).params = (ops.map Prod.snd).getLastD (valueOf (n * (n - 1)) p) by
    have hb : ∃ S, UnrState.init um H p b = .ok S ∧ BuiltU n H S ∧ S.params = valueOf (n * (n - 1)) p ∧
        (∃ Wa Wb, saveParamsU um S = .ok (S.params, (n, Wa), n, Wb) ∧ RotatedBy n Wa Wb H S.ham) := by
      refine ⟨_, hinit, ⟨rfl, rfl, hH, valueOf_length hp, ?_⟩, rfl, key _ _ _ _ b _ (List.length_replicate ..) (valueOf_length hp) rfl rfl rfl⟩
      cases b
      · exact ⟨_, _, _, rfl, List.length_replicate ..⟩
      · exact ⟨_, _, _, rfl, valueOf_length hp⟩
    obtain ⟨S, hS, hB, hpar, hW⟩ := hb
    obtain ⟨⟨Wa, Wb, h1, h2⟩, _, h4⟩ := h S hB hpar hW
    exact ⟨S, Wa, Wb, hS, h1, h2, h4⟩
  intro S hB hpar hW
  induction ops using List.reverseRecOn with
  | nil => exact ⟨hW, hB, hpar⟩
  | append_singleton ops o ih =>
    obtain ⟨-, hb, -⟩ := ih fun o' ho' => ho o' (List.mem_append_left _ ho')
    have hlen := ho o (by simp)
    have e : assignOpsU um S (ops ++ [o]) = unrAssign um o.1 (assignOpsU um S ops) o.2 := by rw [assignOpsU, List.foldl_append]; rfl
    have hb' := unrAssign_built hU hb o.1 hlen
    obtain ⟨b1, b2, b3, b4, q, M, N, b6, b7⟩ := hb
    have e2 := unrAssign_eq hU b1 (by rw [b2, b3]) b7 b6 o.1 hlen
    rw [e]
    refine ⟨key _ q M N o.1 o.2 b7 hlen (by rw [e2]) (by rw [e2]) (by rw [e2, b2]), hb', ?_⟩
    rw [e2]
    simp

end

/-! ### The objective of `least_squares` and `root` depends on the history -/

section

/-- `norm <= norm_threshold` for a matrix of three orbitals -/
def smallQ (m : ℕ → ℕ → ℚ) : Bool := decide (∑ i ∈ Finset.range 3, ∑ j ∈ Finset.range 3, m i j ^ 2 ≤ 1 / 10 ^ 16)

/-- `norm > 1e10` -/
def hugeQ (m : ℕ → ℕ → ℚ) : Bool := decide (10 ^ 20 < ∑ i ∈ Finset.range 3, ∑ j ∈ Finset.range 3, m i j ^ 2)

/-- the result of `unitary_matrix` for three parameters -/
def unitaryQ (p : List ℚ) : ℕ → ℕ → ℚ :=
  taylorLoop 3 smallQ hugeQ (fun _ _ _ => 0) (antiherm 3 p) 99 1 (fun i j => if i = j then 1 else 0) (antiherm 3 p)

theorem givesQ : Gives (unitaryMatrix smallQ hugeQ (fun _ _ _ => 0) 100) 3 unitaryQ := by
  intro p hp
  have : Nat.sqrt 25 = 5 := Nat.sqrt_eq 5
  simp [unitaryMatrix, hp, this, unitaryQ]

/-- orbital energies 0, 1, 3 -/
def oneQ : ℕ → ℕ → ℚ := fun i j => if i = j then [0, 1, 3].getD i 0 else 0

/-- an equation with the parameters of the Hamiltonian as active parameters: its value is an integral -/
def integralProb : Prob (GenState ℚ) ℚ (List ℚ) (List ℚ) :=
  ⟨true, id, genAssign (unitaryMatrix smallQ hugeQ (fun _ _ _ => 0) 100), fun S => S.params, fun _ S => [S.ham.one 0 2], fun _ _ => [],
    fun _ S => S.ham.one 0 2⟩

/-- C95 (disagreement): in `least_squares` with active parameters of the Hamiltonian the same active parameters give two different values
when the Jacobian was asked for in between: the rotation of the Jacobian's point is kept, and exponentials of a sum are not products. -/
theorem C95_history :
    ∃ S v₁ v₂, GenState.init (unitaryMatrix smallQ hugeQ (fun _ _ _ => 0) 100) 3 oneQ (fun _ _ _ _ => 0) none false = .ok S ∧
      (leastSquares integralProb .projected (fun _ => .objective [0, 0, 1 / 1000] fun v₁ => .objective [1 / 1000, 0, 0] fun _ =>
        .deriv [1 / 1000, 0, 0] fun _ => .objective [0, 0, 1 / 1000] fun v₂ => .done ⟨true, [0, 0, 1 / 1000], v₁ ++ v₂⟩)
        ⟨S, true, [0, 0, 0], 0, []⟩).2 = .ok ⟨true, [0, 0, 1 / 1000], [v₁, v₂], some v₂⟩ ∧ v₁ ≠ v₂ := by
  have hinit := assign_step givesQ ⟨GenHam.ofInts 3 oneQ (fun _ _ _ _ => 0), 3, oneQ, (fun _ _ _ _ => 0), [], none, false⟩ rfl rfl _ _
    (List.length_replicate ..) (.inr ⟨rfl, rfl, rfl⟩) none (fun _ h => by cases h)
  obtain ⟨S, hS, s1, s2, s4, s5⟩ : ∃ S, GenState.init (unitaryMatrix smallQ hugeQ (fun _ _ _ => 0) 100) 3 oneQ (fun _ _ _ _ => 0) none false = .ok S ∧
      S.ham.norb = 3 ∧ S.refNorb = 3 ∧ S.refOne = oneQ ∧
      S.prev = some (List.replicate (3 * (3 - 1) / 2) 0, 3, unitaryQ (List.replicate (3 * (3 - 1) / 2) 0)) :=
    ⟨_, hinit, rfl, rfl, rfl, rfl⟩
  refine ⟨S, _, _, hS, rfl, ?_⟩
  have h3 : (List.replicate (3 * (3 - 1) / 2) (0 : ℚ)).length = 3 * (3 - 1) / 2 := List.length_replicate ..
  simp only [integralProb, World.evalObjective, World.assign, World.hackedUpdate, id, if_true]
  have e : ∀ T : GenState ℚ, T.ham.norb = 3 → T.refNorb = 3 → T.refOne = oneQ →
      T.prev = some (List.replicate (3 * (3 - 1) / 2) 0, 3, unitaryQ (List.replicate (3 * (3 - 1) / 2) 0)) →
      (genAssign (unitaryMatrix smallQ hugeQ (fun _ _ _ => 0) 100) false T [0, 0, 1 / 1000]).ham.one 0 2 =
        matrixOne 3 (matMul 3 (unitaryQ [0, 0, 0]) (unitaryQ [0, 0, 1 / 1000])) oneQ 0 2 ∧
      (genAssign (unitaryMatrix smallQ hugeQ (fun _ _ _ => 0) 100) false
        (genAssign (unitaryMatrix smallQ hugeQ (fun _ _ _ => 0) 100) true T [1 / 1000, 0, 0]) [0, 0, 1 / 1000]).ham.one 0 2 =
        matrixOne 3 (matMul 3 (matMul 3 (unitaryQ [0, 0, 0]) (unitaryQ [1 / 1000, 0, 0])) (unitaryQ [-1 / 1000, 0, 1 / 1000])) oneQ 0 2 := by
    intro T h1 h2 h4 h5
    rw [genAssign_eq givesQ h1 h2 h3 h5 false rfl, C95_rebase givesQ h1 h2 h3 h5 rfl rfl, h4]
    have e1 : subParams [(0 : ℚ), 0, 1 / 1000] (List.replicate (3 * (3 - 1) / 2) 0) = [0, 0, 1 / 1000] := by decide +kernel
    have e2 : subParams [(1 : ℚ) / 1000, 0, 0] (List.replicate (3 * (3 - 1) / 2) 0) = [1 / 1000, 0, 0] := by decide +kernel
    have e3 : subParams [(0 : ℚ), 0, 1 / 1000] [1 / 1000, 0, 0] = [-1 / 1000, 0, 1 / 1000] := by decide +kernel
    rw [e1, e2, e3]
    exact ⟨rfl, rfl⟩
  have ne : matrixOne 3 (matMul 3 (unitaryQ [0, 0, 0]) (unitaryQ [0, 0, 1 / 1000])) oneQ 0 2 ≠
      matrixOne 3 (matMul 3 (matMul 3 (unitaryQ [0, 0, 0]) (unitaryQ [1 / 1000, 0, 0])) (unitaryQ [-1 / 1000, 0, 1 / 1000])) oneQ 0 2 := by
    decide +kernel
  have keep : ∀ (T : GenState ℚ) (x : List ℚ), x.length = 3 * (3 - 1) / 2 → T.ham.norb = 3 → T.refNorb = 3 → T.refOne = oneQ →
      T.prev = some (List.replicate (3 * (3 - 1) / 2) 0, 3, unitaryQ (List.replicate (3 * (3 - 1) / 2) 0)) →
      ∀ T', T' = genAssign (unitaryMatrix smallQ hugeQ (fun _ _ _ => 0) 100) false T x → T'.ham.norb = 3 ∧ T'.refNorb = 3 ∧ T'.refOne = oneQ ∧
      T'.prev = some (List.replicate (3 * (3 - 1) / 2) 0, 3, unitaryQ (List.replicate (3 * (3 - 1) / 2) 0)) ∧ T'.params = x := by
    rintro T x hx h1 h2 h4 h5 T' rfl
    rw [genAssign_eq givesQ h1 h2 h3 h5 false hx]
    exact ⟨rfl, h2, h4, rfl, rfl⟩
  obtain ⟨a1, a2, a3, a4, a5⟩ := keep S [0, 0, 1 / 1000] rfl s1 s2 s4 s5 _ rfl
  obtain ⟨b1, b2, b3, b4, b5⟩ := keep _ [1 / 1000, 0, 0] rfl a1 a2 a3 a4 _ rfl
  intro h
  apply ne
  rw [← (e S s1 s2 s4 s5).1, ← (e _ b1 b2 b3 b4).2]
  rw [b5] at h
  exact h

/-- a problem with all the parameters of the Hamiltonian active -/
def fixedProb : Prob (GenState ℚ) ℚ ℚ ℚ :=
  ⟨true, fun x => [x.getD 0 0, x.getD 1 0, x.getD 2 0], genAssign (unitaryMatrix smallQ hugeQ (fun _ _ _ => 0) 100), fun S => S.params,
    fun _ S => S.ham.one 0 2, fun _ _ => 0, fun _ S => S.ham.one 0 0⟩

-- the hypotheses of `C95_minimize` and `C95_cma` hold for it
example : Lawful fixedProb (Built 3 oneQ fun _ _ _ _ => 0) (fun p => p.length = 3 * (3 - 1) / 2) :=
  C95_lawful givesQ _ _ _ _ (fun _ => rfl) _ _ _

example : ∃ S, GenState.init (unitaryMatrix smallQ hugeQ (fun _ _ _ => 0) 100) 3 oneQ (fun _ _ _ _ => 0) (some [1 / 1000, 0, 0]) true = .ok S ∧
    Built 3 oneQ (fun _ _ _ _ => 0) S := init_built givesQ _ _ _ (fun _ h => by cases h; rfl) _

-- and an optimizer without derivatives
example (f : List ℚ → ℚ) : NoDeriv f (.objective [0, 0, 1] fun a => .objective [1, 0, 0] fun b =>
    .done (if a ≤ b then ⟨true, [0, 0, 1], a⟩ else ⟨true, [1, 0, 0], b⟩) : Strat ℚ ℚ ℚ) := trivial

end

end Fanpy.Props
