import Verif.Model.EqnWeights
import Verif.Props.EqnInit

/-! # C92: weights of the equations, and the constructor of `EnergyConstraint` -/

namespace Fanpy.Props
open Fanpy.Eqn

variable {R : Type}

/-- C92: the weights are one array with a weight for each projection and for each equation of each constraint.  A given array is kept; by default
the weight of a projection is one and that of an equation of a constraint is the number of projections.  Something that is not an array is a
`TypeError`, another shape a `ValueError`; the selections are then those that the constructor made before. -/
theorem C92_weights [Semiring R] (E : Env) (sel : SelArg) (opt : Bool) (ps : SpaceArg) (ex : Option (List ℕ)) (rf : SpaceArg) (k : EnergyKind)
    (num : Bool) (cons : ConsArg) (arg : WeightArg R) (h : Heap) :
    (projFull E sel opt ps ex rf k num cons arg h).1 = (projInit E sel opt ps ex rf k num cons h).1 ∧
    (∀ e, (projInit E sel opt ps ex rf k num cons h).2 = .error e → (projFull E sel opt ps ex rf k num cons arg h).2 = .error e) ∧
    ∀ o, (projInit E sel opt ps ex rf k num cons h).2 = .ok o →
      (arg = .none → ∃ w : List R, (projFull E sel opt ps ex rf k num cons arg h).2 = .ok (o, w) ∧
        w.length = o.pspace.length + (o.cons.map Con.numEqns).sum ∧ (∀ i < o.pspace.length, w[i]? = some 1) ∧
        ∀ i, o.pspace.length ≤ i → i < w.length → w[i]? = some (o.pspace.length : R)) ∧
      (∀ data, arg = .array [o.pspace.length + (o.cons.map Con.numEqns).sum] data →
        (projFull E sel opt ps ex rf k num cons arg h).2 = .ok (o, data)) ∧
      (∀ shape data, arg = .array shape data → shape ≠ [o.pspace.length + (o.cons.map Con.numEqns).sum] →
        (projFull E sel opt ps ex rf k num cons arg h).2 = .error .valueError) ∧
      (arg = .other → (projFull E sel opt ps ex rf k num cons arg h).2 = .error .typeError) := by
  unfold projFull
  rcases projInit E sel opt ps ex rf k num cons h with ⟨h', e | o⟩
  · refine ⟨rfl, fun e' he => ?_, fun o ho => ?_⟩
    · simp only at he ⊢
      injection he with he
      rw [he]
    · cases ho
  · refine ⟨?_, fun e he => (by cases he), ?_⟩
    · simp only
      split <;> rfl
    · intro o' ho
      simp only at ho
      injection ho with ho
      subst ho
      refine ⟨?_, ?_, ?_, ?_⟩
      · rintro rfl
        refine ⟨_, rfl, ?_, ?_, ?_⟩
        · simp
        · intro i hi
          rw [List.getElem?_append_left (by simpa using hi)]
          simp [hi]
        · intro i h1 h2
          rw [List.length_append, List.length_map, List.length_take, List.length_drop, List.length_replicate] at h2
          rw [List.getElem?_append_right (by simpa using h1)]
          simp only [List.take_replicate, List.length_replicate, List.drop_replicate, List.map_replicate, one_mul,
            List.getElem?_replicate]
          rw [if_pos (by omega)]
      · rintro data rfl
        simp [weightsOf]
      · rintro shape data rfl hs
        simp [weightsOf, hs]
      · rintro rfl
        simp [weightsOf]

/-- C92: `EnergyConstraint` has the selection and the reference of an `EnergyOneSideProjection` made with the same arguments, an empty history, and is
refused with the same error; what it keeps is about the space of the wavefunction. -/
theorem C92_energy_constraint_init (E : Env) (sel : SelArg) (rf : SpaceArg) (e0 : R) (h : Heap) :
    (energyConInit E sel rf e0 h).1 = (oneInit E sel false rf h).1 ∧
    (∀ e, (energyConInit E sel rf e0 h).2 = .error e ↔ (oneInit E sel false rf h).2 = .error e) ∧
    ∀ c, (energyConInit E sel rf e0 h).2 = .ok c → (oneInit E sel false rf h).2 = .ok (c.dict, c.ref) ∧ RefOk E.space c.ref ∧
      c.refEnergy = e0 ∧ c.history = [] := by
  have hr := (C92_one_sided E.space rf).1
  unfold energyConInit oneInit
  rcases baseInit E sel false h with ⟨h', e | d⟩
  · exact ⟨rfl, fun e' => by simp, fun c hc => by simp at hc⟩
  · rcases hone : oneRefwfn E.space rf with e | r
    · exact ⟨rfl, fun e' => by simp, fun c hc => by simp at hc⟩
    · refine ⟨rfl, fun e' => by simp, fun c hc => ?_⟩
      simp only [Except.ok.injEq] at hc
      subst hc
      exact ⟨rfl, hr r hone, rfl, rfl⟩

/-- two projections and one constraint of two equations: the default weights, and an array that is too short -/
example : weightsOf 2 [⟨0, 2⟩] (.none : WeightArg ℤ) = .ok [1, 1, 2, 2] ∧ weightsOf 2 [⟨0, 2⟩] (.array [3] [1, 1, (1 : ℤ)]) = .error .valueError := by
  decide +kernel

end Fanpy.Props
