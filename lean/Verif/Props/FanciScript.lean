import Verif.Model.FanciScript
import Verif.Props.Script
import Verif.Props.SdList
import Verif.Lemmas.Text

/-!
# C116: scripts that use pyci
-/

set_option linter.unusedSimpArgs false

namespace Fanpy.Props
open Fanpy.Script

/-- the parts of the script -/
theorem makeFanci_ok {pyscf : Bool} {natoms : ℕ} {o : FanciOptions} {l : List Stmt} : makeFanciScript pyscf natoms o = .ok l ↔
    (o.wfnType ∈ wfnTypes ∧ o.objective = some "projected" ∧ o.optimizeOrbs = false ∧
      (pyscf = true → natoms ≠ 0 ∧ ∃ s ∈ ["least_squares", "root", "fanpt"], o.solver = some s)) ∧
    l = fanciImports pyscf o (fanciConstraint pyscf o) ++ fanciSystem pyscf ++ fanciWfn pyscf o ++ fanciHam pyscf o ++ fanciChk o ++
      fanciPspace pyscf o ++ (if pyscf then fanciWeights (fanciConstraint pyscf o) else []) ++
      fanciObjective pyscf o (fanciConstraint pyscf o) ++ fanciSolve pyscf o := by
  have hs : (∃ s ∈ ["least_squares", "root", "fanpt"], o.solver = some s) ↔ o.solver ∈ [some "least_squares", some "root", some "fanpt"] := by
    simp [eq_comm]
  rw [makeFanciScript, hs]
  by_cases h1 : o.wfnType ∈ wfnTypes
  · rw [if_neg (not_not.2 h1)]
    by_cases h2 : o.objective = some "projected"
    · rw [if_neg (not_not.2 h2)]
      by_cases h3 : pyscf = true ∧ o.solver ∉ [some "least_squares", some "root", some "fanpt"]
      · rw [if_pos h3]
        constructor
        · intro h; cases h
        · rintro ⟨⟨-, -, -, h⟩, -⟩; exact absurd (h h3.1).2 h3.2
      · rw [if_neg h3]
        by_cases h4 : pyscf = true ∧ natoms = 0
        · rw [if_pos h4]
          constructor
          · intro h; cases h
          · rintro ⟨⟨-, -, -, h⟩, -⟩; exact absurd h4.2 (h h4.1).1
        · rw [if_neg h4]
          by_cases h5 : o.optimizeOrbs = true
          · rw [if_pos h5]
            constructor
            · intro h; cases h
            · rintro ⟨⟨-, -, h, -⟩, -⟩; rw [h5] at h; cases h
          · rw [if_neg h5]
            have h5' : o.optimizeOrbs = false := by simpa using h5
            constructor
            · intro h
              injection h with h
              exact ⟨⟨h1, h2, h5', fun hp => ⟨fun h => h4 ⟨hp, h⟩, not_not.1 fun h => h3 ⟨hp, h⟩⟩⟩, h.symm⟩
            · rintro ⟨-, rfl⟩; rfl
    · rw [if_pos h2]
      constructor
      · intro h; cases h
      · rintro ⟨⟨-, h, -⟩, -⟩; exact absurd h h2
  · rw [if_pos h1]
    constructor
    · intro h; cases h
    · rintro ⟨⟨h, -⟩, -⟩; exact absurd h h1

/-- C116: a script is made if and only if the type of the wavefunction is known, the objective is `projected`, the orbitals are not optimized
and, for pyscf, there is an atom and the solver is one of three. -/
theorem C116_made (pyscf : Bool) (natoms : ℕ) (o : FanciOptions) :
    (∃ l, makeFanciScript pyscf natoms o = .ok l) ↔ o.wfnType ∈ wfnTypes ∧ o.objective = some "projected" ∧ o.optimizeOrbs = false ∧
      (pyscf = true → natoms ≠ 0 ∧ ∃ s ∈ ["least_squares", "root", "fanpt"], o.solver = some s) := by
  simp only [makeFanci_ok]
  constructor
  · rintro ⟨l, h, -⟩; exact h
  · intro h; exact ⟨_, h, rfl⟩

/-- C116: all other options raise `ValueError`, and no atoms raise `IndexError` (unless something else is refused before). -/
theorem C116_errors (pyscf : Bool) (natoms : ℕ) (o : FanciOptions) (e : PyErr) (h : makeFanciScript pyscf natoms o = .error e) :
    e = .valueError ∨ e = .indexError ∧ pyscf = true ∧ natoms = 0 ∧ o.objective = some "projected" := by
  rw [makeFanciScript] at h
  split_ifs at h with h1 h2 h3 h4
  all_goals first | (cases h; exact .inl rfl) | skip
  cases h
  exact .inr ⟨rfl, h4.1, h4.2, not_not.1 h2⟩

/-- names that every script binds before the wavefunction is made -/
def fanciNames (pyscf : Bool) : List String := ["np", "os", "sys", "pyci"] ++ fanciSizes pyscf ++ fanciInts pyscf ++ fanciNuc pyscf

theorem fclosed_system (pyscf : Bool) (env : List String)
    (h : ∀ n ∈ builtinNames ++ ["np", "os"] ++ (if pyscf then ["gto", "scf", "PYSCF"] else []), n ∈ env) : Closed env (fanciSystem pyscf) := by
  cases pyscf <;> simp [builtinNames] at h <;> simp [fanciSystem, Closed, h]

theorem fclosed_wfn (pyscf : Bool) (o : FanciOptions) (env : List String)
    (h : ∀ n ∈ builtinNames ++ ["np", "os", o.wfn.1] ++ fanciSizes pyscf ++ o.wfn.2.uses, n ∈ env) : Closed env (fanciWfn pyscf o) := by
  simp only [List.mem_append] at h
  have hb : ∀ n ∈ builtinNames, n ∈ env := fun n hn => h n (by simp [hn])
  have h1 : "np" ∈ env := h _ (by simp)
  have h2 : "os" ∈ env := h _ (by simp)
  have h3 : o.wfn.1 ∈ env := h _ (by simp)
  have h4 : ∀ n ∈ fanciSizes pyscf, n ∈ env := fun n hn => h n (by simp [hn])
  have h5 : ∀ n ∈ o.wfn.2.uses, n ∈ env := fun n hn => h n (by simp [hn])
  have h6 : "print" ∈ env := hb _ (by simp [builtinNames])
  rw [fanciWfn]
  cases o.loadWfn <;> cases o.wfnNoise <;> simp [Closed, h1, h2, h3, h6] <;> grind

theorem fclosed_ham (pyscf : Bool) (o : FanciOptions) (env : List String)
    (h : ∀ n ∈ builtinNames ++ ["np", "os", o.hamName] ++ fanciInts pyscf, n ∈ env) : Closed env (fanciHam pyscf o) := by
  have h1 : "np" ∈ env := h _ (by simp)
  have h2 : "os" ∈ env := h _ (by simp)
  have h3 : o.hamName ∈ env := h _ (by simp)
  have h4 : ∀ n ∈ fanciInts pyscf, n ∈ env := fun n hn => h n (by simp [hn])
  have h6 : "print" ∈ env := h _ (by simp [builtinNames])
  rw [fanciHam]
  cases o.loadHam <;> cases o.loadHamUm <;> cases o.hamNoise <;> simp [Closed, h1, h2, h3, h6] <;> exact h4

theorem fclosed_chk (o : FanciOptions) (env : List String) (h : ∀ n ∈ ["np", "wfn", "ham"], n ∈ env) : Closed env (fanciChk o) := by
  simp at h
  rw [fanciChk]
  by_cases h1 : o.loadChk <;> simp only [h1, if_true]
  · by_cases h2 : o.chkFiles.2.1 = true <;> by_cases h3 : o.chkFiles.2.2.1 = true <;> by_cases h4 : o.chkFiles.2.2.2 = true <;>
      simp [h2, h3, h4, Closed, h]
  · trivial

theorem fclosed_pspace (pyscf : Bool) (o : FanciOptions) (env : List String)
    (h : ∀ n ∈ builtinNames ++ ["np", "sd_list", "wfn"] ++ fanciSizes pyscf, n ∈ env) : Closed env (fanciPspace pyscf o) := by
  have h4 : ∀ n ∈ fanciSizes pyscf, n ∈ env := fun n hn => h n (by simp [hn])
  have h1 : ∀ n ∈ builtinNames ++ ["np", "sd_list", "wfn"], n ∈ env := fun n hn => h n (List.mem_append_left _ hn)
  simp [builtinNames] at h1
  rw [fanciPspace]
  by_cases hr : o.solver = some "root" <;> cases pyscf <;> simp [fanciSizes] at h4 <;> simp [hr, Closed, h1, h4, fanciSizes]

theorem fclosed_weights (c : Option String) (env : List String)
    (h : ∀ n ∈ builtinNames ++ ["np", "wfn", "ham", "pspace", "param_selection"] ++ constraintClass c, n ∈ env) : Closed env (fanciWeights c) := by
  rw [fanciWeights.eq_def]
  split <;> simp [builtinNames, constraintClass] at h <;> simp [Closed, h]

theorem fweights_defs (c : Option String) : "weights" ∈ defsOf (fanciWeights c) ∧
    ∀ x, c = some x → x = "norm" ∨ x = "energy" → x ∈ defsOf (fanciWeights c) := by
  constructor
  · rw [fanciWeights.eq_def]
    split <;> simp [defsOf]
  · rintro x rfl (rfl | rfl) <;> simp [fanciWeights, defsOf]

theorem fclosed_objective (pyscf : Bool) (o : FanciOptions) (c : Option String) (env : List String)
    (hc : pyscf = true → ∀ x, c = some x → x = "" ∨ x = "norm" ∨ x = "energy")
    (h : ∀ n ∈ builtinNames ++ ["np", "wfn", "ham", "pspace", "param_selection", "ProjectedSchrodinger"] ++
      defsOf (if pyscf then fanciWeights c else []), n ∈ env) :
    Closed env (fanciObjective pyscf o c) ∧ ∀ n ∈ ["objective", "energy_val"], n ∈ defsOf (fanciObjective pyscf o c) := by
  have h1 : ∀ n ∈ builtinNames ++ ["np", "wfn", "ham", "pspace", "param_selection", "ProjectedSchrodinger"], n ∈ env := fun n hn =>
    h n (List.mem_append_left _ hn)
  have h3 : ∀ n ∈ defsOf (if pyscf then fanciWeights c else []), n ∈ env := fun n hn => h n (List.mem_append_right _ hn)
  clear h
  simp [builtinNames] at h1
  cases pyscf with
  | false =>
    rw [fanciObjective]
    refine ⟨by simp [Closed, h1], by simp [defsOf]⟩
  | true =>
    simp only [if_true] at h3
    have hw := h3 _ (fweights_defs c).1
    have hcn : ∀ n ∈ fanciConstraintNames c, n ∈ env := by
      intro n hn
      rcases c with _ | x
      · simp [fanciConstraintNames] at hn
      · rcases hc rfl x rfl with rfl | hx
        · simp [fanciConstraintNames] at hn
        · simp only [fanciConstraintNames] at hn
          split_ifs at hn
          · simp at hn
          · rw [List.mem_singleton] at hn
            exact hn ▸ h3 _ ((fweights_defs _).2 x rfl hx)
    rw [fanciObjective, if_pos rfl]
    constructor
    · by_cases he : c = some "energy"
      · have hen := h3 _ ((fweights_defs c).2 _ he (.inr rfl))
        by_cases hn : o.wfnType ∈ ["apg", "apig", "apsetg", "apg2", "apg3", "apg4", "apg5", "apg6", "apg7", "doci"] <;>
          simp only [hn, he, if_true, if_false] <;> rw [he] at hcn <;> simp [Closed, h1, hw, hen] <;> simpa using hcn
      · by_cases hn : o.wfnType ∈ ["apg", "apig", "apsetg", "apg2", "apg3", "apg4", "apg5", "apg6", "apg7", "doci"] <;>
          simp only [hn, he, if_true, if_false] <;> simp [Closed, h1, hw] <;> simpa using hcn
    · simp [defsOf]

theorem fclosed_solve (pyscf : Bool) (o : FanciOptions) (env : List String)
    (h : ∀ n ∈ builtinNames ++ ["np", "wfn", "objective", "energy_val", "interface"] ++ fanciNuc pyscf, n ∈ env)
    (hf : o.solver = some "fanpt" → "FANPT" ∈ env)
    (hk : ∀ k, o.solverKw = some k → ∀ n ∈ k.uses, n ∈ env) (hk2 : ∀ k, o.fanptKw = some k → ∀ n ∈ k.uses, n ∈ env) :
    Closed env (fanciSolve pyscf o) := by
  have h1 : ∀ n ∈ builtinNames ++ ["np", "wfn", "objective", "energy_val", "interface"], n ∈ env := fun n hn => h n (List.mem_append_left _ hn)
  have h2 : ∀ n ∈ fanciNuc pyscf, n ∈ env := fun n hn => h n (List.mem_append_right _ hn)
  simp [builtinNames] at h1
  have hu : ∀ n ∈ (fanciSolverKw o.solver o.solverKw).2.uses, n ∈ env := by
    rw [fanciSolverKw.eq_def]
    rcases e : o.solverKw with _ | k
    · split <;> simp [h1]
    · have := hk k e
      split <;> simpa using this
  have hv : ∀ n ∈ (o.fanptKw.getD ⟨["energy_active", "resum", "ref_sd", "final_order", "lambda_i", "lambda_f", "steps"], []⟩).uses, n ∈ env := by
    rcases e : o.fanptKw with _ | k
    · simp
    · exact hk2 k e
  rw [fanciSolve]
  by_cases hs : o.solver = some "fanpt"
  · have h3 := hf hs
    simp only [hs, if_true]
    rw [hs] at hu
    cases pyscf <;> simp [fanciNuc] at h2 <;> simp [Closed, h1, h2, h3, fanciNuc] <;> grind
  · simp only [hs, if_false]
    cases pyscf <;> simp [fanciNuc] at h2 <;> simp [Closed, h1, h2, fanciNuc] <;> grind

/-- C116: every name that a script uses is bound by an earlier statement: for every known type of wavefunction, the constraints `norm` and
`energy` (for gaussian any), and keyword arguments that use only the modules, the numbers and integrals of the system and, for the solver, the
wavefunction and the objective.  The default arguments of `rbm` are excluded for pyscf. -/
theorem C116_closed_partial (pyscf : Bool) (natoms : ℕ) (o : FanciOptions) (l : List Stmt) (hl : makeFanciScript pyscf natoms o = .ok l)
    (hc : pyscf = true → ∀ c, o.constraint = some c → c = "" ∨ c = "norm" ∨ c = "energy")
    (hw : ∀ k, o.wfnKw = some k → ∀ n ∈ k.uses, n ∈ fanciNames pyscf)
    (hs : ∀ k, o.solverKw = some k → ∀ n ∈ k.uses, n ∈ fanciNames pyscf ++ ["wfn", "ham", "pspace", "objective"])
    (hf : ∀ k, o.fanptKw = some k → ∀ n ∈ k.uses, n ∈ fanciNames pyscf ++ ["wfn", "ham", "pspace", "objective"])
    (hr : ¬ (pyscf = true ∧ o.wfnType = "rbm" ∧ o.wfnKw = none)) : Closed builtinNames l := by
  obtain ⟨⟨ht, -⟩, rfl⟩ := makeFanci_ok.1 hl
  have hu : ∀ n ∈ o.wfn.2.uses, n ∈ fanciNames pyscf := by
    rw [wfn_uses o.toOptions ht]
    rcases hk : o.wfnKw with _ | k
    · simp only
      split_ifs with hrb
      · have : pyscf = false := by
          rcases pyscf with _ | _
          · rfl
          · exact absurd ⟨rfl, hrb, hk⟩ hr
        subst this
        simp [fanciNames, fanciSizes]
      · simp
    · exact hw k hk
  have hc' : pyscf = true → ∀ c, fanciConstraint pyscf o = some c → c = "" ∨ c = "norm" ∨ c = "energy" := by
    intro hp c e
    rw [fanciConstraint] at e
    split_ifs at e
    · cases e; simp
    · exact hc hp c e
  have i1 : ∀ n ∈ ["np", "os", "sys", "pyci", "interface", o.wfn.1, o.hamName, "sd_list", "ProjectedSchrodinger"],
      n ∈ defsOf (fanciImports pyscf o (fanciConstraint pyscf o)) := by
    simp [fanciImports, defsOf]
  have i1b : pyscf = true → ∀ n ∈ ["gto", "scf", "PYSCF"] ++ constraintClass (fanciConstraint pyscf o),
      n ∈ defsOf (fanciImports pyscf o (fanciConstraint pyscf o)) := by
    intro hp n hn
    rcases List.mem_append.1 hn with hn | hn
    · simp only [fanciImports, defsOf, hp, if_true, List.flatMap_cons, List.mem_append]
      exact .inr (.inl hn)
    · simp only [fanciImports, defsOf, hp, if_true, List.flatMap_cons, List.mem_append]
      rw [hp] at hn
      exact .inr (.inr (.inl (.inl (.inr hn))))
  have i1c : o.solver = some "fanpt" → "FANPT" ∈ defsOf (fanciImports pyscf o (fanciConstraint pyscf o)) := by
    intro h; simp [fanciImports, defsOf, h]
  have i2 : ∀ n ∈ fanciSizes pyscf ++ fanciInts pyscf ++ fanciNuc pyscf, n ∈ defsOf (fanciSystem pyscf) := by
    cases pyscf <;> simp [fanciSizes, fanciInts, fanciNuc, fanciSystem, defsOf]
  have i3 : "wfn" ∈ defsOf (fanciWfn pyscf o) := by simp [fanciWfn, defsOf]
  have i4 : "ham" ∈ defsOf (fanciHam pyscf o) := by simp [fanciHam, defsOf]
  have i5 : ∀ n ∈ ["pspace", "param_selection"], n ∈ defsOf (fanciPspace pyscf o) := by simp [fanciPspace, defsOf]
  have i6 := (fclosed_objective pyscf o (fanciConstraint pyscf o) _ hc' fun n hn => hn).2
  have c1 : ∀ n ∈ fanciNames pyscf, n ∈ defsOf (fanciImports pyscf o (fanciConstraint pyscf o)) ∨ n ∈ defsOf (fanciSystem pyscf) := by
    intro n hn
    rw [fanciNames, List.append_assoc, List.append_assoc, List.mem_append] at hn
    rcases hn with hn | hn
    · exact .inl (i1 n (by clear * - hn; simp at hn ⊢; tauto))
    · rw [← List.append_assoc] at hn; exact .inr (i2 n hn)
  have jnp := i1 "np" (by simp)
  have jos := i1 "os" (by simp)
  have jint := i1 "interface" (by simp)
  have jw := i1 o.wfn.1 (by simp)
  have jh := i1 o.hamName (by simp)
  have jsd := i1 "sd_list" (by simp)
  have jps := i1 "ProjectedSchrodinger" (by simp)
  have k1 := i5 "pspace" (by simp)
  have k2 := i5 "param_selection" (by simp)
  have k3 := i6 "objective" (by simp)
  have k4 := i6 "energy_val" (by simp)
  have user : ∀ n ∈ fanciNames pyscf ++ ["wfn", "ham", "pspace", "objective"],
      n ∈ defsOf (fanciImports pyscf o (fanciConstraint pyscf o)) ∨ n ∈ defsOf (fanciSystem pyscf) ∨ n ∈ defsOf (fanciWfn pyscf o) ∨
      n ∈ defsOf (fanciHam pyscf o) ∨ n ∈ defsOf (fanciPspace pyscf o) ∨ n ∈ defsOf (fanciObjective pyscf o (fanciConstraint pyscf o)) := by
    intro n hn
    rcases List.mem_append.1 hn with hn | hn
    · rcases c1 n hn with h | h
      · exact .inl h
      · exact .inr (.inl h)
    · simp at hn
      rcases hn with rfl | rfl | rfl | rfl
      · exact .inr (.inr (.inl i3))
      · exact .inr (.inr (.inr (.inl i4)))
      · exact .inr (.inr (.inr (.inr (.inl k1))))
      · exact .inr (.inr (.inr (.inr (.inr k3))))
  have i2a : ∀ n ∈ fanciSizes pyscf, n ∈ defsOf (fanciSystem pyscf) := fun n hn => i2 n (by simp [hn])
  have i2b : ∀ n ∈ fanciInts pyscf, n ∈ defsOf (fanciSystem pyscf) := fun n hn => i2 n (by simp [hn])
  have i2c : ∀ n ∈ fanciNuc pyscf, n ∈ defsOf (fanciSystem pyscf) := fun n hn => i2 n (by simp [hn])
  simp only [closed_append, defsOf_append]
  refine ⟨⟨⟨⟨⟨⟨⟨⟨?_, ?_⟩, ?_⟩, ?_⟩, ?_⟩, ?_⟩, ?_⟩, ?_⟩, ?_⟩
  · simp [fanciImports, Closed]
  · refine fclosed_system _ _ fun n hn => ?_
    simp only [List.mem_append] at hn ⊢
    rcases hn with (hn | hn) | hn
    · exact .inl hn
    · simp at hn
      rcases hn with rfl | rfl
      · exact .inr jnp
      · exact .inr jos
    · split_ifs at hn with hp
      · exact .inr (i1b hp n (List.mem_append_left _ hn))
      · simp at hn
  · refine fclosed_wfn _ _ _ fun n hn => ?_
    simp only [List.mem_append] at hn ⊢
    rcases hn with ((hn | hn) | hn) | hn
    · simp only [hn, true_or, or_true]
    · simp at hn
      rcases hn with rfl | rfl | rfl <;> simp only [jnp, jos, jw, true_or, or_true]
    · simp only [i2a n hn, true_or, or_true]
    · rcases c1 n (hu n hn) with h | h <;> simp only [h, true_or, or_true]
  · refine fclosed_ham _ _ _ fun n hn => ?_
    simp only [List.mem_append] at hn ⊢
    rcases hn with (hn | hn) | hn
    · simp only [hn, true_or, or_true]
    · simp at hn
      rcases hn with rfl | rfl | rfl <;> simp only [jnp, jos, jh, true_or, or_true]
    · simp only [i2b n hn, true_or, or_true]
  · refine fclosed_chk _ _ fun n hn => ?_
    simp only [List.mem_append]
    simp at hn
    rcases hn with rfl | rfl | rfl <;> simp only [jnp, i3, i4, true_or, or_true]
  · refine fclosed_pspace _ _ _ fun n hn => ?_
    simp only [List.mem_append] at hn ⊢
    rcases hn with (hn | hn) | hn
    · simp only [hn, true_or, or_true]
    · simp at hn
      rcases hn with rfl | rfl | rfl <;> simp only [jnp, jsd, i3, true_or, or_true]
    · simp only [i2a n hn, true_or, or_true]
  · by_cases hp : pyscf = true
    · rw [if_pos hp]
      refine fclosed_weights _ _ fun n hn => ?_
      simp only [List.mem_append] at hn ⊢
      rcases hn with (hn | hn) | hn
      · simp only [hn, true_or, or_true]
      · simp at hn
        rcases hn with rfl | rfl | rfl | rfl | rfl <;> simp only [jnp, i3, i4, k1, k2, true_or, or_true]
      · simp only [i1b hp n (List.mem_append_right _ hn), true_or, or_true]
    · rw [if_neg hp]; trivial
  · refine (fclosed_objective pyscf o _ _ hc' fun n hn => ?_).1
    simp only [List.mem_append] at hn ⊢
    rcases hn with (hn | hn) | hn
    · simp only [hn, true_or, or_true]
    · simp at hn
      rcases hn with rfl | rfl | rfl | rfl | rfl | rfl <;> simp only [jnp, i3, i4, k1, k2, jps, true_or, or_true]
    · simp only [hn, true_or, or_true]
  · refine fclosed_solve pyscf o _ (fun n hn => ?_) (fun h => ?_) (fun k hk n hn => ?_) fun k hk n hn => ?_
    · simp only [List.mem_append] at hn ⊢
      rcases hn with (hn | hn) | hn
      · simp only [hn, true_or, or_true]
      · simp at hn
        rcases hn with rfl | rfl | rfl | rfl | rfl <;> simp only [jnp, i3, k3, k4, jint, true_or, or_true]
      · simp only [i2c n hn, true_or, or_true]
    · simp only [List.mem_append]
      simp only [i1c h, true_or, or_true]
    · simp only [List.mem_append]
      rcases user n (hs k hk n hn) with h | h | h | h | h | h <;> simp only [h, true_or, or_true]
    · simp only [List.mem_append]
      rcases user n (hf k hk n hn) with h | h | h | h | h | h <;> simp only [h, true_or, or_true]

-- a calculation with FANPT
example : ∃ l, makeFanciScript true 2 { wfnType := "apig", solver := some "fanpt", loadChk := true } = .ok l ∧ Closed builtinNames l := by
  obtain ⟨l, hl⟩ := (C116_made true 2 { wfnType := "apig", solver := some "fanpt", loadChk := true }).2
    ⟨by decide +kernel, rfl, rfl, fun _ => ⟨by simp, _, by simp, rfl⟩⟩
  exact ⟨l, hl, C116_closed_partial _ _ _ _ hl (by simp) (by simp) (by simp) (by simp) (by simp)⟩

/-- C116: with the default keyword arguments every call in the script is accepted by the constructor or function that it calls, for all types of
wavefunctions except `hci` and all constraints and solvers. -/
theorem C116_calls (pyscf : Bool) (natoms : ℕ) (o : FanciOptions) (l : List Stmt) (hl : makeFanciScript pyscf natoms o = .ok l)
    (hw : o.wfnKw = none) (hs : o.solverKw = none) (hf : o.fanptKw = none) (h1 : o.wfnType ≠ "hci") (h2 : o.wfnType ≠ "custom") :
    ∀ s ∈ l, ∀ c ∈ s.calls, Accepted c := by
  obtain ⟨⟨ht, -⟩, rfl⟩ := makeFanci_ok.1 hl
  have hwfn : Accepted ⟨o.wfn.1, 2, ["params", "memory"] ++ o.wfn.2.keys⟩ := by
    rw [Options.wfn, if_neg h2, hw]
    have : ∀ t ∈ wfnTypes, t ≠ "hci" → t ≠ "custom" →
        Accepted ⟨(wfnInfo t none).2.1, 2, ["params", "memory"] ++ (wfnInfo t none).2.2.keys⟩ := by decide +kernel
    exact this _ ht h1 h2
  have hham : ∀ k : List String, k = [] ∨ k = ["update_prev_params"] → Accepted ⟨o.hamName, 2, k⟩ := by
    intro k hk
    rw [Options.hamName]
    rcases hk with rfl | rfl <;> split_ifs <;> decide +kernel
  have a1 : ∀ s ∈ fanciImports pyscf o (fanciConstraint pyscf o), ∀ c ∈ s.calls, Accepted c := by
    simp [fanciImports]
  have a2 : ∀ s ∈ fanciSystem pyscf, ∀ c ∈ s.calls, Accepted c := by
    cases pyscf <;> decide +kernel
  have a3 : ∀ s ∈ fanciWfn pyscf o, ∀ c ∈ s.calls, Accepted c := by
    rw [fanciWfn]
    cases o.loadWfn <;> cases o.wfnNoise <;> simp <;> exact hwfn
  have a4 : ∀ s ∈ fanciHam pyscf o, ∀ c ∈ s.calls, Accepted c := by
    have : Accepted ⟨o.hamName, 2, if o.solver = some "fanpt" ∨ o.solver = some "cma" then [] else ["update_prev_params"]⟩ := by
      apply hham; split_ifs <;> simp
    rw [fanciHam]
    cases o.loadHam <;> cases o.loadHamUm <;> cases o.hamNoise <;> simp <;> exact this
  have a5 : ∀ s ∈ fanciChk o, ∀ c ∈ s.calls, Accepted c := by
    rw [fanciChk]
    by_cases h1 : o.loadChk = true <;> by_cases h2 : o.chkFiles.2.1 = true <;> by_cases h3 : o.chkFiles.2.2.1 = true <;>
      by_cases h4 : o.chkFiles.2.2.2 = true <;> simp [h1, h2, h3, h4]
  have a6 : ∀ s ∈ fanciPspace pyscf o, ∀ c ∈ s.calls, Accepted c := by
    rw [fanciPspace]
    cases pyscf <;> simp <;> decide +kernel
  have a7 : ∀ s ∈ (if pyscf then fanciWeights (fanciConstraint pyscf o) else []), ∀ c ∈ s.calls, Accepted c := by
    cases pyscf
    · simp
    · rw [if_pos rfl, fanciWeights.eq_def]
      split
      · decide +kernel
      · decide +kernel
      · simp
  have a8 : ∀ s ∈ fanciObjective pyscf o (fanciConstraint pyscf o), ∀ c ∈ s.calls, Accepted c := by
    rw [fanciObjective]
    cases pyscf
    · cases o.saveChk <;> simp <;> decide +kernel
    · by_cases he : fanciConstraint true o = some "energy" <;>
        by_cases hn : o.wfnType ∈ ["apg", "apig", "apsetg", "apg2", "apg3", "apg4", "apg5", "apg6", "apg7", "doci"] <;>
        simp only [he, hn, if_true, if_false] <;> simp <;> decide +kernel
  have a9 : ∀ s ∈ fanciSolve pyscf o, ∀ c ∈ s.calls, Accepted c := by
    rw [fanciSolve, hs, hf]
    by_cases hsol : o.solver = some "fanpt"
    · rw [hsol]
      cases pyscf <;> decide +kernel
    · simp only [hsol, if_false]
      rw [fanciSolverKw.eq_def]
      split
      · cases pyscf <;> decide +kernel
      · cases pyscf <;> decide +kernel
      · rename_i e; exact absurd e hsol
      · cases pyscf <;> decide +kernel
  intro s hm
  simp only [List.mem_append] at hm
  rcases hm with (((((((hm | hm) | hm) | hm) | hm) | hm) | hm) | hm) | hm
  exacts [a1 s hm, a2 s hm, a3 s hm, a4 s hm, a5 s hm, a6 s hm, a7 s hm, a8 s hm, a9 s hm]

/-- C116: the optimizer: with the solvers `least_squares`, `root` and (default arguments) `fanpt` the mode is known. -/
theorem C116_mode (o : FanciOptions) (user : Option String) :
    (o.solver = some "least_squares" → optimizerOf (fanciMode o user) = .ok "least_squares") ∧
    (o.solver = some "root" → optimizerOf (fanciMode o user) = .ok "root") ∧
    (o.solver = some "fanpt" → o.solverKw = none → optimizerOf (fanciMode o user) = .ok "least_squares") := by
  refine ⟨fun h => ?_, fun h => ?_, fun h h2 => ?_⟩
  · simp [fanciMode, h, optimizerOf]
  · simp [fanciMode, h, optimizerOf]
  · simp [fanciMode, h, h2, optimizerOf]

/-- C116 (disagreement): for gaussian every other solver is accepted too.  Without arguments of the solver the script calls `optimize` with a
second positional argument (`None`, the mode), which raises `ValueError` at the end of the script; with arguments the solver is ignored and the
default optimizer is used. -/
theorem C116_solver_disagrees (natoms : ℕ) (o : FanciOptions) (hw : o.wfnType ∈ wfnTypes) (ho : o.objective = some "projected") (hb : o.optimizeOrbs = false)
    (h1 : o.solver ≠ some "least_squares") (h2 : o.solver ≠ some "root") (h3 : o.solver ≠ some "fanpt") :
    ∃ l, makeFanciScript false natoms o = .ok l ∧
      (o.solverKw = none → (∃ s ∈ l, (⟨"pyci_interface.objective.optimize", 2, []⟩ : Call) ∈ s.calls) ∧
        optimizerOf (fanciMode o none) = .error .valueError) ∧
      (∀ k, o.solverKw = some k → optimizerOf (fanciMode o none) = .ok "least_squares") := by
  obtain ⟨l, hl⟩ := (C116_made false natoms o).2 ⟨hw, ho, hb, by simp⟩
  obtain ⟨-, rfl⟩ := makeFanci_ok.1 hl
  have hm : fanciMode o none = if o.solverKw = none then none else some "lstsq" := by
    rw [fanciMode.eq_def]
    split <;> first | contradiction | rfl
  refine ⟨_, hl, fun hk => ⟨?_, ?_⟩, fun k hk => ?_⟩
  · have hk2 : fanciSolverKw o.solver o.solverKw = (1, ⟨[], []⟩) := by
      rw [hk, fanciSolverKw.eq_def]
      split <;> first | contradiction | rfl
    refine ⟨⟨["pyci_interface", "np", "objective", "energy_val"], ["results"], [⟨"pyci_interface.objective.optimize", 2, []⟩]⟩,
      List.mem_append_right _ ?_, List.mem_singleton.2 rfl⟩
    rw [fanciSolve, hk2]
    simp [h3]
  · rw [hm, if_pos hk]; rfl
  · rw [hm, if_neg (by simp [hk])]; rfl

-- `check_inputs` accepts three such solvers
example : checkInputs { ap1rogInputs with solver := .none } = .ok () ∧ checkInputs { ap1rogInputs with solver := .str "trustregion" } = .ok () ∧
    checkInputs { ap1rogInputs with wfnType := .str "fci", solver := .str "diag" } = .ok () := by decide +kernel

/-- C116 (disagreement): for gaussian the constraint has no effect on the script. -/
theorem C116_constraint_ignored (natoms : ℕ) (o : FanciOptions) (c : Option String) :
    makeFanciScript false natoms { o with constraint := c } = makeFanciScript false natoms o := by
  rfl

/-- C116 (disagreement): for pyscf a constraint with any other name than `norm` and `energy` is a name that has no value. -/
theorem C116_constraint (natoms : ℕ) (o : FanciOptions) (l : List Stmt) (hl : makeFanciScript true natoms o = .ok l) (c : String) (hc : o.constraint = some c)
    (h0 : c ≠ "") (hb : c ∉ builtinNames) (hd : c ∉ defsOf l) : ¬ Closed builtinNames l := by
  refine not_closed_of_uses hb hd ?_
  obtain ⟨-, rfl⟩ := makeFanci_ok.1 hl
  have e : fanciConstraint true o = some c := by simp [fanciConstraint, hc]
  refine ⟨{ uses := ["ProjectedSchrodinger", "wfn", "ham", "param_selection", "pspace", "weights"] ++ fanciConstraintNames (fanciConstraint true o), defs := ["objective"],
            calls := [⟨"ProjectedSchrodinger", 2, ["param_selection", "pspace", "refwfn", "energy_type", "energy", "constraints", "eqn_weights"]⟩] },
    List.mem_append_left _ (List.mem_append_right _ (by rw [fanciObjective, if_pos rfl]; simp)), ?_⟩
  simp [e, fanciConstraintNames, h0]

example : ∃ l, makeFanciScript true 2 { wfnType := "fci", constraint := some "sz" } = .ok l ∧ "sz" ∉ defsOf l := by
  refine ⟨_, rfl, by decide +kernel⟩

/-- C116: for pyscf and `fanpt` the norm is a constraint if no constraint is given. -/
theorem C116_norm (natoms : ℕ) (o : FanciOptions) (l : List Stmt) (hl : makeFanciScript true natoms o = .ok l) (hs : o.solver = some "fanpt")
    (hc : o.constraint = none) : ∃ s ∈ l, "norm" ∈ s.uses ∧ s.defs = ["objective"] := by
  obtain ⟨-, rfl⟩ := makeFanci_ok.1 hl
  have e : fanciConstraint true o = some "norm" := by simp [fanciConstraint, hs, hc]
  refine ⟨{ uses := ["ProjectedSchrodinger", "wfn", "ham", "param_selection", "pspace", "weights"] ++ fanciConstraintNames (fanciConstraint true o), defs := ["objective"],
            calls := [⟨"ProjectedSchrodinger", 2, ["param_selection", "pspace", "refwfn", "energy_type", "energy", "constraints", "eqn_weights"]⟩] },
    List.mem_append_left _ (List.mem_append_right _ (by rw [fanciObjective, if_pos rfl]; simp)), ?_, rfl⟩
  simp [e, fanciConstraintNames]

/-- C116 (disagreement): the default keyword arguments of `rbm` use `nspin`, which scripts for pyscf do not bind. -/
theorem C116_rbm : ∃ l, makeFanciScript true 2 { wfnType := "rbm" } = .ok l ∧ ¬ Closed builtinNames l := by
  refine ⟨_, rfl, not_closed_of_uses (n := "nspin") (by decide +kernel) (by decide +kernel) (by decide +kernel)⟩

/-- C116 (disagreement): no script of `hci` can run. -/
theorem C116_hci (pyscf : Bool) (natoms : ℕ) (o : FanciOptions) (l : List Stmt) (hl : makeFanciScript pyscf natoms o = .ok l) (ht : o.wfnType = "hci") :
    ∃ s ∈ l, ∃ c ∈ s.calls, ¬ Accepted c := by
  obtain ⟨_, rfl⟩ := makeFanci_ok.1 hl
  have hn : o.wfn.1 = "hCI" := by
    rw [Options.wfn, if_neg (by rw [ht]; decide), ht]; rfl
  refine ⟨⟨[o.wfn.1] ++ fanciSizes pyscf ++ (if o.loadWfn then ["wfn_params"] else []) ++ o.wfn.2.uses, ["wfn"],
    [⟨o.wfn.1, 2, ["params", "memory"] ++ o.wfn.2.keys⟩]⟩, ?_, _, List.mem_singleton.2 rfl, ?_⟩
  · simp only [List.mem_append]
    exact .inl (.inl (.inl (.inl (.inl (.inl (.inr (by simp [fanciWfn])))))))
  · rw [hn]
    intro h
    have := h.2.2.1 "params" (by simp)
    simp at this

/-- C116: with `root` and a vector of parameters the optimization has as many equations as parameters, if the space of the orders of excitation
and the interface have so many determinants. -/
theorem C116_root (nelec nspin n : ℕ) (orders : Option (List ℕ)) (maxProj : ℕ) (L : List ℕ)
    (hL : SdList.sdList nelec nspin none orders none none false = .ok L) (h0 : 0 < n) (h1 : n ≤ L.length) (h2 : n ≤ maxProj) :
    fanciRoot nelec nspin [n] orders maxProj = .ok () := by
  obtain ⟨g, -, e⟩ := C14_limit nelec nspin (n : ℕ) orders none none false L (by exact_mod_cast h0) hL
  rw [fanciRoot]
  simp only [List.headD_cons]
  rw [e, if_pos (by simp [Wanted])]
  simp [h1, h2]

/-- C116 (disagreement): with `root` and an array of two or more dimensions (the geminal wavefunctions) the number of rows is taken for the
number of parameters, and the optimization is refused for every projection space. -/
theorem C116_root_disagrees (nelec nspin rows : ℕ) (rest : List ℕ) (orders : Option (List ℕ)) (maxProj : ℕ) (L : List ℕ)
    (hL : SdList.sdList nelec nspin none orders none none false = .ok L) (h0 : 0 < rows) (h1 : 2 ≤ rest.prod) :
    fanciRoot nelec nspin (rows :: rest) orders maxProj = .error .valueError := by
  obtain ⟨g, -, e⟩ := C14_limit nelec nspin (rows : ℕ) orders none none false L (by exact_mod_cast h0) hL
  rw [fanciRoot]
  simp only [List.headD_cons]
  rw [e, if_pos (by simp [Wanted])]
  refine if_pos ?_
  rw [List.prod_cons]
  have : (L.take ((rows : ℤ).toNat)).length ≤ rows := by simp
  have h3 : rows * 2 ≤ rows * rest.prod := Nat.mul_le_mul_left _ h1
  have := min_le_left (L.take ((rows : ℤ).toNat)).length maxProj
  omega

-- one electron pair in two orbitals
example : fanciRoot 2 4 [1, 2] none 4 = .error .valueError := by
  have h := C14_raises 2 4 none none none none false
  obtain ⟨L, hL⟩ : ∃ L, SdList.sdList 2 4 none none none none false = .ok L :=
    ⟨_, sdList_eq (g := 0b0101) none none none none false (by decide) (by simp) (by simp)⟩
  exact C116_root_disagrees 2 4 1 [2] none 4 L hL (by simp) (by simp)

/-- C116: every determinant of the projection space of the script is the ground determinant or has one of the orders of excitation that the
script prints. -/
theorem C116_orders (nelec nspin : ℕ) (p : List ℕ) (h : p.Nodup ∧ 0 ∉ p) (L : List ℕ)
    (hL : SdList.sdList nelec nspin none (printedOrders (some p)).2 none none false = .ok L) :
    ∃ g, Slater.ground nelec nspin = .ok g ∧ ∀ x ∈ L, x = g ∨ excLevel g x ∈ (printedOrders (some p)).1 := by
  obtain ⟨g, hg, -, hx, -⟩ := C14_sd_list nelec nspin (some p) none none false L hL (by simpa using h)
  refine ⟨g, hg, fun x hm => ?_⟩
  rcases ((hx x).1 hm).2.2.2 with e | e
  · exact .inl e
  · exact .inr (e p rfl)

/-- C116 (disagreement): without orders of excitation the script prints `[1, 2]`, but the projection space has all orders, such as the third. -/
theorem C116_orders_disagree : ∃ (g : ℕ) (L : List ℕ), Slater.ground 3 6 = .ok g ∧
    SdList.sdList 3 6 none (printedOrders none).2 none none false = .ok L ∧ ∃ x ∈ L, x ≠ g ∧ excLevel g x ∉ (printedOrders none).1 := by
  have hg : Slater.ground 3 6 = .ok 0b001011 := by decide
  have hL := sdList_eq none none none none false hg (by simp) (by simp)
  obtain ⟨g, hg', -, hx, -⟩ := C14_sd_list 3 6 none none none false _ hL (by simp)
  have e : g = 0b001011 := by rw [hg] at hg'; injection hg' with h; exact h.symm
  subst e
  refine ⟨_, _, hg, hL, 0b110100, (hx _).2 ⟨by decide, by decide +kernel, by simp [Wanted], .inr (by simp)⟩, by decide, by decide +kernel⟩

/-- C116: a script of gaussian replaces the file; (disagreement) a script of pyscf is put after the file, so that after two calls of `make_script`
with one name the file has two calculations. -/
theorem C116_file (before a b : List Stmt) :
    writtenFile false (writtenFile false before a) b = b ∧ writtenFile true (writtenFile true before a) b = before ++ a ++ b := by
  simp [writtenFile]

/-! ## The command line -/

/-- a list of numbers as python prints it, without the brackets -/
def listText : List ℕ → List Char
  | [] => []
  | [n] => Text.pyStr n
  | n :: r => Text.pyStr n ++ ',' :: ' ' :: listText r

theorem digit_of_mem {n : ℕ} {c : Char} (h : c ∈ Text.pyStr n) : c.isDigit = true :=
  Nat.isDigit_of_mem_toDigits (b := 10) (by decide) (by decide) h

theorem dropWhile_head {p : Char → Bool} {l : List Char} (h : ∀ c, l.head? = some c → p c = false) : l.dropWhile p = l := by
  cases l with
  | nil => rfl
  | cons c r => simp [List.dropWhile, h c rfl]

theorem stripChars_eq {chars l : List Char} (h1 : ∀ c, l.head? = some c → chars.contains c = false)
    (h2 : ∀ c, l.getLast? = some c → chars.contains c = false) : stripChars chars l = l := by
  rw [stripChars, dropWhile_head h1, dropWhile_head (l := l.reverse) (by simpa using h2), List.reverse_reverse]

theorem stripChars_cons {chars l : List Char} {c : Char} (h : chars.contains c = true) : stripChars chars (c :: l) = stripChars chars l := by
  rw [stripChars, List.dropWhile_cons_of_pos h, stripChars]

theorem stripChars_concat {chars l : List Char} {c : Char} (h : chars.contains c = true) (hl : ∃ x ∈ l, chars.contains x = false) :
    stripChars chars (l ++ [c]) = stripChars chars l := by
  have : (l ++ [c]).dropWhile (fun c => chars.contains c) = l.dropWhile (fun c => chars.contains c) ++ [c] := by
    rw [List.dropWhile_append]
    rw [if_neg]
    intro h0
    obtain ⟨x, hx, hc⟩ := hl
    have h0' := List.isEmpty_iff.1 h0
    have hm : ∀ m : List Char, m.dropWhile (fun c => chars.contains c) = [] → ∀ y ∈ m, chars.contains y = true := by
      intro m
      induction m with
      | nil => simp
      | cons a m ih =>
        intro e y hy
        by_cases ha : chars.contains a = true
        · rw [List.dropWhile_cons_of_pos ha] at e
          rcases List.mem_cons.1 hy with rfl | hy
          · exact ha
          · exact ih e y hy
        · rw [List.dropWhile_cons_of_neg ha] at e; cases e
    rw [hm l h0' x hx] at hc; cases hc
  rw [stripChars, this, List.reverse_append, List.reverse_singleton, List.singleton_append, List.dropWhile_cons_of_pos h, stripChars]

theorem strip_digits {chars : List Char} (hc : ∀ c : Char, c.isDigit = true → chars.contains c = false) (n : ℕ) :
    stripChars chars (Text.pyStr n) = Text.pyStr n :=
  stripChars_eq (fun c h => hc c (digit_of_mem (List.mem_of_mem_head? h))) fun c h => hc c (digit_of_mem (List.mem_of_mem_getLast? h))

theorem listText_mem {l : List ℕ} {c : Char} (h : c ∈ listText l) : c.isDigit = true ∨ c = ',' ∨ c = ' ' := by
  induction l with
  | nil => simp [listText] at h
  | cons n r ih =>
    cases r with
    | nil => exact .inl (digit_of_mem h)
    | cons m r =>
      simp only [listText, List.mem_append, List.mem_cons] at h
      rcases h with h | h | h | h
      · exact .inl (digit_of_mem h)
      · exact .inr (.inl h)
      · exact .inr (.inr h)
      · exact ih h

theorem splitOn_listText (l : List ℕ) (h : l ≠ []) : ∃ w ws, (listText l).splitOn ',' = w :: ws ∧
    (w :: ws).map (stripChars [' ']) = l.map Text.pyStr := by
  have hd : ∀ c : Char, c.isDigit = true → [' '].contains c = false := by
    intro c hc
    have : c ≠ ' ' := by rintro rfl; revert hc; decide
    simpa using this
  have hcm : ∀ (n : ℕ) (c : Char), c ∈ Text.pyStr n → (c == ',') = false := by
    intro n c hc
    have : c ≠ ',' := by rintro rfl; have := digit_of_mem hc; revert this; decide
    simpa using this
  induction l with
  | nil => exact absurd rfl h
  | cons n r ih =>
    cases r with
    | nil =>
      refine ⟨Text.pyStr n, [], ?_, by simp [strip_digits hd]⟩
      rw [listText, List.splitOn_eq_splitOnP]
      exact List.splitOnP_eq_singleton fun c hc => hcm n c hc
    | cons m r =>
      obtain ⟨w, ws, e1, e2⟩ := ih (by simp)
      refine ⟨Text.pyStr n, (' ' :: w) :: ws, ?_, ?_⟩
      · rw [show listText (n :: m :: r) = Text.pyStr n ++ ',' :: ' ' :: listText (m :: r) from rfl, List.splitOn_eq_splitOnP,
          List.splitOnP_append_cons_of_forall_mem (hcm n) _ (by simp)]
        rw [List.splitOn_eq_splitOnP] at e1
        rw [List.splitOnP_cons_eq_if_modifyHead, e1]
        simp
      · simp only [List.map_cons, strip_digits hd] at e2 ⊢
        rw [stripChars_cons (by simp), ← e2]

theorem mapM_map_ok {α β γ : Type} (f : α → β) (g : β → Except PyErr γ) (l : List α) : (l.map f).mapM g = l.mapM fun x => g (f x) := by
  induction l with
  | nil => rfl
  | cons a l ih => simp only [List.map_cons, List.mapM_cons, ih]

/-- C116: the orders of excitation on the command line can be given as python prints a list (at least one order). -/
theorem C116_cli (l : List ℕ) (h : l ≠ []) : cliFanciOrders ('[' :: (listText l ++ [']'])) = .ok l ∧ cliFanciOrders (listText l) = .ok l := by
  have hb : ∀ c ∈ listText l, ['[', ']'].contains c = false := by
    intro c hc
    rcases listText_mem hc with hd | rfl | rfl
    · have h1 : c ≠ '[' := by rintro rfl; revert hd; decide
      have h2 : c ≠ ']' := by rintro rfl; revert hd; decide
      simp [h1, h2]
    · decide
    · decide
  have hne : listText l ≠ [] := by
    obtain ⟨n, r, rfl⟩ := List.exists_cons_of_ne_nil h
    cases r with
    | nil => exact Text.pyStr_ne_nil n
    | cons m r => simp [listText]
  have hs : stripChars ['[', ']'] (listText l) = listText l :=
    stripChars_eq (fun c hc => hb c (List.mem_of_mem_head? hc)) fun c hc => hb c (List.mem_of_mem_getLast? hc)
  obtain ⟨w, ws, e1, e2⟩ := splitOn_listText l h
  have key : ((listText l).splitOn ',').mapM (fun w => Text.parseInt 10 (stripChars [' '] w)) = .ok l := by
    rw [e1, ← mapM_map_ok (stripChars [' ']) (Text.parseInt 10), e2, Text.mapM_parseInt_pyStr]
  constructor
  · rw [cliFanciOrders, stripChars_cons (by decide), stripChars_concat (by decide), hs, key]
    obtain ⟨c, r, e⟩ := List.exists_cons_of_ne_nil hne
    exact ⟨c, by simp [e], hb c (by simp [e])⟩
  · rw [cliFanciOrders, hs, key]

example : cliFanciOrders "[1, 2]".toList = .ok [1, 2] := (C116_cli [1, 2] (by simp)).1

theorem mapM_error {α β : Type} {f : α → Except PyErr β} {e : PyErr} {l : List α} {a : α} (ha : a ∈ l) (hf : f a = .error e)
    (hall : ∀ b ∈ l, ∀ e', f b = .error e' → e' = e) : l.mapM f = .error e := by
  induction l with
  | nil => simp at ha
  | cons b l ih =>
    rw [List.mapM_cons]
    rcases hb : f b with e' | x
    · rw [hall b (by simp) e' hb]; rfl
    · rcases List.mem_cons.1 ha with rfl | ha
      · rw [hf] at hb; cases hb
      · simp only [bind, Except.bind, ih ha fun c hc => hall c (by simp [hc])]

theorem parseInt_errors {s : List Char} {e : PyErr} (h : Text.parseInt 10 s = .error e) : e = .valueError := by
  rw [Text.parseInt] at h
  split_ifs at h <;> cases h <;> rfl

theorem parseInt_not_digit {s : List Char} {c : Char} (h : c ∈ s) (hc : c.isDigit = false) : Text.parseInt 10 s = .error .valueError := by
  rw [Text.parseInt]
  split_ifs with h1 h2
  · rfl
  · rw [List.all_eq_true] at h2
    have := h2 c h
    rw [hc] at this; cases this
  · rfl

theorem mem_stripChars {chars s : List Char} {c : Char} (h : c ∈ s) (hc : chars.contains c = false) : c ∈ stripChars chars s := by
  have key : ∀ l : List Char, c ∈ l → c ∈ l.dropWhile fun c => chars.contains c := by
    intro l hl
    induction l with
    | nil => exact hl
    | cons a l ih =>
      rcases List.mem_cons.1 hl with rfl | hl
      · rw [List.dropWhile_cons_of_neg (by simpa using hc)]; simp
      · rw [List.dropWhile_cons]
        split_ifs
        · exact ih hl
        · exact List.mem_cons_of_mem _ hl
  rw [stripChars, List.mem_reverse]
  exact key _ (List.mem_reverse.2 (key _ h))

theorem exists_mem_splitOn {s : List Char} {c : Char} (h : c ∈ s) (hc : c ≠ ',') : ∃ w ∈ s.splitOn ',', c ∈ w := by
  rw [List.splitOn_eq_splitOnP]
  induction s with
  | nil => simp at h
  | cons a s ih =>
    rw [List.splitOnP_cons_eq_if_modifyHead]
    rcases List.mem_cons.1 h with rfl | h
    · rw [if_neg (by simpa using hc)]
      obtain ⟨w, ws, e⟩ := List.exists_cons_of_ne_nil (List.splitOnP_ne_nil (fun x => x == ',') s)
      exact ⟨c :: w, by simp [e], by simp⟩
    · obtain ⟨w, hw, hcw⟩ := ih h
      split_ifs
      · exact ⟨w, List.mem_cons_of_mem _ hw, hcw⟩
      · obtain ⟨v, vs, e⟩ := List.exists_cons_of_ne_nil (List.splitOnP_ne_nil (fun x => x == ',') s)
        rw [e] at hw ⊢
        rcases List.mem_cons.1 hw with rfl | hw
        · exact ⟨a :: w, by simp, by simp [hcw]⟩
        · exact ⟨w, by simp [hw], hcw⟩

/-- C116 (disagreement): the form that the help of the command line gives, `(1, 2)`, raises `ValueError`, as does every text with a parenthesis;
no orders, `[]`, raise it too.  The scripts without pyci do not split the text: every list with a bracket, comma or space raises `ValueError`, and
`12` means the orders 1 and 2. -/
theorem C116_cli_disagrees (text : List Char) :
    ('(' ∈ text → cliFanciOrders text = .error .valueError) ∧ cliFanciOrders "[]".toList = .error .valueError ∧
    ((∃ c ∈ text, c ∈ ['[', ']', '(', ')', ',', ' ']) → cliOrders text = .error .valueError) ∧ cliOrders "12".toList = .ok [1, 2] := by
  refine ⟨fun h => ?_, by decide +kernel, fun ⟨c, h1, h2⟩ => ?_, by decide +kernel⟩
  · obtain ⟨w, hw, hc⟩ := exists_mem_splitOn (mem_stripChars (chars := ['[', ']']) h (by decide)) (by decide)
    exact mapM_error hw (parseInt_not_digit (mem_stripChars hc (by decide)) (by decide)) fun b _ e he => parseInt_errors he
  · refine mapM_error h1 (parseInt_not_digit (List.mem_singleton.2 rfl) ?_) fun b _ e he => parseInt_errors he
    simp at h2
    rcases h2 with rfl | rfl | rfl | rfl | rfl | rfl <;> decide

end Fanpy.Props
