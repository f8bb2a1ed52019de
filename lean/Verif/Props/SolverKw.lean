import Verif.Model.SolverKw
import Mathlib.Tactic.Tauto
import Mathlib.Tactic.NormNum
import Mathlib.Tactic.Linarith

/-!
# C126: keyword arguments of the solvers
-/

namespace Fanpy.Props

open Fanpy SolverKw

/-- the value that a solver uses for an argument that is not given -/
def C126_default : Solver → String → Option Val
  | .minimize true, k => if k = "method" then some (.str "BFGS") else if k = "jac" then some .gradient
      else if k = "callback" then some .callback else none
  | .minimize false, k => if k = "method" then some (.str "Powell") else if k = "callback" then some .callback else none
  | .cma _, k => if k = "sigma0" then some (.num (1 / 100)) else none
  | .root, k => if k = "method" then some (.str "hybr") else if k = "jac" then some .jacobian else none
  | .leastSquares n, k => if k = "verbose" then some (.num 2) else if k ∈ ["xtol", "ftol", "gtol"] then some (.num (1 / 10 ^ 15))
      else if k = "max_nfev" then some (.num (1000 * n)) else if k = "jac" then some .jacobian else none

/-- the value that a solver uses for an entry of `options` that is not given -/
def C126_option : Solver → String → Option Val
  | .minimize true, k => if k = "gtol" then some (.num (1 / 10 ^ 8)) else none
  | .minimize false, k => if k ∈ ["xtol", "ftol"] then some (.num (1 / 10 ^ 9)) else none
  | .cma _, k => if k = "ftarget" then some .none else if k = "timeout" then some .inf
      else if k = "tolfun" then some (.num (1 / 10 ^ 11)) else if k = "verb_log" then some (.num 0) else none
  | .root, k => if k = "xtol" then some (.num (1 / 10 ^ 9)) else none
  | .leastSquares _, _ => none

/-- does the solver use `options`? -/
def C126_usesOptions : Solver → Bool
  | .leastSquares _ => false
  | _ => true

/-- does the solver leave `step_print` as it was? -/
def C126_keepsPrint : Solver → Bool
  | .minimize _ => true
  | _ => false

/-- the entry `k` of the dictionary at address `r` -/
def C126_entry (s : St) (r : ℕ) (k : String) : Option Val := (s.heap[r]?).bind fun d => d.lookup k

private theorem lookup_append (d e : Dict) (k : String) : (d ++ e).lookup k = (d.lookup k).or (e.lookup k) := by
  induction d with
  | nil => simp
  | cons p d ih =>
    obtain ⟨a, v⟩ := p
    by_cases h : k == a
    · simp [List.lookup, h]
    · simp [List.lookup, h, ih]

private theorem lookup_setdefault (d : Dict) (kv : String × Val) (k : String) :
    (setdefault d kv).lookup k = (d.lookup k).or (if k = kv.1 then some kv.2 else none) := by
  obtain ⟨a, v⟩ := kv
  unfold setdefault
  by_cases h : (d.lookup a).isSome
  · rw [if_pos h]
    by_cases hk : k = a
    · subst hk
      obtain ⟨x, hx⟩ := Option.isSome_iff_exists.1 h
      simp [hx]
    · simp [hk]
  · rw [if_neg h, lookup_append]
    congr 1
    by_cases hk : k = a
    · subst hk; simp [List.lookup]
    · have : (k == a) = false := by simpa using hk
      simp [List.lookup, this, hk]

private theorem lookup_setdefaults (l : Dict) : ∀ (d : Dict) (k : String), (setdefaults d l).lookup k = (d.lookup k).or (l.lookup k) := by
  induction l with
  | nil => intro d k; simp [setdefaults]
  | cons p l ih =>
    intro d k
    have h : setdefaults d (p :: l) = setdefaults (setdefault d p) l := rfl
    rw [h, ih, lookup_setdefault]
    obtain ⟨a, v⟩ := p
    by_cases hk : k = a
    · subst hk; cases d.lookup k <;> simp [List.lookup]
    · have : (k == a) = false := by simpa using hk
      simp [List.lookup, this, hk]

private theorem entry_modify (s : St) (r : ℕ) (l : Dict) (u v : Bool) (hr : r < s.heap.length) (k : String) :
    C126_entry ⟨s.heap.modify r (fun d => setdefaults d l), u, v⟩ r k = (C126_entry s r k).or (l.lookup k) := by
  unfold C126_entry
  simp [List.getElem?_modify, List.getElem?_eq_getElem hr, lookup_setdefaults]

private theorem call_ok {names : List String} {n : ℕ} {kw kw' : Dict} (h : call names n kw = .ok kw') : kw' = kw := by
  unfold call at h
  split at h
  · simp at h
  · exact (Except.ok.inj h).symm

private theorem lookup_mem {d : Dict} {k : String} : (d.lookup k).isSome ↔ ∃ v, (k, v) ∈ d := by
  induction d with
  | nil => simp
  | cons p d ih =>
    obtain ⟨a, v⟩ := p
    by_cases h : k = a
    · subst h; simp [List.lookup]
    · have h' : (k == a) = false := by simpa using h
      simp [List.lookup, h', ih, h]

private theorem call_eq (names : List String) (n : ℕ) (kw : Dict) :
    ((∀ k, (kw.lookup k).isSome → k ∈ names ∧ k ∉ names.take n) → call names n kw = .ok kw) ∧
    (¬ (∀ k, (kw.lookup k).isSome → k ∈ names ∧ k ∉ names.take n) → call names n kw = .error .typeError) := by
  constructor
  · intro h
    unfold call
    rw [if_neg]
    intro ha
    obtain ⟨⟨k, v⟩, hm, hk⟩ := List.any_eq_true.1 ha
    have := h k (lookup_mem.2 ⟨v, hm⟩)
    simp at hk
    tauto
  · intro h
    unfold call
    rw [if_pos]
    by_contra ha
    apply h
    intro k hk
    obtain ⟨v, hm⟩ := lookup_mem.1 hk
    have : ¬ (decide (k ∈ names.take n) || decide (k ∉ names)) = true := fun hh => ha (List.any_eq_true.2 ⟨(k, v), hm, hh⟩)
    simp at this
    tauto

/-- the two statements about `options` -/
private theorem stage (l kw : Dict) (s : St) (hw : ∀ r, kw.lookup "options" = some (.dict r) → r < s.heap.length) :
    (∃ r s', fillOptions l (withOptions kw s).1 (withOptions kw s).2 = (s', .ok ()) ∧
      (kw.lookup "options" = some (.dict r) ∨ kw.lookup "options" = none ∧ r = s.heap.length) ∧
      (∀ k, (withOptions kw s).1.lookup k = if k = "options" then some (.dict r) else kw.lookup k) ∧
      (∀ k, C126_entry s' r k = (C126_entry s r k).or (l.lookup k)) ∧ (∀ r', r' ≠ r → s'.heap[r']? = s.heap[r']?) ∧
      s'.updatePrev = s.updatePrev ∧ s'.stepPrint = s.stepPrint ∧ s.heap.length ≤ s'.heap.length) ∨
    (∃ v, kw.lookup "options" = some v ∧ (∀ r, v ≠ .dict r) ∧
      fillOptions l (withOptions kw s).1 (withOptions kw s).2 = (s, .error .attributeError)) := by
  rcases ho : kw.lookup "options" with _ | v
  · refine Or.inl ⟨s.heap.length, ⟨(s.heap ++ [[]]).modify s.heap.length (fun d => setdefaults d l), s.updatePrev, s.stepPrint⟩, ?_, Or.inr ⟨rfl, rfl⟩, ?_, ?_, ?_, rfl, rfl, by simp⟩
    · simp only [withOptions, ho, fillOptions, lookup_append]
      simp [List.lookup]
    · intro k
      simp only [withOptions, ho, lookup_append]
      by_cases hk : k = "options"
      · subst hk; simp [ho, List.lookup]
      · have : (k == "options") = false := by simpa using hk
        simp [List.lookup, this, hk]
    · intro k
      have := entry_modify ⟨s.heap ++ [[]], s.updatePrev, s.stepPrint⟩ s.heap.length l s.updatePrev s.stepPrint (by simp) k
      rw [this]
      simp [C126_entry, List.lookup]
    · intro r' hr'
      simp only [List.getElem?_modify]
      rcases lt_trichotomy r' s.heap.length with h | h | h
      · simp [h, Ne.symm hr', List.getElem?_append_left h]
      · exact absurd h hr'
      · simp [Ne.symm hr', List.getElem?_eq_none (show s.heap.length ≤ r' by omega), List.getElem?_append_right (show s.heap.length ≤ r' by omega)]
        omega
  · by_cases hv : ∃ r, v = .dict r
    · obtain ⟨r, rfl⟩ := hv
      refine Or.inl ⟨r, ⟨s.heap.modify r (fun d => setdefaults d l), s.updatePrev, s.stepPrint⟩, ?_, Or.inl rfl, ?_, ?_, ?_, rfl, rfl, by simp⟩
      · simp only [withOptions, ho, fillOptions]
      · intro k
        simp only [withOptions, ho]
        by_cases hk : k = "options"
        · subst hk; simp [ho]
        · simp [hk]
      · intro k
        exact entry_modify s r l s.updatePrev s.stepPrint (hw r ho) k
      · intro r' hr'
        simp [List.getElem?_modify, Ne.symm hr']
    · refine Or.inr ⟨v, rfl, fun r hr => hv ⟨r, hr⟩, ?_⟩
      simp only [withOptions, ho, fillOptions]
      cases v <;> first | rfl | exact absurd ⟨_, rfl⟩ hv

/-- is the argument `options` missing or a dictionary? -/
def C126_optionsFine (kw : Dict) : Prop := kw.lookup "options" = none ∨ ∃ r, kw.lookup "options" = some (.dict r)

/-- the arguments that the optimizer is given by name -/
def C126_passes (solver : Solver) (kw : Dict) (k : String) : Prop :=
  (kw.lookup k).isSome ∨ (C126_default solver k).isSome ∨ (C126_usesOptions solver = true ∧ k = "options")

private theorem default_lookup (g : Bool) (kw : Dict) (k : String) :
    ((if g then setdefaults kw [("method", .str "BFGS"), ("jac", .gradient)] else setdefaults kw [("method", .str "Powell")]).lookup k).or
      (if k = "callback" then some .callback else none) = (kw.lookup k).or (C126_default (.minimize g) k) := by
  cases g
  · simp only [Bool.false_eq_true, if_false, lookup_setdefaults, C126_default, Option.or_assoc]
    congr 1
    by_cases h : k = "method"
    · subst h; simp [List.lookup]
    · have : (k == "method") = false := by simpa using h
      simp [List.lookup, this, h]
  · simp only [if_true, lookup_setdefaults, C126_default, Option.or_assoc]
    congr 1
    by_cases h : k = "method"
    · subst h; simp [List.lookup]
    · have h' : (k == "method") = false := by simpa using h
      by_cases h2 : k = "jac"
      · subst h2; simp [List.lookup]
      · have h2' : (k == "jac") = false := by simpa using h2
        simp [List.lookup, h', h2', h, h2]

private theorem cma_default (n : ℕ) (kw : Dict) (k : String) :
    (setdefaults kw [("sigma0", .num (1 / 100))]).lookup k = (kw.lookup k).or (C126_default (.cma n) k) := by
  rw [lookup_setdefaults]
  congr 1
  by_cases h : k = "sigma0"
  · subst h; simp [List.lookup, C126_default]
  · have : (k == "sigma0") = false := by simpa using h
    simp [List.lookup, this, h, C126_default]

private theorem root_default (kw : Dict) (k : String) :
    ((setdefaults kw [("method", .str "hybr")]).lookup k).or (if k = "jac" then some .jacobian else none) =
      (kw.lookup k).or (C126_default .root k) := by
  rw [lookup_setdefaults, Option.or_assoc]
  congr 1
  by_cases h : k = "method"
  · subst h; simp [List.lookup, C126_default]
  · have : (k == "method") = false := by simpa using h
    simp [List.lookup, this, h, C126_default]

private theorem least_default (n : ℕ) (kw : Dict) (k : String) (hk : k ≠ "verbose") :
    (setdefault (setdefaults kw [("xtol", .num (1 / 10 ^ 15)), ("ftol", .num (1 / 10 ^ 15)), ("gtol", .num (1 / 10 ^ 15)),
      ("max_nfev", .num (1000 * n))]) ("jac", .jacobian)).lookup k = (kw.lookup k).or (C126_default (.leastSquares n) k) := by
  rw [lookup_setdefault, lookup_setdefaults, Option.or_assoc]
  congr 1
  by_cases h1 : k = "xtol"
  · subst h1; simp [List.lookup, C126_default]
  have h1' : (k == "xtol") = false := by simpa using h1
  by_cases h2 : k = "ftol"
  · subst h2; simp [List.lookup, C126_default]
  have h2' : (k == "ftol") = false := by simpa using h2
  by_cases h3 : k = "gtol"
  · subst h3; simp [List.lookup, C126_default]
  have h3' : (k == "gtol") = false := by simpa using h3
  by_cases h4 : k = "max_nfev"
  · subst h4; simp [List.lookup, C126_default]
  have h4' : (k == "max_nfev") = false := by simpa using h4
  simp [List.lookup, h1', h2', h3', h4', h1, h2, h3, h4, hk, C126_default]

private theorem option_lookup (solver : Solver) (l : Dict)
    (hl : match solver with
      | .minimize true => l = [("gtol", .num (1 / 10 ^ 8))]
      | .minimize false => l = [("xtol", .num (1 / 10 ^ 9)), ("ftol", .num (1 / 10 ^ 9))]
      | .cma _ => l = [("ftarget", .none), ("timeout", .inf), ("tolfun", .num (1 / 10 ^ 11)), ("verb_log", .num 0)]
      | .root => l = [("xtol", .num (1 / 10 ^ 9))]
      | .leastSquares _ => l = []) (k : String) : l.lookup k = C126_option solver k := by
  rcases solver with g | n | _ | n
  · cases g <;> subst hl
    · by_cases h1 : k = "xtol"
      · subst h1; simp [List.lookup, C126_option]
      have h1' : (k == "xtol") = false := by simpa using h1
      by_cases h2 : k = "ftol"
      · subst h2; simp [List.lookup, C126_option]
      have h2' : (k == "ftol") = false := by simpa using h2
      simp [List.lookup, h1, h1', h2, h2', C126_option]
    · by_cases h1 : k = "gtol"
      · subst h1; simp [List.lookup, C126_option]
      have h1' : (k == "gtol") = false := by simpa using h1
      simp [List.lookup, h1, h1', C126_option]
  · subst hl
    by_cases h1 : k = "ftarget"
    · subst h1; simp [List.lookup, C126_option]
    have h1' : (k == "ftarget") = false := by simpa using h1
    by_cases h2 : k = "timeout"
    · subst h2; simp [List.lookup, C126_option]
    have h2' : (k == "timeout") = false := by simpa using h2
    by_cases h3 : k = "tolfun"
    · subst h3; simp [List.lookup, C126_option]
    have h3' : (k == "tolfun") = false := by simpa using h3
    by_cases h4 : k = "verb_log"
    · subst h4; simp [List.lookup, C126_option]
    have h4' : (k == "verb_log") = false := by simpa using h4
    simp [List.lookup, h1, h1', h2, h2', h3, h3', h4, h4', C126_option]
  · subst hl
    by_cases h1 : k = "xtol"
    · subst h1; simp [List.lookup, C126_option]
    have h1' : (k == "xtol") = false := by simpa using h1
    simp [List.lookup, h1, h1', C126_option]
  · subst hl
    simp [List.lookup, C126_option]

/-- what happens before the optimizer is called: the arguments by name `kw'`, and the final state -/
private theorem run_form (solver : Solver) (names : List String) (kw : Dict) (s : St)
    (hw : ∀ r, kw.lookup "options" = some (.dict r) → r < s.heap.length) (hu : C126_usesOptions solver = true) :
    (∃ r kw', ((solver.run names kw s).2 = if solver = .cma 1 then .error .valueError else call names 2 kw') ∧
      (kw.lookup "options" = some (.dict r) ∨ kw.lookup "options" = none ∧ r = s.heap.length) ∧
      (∀ k, kw'.lookup k = if k = "options" then some (.dict r) else (kw.lookup k).or (C126_default solver k)) ∧
      (∀ k, C126_entry (solver.run names kw s).1 r k = (C126_entry s r k).or (C126_option solver k)) ∧
      (∀ r', r' ≠ r → (solver.run names kw s).1.heap[r']? = s.heap[r']?) ∧ (solver.run names kw s).1.updatePrev = false ∧
      (solver.run names kw s).1.stepPrint = (C126_keepsPrint solver && s.stepPrint) ∧
      s.heap.length ≤ (solver.run names kw s).1.heap.length) ∨
    (∃ v, kw.lookup "options" = some v ∧ (∀ r, v ≠ .dict r) ∧ (solver.run names kw s).2 = .error .attributeError ∧
      (solver.run names kw s).1.heap = s.heap) := by
  rcases solver with g | n | _ | n
  · have hopt : ∀ g : Bool, (if g then setdefaults kw [("method", .str "BFGS"), ("jac", .gradient)]
        else setdefaults kw [("method", .str "Powell")] : Dict).lookup "options" = kw.lookup "options" := by
      intro g; cases g <;> simp [lookup_setdefaults, List.lookup]
    rcases stage (if g then [("gtol", .num (1 / 10 ^ 8))] else [("xtol", .num (1 / 10 ^ 9)), ("ftol", .num (1 / 10 ^ 9))])
      (if g then setdefaults kw [("method", .str "BFGS"), ("jac", .gradient)] else setdefaults kw [("method", .str "Powell")]) s
      (by rw [hopt]; exact hw) with ⟨r, s', h, ho, hk, he, hr, h1, h2, hlen⟩ | ⟨v, ho, hv, h⟩
    · rw [hopt] at ho
      have hrun : minimizeKw names g kw s = ({ s' with updatePrev := false }, call names 2 (setdefault (withOptions
          (if g then setdefaults kw [("method", .str "BFGS"), ("jac", .gradient)] else setdefaults kw [("method", .str "Powell")]) s).1
          ("callback", .callback))) := by
        simp only [minimizeKw, h]
      simp only [Solver.run, hrun]
      refine Or.inl ⟨r, _, (if_neg (by simp)).symm, ho, ?_, ?_, hr, trivial, by simpa [C126_keepsPrint] using h2, hlen⟩
      · intro k
        rw [lookup_setdefault, hk]
        by_cases hko : k = "options"
        · simp [hko]
        · rw [if_neg hko, if_neg hko, default_lookup]
      · intro k
        rw [← option_lookup (.minimize g) (if g then [("gtol", .num (1 / 10 ^ 8))] else [("xtol", .num (1 / 10 ^ 9)), ("ftol", .num (1 / 10 ^ 9))])
          (by cases g <;> rfl)]
        exact he k
    · rw [hopt] at ho
      refine Or.inr ⟨v, ho, hv, ?_⟩
      simp only [Solver.run, minimizeKw, h]
      trivial
  · have hopt : (setdefaults kw [("sigma0", .num (1 / 100))]).lookup "options" = kw.lookup "options" := by
      simp [lookup_setdefaults, List.lookup]
    rcases stage [("ftarget", .none), ("timeout", .inf), ("tolfun", .num (1 / 10 ^ 11)), ("verb_log", .num 0)]
      (setdefaults kw [("sigma0", .num (1 / 100))]) { s with updatePrev := false, stepPrint := false }
      (by rw [hopt]; exact hw) with ⟨r, s', h, ho, hk, he, hr, h1, h2, hlen⟩ | ⟨v, ho, hv, h⟩
    · rw [hopt] at ho
      have hrun : cmaKw names n kw s = (s', if n = 1 then .error .valueError else call names 2 (withOptions
          (setdefaults kw [("sigma0", .num (1 / 100))]) { s with updatePrev := false, stepPrint := false }).1) := by
        simp only [cmaKw, h]
      simp only [Solver.run, hrun]
      refine Or.inl ⟨r, (withOptions
          (setdefaults kw [("sigma0", .num (1 / 100))]) { s with updatePrev := false, stepPrint := false }).1, ?_, ho, ?_, ?_, hr, h1, by simpa [C126_keepsPrint] using h2, hlen⟩
      · by_cases hn : n = 1
        · simp [hn]
        · simp [hn]
      · intro k
        rw [hk]
        by_cases hko : k = "options"
        · simp [hko]
        · rw [if_neg hko, if_neg hko, cma_default n]
      · intro k
        rw [← option_lookup (.cma n) _ rfl]
        exact he k
    · rw [hopt] at ho
      refine Or.inr ⟨v, ho, hv, ?_⟩
      simp only [Solver.run, cmaKw, h]
      trivial
  · have hopt : (setdefaults kw [("method", .str "hybr")]).lookup "options" = kw.lookup "options" := by
      simp [lookup_setdefaults, List.lookup]
    rcases stage [("xtol", .num (1 / 10 ^ 9))] (setdefaults kw [("method", .str "hybr")]) s
      (by rw [hopt]; exact hw) with ⟨r, s', h, ho, hk, he, hr, h1, h2, hlen⟩ | ⟨v, ho, hv, h⟩
    · rw [hopt] at ho
      have hrun : rootKw names kw s = ({ s' with updatePrev := false, stepPrint := false }, call names 2 (setdefault (withOptions
          (setdefaults kw [("method", .str "hybr")]) s).1 ("jac", .jacobian))) := by
        simp only [rootKw, h]
      simp only [Solver.run, hrun]
      refine Or.inl ⟨r, _, (if_neg (by simp)).symm, ho, ?_, ?_, hr, trivial, by simp [C126_keepsPrint], hlen⟩
      · intro k
        rw [lookup_setdefault, hk]
        by_cases hko : k = "options"
        · simp [hko]
        · rw [if_neg hko, if_neg hko, root_default]
      · intro k
        rw [← option_lookup .root _ rfl]
        exact he k
    · rw [hopt] at ho
      refine Or.inr ⟨v, ho, hv, ?_⟩
      simp only [Solver.run, rootKw, h]
      trivial
  · simp [C126_usesOptions] at hu

/-- **C126**: what the optimizers are given by name: the arguments of the caller, and the defaults of the solver for those that are missing.
For `options` the solvers use the dictionary of the caller, or a new one, and put their defaults into it; no other dictionary is changed. -/
theorem C126_solver (solver : Solver) (names : List String) (kw kw' : Dict) (s s' : St)
    (hw : ∀ r, kw.lookup "options" = some (.dict r) → r < s.heap.length) (h : solver.run names kw s = (s', .ok kw')) :
    (∀ k, k ≠ "options" → kw'.lookup k = (kw.lookup k).or (C126_default solver k)) ∧
    (C126_usesOptions solver = true → ∃ r, kw'.lookup "options" = some (.dict r) ∧
      (kw.lookup "options" = some (.dict r) ∨ kw.lookup "options" = none ∧ r = s.heap.length) ∧
      (∀ k, C126_entry s' r k = (C126_entry s r k).or (C126_option solver k)) ∧ (∀ r', r' ≠ r → s'.heap[r']? = s.heap[r']?)) ∧
    (C126_usesOptions solver = false → s'.heap = s.heap ∧ kw'.lookup "options" = kw.lookup "options") ∧
    s'.updatePrev = false ∧ s'.stepPrint = (C126_keepsPrint solver && s.stepPrint) := by
  by_cases hu : C126_usesOptions solver = true
  · rcases run_form solver names kw s hw hu with ⟨r, k2, h2, ho, hk, he, hr, hp, hsp, hlen⟩ | ⟨v, -, -, h2, -⟩
    · rw [h] at h2 he hr hp hsp hlen
      by_cases hc : solver = .cma 1
      · rw [if_pos hc] at h2; simp at h2
      · rw [if_neg hc] at h2
        have := call_ok h2.symm
        subst this
        refine ⟨fun k hko => by rw [hk, if_neg hko], fun _ => ⟨r, by rw [hk, if_pos rfl], ho, he, hr⟩, fun hf => ?_, hp, hsp⟩
        rw [hf] at hu; simp at hu
    · rw [h] at h2; simp at h2
  · rcases solver with g | n | _ | n
    · simp [C126_usesOptions] at hu
    · simp [C126_usesOptions] at hu
    · simp [C126_usesOptions] at hu
    · simp only [Solver.run, leastSquaresKw, Prod.mk.injEq] at h
      obtain ⟨rfl, h⟩ := h
      split at h
      · simp at h
      · rename_i hv
        have := call_ok h
        subst this
        refine ⟨fun k hko => ?_, fun hf => absurd hf hu, fun _ => ⟨rfl, ?_⟩, rfl, rfl⟩
        · by_cases hk : k = "verbose"
          · subst hk
            have hn : kw.lookup "verbose" = none := by
              rw [lookup_setdefault, lookup_setdefaults] at hv
              cases hx : kw.lookup "verbose" with
              | none => rfl
              | some x => rw [hx] at hv; simp at hv
            rw [hn]; simp [List.lookup, C126_default]
          · have hk' : (k == "verbose") = false := by simpa using hk
            rw [← least_default n kw k hk]
            simp [List.lookup, hk']
        · have := least_default n kw "options" (by decide)
          simp only [List.lookup]
          rw [show (("options" : String) == "verbose") = false from by decide]
          simpa [C126_default] using this

/-- **C126**, which calls raise: `options` that is not a dictionary (also `None`) raises `AttributeError` and leaves the dictionaries as they
were; `cma` with one active parameter raises `ValueError`; otherwise `TypeError` is raised exactly if one of the arguments that are passed on
is no parameter of the optimizer or one of its first two, or if `verbose` is given to `least_squares`. -/
theorem C126_errors (solver : Solver) (names : List String) (kw : Dict) (s : St)
    (hw : ∀ r, kw.lookup "options" = some (.dict r) → r < s.heap.length) :
    (C126_usesOptions solver = true → ¬ C126_optionsFine kw →
      (solver.run names kw s).2 = .error .attributeError ∧ (solver.run names kw s).1.heap = s.heap) ∧
    (C126_usesOptions solver = true → C126_optionsFine kw → solver = .cma 1 → (solver.run names kw s).2 = .error .valueError) ∧
    ((C126_usesOptions solver = true → C126_optionsFine kw) → solver ≠ .cma 1 →
      (((∀ k, C126_passes solver kw k → k ∈ names ∧ k ∉ names.take 2) ∧ (∀ n, solver = .leastSquares n → kw.lookup "verbose" = none) →
        ∃ kw', (solver.run names kw s).2 = .ok kw') ∧
      (¬ ((∀ k, C126_passes solver kw k → k ∈ names ∧ k ∉ names.take 2) ∧ (∀ n, solver = .leastSquares n → kw.lookup "verbose" = none)) →
        (solver.run names kw s).2 = .error .typeError))) := by
  by_cases hu : C126_usesOptions solver = true
  · rcases run_form solver names kw s hw hu with ⟨r, k2, h2, ho, hk, he, hr, hp, hsp, hlen⟩ | ⟨v, ho, hv, h2, h3⟩
    · have hfine : C126_optionsFine kw := by
        rcases ho with ho | ⟨ho, -⟩
        · exact Or.inr ⟨r, ho⟩
        · exact Or.inl ho
      have hpass : ∀ k, (k2.lookup k).isSome ↔ C126_passes solver kw k := by
        intro k
        rw [hk, C126_passes]
        by_cases hko : k = "options"
        · simp [hko, hu]
        · simp [hko]
      have hnl : ∀ n, solver = .leastSquares n → kw.lookup "verbose" = none := by
        rintro n rfl; simp [C126_usesOptions] at hu
      refine ⟨fun _ hn => absurd hfine hn, fun _ _ hc => by rw [h2, if_pos hc], fun _ hc => ?_⟩
      rw [h2, if_neg hc]
      refine ⟨fun hg => ⟨k2, (call_eq names 2 k2).1 fun k hks => hg.1 k ((hpass k).1 hks)⟩, fun hg => ?_⟩
      exact (call_eq names 2 k2).2 fun hall => hg ⟨fun k hks => hall k ((hpass k).2 hks), hnl⟩
    · have hn : ¬ C126_optionsFine kw := by
        rintro (h | ⟨r, h⟩)
        · rw [ho] at h; simp at h
        · rw [ho] at h; exact hv r (Option.some.inj h)
      exact ⟨fun _ _ => ⟨h2, h3⟩, fun _ hf => absurd hf hn, fun hf => absurd (hf hu) hn⟩
  · refine ⟨fun h => absurd h hu, fun h => absurd h hu, fun _ _ => ?_⟩
    rcases solver with g | n | _ | n
    · simp [C126_usesOptions] at hu
    · simp [C126_usesOptions] at hu
    · simp [C126_usesOptions] at hu
    · have hverb : ∀ d : Dict, (setdefault (setdefaults d [("xtol", .num (1 / 10 ^ 15)), ("ftol", .num (1 / 10 ^ 15)), ("gtol", .num (1 / 10 ^ 15)),
          ("max_nfev", .num (1000 * n))]) ("jac", .jacobian)).lookup "verbose" = d.lookup "verbose" := by
        intro d
        rw [lookup_setdefault, lookup_setdefaults]
        simp [List.lookup]
      by_cases hv : kw.lookup "verbose" = none
      · have hrun : ((Solver.leastSquares n).run names kw s).2 = call names 2 (("verbose", .num 2) :: setdefault (setdefaults kw
            [("xtol", .num (1 / 10 ^ 15)), ("ftol", .num (1 / 10 ^ 15)), ("gtol", .num (1 / 10 ^ 15)),
            ("max_nfev", .num (1000 * n))]) ("jac", .jacobian)) := by
          simp only [Solver.run, leastSquaresKw, hverb, hv]
          simp
        have hpass : ∀ k, (List.lookup k (("verbose", .num 2) :: setdefault (setdefaults kw
            [("xtol", .num (1 / 10 ^ 15)), ("ftol", .num (1 / 10 ^ 15)), ("gtol", .num (1 / 10 ^ 15)),
            ("max_nfev", .num (1000 * n))]) ("jac", .jacobian))).isSome ↔ C126_passes (.leastSquares n) kw k := by
          intro k
          by_cases hk : k = "verbose"
          · subst hk; simp [List.lookup, C126_passes, C126_default]
          · have hk' : (k == "verbose") = false := by simpa using hk
            simp only [List.lookup, hk']
            rw [least_default n kw k hk]
            simp [C126_passes, C126_usesOptions]
        rw [hrun]
        refine ⟨fun hg => ⟨_, (call_eq names 2 _).1 fun k hks => hg.1 k ((hpass k).1 hks)⟩, fun hg => ?_⟩
        exact (call_eq names 2 _).2 fun hall => hg ⟨fun k hks => hall k ((hpass k).2 hks), fun _ _ => hv⟩
      · have hrun : ((Solver.leastSquares n).run names kw s).2 = .error .typeError := by
          simp only [Solver.run, leastSquaresKw, hverb]
          rw [if_pos]
          exact Option.isSome_iff_ne_none.2 hv
        exact ⟨fun hg => absurd (hg.2 n rfl) hv, fun _ => hrun⟩

/-- calls of solvers one after the other with the same dictionary `options` (and any other arguments), whether or not they raise -/
def C126_calls (s : St) (l : List (List String × Solver × Dict)) : St := l.foldl (fun s c => (c.2.1.run c.1 c.2.2 s).1) s

/-- the defaults of all solvers agree where they overlap -/
def C126_all (k : String) : Option Val :=
  if k = "gtol" then some (.num (1 / 10 ^ 8)) else if k = "xtol" then some (.num (1 / 10 ^ 9)) else if k = "ftol" then some (.num (1 / 10 ^ 9))
  else if k = "ftarget" then some .none else if k = "timeout" then some .inf else if k = "tolfun" then some (.num (1 / 10 ^ 11))
  else if k = "verb_log" then some (.num 0) else none

/-- **C126**: a dictionary `options` that is passed to several calls collects the defaults of all of them: afterwards it has the entries of
the caller, and the default for every other entry that one of the solvers called uses. -/
theorem C126_shared (r : ℕ) (l : List (List String × Solver × Dict)) : ∀ (s : St), r < s.heap.length →
    (∀ c ∈ l, c.2.2.lookup "options" = some (.dict r)) → ∀ k,
    C126_entry (C126_calls s l) r k =
      (C126_entry s r k).or (if ∃ c ∈ l, (C126_option c.2.1 k).isSome then C126_all k else none) := by
  have hall : ∀ (solver : Solver) k, (C126_option solver k).isSome → C126_option solver k = C126_all k := by
    intro solver k h
    rcases solver with g | n | _ | n
    · cases g
      · simp only [C126_option] at h ⊢
        split at h
        · rename_i hk
          rw [if_pos hk]
          simp at hk
          rcases hk with rfl | rfl <;> simp [C126_all]
        · simp at h
      · simp only [C126_option] at h ⊢
        split at h
        · rename_i hk
          subst hk; simp [C126_all]
        · simp at h
    · simp only [C126_option] at h ⊢
      split_ifs at h ⊢ with h1 h2 h3 h4 <;> first | (simp at h; done) | (subst_vars; simp [C126_all])
    · simp only [C126_option] at h ⊢
      split at h
      · rename_i hk
        subst hk; simp [C126_all]
      · simp at h
    · simp [C126_option] at h
  induction l with
  | nil => intro s _ _ k; simp [C126_calls]
  | cons c l ih =>
    intro s hr hc k
    have hstep : C126_calls s (c :: l) = C126_calls (c.2.1.run c.1 c.2.2 s).1 l := rfl
    have h1 := hc c List.mem_cons_self
    have key : (∀ k, C126_entry (c.2.1.run c.1 c.2.2 s).1 r k = (C126_entry s r k).or (C126_option c.2.1 k)) ∧
        r < (c.2.1.run c.1 c.2.2 s).1.heap.length := by
      by_cases hu : C126_usesOptions c.2.1 = true
      · obtain ⟨names, solver, kw⟩ := c
        simp only at h1 hu ⊢
        rcases run_form solver names kw s (fun r' hr' => by rw [h1] at hr'; simp at hr'; omega) hu with
          ⟨r', k2, h2, ho, hk, he, hrr, hp, hsp, hlen⟩ | ⟨v, ho, hv, h2, h3⟩
        · have : r' = r := by
            rcases ho with ho | ⟨ho, -⟩
            · rw [h1] at ho; simp at ho; exact ho.symm
            · rw [h1] at ho; simp at ho
          subst this
          exact ⟨he, by omega⟩
        · rw [h1] at ho
          exact absurd (Option.some.inj ho).symm (hv r)
      · obtain ⟨names, solver, kw⟩ := c
        rcases solver with g | n | _ | n
        · simp [C126_usesOptions] at hu
        · simp [C126_usesOptions] at hu
        · simp [C126_usesOptions] at hu
        · refine ⟨fun k => ?_, hr⟩
          simp [Solver.run, leastSquaresKw, C126_entry, C126_option]
    rw [hstep, ih _ key.2 (fun c' hc' => hc c' (List.mem_cons_of_mem _ hc')) k, key.1 k, Option.or_assoc]
    congr 1
    by_cases hs : (C126_option c.2.1 k).isSome
    · have hex : ∃ c' ∈ c :: l, (C126_option c'.2.1 k).isSome := ⟨c, List.mem_cons_self, hs⟩
      rw [if_pos hex, hall _ _ hs]
      rw [hall _ _ hs] at hs
      cases hx : C126_all k with
      | none => rw [hx] at hs; simp at hs
      | some x => simp
    · have hn : C126_option c.2.1 k = none := by simpa using hs
      have hiff : (∃ c' ∈ c :: l, (C126_option c'.2.1 k).isSome = true) ↔ ∃ c' ∈ l, (C126_option c'.2.1 k).isSome = true := by
        constructor
        · rintro ⟨c', hm, hc'⟩
          rcases List.mem_cons.1 hm with rfl | hm
          · exact absurd hc' hs
          · exact ⟨c', hm, hc'⟩
        · rintro ⟨c', hm, hc'⟩
          exact ⟨c', List.mem_cons_of_mem _ hm, hc'⟩
      rw [hn]
      simp only [hiff, Option.none_or]

/-- **C126**: so what a call passes to the optimizer depends on earlier calls.  After `minimize(objective, options=d)` with the gradient, the
call `minimize(objective, False, options=d)` passes `gtol` to the method of Powell; on its own it does not. -/
theorem C126_shared_disagrees (names : List String) (kw kw' : Dict) (s : St) (r : ℕ) (hr : r < s.heap.length)
    (h : kw.lookup "options" = some (.dict r)) (h' : kw'.lookup "options" = some (.dict r)) (hg : C126_entry s r "gtol" = none) :
    C126_entry ((Solver.minimize false).run names kw' s).1 r "gtol" = none ∧
    C126_entry ((Solver.minimize false).run names kw' ((Solver.minimize true).run names kw s).1).1 r "gtol" = some (.num (1 / 10 ^ 8)) := by
  have h1 := C126_shared r [(names, .minimize false, kw')] s hr (by simpa using h') "gtol"
  have h2 := C126_shared r [(names, .minimize true, kw), (names, .minimize false, kw')] s hr (by simp [h, h']) "gtol"
  simp only [C126_calls, List.foldl] at h1 h2
  rw [h1, h2, hg]
  constructor
  · simp [C126_option]
  · simp [C126_option, C126_all]

/-- **C126**: `wrap_skopt` searches, unless told otherwise, the box of side one around the active parameters; a box that is given is used. -/
theorem C126_skopt (names : List String) (active : List ℚ) (kw kw' : Dict) (h : skoptKw names active kw = .ok kw') :
    (∀ k, k ≠ "dimensions" → kw'.lookup k = kw.lookup k) ∧
    (∀ v, kw.lookup "dimensions" = some v → kw'.lookup "dimensions" = some v) ∧
    (kw.lookup "dimensions" = none → ∃ l, kw'.lookup "dimensions" = some (.dims l) ∧ l.length = active.length ∧
      ∀ (i : ℕ) (x : ℚ) (p : ℚ × ℚ), active[i]? = some x → l[i]? = some p → p.1 < x ∧ x < p.2 ∧ x - p.1 = p.2 - x ∧ p.2 - p.1 = 1) := by
  have := call_ok h
  subst this
  simp only [lookup_setdefault]
  refine ⟨fun k hk => by simp [hk], fun v hv => by simp [hv], fun hn => ⟨active.map fun i => (i - 1 / 2, i + 1 / 2), by simp [hn], by simp, ?_⟩⟩
  intro i x p hx hp
  rw [List.getElem?_map, hx] at hp
  simp only [Option.map_some, Option.some.injEq] at hp
  subst hp
  refine ⟨?_, ?_, ?_, ?_⟩ <;> simp only <;> linarith

/-- the parameters of `scipy.optimize.minimize` -/
def C126_names : List String :=
  ["fun", "x0", "args", "method", "jac", "hess", "hessp", "bounds", "constraints", "tol", "callback", "options"]

/-- a case: a method and a dictionary with one option -/
example : ∃ s' kw', (Solver.minimize true).run C126_names [("method", .str "CG"), ("options", .dict 0)] ⟨[[("maxiter", .num 5)]], true, true⟩ =
    (s', .ok kw') ∧ kw'.lookup "method" = some (.str "CG") ∧ kw'.lookup "jac" = some .gradient ∧ s'.stepPrint = true ∧
    s'.heap = [[("maxiter", .num 5), ("gtol", .num (1 / 10 ^ 8))]] := by
  refine ⟨_, _, rfl, ?_, ?_, ?_, ?_⟩ <;> decide +kernel

/-- `options=None`, which the optimizers accept, and `verbose` -/
example : ((Solver.root).run C126_names [("options", .none)] ⟨[], true, true⟩).2 = .error .attributeError ∧
    ((Solver.leastSquares 3).run C126_names [("verbose", .num 0)] ⟨[], true, true⟩).2 = .error .typeError ∧
    ((Solver.minimize false).run C126_names [("x0", .obj 1)] ⟨[], true, true⟩).2 = .error .typeError := by
  refine ⟨rfl, ?_, ?_⟩ <;> decide +kernel

/-- a case of `C126_shared_disagrees`, and one of `C126_skopt` -/
example : C126_entry ((Solver.minimize false).run C126_names [("options", .dict 0)]
      ((Solver.minimize true).run C126_names [("options", .dict 0)] ⟨[[]], true, true⟩).1).1 0 "gtol" = some (.num (1 / 10 ^ 8)) :=
  (C126_shared_disagrees C126_names _ _ ⟨[[]], true, true⟩ 0 (by simp) rfl rfl rfl).2

example : ∃ kw', skoptKw ["func", "dimensions", "random_state"] [1, -2] [("random_state", .num 4)] = .ok kw' ∧
    kw'.lookup "dimensions" = some (.dims [(1 / 2, 3 / 2), (-5 / 2, -3 / 2)]) := by
  refine ⟨_, rfl, ?_⟩; decide +kernel

end Fanpy.Props
