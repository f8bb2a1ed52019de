import Verif.Model.RunCalc
import Verif.Props.Script
import Verif.Props.FanciScript

/-! # C123: the command lines of `write_wfn_py` (scripts/pyscf/run_calc.py) and the scripts that they make -/

namespace Fanpy.Props
open Fanpy.Slater Fanpy.Script

/-! ## Helpers: command lines as pairs of names and values -/

def flatP (ps : List (String × String)) : List String := ps.flatMap fun p => [p.1, p.2]

def givenP (name : String) : Option String → List (String × String)
  | none => []
  | some v => [(name, v)]

def truthyP (name : String) : Option String → List (String × String)
  | none => []
  | some v => if v = "" then [] else [(name, v)]

def prevP (prevs : List (String × String)) : List (String × String) :=
  prevs.flatMap fun p => [("--load_ham", p.1), ("--load_wfn", p.2)]

def flagP (b : Bool) : List (String × String) := if b then [("--optimize_orbs", "")] else []

def jobPairs (j : Job) (prevs : List (String × String)) : List (String × String) :=
  [("--wfn_type", j.wfnType), ("--geom", j.geom), ("--pspace_exc", j.pspace.getD "[1, 2, 3, 4]"), ("--basis", j.basis),
   ("--objective", j.objective.getD "variational"), ("--solver", j.solverName)] ++
  (givenP "--wfn_kwargs" j.wfnKwargs ++ givenP "--solver_kwargs" j.solverKw ++ givenP "--ham_noise" j.hamNoise ++
    givenP "--wfn_noise" j.wfnNoise ++ prevP prevs) ++
  (truthyP "--load_orbs" j.loadOrbs ++ truthyP "--load_ham" j.loadHam ++ truthyP "--load_wfn" j.loadWfn ++ truthyP "--load_chk" j.loadChk) ++
  [("--save_chk", "checkpoint.npy"), ("--filename", j.filename.getD "calculate.py")] ++ givenP "--memory" j.memory

theorem flatP_append (a b : List (String × String)) : flatP (a ++ b) = flatP a ++ flatP b := by simp [flatP]

theorem flatP_given (n : String) (v : Option String) : flatP (givenP n v) = given n v := by cases v <;> rfl

theorem flatP_truthy (n : String) (v : Option String) : flatP (truthyP n v) = truthy n v := by
  cases v with
  | none => rfl
  | some v => simp only [truthyP, truthy]; split_ifs <;> rfl

theorem argv_eq (j : Job) (prevs : List (String × String)) :
    j.argv (j.kwargs ++ flatP (prevP prevs)) = (if j.optimizeOrbs then ["--optimize_orbs"] else []) ++ flatP (jobPairs j prevs) := by
  simp only [jobPairs, flatP_append, flatP_given, flatP_truthy, Job.argv, Job.kwargs, Job.loadFiles, List.append_assoc]
  rfl

theorem parse_flatP {ps : List (String × String)} (hn : ∀ p ∈ ps, p.1 ∈ valueOptions) :
    ((∀ p ∈ ps, dashed p.2 = false) → parseArgs (flatP ps) = .ok ps) ∧ ∀ args, parseArgs (flatP ps) = .ok args → args = ps := by
  induction ps with
  | nil => exact ⟨fun _ => rfl, fun args h => by injection h with h; exact h.symm⟩
  | cons p ps ih =>
    have h1 : p.1 ≠ "--optimize_orbs" := by
      intro h
      have := hn p (by simp)
      rw [h] at this
      revert this; decide +kernel
    obtain ⟨i1, i2⟩ := ih fun q hq => hn q (by simp [hq])
    have e : flatP (p :: ps) = p.1 :: p.2 :: flatP ps := rfl
    rw [e, parseArgs, if_neg h1, if_pos (hn p (by simp))]
    constructor
    · intro h
      rw [if_neg (by simp [h p (by simp)]), i1 fun q hq => h q (by simp [hq])]
      rfl
    · intro args h
      split_ifs at h with hd
      rcases hr : parseArgs (flatP ps) with e | r
      · rw [hr] at h; cases h
      · rw [hr] at h
        injection h with h
        rw [← h, i2 r hr]

theorem parse_job {j : Job} {prevs : List (String × String)} :
    ((∀ p ∈ jobPairs j prevs, dashed p.2 = false) →
      parseArgs (j.argv (j.kwargs ++ flatP (prevP prevs))) = .ok (flagP j.optimizeOrbs ++ jobPairs j prevs)) ∧
    ∀ args, parseArgs (j.argv (j.kwargs ++ flatP (prevP prevs))) = .ok args → args = flagP j.optimizeOrbs ++ jobPairs j prevs := by
  have hn : ∀ p ∈ jobPairs j prevs, p.1 ∈ valueOptions := by
    have hg : ∀ n ∈ valueOptions, ∀ v, ∀ p ∈ givenP n v, p.1 ∈ valueOptions := by
      intro n hn v p hp
      cases v with
      | none => simp [givenP] at hp
      | some v => simp [givenP] at hp; rw [hp]; exact hn
    have ht : ∀ n ∈ valueOptions, ∀ v, ∀ p ∈ truthyP n v, p.1 ∈ valueOptions := by
      intro n hn v p hp
      cases v with
      | none => simp [truthyP] at hp
      | some v =>
        simp only [truthyP] at hp
        split_ifs at hp
        · simp at hp
        · simp at hp; rw [hp]; exact hn
    intro p hp
    simp only [jobPairs, List.mem_append] at hp
    rcases hp with (((hp | (((hp | hp) | hp) | hp) | hp) | ((hp | hp) | hp) | hp) | hp) | hp
    · simp only [List.mem_cons, List.not_mem_nil, or_false] at hp
      rcases hp with rfl | rfl | rfl | rfl | rfl | rfl <;> simp [valueOptions]
    · exact hg _ (by simp [valueOptions]) _ p hp
    · exact hg _ (by simp [valueOptions]) _ p hp
    · exact hg _ (by simp [valueOptions]) _ p hp
    · exact hg _ (by simp [valueOptions]) _ p hp
    · simp only [prevP, List.mem_flatMap, List.mem_cons, List.not_mem_nil, or_false] at hp
      obtain ⟨q, -, rfl | rfl⟩ := hp <;> simp [valueOptions]
    · exact ht _ (by simp [valueOptions]) _ p hp
    · exact ht _ (by simp [valueOptions]) _ p hp
    · exact ht _ (by simp [valueOptions]) _ p hp
    · exact ht _ (by simp [valueOptions]) _ p hp
    · simp only [List.mem_cons, List.not_mem_nil, or_false] at hp
      rcases hp with rfl | rfl <;> simp [valueOptions]
    · exact hg _ (by simp [valueOptions]) _ p hp
  obtain ⟨h1, h2⟩ := parse_flatP hn
  rw [argv_eq]
  cases hb : j.optimizeOrbs with
  | false => exact ⟨h1, h2⟩
  | true =>
    have e : ∃ a b r, flatP (jobPairs j prevs) = a :: b :: r := ⟨_, _, _, rfl⟩
    obtain ⟨a, b, r, e⟩ := e
    rw [e] at h1 h2 ⊢
    have e2 : parseArgs ((if true = true then ["--optimize_orbs"] else []) ++ a :: b :: r) =
        (parseArgs (a :: b :: r)).map fun l => ("--optimize_orbs", "") :: l := by
      show parseArgs ("--optimize_orbs" :: a :: b :: r) = _
      rw [parseArgs, if_pos rfl]
      rcases parseArgs (a :: b :: r) <;> rfl
    rw [e2]
    constructor
    · intro h; rw [h1 h]; rfl
    · intro args h
      rcases hr : parseArgs (a :: b :: r) with e | l
      · rw [hr] at h; cases h
      · rw [hr] at h
        injection h with h
        rw [← h, h2 l hr]; rfl

theorem optionValue_append (a b : List (String × String)) (n : String) : optionValue (a ++ b) n = (optionValue b n).or (optionValue a n) := by
  simp [optionValue, List.lookup_append]

theorem optionValue_nil (n : String) : optionValue [] n = none := rfl

theorem optionValue_cons (p : String × String) (a : List (String × String)) (n : String) :
    optionValue (p :: a) n = (optionValue a n).or (if n = p.1 then some p.2 else none) := by
  rw [← List.singleton_append, optionValue_append]
  congr 1
  simp only [optionValue, List.reverse_singleton, List.lookup]
  split <;> simp_all

theorem optionValue_given (m n : String) (v : Option String) : optionValue (givenP m v) n = if n = m then v else none := by
  cases v <;> simp [givenP, optionValue_cons, optionValue_nil]

theorem optionValue_truthy (m n : String) (v : Option String) :
    optionValue (truthyP m v) n = if n = m then v.filter (fun s => s ≠ "") else none := by
  cases v with
  | none => simp [truthyP, optionValue_nil]
  | some v => by_cases h : v = "" <;> simp [truthyP, optionValue_cons, optionValue_nil, h, Option.filter]

theorem optionValue_prev (prevs : List (String × String)) (n : String) :
    optionValue (prevP prevs) n = if n = "--load_ham" then prevs.getLast?.map Prod.fst else
      if n = "--load_wfn" then prevs.getLast?.map Prod.snd else none := by
  induction prevs using List.reverseRecOn with
  | nil => simp [prevP, optionValue_nil]
  | append_singleton l p ih =>
    have e : prevP (l ++ [p]) = prevP l ++ [("--load_ham", p.1), ("--load_wfn", p.2)] := by simp [prevP]
    rw [e, optionValue_append, ih]
    by_cases h1 : n = "--load_ham"
    · subst h1; simp [optionValue_cons, optionValue_nil]
    · by_cases h2 : n = "--load_wfn"
      · subst h2; simp [optionValue_cons, optionValue_nil]
      · simp [optionValue_cons, optionValue_nil, h1, h2]

theorem optionValue_flag (b : Bool) (n : String) : optionValue (flagP b) n = if b ∧ n = "--optimize_orbs" then some "" else none := by
  cases b <;> simp [flagP, optionValue_cons, optionValue_nil]

/-- what the programs read -/
structure Reads (j : Job) (ham wfn : Option String) (args : List (String × String)) : Prop where
  orbs : (optionValue args "--optimize_orbs").isSome = j.optimizeOrbs
  type : optionValue args "--wfn_type" = some j.wfnType
  geom : optionValue args "--geom" = some j.geom
  basis : optionValue args "--basis" = some j.basis
  pspace : optionValue args "--pspace_exc" = some (j.pspace.getD "[1, 2, 3, 4]")
  objective : optionValue args "--objective" = some (j.objective.getD "variational")
  solver : optionValue args "--solver" = some (j.solver.getD "cma")
  wfnKwargs : optionValue args "--wfn_kwargs" = j.wfnKwargs
  solverKwargs : (j.solver ≠ none ∧ j.solver ≠ some "cma" ∨ j.solverKwargs ≠ none) → optionValue args "--solver_kwargs" = j.solverKwargs
  hamNoise : optionValue args "--ham_noise" = j.hamNoise
  wfnNoise : optionValue args "--wfn_noise" = j.wfnNoise
  loadOrbs : optionValue args "--load_orbs" = j.loadOrbs.filter (fun s => s ≠ "")
  loadHam : optionValue args "--load_ham" = (j.loadHam.filter (fun s => s ≠ "")).or ham
  loadWfn : optionValue args "--load_wfn" = (j.loadWfn.filter (fun s => s ≠ "")).or wfn
  loadChk : optionValue args "--load_chk" = j.loadChk.filter (fun s => s ≠ "")
  memory : optionValue args "--memory" = j.memory
  filename : optionValue args "--filename" = some (j.filename.getD "calculate.py")
  constraint : optionValue args "--constraint" = none

theorem reads_job (j : Job) (prevs : List (String × String)) :
    Reads j (prevs.getLast?.map Prod.fst) (prevs.getLast?.map Prod.snd) (flagP j.optimizeOrbs ++ jobPairs j prevs) := by
  constructor
  case solverKwargs =>
    intro h
    have e : j.solverKw = j.solverKwargs := by
      rw [Job.solverKw, if_neg]
      rintro ⟨h1, h2⟩
      rcases h with ⟨h3, h4⟩ | h3
      · cases hs : j.solver with
        | none => exact h3 hs
        | some s => simp [Job.solverName, hs] at h1; exact h4 (by rw [hs, h1])
      · exact h3 h2
    simp [jobPairs, optionValue_append, optionValue_cons, optionValue_given, optionValue_truthy, optionValue_prev,
      optionValue_flag, e]
  case orbs =>
    simp [jobPairs, optionValue_append, optionValue_cons, optionValue_given, optionValue_truthy, optionValue_prev, optionValue_flag]
    cases j.optimizeOrbs <;> rfl
  all_goals
    simp [jobPairs, optionValue_append, optionValue_cons, optionValue_given, optionValue_truthy, optionValue_prev,
      optionValue_flag, Job.solverName]

theorem loop_commands {D : Type} (j : Job) (skip : D → Bool) (prev : D → Option (String × String)) (dirs : List D) :
    ∀ prevs : List (String × String), ∀ c ∈ (j.loop skip prev dirs (j.kwargs ++ flatP (prevP prevs))).commands,
      c.1 ∈ dirs ∧ skip c.1 = false ∧ ((j.loadPrev = false ∧ c.2 = j.argv (j.kwargs ++ flatP (prevP prevs))) ∨
        (j.loadPrev = true ∧ ∃ q p, prev c.1 = some p ∧ (∀ x ∈ q, ∃ e, prev e = some x) ∧
          c.2 = j.argv (j.kwargs ++ flatP (prevP (prevs ++ q ++ [p]))))) := by
  induction dirs with
  | nil => intro prevs c hc; simp [Job.loop] at hc
  | cons d ds ih =>
    intro prevs c hc
    rw [Job.loop] at hc
    by_cases hs : skip d = true
    · rw [if_pos hs] at hc
      obtain ⟨h1, h2, h3⟩ := ih prevs c hc
      exact ⟨by simp [h1], h2, h3⟩
    · rw [if_neg hs] at hc
      have hs' : skip d = false := by simpa using hs
      by_cases hp : j.loadPrev = true
      · rw [if_pos hp] at hc
        rcases hd : prev d with _ | ⟨ham, wfn⟩
        · rw [hd] at hc; simp at hc
        · rw [hd] at hc
          have e : j.kwargs ++ flatP (prevP prevs) ++ ["--load_ham", ham, "--load_wfn", wfn] =
              j.kwargs ++ flatP (prevP (prevs ++ [(ham, wfn)])) := by simp [prevP, flatP]
          simp only [e, List.mem_cons] at hc
          rcases hc with rfl | hc
          · exact ⟨by simp, hs', Or.inr ⟨hp, [], _, hd, by simp, by simp⟩⟩
          · obtain ⟨h1, h2, h3⟩ := ih _ c hc
            refine ⟨by simp [h1], h2, Or.inr ⟨hp, ?_⟩⟩
            rcases h3 with ⟨h3, -⟩ | ⟨-, q, p, h4, h6, h5⟩
            · rw [hp] at h3; cases h3
            · refine ⟨(ham, wfn) :: q, p, h4, ?_, by rw [h5]; simp⟩
              intro x hx
              rcases List.mem_cons.1 hx with rfl | hx
              · exact ⟨d, hd⟩
              · exact h6 x hx
      · rw [if_neg hp] at hc
        simp only [List.mem_cons] at hc
        rcases hc with rfl | hc
        · exact ⟨by simp, hs', Or.inl ⟨by simpa using hp, rfl⟩⟩
        · obtain ⟨h1, h2, h3⟩ := ih _ c hc
          exact ⟨by simp [h1], h2, h3⟩

/-- the files of the system before, if they are asked for -/
def prevOf {D : Type} (j : Job) (prev : D → Option (String × String)) (d : D) : Option (String × String) := if j.loadPrev then prev d else none

theorem run_reads {D : Type} (j : Job) (skip : D → Bool) (prev : D → Option (String × String)) (dirs : List D) (d : D) (argv : List String)
    (h : (d, argv) ∈ (j.run skip prev dirs).commands) : ∃ prevs, argv = j.argv (j.kwargs ++ flatP (prevP prevs)) ∧
      (∀ x ∈ prevs, ∃ e, prev e = some x) ∧
      Reads j ((prevOf j prev d).map Prod.fst) ((prevOf j prev d).map Prod.snd) (flagP j.optimizeOrbs ++ jobPairs j prevs) ∧
      d ∈ dirs ∧ skip d = false := by
  have e : j.kwargs = j.kwargs ++ flatP (prevP []) := by simp [prevP, flatP]
  rw [Job.run, e] at h
  obtain ⟨h1, h2, h3⟩ := loop_commands j skip prev dirs [] _ h
  rcases h3 with ⟨hp, h3⟩ | ⟨hp, q, p, h4, h6, h5⟩
  · refine ⟨[], h3, by simp, ?_, h1, h2⟩
    simpa [prevOf, hp] using reads_job j []
  · refine ⟨[] ++ q ++ [p], h5, ?_, ?_, h1, h2⟩
    · intro x hx
      rcases List.mem_append.1 hx with hx | hx
      · exact h6 x (by simpa using hx)
      · rw [List.mem_singleton.1 hx]; exact ⟨d, h4⟩
    have := reads_job j ([] ++ q ++ [p])
    rw [List.getLast?_concat] at this
    simp only [prevOf, hp, if_true]
    rw [show prev d = some p from h4]
    exact this

/-- no word is taken for an option -/
def NoDash (j : Job) : Prop :=
  dashed j.wfnType = false ∧ dashed j.geom = false ∧ dashed j.basis = false ∧
  ∀ v ∈ [j.pspace, j.objective, j.solver, j.hamNoise, j.wfnNoise, j.solverKwargs, j.wfnKwargs, j.loadOrbs, j.loadHam, j.loadWfn, j.loadChk,
    j.memory, j.filename], ∀ s, v = some s → dashed s = false

theorem dashed_pairs {j : Job} (h : NoDash j) {prevs : List (String × String)}
    (hp : ∀ x ∈ prevs, dashed x.1 = false ∧ dashed x.2 = false) : ∀ p ∈ jobPairs j prevs, dashed p.2 = false := by
  obtain ⟨h1, h2, h3, h4⟩ := h
  have hg : ∀ n v, (∀ s, v = some s → dashed s = false) → ∀ p ∈ givenP n v, dashed p.2 = false := by
    intro n v hv p hp
    cases v with
    | none => simp [givenP] at hp
    | some v => simp [givenP] at hp; rw [hp]; exact hv v rfl
  have ht : ∀ n v, (∀ s, v = some s → dashed s = false) → ∀ p ∈ truthyP n v, dashed p.2 = false := by
    intro n v hv p hp
    cases v with
    | none => simp [truthyP] at hp
    | some v =>
      simp only [truthyP] at hp
      split_ifs at hp
      · simp at hp
      · simp at hp; rw [hp]; exact hv v rfl
  have hd : ∀ v s, (∀ s, v = some s → dashed s = false) → dashed s = false → dashed (v.getD s) = false := by
    intro v s hv hs
    cases v with
    | none => exact hs
    | some v => exact hv v rfl
  intro p hp'
  simp only [jobPairs, List.mem_append] at hp'
  rcases hp' with (((hp' | (((hp' | hp') | hp') | hp') | hp') | ((hp' | hp') | hp') | hp') | hp') | hp'
  · simp only [List.mem_cons, List.not_mem_nil, or_false] at hp'
    rcases hp' with rfl | rfl | rfl | rfl | rfl | rfl
    · exact h1
    · exact h2
    · exact hd _ _ (h4 _ (by simp)) (by decide +kernel)
    · exact h3
    · exact hd _ _ (h4 _ (by simp)) (by decide +kernel)
    · exact hd _ _ (h4 _ (by simp)) (by decide +kernel)
  · exact hg _ _ (h4 _ (by simp)) p hp'
  · refine hg _ _ ?_ p hp'
    intro s hs
    rw [Job.solverKw] at hs
    split_ifs at hs
    · injection hs with hs; rw [← hs]; decide +kernel
    · exact h4 _ (by simp) s hs
  · exact hg _ _ (h4 _ (by simp)) p hp'
  · exact hg _ _ (h4 _ (by simp)) p hp'
  · simp only [prevP, List.mem_flatMap, List.mem_cons, List.not_mem_nil, or_false] at hp'
    obtain ⟨q, hq, rfl | rfl⟩ := hp'
    · exact (hp q hq).1
    · exact (hp q hq).2
  · exact ht _ _ (h4 _ (by simp)) p hp'
  · exact ht _ _ (h4 _ (by simp)) p hp'
  · exact ht _ _ (h4 _ (by simp)) p hp'
  · exact ht _ _ (h4 _ (by simp)) p hp'
  · simp only [List.mem_cons, List.not_mem_nil, or_false] at hp'
    rcases hp' with rfl | rfl
    · decide +kernel
    · exact hd _ _ (h4 _ (by simp)) (by decide +kernel)
  · exact hg _ _ (h4 _ (by simp)) p hp'

/-! ## The commands -/

/-- C123: the program in each directory reads the arguments of `write_wfn_py`; the files of the parameters are those given, and otherwise those of
the system before the one of this directory (not of another directory). -/
theorem C123_parsed {D : Type} (j : Job) (hj : NoDash j) (skip : D → Bool) (prev : D → Option (String × String))
    (hprev : ∀ d p, prev d = some p → dashed p.1 = false ∧ dashed p.2 = false) (dirs : List D) (d : D) (argv : List String)
    (h : (d, argv) ∈ (j.run skip prev dirs).commands) :
    ∃ args, parseArgs argv = .ok args ∧
      Reads j (if j.loadPrev then (prev d).map Prod.fst else none) (if j.loadPrev then (prev d).map Prod.snd else none) args := by
  obtain ⟨prevs, rfl, hx, hr, -⟩ := run_reads j skip prev dirs d argv h
  refine ⟨_, parse_job.1 (dashed_pairs hj fun x hx' => ?_), ?_⟩
  · obtain ⟨e, he⟩ := hx x hx'
    exact hprev e x he
  · cases hl : j.loadPrev <;> simpa [prevOf, hl] using hr

/-- C123: every directory that is not passed over has one command, in the order of `glob`, if the names of the systems before are not needed or all
of them are found. -/
theorem C123_commands {D : Type} (j : Job) (skip : D → Bool) (prev : D → Option (String × String)) (dirs : List D)
    (h : j.loadPrev = true → ∀ d ∈ dirs, skip d = false → prev d ≠ none) :
    (j.run skip prev dirs).result = .ok () ∧ (j.run skip prev dirs).cwd = none ∧
      (j.run skip prev dirs).commands.map Prod.fst = dirs.filter fun d => !skip d := by
  rw [Job.run]
  generalize j.kwargs = k
  induction dirs generalizing k with
  | nil => simp [Job.loop]
  | cons d ds ih =>
    have ih := ih fun hl e he => h hl e (by simp [he])
    rw [Job.loop]
    by_cases hs : skip d = true
    · rw [if_pos hs]
      simpa [hs] using ih k
    · rw [if_neg hs]
      have hs' : skip d = false := by simpa using hs
      by_cases hp : j.loadPrev = true
      · rw [if_pos hp]
        obtain ⟨p, hd⟩ := Option.ne_none_iff_exists'.1 (h hp d (by simp) hs')
        rw [hd]
        obtain ⟨h1, h2, h3⟩ := ih (k ++ ["--load_ham", p.1, "--load_wfn", p.2])
        refine ⟨h1, h2, ?_⟩
        simp only [List.map_cons, h3]
        simp [hs']
      · rw [if_neg hp]
        obtain ⟨h1, h2, h3⟩ := ih k
        refine ⟨h1, h2, ?_⟩
        simp only [List.map_cons, h3]
        simp [hs']

/-- C123: at the first directory whose system before has no name, `write_wfn_py` stops with `AttributeError`, and the working directory remains that
directory. -/
theorem C123_stops {D : Type} (j : Job) (hl : j.loadPrev = true) (skip : D → Bool) (prev : D → Option (String × String)) (a b : List D) (d : D)
    (ha : ∀ e ∈ a, skip e = false → prev e ≠ none) (hd : skip d = false) (hp : prev d = none) :
    (j.run skip prev (a ++ d :: b)).result = .error .attributeError ∧ (j.run skip prev (a ++ d :: b)).cwd = some d ∧
      (j.run skip prev (a ++ d :: b)).commands.map Prod.fst = a.filter fun d => !skip d := by
  rw [Job.run]
  generalize j.kwargs = k
  induction a generalizing k with
  | nil => simp [Job.loop, hd, hl, hp]
  | cons c a ih =>
    have ih := ih fun e he => ha e (by simp [he])
    rw [List.cons_append, Job.loop]
    by_cases hs : skip c = true
    · rw [if_pos hs]
      simpa [hs] using ih k
    · rw [if_neg hs, if_pos hl]
      have hs' : skip c = false := by simpa using hs
      obtain ⟨p, hc⟩ := Option.ne_none_iff_exists'.1 (ha c (by simp) hs')
      rw [hc]
      obtain ⟨h1, h2, h3⟩ := ih (k ++ ["--load_ham", p.1, "--load_wfn", p.2])
      refine ⟨h1, h2, ?_⟩
      simp only [List.map_cons, h3]
      simp [hs']

/-! ## The scripts -/

theorem child_eq {w : Outside} {b : Bool} {argv : List String} {args : List (String × String)} {j : Job} {ham wfn : Option String}
    (hp : parseArgs argv = .ok args) (hr : Reads j ham wfn args) :
    child w b argv = (w.json j.geom).bind fun n => (w.noise (j.hamNoise.getD "0.0")).bind fun hn => (w.noise (j.wfnNoise.getD "0.0")).bind fun wn =>
      (childOrders b (some (j.pspace.getD "[1, 2, 3, 4]"))).toOption.bind fun orders =>
        if b = true then if n = 0 then none else
          (makeScript true (childOptions w args hn wn).toOptions).toOption.bind fun s => some (s, orders)
        else (makeFanciScript true n (childOptions w args hn wn)).toOption.bind fun s => some (s, orders) := by
  simp only [child, hp, Except.toOption, Option.bind_eq_bind, Option.bind_some, hr.geom, hr.type, hr.basis, hr.hamNoise, hr.wfnNoise, hr.pspace]
  rcases w.json j.geom with _ | n
  · rfl
  rcases w.noise (j.hamNoise.getD "0.0") with _ | hn
  · rfl
  rcases w.noise (j.wfnNoise.getD "0.0") with _ | wn
  · rfl
  rfl

theorem isSome_toOption {ε α : Type} {x : Except ε α} : x.toOption.isSome = true ↔ ∃ l, x = .ok l := by
  cases x <;> simp [Except.toOption]

/-- the geometry has an atom, and the amounts of noise are numbers -/
def Readable (w : Outside) (j : Job) : Prop :=
  (∃ n, n ≠ 0 ∧ w.json j.geom = some n) ∧ w.noise (j.hamNoise.getD "0.0") ≠ none ∧ w.noise (j.wfnNoise.getD "0.0") ≠ none

theorem child_fanci {w : Outside} {argv : List String} {args : List (String × String)} {j : Job} {ham wfn : Option String}
    (hp : parseArgs argv = .ok args) (hr : Reads j ham wfn args) : (child w false argv).isSome = true ↔
      Readable w j ∧ (∃ l, cliFanciOrders (j.pspace.getD "[1, 2, 3, 4]").toList = .ok l) ∧ j.wfnType ∈ wfnTypes ∧
      j.objective = some "projected" ∧ j.optimizeOrbs = false ∧
      (j.solver = some "least_squares" ∨ j.solver = some "root" ∨ j.solver = some "fanpt") := by
  have hobj : (j.objective.getD "variational" = "projected") ↔ j.objective = some "projected" := by
    cases j.objective <;> simp
  have hsol : ∀ s, s ≠ "cma" → ((j.solver.getD "cma" = s) ↔ j.solver = some s) := by
    intro s hs
    cases j.solver with
    | none => simpa using fun h => hs h.symm
    | some t => simp
  have hm : ∀ n hn wn, (∃ l, makeFanciScript true n (childOptions w args hn wn) = .ok l) ↔ n ≠ 0 ∧ j.wfnType ∈ wfnTypes ∧
      j.objective = some "projected" ∧ j.optimizeOrbs = false ∧
      (j.solver = some "least_squares" ∨ j.solver = some "root" ∨ j.solver = some "fanpt") := by
    intro n hn wn
    rw [C116_made]
    simp only [childOptions, hr.type, hr.objective, hr.orbs, hr.solver, Option.getD_some, Option.some.injEq, hobj, List.mem_cons, List.not_mem_nil,
      or_false, exists_eq_or_imp, exists_eq_left, hsol _ (show "least_squares" ≠ "cma" by decide), hsol _ (show "root" ≠ "cma" by decide),
      hsol _ (show "fanpt" ≠ "cma" by decide), true_implies]
    tauto
  rw [child_eq hp hr, Readable]
  rcases w.json j.geom with _ | n
  · simp
  rcases w.noise (j.hamNoise.getD "0.0") with _ | hn
  · simp
  rcases w.noise (j.wfnNoise.getD "0.0") with _ | wn
  · simp
  simp only [Option.bind_some, childOrders, Bool.false_eq_true, if_false]
  rcases ho : cliFanciOrders (j.pspace.getD "[1, 2, 3, 4]").toList with e | orders
  · simp [Except.toOption]
  · simp only [Except.toOption, Option.bind_some]
    have := hm n hn wn
    rcases hx : makeFanciScript true n (childOptions w args hn wn) with e | l
    · rw [hx] at this
      simp at this
      simp
      tauto
    · rw [hx] at this
      simp at this
      simp
      tauto

theorem child_fanpy {w : Outside} {argv : List String} {args : List (String × String)} {j : Job} {ham wfn : Option String}
    (hp : parseArgs argv = .ok args) (hr : Reads j ham wfn args) : (child w true argv).isSome = true ↔
      Readable w j ∧ (∃ l, cliOrders (j.pspace.getD "[1, 2, 3, 4]").toList = .ok l) ∧ j.wfnType ∈ wfnTypes ∧
      j.objective.getD "variational" ∈ ["projected", "least_squares", "variational", "one_energy"] ∧
      j.solver.getD "cma" ∈ ["cma", "diag", "minimize", "least_squares", "root", "trustregion"] := by
  have hm : ∀ hn wn, (∃ l, makeScript true (childOptions w args hn wn).toOptions = .ok l) ↔ j.wfnType ∈ wfnTypes ∧
      j.objective.getD "variational" ∈ ["projected", "least_squares", "variational", "one_energy"] ∧
      j.solver.getD "cma" ∈ ["cma", "diag", "minimize", "least_squares", "root", "trustregion"] := by
    intro hn wn
    rw [C97_made]
    simp only [childOptions, hr.type, hr.objective, hr.solver, Option.getD_some, Option.some.injEq, exists_eq_right']
  rw [child_eq hp hr, Readable]
  rcases w.json j.geom with _ | n
  · simp
  rcases w.noise (j.hamNoise.getD "0.0") with _ | hn
  · simp
  rcases w.noise (j.wfnNoise.getD "0.0") with _ | wn
  · simp
  simp only [Option.bind_some, childOrders, if_true]
  rcases ho : cliOrders (j.pspace.getD "[1, 2, 3, 4]").toList with e | orders
  · simp [Except.toOption]
  · simp only [Except.toOption, Option.bind_some]
    by_cases h0 : n = 0
    · simp [h0]
    rw [if_neg h0, ← hm hn wn]
    rcases hx : makeScript true (childOptions w args hn wn).toOptions with e | l
    · simp
    · simp [h0]

/-- C123: `fanpy_make_fanci_pyscf_script` makes a script in a directory if and only if the geometry can be read and has an atom, the amounts of noise
are numbers, the orders of excitation can be read, the type of the wavefunction is known, the objective is given as `projected`, the orbitals are
not optimized and the solver is given as `least_squares`, `root` or `fanpt`. -/
theorem C123_fanci_partial {D : Type} (w : Outside) (j : Job) (hj : NoDash j) (_hc : j.wfnType ≠ "custom") (skip : D → Bool)
    (prev : D → Option (String × String)) (hprev : ∀ d p, prev d = some p → dashed p.1 = false ∧ dashed p.2 = false) (dirs : List D) (d : D)
    (argv : List String) (h : (d, argv) ∈ (j.run skip prev dirs).commands) :
    (child w false argv).isSome = true ↔
      ((∃ n, n ≠ 0 ∧ w.json j.geom = some n) ∧ w.noise (j.hamNoise.getD "0.0") ≠ none ∧ w.noise (j.wfnNoise.getD "0.0") ≠ none) ∧
      (∃ l, cliFanciOrders (j.pspace.getD "[1, 2, 3, 4]").toList = .ok l) ∧ j.wfnType ∈ wfnTypes ∧
      j.objective = some "projected" ∧ j.optimizeOrbs = false ∧
      (j.solver = some "least_squares" ∨ j.solver = some "root" ∨ j.solver = some "fanpt") := by
  obtain ⟨args, hp, hr⟩ := C123_parsed j hj skip prev hprev dirs d argv h
  exact child_fanci hp hr

/-- C123: `fanpy_make_pyscf_script` makes a script in a directory if and only if the geometry can be read and has an atom, the amounts of noise are
numbers, every character of the orders of excitation is a digit, and the type of the wavefunction, the objective and the solver are known. -/
theorem C123_fanpy_partial {D : Type} (w : Outside) (j : Job) (hj : NoDash j) (_hc : j.wfnType ≠ "custom") (skip : D → Bool)
    (prev : D → Option (String × String)) (hprev : ∀ d p, prev d = some p → dashed p.1 = false ∧ dashed p.2 = false) (dirs : List D) (d : D)
    (argv : List String) (h : (d, argv) ∈ (j.run skip prev dirs).commands) :
    (child w true argv).isSome = true ↔
      ((∃ n, n ≠ 0 ∧ w.json j.geom = some n) ∧ w.noise (j.hamNoise.getD "0.0") ≠ none ∧ w.noise (j.wfnNoise.getD "0.0") ≠ none) ∧
      (∃ l, cliOrders (j.pspace.getD "[1, 2, 3, 4]").toList = .ok l) ∧ j.wfnType ∈ wfnTypes ∧
      j.objective.getD "variational" ∈ ["projected", "least_squares", "variational", "one_energy"] ∧
      j.solver.getD "cma" ∈ ["cma", "diag", "minimize", "least_squares", "root", "trustregion"] := by
  obtain ⟨args, hp, hr⟩ := C123_parsed j hj skip prev hprev dirs d argv h
  exact child_fanpy hp hr

theorem child_parsed {w : Outside} {b : Bool} {argv : List String} (h : (child w b argv).isSome = true) : ∃ args, parseArgs argv = .ok args := by
  rw [child] at h
  rcases hp : parseArgs argv with e | args
  · rw [hp] at h; simp [Except.toOption] at h
  · exact ⟨args, rfl⟩

theorem filesAfter_none {D : Type} [DecidableEq D] {w : Outside} {b : Bool} {l : List (D × List String)}
    (h : ∀ c ∈ l, child w b c.2 = none) (files : D → String → List Stmt) : filesAfter w b files l = files := by
  induction l with
  | nil => rfl
  | cons c l ih =>
    obtain ⟨d, argv⟩ := c
    have h1 : child w b argv = none := h (d, argv) (by simp)
    simp only [filesAfter, h1]
    exact ih fun c hc => h c (by simp [hc])

theorem disagree_core {D : Type} (w : Outside) (j : Job) (skip : D → Bool) (prev : D → Option (String × String)) (dirs : List D) (b : Bool)
    (hb : b = false ∧ (j.objective = none ∨ j.solver = none) ∨ b = true ∧ (j.pspace = none ∨ ∃ s, j.pspace = some s ∧ '[' ∈ s.toList)) :
    ∀ c ∈ (j.run skip prev dirs).commands, child w b c.2 = none := by
  intro c hc
  by_contra hne
  have hs : (child w b c.2).isSome = true := Option.isSome_iff_ne_none.2 hne
  obtain ⟨args, hp⟩ := child_parsed hs
  obtain ⟨prevs, e, -, hr, -⟩ := run_reads j skip prev dirs c.1 c.2 hc
  rw [e] at hp
  have ha := parse_job.2 args hp
  rw [← ha] at hr
  rw [← e] at hp
  rcases hb with ⟨rfl, hb⟩ | ⟨rfl, hb⟩
  · obtain ⟨-, -, -, ho, -, hsol⟩ := (child_fanci hp hr).1 hs
    rcases hb with hb | hb
    · rw [hb] at ho; cases ho
    · rw [hb] at hsol; simp at hsol
  · obtain ⟨-, ⟨l, hl⟩, -⟩ := (child_fanpy hp hr).1 hs
    have hbr : '[' ∈ (j.pspace.getD "[1, 2, 3, 4]").toList := by
      rcases hb with hb | ⟨s, hb, hm⟩
      · rw [hb]; decide +kernel
      · rw [hb]; exact hm
    rw [(C116_cli_disagrees _).2.2.1 ⟨'[', hbr, by simp⟩] at hl
    cases hl

/-- C123: with the defaults of `write_wfn_py` no script is made and nothing is reported: the default objective and the default solver are refused by
`fanpy_make_fanci_pyscf_script` (the program without `fanpy_only`), and the default orders of excitation, like every list of orders, by
`fanpy_make_pyscf_script` (the program with `fanpy_only`). -/
theorem C123_defaults_disagree {D : Type} [DecidableEq D] (w : Outside) (j : Job) (skip : D → Bool) (prev : D → Option (String × String))
    (dirs : List D) (hl : j.loadPrev = false) (files : D → String → List Stmt)
    (hb : j.fanpyOnly = false ∧ (j.objective = none ∨ j.solver = none) ∨
      j.fanpyOnly = true ∧ (j.pspace = none ∨ ∃ s, j.pspace = some s ∧ '[' ∈ s.toList)) :
    (j.run skip prev dirs).result = .ok () ∧ filesAfter w j.fanpyOnly files (j.run skip prev dirs).commands = files :=
  ⟨(C123_commands j skip prev dirs (by simp [hl])).1, filesAfter_none (disagree_core w j skip prev dirs _ hb) files⟩

theorem run_map {D : Type} (j : Job) (hl : j.loadPrev = false) (skip : D → Bool) (prev : D → Option (String × String)) (dirs : List D) :
    (j.run skip prev dirs).commands = (dirs.filter fun d => !skip d).map fun d => (d, j.argv j.kwargs) := by
  rw [Job.run]
  induction dirs with
  | nil => rfl
  | cons d ds ih =>
    rw [Job.loop]
    by_cases hs : skip d = true
    · rw [if_pos hs, ih]; simp [hs]
    · rw [if_neg hs, if_neg (by simp [hl])]
      simp [hs, ih]

/-- a job whose scripts are made by `fanpy_make_fanci_pyscf_script` -/
def fanciJob : Job := ⟨"ap1rog", "[[\"H\",[0,0,0]],[\"H\",[0,0,1]]]", "sto-6g", false, some "[1, 2]", some "projected", some "least_squares", none, none, none,
  none, none, none, none, none, true, some "2GB", none, false⟩

/-- a job with the defaults -/
def defaultJob : Job := ⟨"ap1rog", "[[\"H\",[0,0,0]],[\"H\",[0,0,1]]]", "sto-6g", false, none, none, none, none, none, none, none, none, none, none, none, false,
  none, none, false⟩

/-- a world in which every geometry has two atoms and every text is the number zero -/
def twoAtoms : Outside := ⟨fun _ => some 2, fun _ => some false, fun _ => ⟨[], []⟩, (false, false, false, false)⟩

theorem noDash_fanciJob : NoDash fanciJob := by
  refine ⟨by decide +kernel, by decide +kernel, by decide +kernel, ?_⟩
  intro v hv s hs
  simp only [fanciJob, List.mem_cons, List.not_mem_nil, or_false] at hv
  rcases hv with rfl | rfl | rfl | rfl | rfl | rfl | rfl | rfl | rfl | rfl | rfl | rfl | rfl <;> first | cases hs; done | (injection hs with hs; rw [← hs]; decide +kernel)

/-- directories 1, 2 and 3, of which 2 is passed over; the second command has the files of both directories, and those of its own count -/
example : (fanciJob.run (· == 2) (fun d : ℕ => some (toString d ++ "/h", toString d ++ "/w")) [1, 2, 3]).commands.map Prod.fst = [1, 3] ∧
    (fanciJob.run (· == 2) (fun d : ℕ => some (toString d ++ "/h", toString d ++ "/w")) [1, 2, 3]).commands.map
      (fun c => (parseArgs c.2).toOption.map fun a => (optionValue a "--load_ham", optionValue a "--load_wfn")) =
      [some (some "1/h", some "1/w"), some (some "3/h", some "3/w")] := by decide +kernel

example : (child twoAtoms false (fanciJob.argv fanciJob.kwargs)).isSome = true := by
  have := C123_fanci_partial twoAtoms { fanciJob with loadPrev := false } noDash_fanciJob (by decide) (fun _ => false) (fun _ : ℕ => none) (by simp) [0] 0
    (fanciJob.argv fanciJob.kwargs) (by rw [run_map _ rfl]; simp; rfl)
  refine this.2 ⟨⟨⟨2, by decide, rfl⟩, by simp [twoAtoms], by simp [twoAtoms]⟩, ⟨[1, 2], by decide +kernel⟩, by decide +kernel, rfl, rfl, Or.inl rfl⟩

/-- the defaults of `write_wfn_py`: the program ends without a script -/
example : defaultJob.fanpyOnly = false ∧ defaultJob.objective = none ∧ child twoAtoms false (defaultJob.argv defaultJob.kwargs) = none :=
  ⟨rfl, rfl, disagree_core twoAtoms defaultJob (fun _ => false) (fun _ : ℕ => none) [0] false (Or.inl ⟨rfl, Or.inl rfl⟩)
    (0, defaultJob.argv defaultJob.kwargs) (by rw [run_map _ rfl]; simp)⟩

/-! ## The files -/

theorem filesAfter_append {D : Type} [DecidableEq D] {w : Outside} {b : Bool} {name : String} {script : List Stmt} {orders : List ℕ}
    {argv : List String} (hc : child w b argv = some (script, orders))
    (hn : ((parseArgs argv).toOption.bind fun a => optionValue a "--filename") = some name) {l : List D} (hd : l.Nodup)
    (files : D → String → List Stmt) (d : D) (n : String) :
    filesAfter w b files (l.map fun d => (d, argv)) d n = if d ∈ l ∧ n = name then files d n ++ script else files d n := by
  induction l generalizing files with
  | nil => simp [filesAfter]
  | cons c l ih =>
    obtain ⟨h1, h2⟩ := List.nodup_cons.1 hd
    simp only [List.map_cons, filesAfter, hc, hn]
    rw [ih h2]
    by_cases he : d = c
    · subst he
      by_cases hnn : n = name <;> simp [h1, hnn, writtenFile]
    · simp [he]

/-- C123: every directory that is not passed over gets the same script at the end of its file (a file that is there already is kept), and no other
file is changed. -/
theorem C123_files {D : Type} [DecidableEq D] (w : Outside) (j : Job) (hl : j.loadPrev = false) (skip : D → Bool)
    (prev : D → Option (String × String)) (dirs : List D) (hd : dirs.Nodup) (script : List Stmt) (orders : List ℕ)
    (hc : child w j.fanpyOnly (j.argv j.kwargs) = some (script, orders)) (files : D → String → List Stmt) (d : D) (n : String) :
    filesAfter w j.fanpyOnly files (j.run skip prev dirs).commands d n =
      if d ∈ dirs ∧ skip d = false ∧ n = j.filename.getD "calculate.py" then files d n ++ script else files d n := by
  have e : j.kwargs = j.kwargs ++ flatP (prevP []) := by simp [prevP, flatP]
  obtain ⟨args, hp⟩ := child_parsed (w := w) (b := j.fanpyOnly) (argv := j.argv j.kwargs) (by simp [hc])
  have hn : ((parseArgs (j.argv j.kwargs)).toOption.bind fun a => optionValue a "--filename") = some (j.filename.getD "calculate.py") := by
    rw [hp]
    rw [e] at hp
    have ha := parse_job.2 args hp
    have hr := (reads_job j []).filename
    rw [← ha] at hr
    exact hr
  rw [run_map j hl, filesAfter_append hc hn (hd.filter _)]
  simp [and_assoc]

/-! ## Directories and times -/

/-- C123: `load_prev` looks for the parameters in a directory `0`, but `make_wfn_dirs` never makes a directory of this name. -/
theorem C123_prev_dir_disagrees (n : ℕ) (pre : List Char) : prevDir ∉ runDirs n pre := by
  intro h
  simp only [runDirs, List.mem_map, List.mem_range] at h
  obtain ⟨i, -, h⟩ := h
  have : '_' ∈ prevDir := by rw [← h]; simp
  revert this; decide

/-- C123: `run_calcs` with `calc_range=(0, num_runs - 1)` visits the directories that `make_wfn_dirs` made, in the same order, if the prefix is
empty; with another prefix it visits none of them. -/
theorem C123_visited (n : ℕ) (pre : List Char) :
    runDirs (n + 1) [] = Script.visited 0 n ∧ (pre ≠ [] → '_' ∉ pre → ∀ d ∈ runDirs (n + 1) pre, ∀ a b, d ∉ Script.visited a b) := by
  constructor
  · simp [runDirs, Script.visited, List.range_eq_range']
  · intro hp hu d hd a b hv
    simp only [runDirs, List.mem_map] at hd
    simp only [Script.visited, List.mem_map] at hv
    obtain ⟨i, -, rfl⟩ := hd
    obtain ⟨k, -, hv⟩ := hv
    obtain ⟨c, r, rfl⟩ := List.exists_cons_of_ne_nil hp
    simp only [List.cons_append, List.cons.injEq] at hv
    exact hu (by rw [← hv.1]; simp)

theorem toLower_digits {s : List Char} (h : ∀ c ∈ s, c.isDigit = true) : s.map Char.toLower = s := by
  conv_rhs => rw [← List.map_id s]
  refine List.map_congr_left fun c hc => ?_
  have hd := h c hc
  simp only [Char.isDigit, Bool.and_eq_true, decide_eq_true_eq, ge_iff_le] at hd
  have h1 : c.val.toNat ≤ 57 := hd.2
  rw [Char.toLower, dif_neg]
  · rfl
  rintro ⟨h2, -⟩
  have h2 : 65 ≤ c.val.toNat := h2
  omega

/-- C123: a time in days, hours or minutes (in small or capital letters) is read in minutes; the memory must be in GB or MB, and the time and the
memory must be given together. -/
theorem C123_time (n : ℕ) (memory : List Char) :
    (∀ u ∈ ['d', 'D'], minutes (Text.pyStr n ++ [u]) = .ok (n * 24 * 60)) ∧ (∀ u ∈ ['h', 'H'], minutes (Text.pyStr n ++ [u]) = .ok (n * 60)) ∧
    (∀ u ∈ ['m', 'M'], minutes (Text.pyStr n ++ [u]) = .ok n) ∧
    (∀ t : List Char, ∀ c, c.toLower ≠ 'd' → c.toLower ≠ 'h' → c.toLower ≠ 'm' → minutes (t ++ [c]) = .error .valueError) ∧
    minutes [] = .error .indexError ∧
    (∀ t, submission (some t) none = .error .valueError ∧ submission none (some t) = .error .valueError) ∧
    (∀ t k, submission (some t) (some memory) = .ok k → (∃ m, k = some m ∧ minutes t = .ok m) ∧
      ∃ u ∈ [['G', 'B'], ['M', 'B']], u <:+ memory.map Char.toUpper) := by
  have hd : (Text.pyStr n).map Char.toLower = Text.pyStr n := toLower_digits (fun _ h => digit_of_mem h)
  have key : ∀ c, ((Text.pyStr n ++ [c]).map Char.toLower).reverse = c.toLower :: (Text.pyStr n).reverse := by
    intro c; simp [hd]
  refine ⟨?_, ?_, ?_, ?_, rfl, fun t => ⟨rfl, rfl⟩, ?_⟩
  · intro u hu
    have : u.toLower = 'd' := by simp at hu; rcases hu with rfl | rfl <;> decide
    rw [minutes, key, this]
    simp [Text.parseInt_ten_pyStr]
  · intro u hu
    have : u.toLower = 'h' := by simp at hu; rcases hu with rfl | rfl <;> decide
    rw [minutes, key, this]
    simp [Text.parseInt_ten_pyStr]
  · intro u hu
    have : u.toLower = 'm' := by simp at hu; rcases hu with rfl | rfl <;> decide
    rw [minutes, key, this]
    simp [Text.parseInt_ten_pyStr]
  · intro t c h1 h2 h3
    have : ((t ++ [c]).map Char.toLower).reverse = c.toLower :: (t.map Char.toLower).reverse := by simp
    rw [minutes, this]
    split
    · rename_i h; cases h
    · rename_i h; injection h with h; exact absurd h h1
    · rename_i h; injection h with h; exact absurd h h2
    · rename_i h; injection h with h; exact absurd h h3
    · rfl
  · intro t k h
    rw [submission] at h
    rcases hm : minutes t with e | m
    · rw [hm] at h; cases h
    · rw [hm] at h
      rcases hk : memoryUnits memory with e | u
      · rw [hk] at h; cases h
      · rw [hk] at h
        injection h with h
        refine ⟨⟨m, h.symm, rfl⟩, ?_⟩
        rw [memoryUnits] at hk
        split at hk
        · rename_i r hr
          exact ⟨['G', 'B'], by simp, ⟨r.reverse, by rw [← List.reverse_reverse (memory.map Char.toUpper), hr]; simp⟩⟩
        · rename_i r hr
          exact ⟨['M', 'B'], by simp, ⟨r.reverse, by rw [← List.reverse_reverse (memory.map Char.toUpper), hr]; simp⟩⟩
        · cases hk

example : minutes "12H".toList = .ok 720 ∧ minutes "3d".toList = .ok 4320 ∧ minutes "3s".toList = .error .valueError ∧
    submission (some "1d".toList) (some "2gb".toList) = .ok (some 1440) ∧ submission (some "1d".toList) (some "2g".toList) = .error .valueError := by
  decide +kernel

/-- **C123 (command lines).**  A command line that is accepted consists of the options that are read and nothing else: every
word is the name of an option or the value of the option before it, and no value begins with a dash. -/
theorem C123_accepted (argv : List String) (args : List (String × String)) (h : parseArgs argv = .ok args) :
    argv = args.flatMap (fun p => if p.1 = "--optimize_orbs" then [p.1] else [p.1, p.2]) ∧
    ∀ p ∈ args, p.1 = "--optimize_orbs" ∧ p.2 = "" ∨ p.1 ∈ valueOptions ∧ p.2.toList.head? ≠ some '-' := by
  induction argv using parseArgs.induct generalizing args with
  | case1 =>
    rw [parseArgs] at h
    cases h
    simp
  | case2 =>
    rw [parseArgs, if_pos rfl] at h
    cases h
    simp
  | case3 word hw =>
    rw [parseArgs, if_neg hw] at h
    cases h
  | case4 v rest ih =>
    rw [parseArgs, if_pos rfl] at h
    rcases hr : parseArgs (v :: rest) with e | r
    · rw [hr] at h; cases h
    · rw [hr] at h
      cases h
      obtain ⟨h1, h2⟩ := ih r hr
      refine ⟨?_, ?_⟩
      · rw [List.flatMap_cons, ← h1]; simp
      · intro p hp
        rcases List.mem_cons.mp hp with rfl | hp
        · exact Or.inl ⟨rfl, rfl⟩
        · exact h2 p hp
  | case5 word v rest hw hm hd =>
    rw [parseArgs, if_neg hw, if_pos hm, if_pos hd] at h
    cases h
  | case6 word v rest hw hm hd ih =>
    rw [parseArgs, if_neg hw, if_pos hm, if_neg hd] at h
    rcases hr : parseArgs rest with e | r
    · rw [hr] at h; cases h
    · rw [hr] at h
      cases h
      obtain ⟨h1, h2⟩ := ih r hr
      refine ⟨?_, ?_⟩
      · rw [List.flatMap_cons, ← h1]; simp [hw]
      · intro p hp
        rcases List.mem_cons.mp hp with rfl | hp
        · exact Or.inr ⟨hm, by simpa [dashed] using hd⟩
        · exact h2 p hp
  | case7 word v rest hw hm =>
    rw [parseArgs, if_neg hw, if_neg hm] at h
    cases h

example : parseArgs ["--optimize_orbs", "--solver", "cma"] = .ok [("--optimize_orbs", ""), ("--solver", "cma")] ∧
    parseArgs ["--sover", "cma"] = .error .runtimeError := by
  constructor <;> decide +kernel

end Fanpy.Props
