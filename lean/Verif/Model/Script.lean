import Verif.Model.Slater

/-!
# Model of `fanpy/scripts/utils.py`, `wavefunction_info.py` and of `make_script` (gaussian and pyscf)

The generated script is a list of statements, each with the names it uses, the names it binds and its calls of functions of fanpy.  The text
of the statements is left out, except where file names are put into quotes.  Simplification: keyword arguments that the user gives as text
(`solver_kwargs`, `wfn_kwargs`) are given together with the keywords and the names in them (`Kw`); lists and tuples of the projection space
hold integers (`some`) or other objects (`none`).
-/

namespace Fanpy.Script

/-- a python object given to `check_inputs` -/
inductive Arg
  | none
  | bool (b : Bool)
  | int (n : ℤ)
  /-- a `float`, is it zero? -/
  | float (zero : Bool)
  | str (s : String)
  | list (l : List (Option ℤ))
  | tuple (l : List (Option ℤ))
  | other
  deriving DecidableEq

/-- `isinstance(x, int)`; booleans are integers -/
def Arg.isInt : Arg → Bool
  | .bool _ => true
  | .int _ => true
  | _ => false

/-- `isinstance(x, (int, float))` -/
def Arg.isNumber : Arg → Bool
  | .bool _ => true
  | .int _ => true
  | .float _ => true
  | _ => false

/-- `isinstance(x, bool)` -/
def Arg.isBool : Arg → Bool
  | .bool _ => true
  | _ => false

/-- the integer -/
def Arg.toInt : Arg → ℤ
  | .bool b => if b then 1 else 0
  | .int n => n
  | _ => 0

/-- the elements of a list or tuple -/
def Arg.seq? : Arg → Option (List (Option ℤ))
  | .list l => some l
  | .tuple l => some l
  | _ => Option.none

/-- the arguments of `check_inputs` — scripts/utils.py:21-42 -/
structure Inputs where
  nelec : Arg
  oneInt : Arg
  twoInt : Arg
  wfnType : Arg
  pspaceExc : Arg
  objective : Arg
  solver : Arg
  nucNuc : Arg
  optimizeOrbs : Arg := .bool false
  hamNoise : Arg := .none
  wfnNoise : Arg := .none
  loadOrbs : Arg := .none
  loadHam : Arg := .none
  loadHamUm : Arg := .none
  loadWfn : Arg := .none
  saveChk : Arg := .none
  filename : Arg := .none
  memory : Arg := .none
  solverKwargs : Arg := .none
  wfnKwargs : Arg := .none

/-- `if not b: raise e` -/
def need (b : Bool) (e : PyErr) : Except PyErr Unit := if b then .ok () else .error e

/-- `"\n" in name or ";" in name` -/
def hasBreak (s : String) : Bool := s.toList.contains '\n' || s.toList.contains ';'

/-- names of files — utils.py:146-155, 253-259 and keyword arguments — 273-279 -/
def checkText : Arg → Except PyErr Unit
  | .str s => need (!hasBreak s) .valueError
  | _ => .error .typeError

/-- the same for optional texts — utils.py:250-259, 270-279 -/
def checkText? : Arg → Except PyErr Unit
  | .none => .ok ()
  | a => checkText a

/-- the types of wavefunctions — scripts/wavefunction_info.py:104-138 -/
def wfnTypes : List String :=
  ["ci_pairs", "cisd", "hci", "fci", "doci", "mps", "determinant-ratio", "ap1rog", "apr2g", "apig", "apsetg", "apg", "rbm", "basecc",
    "standardcc", "generalizedcc", "senioritycc", "pccd", "ap1rogsd", "ap1rogsd_spin", "apsetgd", "apsetgsd", "apg1rod", "apg1rosd",
    "ccsdsen0", "ccsdqsen0", "ccsdtqsen0", "ccsdtsen2qsen0", "ccs", "ccsd", "ccsdt", "ccsdtq", "custom"]

/-- is there a function for this type of wavefunction? — wavefunction_info.py:140-143; a list cannot be looked up in a dictionary -/
def getWfnInfo : Arg → Except PyErr String
  | .str s => if s ∈ wfnTypes then .ok s else .error .valueError
  | .list _ => .error .typeError
  | _ => .error .valueError

/-- utils.py:198-204 -/
def checkPspace (nelec : ℤ) (a : Arg) : Except PyErr Unit :=
  match a.seq? with
  | Option.none => .error .typeError
  | some l =>
    if ¬ l.all Option.isSome then .error .typeError
    else if l.any (fun i => i.getD 0 ≤ 0 ∨ i.getD 0 > nelec) then .error .valueError
    else .ok ()

/-- utils.py:207 -/
def objectiveList : List Arg := [.str "least_squares", .str "variational", .str "one_energy", .str "energy"]

/-- utils.py:208 -/
def objectives : List Arg := [.none, .str "projected", .str "projected_stochastic"] ++ objectiveList

/-- utils.py:215 -/
def solvers : List Arg :=
  [.none, .str "diag", .str "cma", .str "minimize", .str "least_squares", .str "root", .str "trustregion", .str "fanpt"]

/-- utils.py:262-267 -/
def checkMemory : Arg → Except PyErr Unit
  | .none => .ok ()
  | .str s => need ((s.toList.reverse.take 2).reverse.map Char.toLower ∈ [['m', 'b'], ['g', 'b']]) .valueError
  | _ => .error .typeError

/-- `check_inputs(...)` — scripts/utils.py:123-279 -/
def checkInputs (a : Inputs) : Except PyErr Unit := do
  need a.nelec.isInt .typeError
  need a.nucNuc.isNumber .typeError
  need (a.hamNoise.isNumber || a.hamNoise = .none) .typeError
  need (a.wfnNoise.isNumber || a.wfnNoise = .none) .typeError
  need a.optimizeOrbs.isBool .typeError
  checkText a.oneInt
  checkText a.twoInt
  let _ ← getWfnInfo a.wfnType
  checkPspace a.nelec.toInt a.pspaceExc
  need (a.objective ∈ objectives) .valueError
  need (a.solver ∈ solvers) .valueError
  need (¬ (a.solver ∈ [.str "cma", .str "minimize"] ∧ a.objective ∉ objectiveList)) .valueError
  need (¬ (a.solver ∈ [.str "least_squares", .str "root", .str "fanpt"] ∧ a.objective ∉ [.str "projected", .str "projected_stochastic"]))
    .valueError
  need (¬ (a.solver = .str "diag" ∧ a.wfnType ∉ [.str "ci_pairs", .str "cisd", .str "fci", .str "doci"])) .valueError
  need (¬ (a.solver = .str "diag" ∧ a.optimizeOrbs = .bool true)) .valueError
  checkText? a.loadOrbs
  checkText? a.loadHam
  checkText? a.loadHamUm
  checkText? a.loadWfn
  checkText? a.saveChk
  checkText? a.filename
  checkMemory a.memory
  checkText? a.solverKwargs
  checkText? a.wfnKwargs

/-- the line with the name of the file with the integrals — gaussian/make_script.py:225, 234 -/
def fileLine (var file : String) : String := var ++ " = '" ++ file ++ "'\n"

/-! ## The wavefunctions -/

/-- keyword arguments given as text: the keywords and the names used in the values -/
structure Kw where
  keys : List String
  uses : List String := []
  deriving DecidableEq

/-- module, class and default keyword arguments of the types of wavefunctions except `custom` — wavefunction_info.py:146-852.  For `ccs`, ...
the keyword `ranks` is put before the given keyword arguments. -/
def wfnInfo (t : String) (kw : Option Kw) : String × String × Kw :=
  let cc : Kw := ⟨["ranks", "indices", "refwfn", "exop_combinations"], []⟩
  let withRanks (k : Kw) : Kw := { k with keys := "ranks" :: k.keys }
  let rest : Kw := ⟨["indices", "refwfn", "exop_combinations"], []⟩
  match t with
  | "ci_pairs" => ("fanpy.wfn.ci.ci_pairs", "CIPairs", kw.getD ⟨[], []⟩)
  | "cisd" => ("fanpy.wfn.ci.cisd", "CISD", kw.getD ⟨[], []⟩)
  | "hci" => ("fanpy.wfn.ci.hci", "hCI", kw.getD ⟨["alpha1", "alpha2", "hierarchy"], []⟩)
  | "fci" => ("fanpy.wfn.ci.fci", "FCI", kw.getD ⟨["spin"], []⟩)
  | "doci" => ("fanpy.wfn.ci.doci", "DOCI", kw.getD ⟨[], []⟩)
  | "mps" => ("fanpy.wfn.network.mps", "MatrixProductState", kw.getD ⟨["dimension"], []⟩)
  | "determinant-ratio" => ("fanpy.wfn.quasiparticle.det_ratio", "DeterminantRatio", kw.getD ⟨["numerator_mask"], []⟩)
  | "ap1rog" => ("fanpy.wfn.geminal.ap1rog", "AP1roG", kw.getD ⟨["ref_sd", "ngem"], []⟩)
  | "apr2g" => ("fanpy.wfn.geminal.apr2g", "APr2G", kw.getD ⟨["ngem"], []⟩)
  | "apig" => ("fanpy.wfn.geminal.apig", "APIG", kw.getD ⟨["ngem"], []⟩)
  | "apsetg" => ("fanpy.wfn.geminal.apsetg", "BasicAPsetG", kw.getD ⟨["ngem"], []⟩)
  | "apg" => ("fanpy.wfn.geminal.apg", "APG", kw.getD ⟨["ngem"], []⟩)
  | "rbm" => ("fanpy.wfn.network.rbm", "RestrictedBoltzmannMachine", kw.getD ⟨["nbath", "orders"], ["nspin"]⟩)
  | "basecc" => ("fanpy.wfn.cc.base", "BaseCC", kw.getD cc)
  | "standardcc" => ("fanpy.wfn.cc.standard_cc", "StandardCC", kw.getD cc)
  | "generalizedcc" => ("fanpy.wfn.cc.generalized_cc", "GeneralizedCC", kw.getD cc)
  | "senioritycc" => ("fanpy.wfn.cc.seniority_cc", "SeniorityCC", kw.getD cc)
  | "pccd" => ("fanpy.wfn.cc.pccd_ap1rog", "PCCD", kw.getD cc)
  | "ap1rogsd" => ("fanpy.wfn.cc.ap1rog_generalized", "AP1roGSDGeneralized", kw.getD cc)
  | "ap1rogsd_spin" => ("fanpy.wfn.cc.ap1rog_spin", "AP1roGSDSpin", kw.getD cc)
  | "apsetgd" => ("fanpy.wfn.cc.apset1rog_d", "APset1roGD", kw.getD cc)
  | "apsetgsd" => ("fanpy.wfn.cc.apset1rog_sd", "APset1roGSD", kw.getD cc)
  | "apg1rod" => ("fanpy.wfn.cc.apg1ro_d", "APG1roD", kw.getD cc)
  | "apg1rosd" => ("fanpy.wfn.cc.apg1ro_sd", "APG1roSD", kw.getD cc)
  | "ccsdsen0" => ("fanpy.wfn.cc.ccsd_sen0", "CCSDsen0", kw.getD cc)
  | "ccsdqsen0" => ("fanpy.wfn.cc.ccsdq_sen0", "CCSDQsen0", kw.getD cc)
  | "ccsdtqsen0" => ("fanpy.wfn.cc.ccsdtq_sen0", "CCSDTQsen0", kw.getD cc)
  | "ccsdtsen2qsen0" => ("fanpy.wfn.cc.ccsdt_sen2_q_sen0", "CCSDTsen2Qsen0", kw.getD cc)
  | _ => ("fanpy.wfn.cc.standard_cc", "StandardCC", withRanks (kw.getD rest))

/-- the parameters of a function: all of them, how many must be given, and is there `**kwargs`? -/
structure Sig where
  params : List String
  required : ℕ
  varkw : Bool := false

/-- parameters of the constructors and functions that the scripts call -/
def sigOf : String → Option Sig
  -- wfn/ci/base.py:92
  | "CIPairs" | "CISD" | "FCI" | "DOCI" => some ⟨["nelec", "nspin", "memory", "params", "sds", "spin", "seniority"], 2, false⟩
  -- wfn/ci/hci.py:133
  | "hCI" => some ⟨["nelec", "nspin", "hci_pattern", "hierarchy", "hci_version", "sds", "memory", "refwfn"], 2, false⟩
  -- wfn/network/mps.py:75
  | "MatrixProductState" => some ⟨["nelec", "nspin", "memory", "params", "dimension", "enable_cache"], 2, false⟩
  -- wfn/quasiparticle/det_ratio.py:67
  | "DeterminantRatio" => some ⟨["nelec", "nspin", "memory", "numerator_mask", "params", "enable_cache"], 2, false⟩
  -- wfn/geminal/ap1rog.py:104
  | "AP1roG" => some ⟨["nelec", "nspin", "memory", "ngem", "orbpairs", "ref_sd", "params", "enable_cache"], 2, false⟩
  -- wfn/geminal/base.py:118
  | "APr2G" | "APIG" | "BasicAPsetG" | "APG" => some ⟨["nelec", "nspin", "memory", "ngem", "orbpairs", "params", "enable_cache"], 2, false⟩
  -- wfn/network/rbm.py:54
  | "RestrictedBoltzmannMachine" => some ⟨["nelec", "nspin", "nbath", "params", "memory", "num_layers", "orders"], 3, false⟩
  -- wfn/cc/base.py:133, standard_cc.py:101, seniority_cc.py:114, pccd_ap1rog.py:107, ccsd_sen0.py:103
  | "BaseCC" | "StandardCC" | "GeneralizedCC" | "SeniorityCC" | "PCCD" | "AP1roGSDGeneralized" | "AP1roGSDSpin" | "APset1roGD"
  | "APset1roGSD" | "APG1roD" | "APG1roSD" | "CCSDsen0" | "CCSDQsen0" | "CCSDTQsen0" | "CCSDTsen2Qsen0" =>
    some ⟨["nelec", "nspin", "memory", "ranks", "indices", "refwfn", "params", "exop_combinations", "refresh_exops"], 2, false⟩
  -- ham/generalized_chemical.py:66
  | "SeniorityZeroHamiltonian" | "RestrictedMolecularHamiltonian" => some ⟨["one_int", "two_int", "params", "update_prev_params"], 2, false⟩
  -- tools/sd_list.py:57
  | "sd_list" => some ⟨["nelec", "nspin", "num_limit", "exc_orders", "spin", "seniority", "hierarchy"], 2, false⟩
  -- eqn/projected.py:148
  | "ProjectedSchrodinger" | "LeastSquaresEquations" =>
    some ⟨["wfn", "ham", "param_selection", "optimize_orbitals", "step_print", "step_save", "tmpfile", "pspace", "pspace_exc_orders", "refwfn",
      "eqn_weights", "energy_type", "energy", "constraints"], 2, false⟩
  -- eqn/energy_twoside.py:113
  | "EnergyTwoSideProjection" =>
    some ⟨["wfn", "ham", "param_selection", "optimize_orbitals", "step_print", "step_save", "tmpfile", "pspace_l", "pspace_r", "pspace_n"], 2, false⟩
  -- eqn/energy_oneside.py:97
  | "EnergyOneSideProjection" =>
    some ⟨["wfn", "ham", "param_selection", "optimize_orbitals", "step_print", "step_save", "tmpfile", "refwfn"], 2, false⟩
  -- eqn/constraints/norm.py:56
  | "NormConstraint" => some ⟨["wfn", "refwfn", "param_selection"], 1, false⟩
  -- eqn/constraints/energy.py:37
  | "EnergyConstraint" =>
    some ⟨["wfn", "ham", "tmpfile", "param_selection", "refwfn", "ref_energy", "queue_size", "base", "min_diff", "simple"], 2, false⟩
  -- solver/ci.py:13
  | "brute" => some ⟨["wfn", "ham", "save_file"], 2, false⟩
  -- solver/equation.py:12, solver/system.py:9, 89
  | "cma" | "least_squares" | "root" => some ⟨["objective"], 1, true⟩
  -- solver/equation.py:110
  | "minimize" => some ⟨["objective", "use_gradient"], 1, true⟩
  -- interface/pyci.py:22
  | "interface.pyci.PYCI" =>
    some ⟨["fanpy_objective", "energy_nuc", "norm_det", "norm_param", "constraints", "mask", "max_memory", "legacy_fanci", "verbose"], 2, true⟩
  -- interface/fanci/pyci.py:712
  | "pyci_interface.objective.optimize" => some ⟨["x0", "mode", "use_jac"], 1, true⟩
  -- fanpt/fanpt.py:86
  | "FANPT" =>
    some ⟨["fanpy_objective", "energy_nuc", "legacy_fanci", "energy_active", "resum", "ref_sd", "final_order", "lambda_i", "lambda_f", "steps",
      "step_print", "quasi_approximation_order"], 2, true⟩
  -- fanpt/fanpt.py:224
  | "fanpt.optimize" => some ⟨["guess_params", "guess_energy", "final_order", "lambda_i", "lambda_f", "steps"], 2, true⟩
  | _ => none

/-! ## The script -/

/-- a call with `npos` positional arguments and the keywords `kws` -/
structure Call where
  callee : String
  npos : ℕ
  kws : List String
  deriving DecidableEq

/-- a statement of the script -/
structure Stmt where
  uses : List String := []
  defs : List String := []
  calls : List Call := []
  deriving DecidableEq

/-- errors of `make_script`: of python, or a local variable that has no value -/
inductive ScriptErr
  | py (e : PyErr)
  | unbound (name : String)
  deriving DecidableEq

/-- the options of `make_script`.  `wfnName` is the class of a `custom` wavefunction; is the noise neither 0 nor `None`?  Texts of file names
do not matter here, only whether they are given; `chkFiles` are the answers of `os.path.isfile` -/
structure Options where
  wfnType : String
  customName : String := ""
  optimizeOrbs : Bool := false
  objective : Option String := some "projected"
  solver : Option String := some "least_squares"
  solverKw : Option Kw := none
  wfnKw : Option Kw := none
  hamNoise : Bool := false
  wfnNoise : Bool := false
  loadHam : Bool := false
  loadHamUm : Bool := false
  loadWfn : Bool := false
  loadChk : Bool := false
  chkFiles : Bool × Bool × Bool × Bool := (false, false, false, false)
  constraint : Option String := none

/-- class and keyword arguments of the wavefunction — gaussian/make_script.py:141-142, wavefunction_info.py:855-893 -/
def Options.wfn (o : Options) : String × Kw :=
  if o.wfnType = "custom" then (o.customName, o.wfnKw.getD ⟨[], []⟩) else ((wfnInfo o.wfnType o.wfnKw).2.1, (wfnInfo o.wfnType o.wfnKw).2.2)

/-- gaussian/make_script.py:145-150, pyscf/make_script.py:135-140 -/
def Options.hamName (o : Options) : String :=
  if (o.wfn.1 = "DOCI" ∨ o.wfn.1 = "CIPairs") ∧ ¬ o.optimizeOrbs then "SeniorityZeroHamiltonian" else "RestrictedMolecularHamiltonian"

/-- gaussian/make_script.py:154-161 -/
def objectiveClass : Option String → List String
  | some "projected" => ["ProjectedSchrodinger"]
  | some "least_squares" => ["LeastSquaresEquations"]
  | some "variational" => ["EnergyTwoSideProjection"]
  | some "one_energy" => ["EnergyOneSideProjection"]
  | _ => []

/-- gaussian/make_script.py:163-166 -/
def constraintClass : Option String → List String
  | some "norm" => ["NormConstraint"]
  | some "energy" => ["EnergyConstraint"]
  | _ => []

/-- the name of the solver, and its default arguments: number of positional arguments after the objective, keywords and names used —
gaussian/make_script.py:168-205.  The default arguments of `trustregion` are a tuple of two texts, which is one positional argument. -/
def solverInfo : Option String → Option (String × ℕ × Kw)
  | some "cma" => some ("cma", 0, ⟨["sigma0", "options"], ["np"]⟩)
  | some "diag" => some ("brute", 0, ⟨[], []⟩)
  | some "minimize" => some ("minimize", 0, ⟨["method", "jac", "options"], ["objective"]⟩)
  | some "least_squares" => some ("least_squares", 0, ⟨["xtol", "ftol", "gtol", "max_nfev", "jac"], ["objective"]⟩)
  | some "root" => some ("root", 0, ⟨["method", "jac", "options"], ["objective"]⟩)
  | some "trustregion" => some ("minimize", 1, ⟨[], []⟩)
  | _ => none

/-- the imports — gaussian/make_script.py:136-215, pyscf/make_script.py:128-197 -/
def importStmts (pyscf : Bool) (o : Options) : List Stmt :=
  [{ defs := ["np", "os", "sys"] }] ++ (if pyscf then [{ defs := ["gto", "scf", "PYSCF"] }] else []) ++
  [{ defs := [o.wfn.1, o.hamName, "sd_list"] ++ objectiveClass o.objective ++ constraintClass o.constraint ++
      (match solverInfo o.solver with
       | some s => [s.1]
       | none => []) }]

/-- numbers of electrons and orbitals, integrals — gaussian/make_script.py:219-250, pyscf/make_script.py:199-240 -/
def systemStmts : Bool → List Stmt
  | false =>
    [{ defs := ["nelec"] }, { uses := ["print", "nelec"] }, { defs := ["one_int_file"] }, { uses := ["np", "one_int_file"], defs := ["one_int"] },
      { uses := ["print", "os", "one_int_file"] }, { defs := ["two_int_file"] }, { uses := ["np", "two_int_file"], defs := ["two_int"] },
      { uses := ["print", "os", "two_int_file"] }, { uses := ["one_int"], defs := ["nspin"] }, { uses := ["print", "nspin"] },
      { defs := ["nuc_nuc"] }, { uses := ["print", "nuc_nuc"] }]
  | true =>
    [{ uses := ["print"] }, { uses := ["gto"], defs := ["mol"] }, { uses := ["scf", "mol"], defs := ["myhf"] }, { uses := ["myhf"] },
      { uses := ["myhf"], defs := ["new_guess", "_", "stable"] }, { uses := ["stable", "print", "myhf", "new_guess"], defs := ["myhf", "_", "stable"] },
      { uses := ["stable", "RuntimeError"] }, { uses := ["PYSCF", "myhf"], defs := ["interface"] }, { uses := ["print"] },
      { uses := ["print", "interface"] }, { uses := ["print", "interface"] }, { uses := ["print", "interface"] }]

/-- the names of numbers of electrons and spin orbitals, and of the integrals -/
def sizeNames (pyscf : Bool) : List String := if pyscf then ["interface"] else ["nelec", "nspin"]

/-- the names of the integrals -/
def intNames (pyscf : Bool) : List String := if pyscf then ["interface"] else ["one_int", "two_int"]

/-- the wavefunction — gaussian/make_script.py:252-279, pyscf/make_script.py:242-263 -/
def wfnStmts (pyscf : Bool) (o : Options) : List Stmt :=
  (if o.loadWfn then [{ defs := ["wfn_params_file"] }, { uses := ["np", "wfn_params_file"], defs := ["wfn_params"] },
    { uses := ["print", "os", "wfn_params_file"] }] else []) ++
  [{ uses := [o.wfn.1] ++ sizeNames pyscf ++ (if o.loadWfn then ["wfn_params"] else []) ++ o.wfn.2.uses, defs := ["wfn"],
     calls := [⟨o.wfn.1, 2, ["params", "memory"] ++ o.wfn.2.keys⟩] }] ++
  (if o.wfnNoise then [{ uses := ["wfn", "np"] }] else []) ++ [{ uses := ["print"] }]

/-- the Hamiltonian — gaussian/make_script.py:281-323, pyscf/make_script.py:265-308 -/
def hamStmts (pyscf : Bool) (o : Options) : List Stmt :=
  [{ uses := [o.hamName] ++ intNames pyscf, defs := ["ham"],
     calls := [⟨o.hamName, 2, if o.solver = some "cma" then [] else ["update_prev_params"]⟩] }] ++
  (if o.loadHamUm then [{ defs := ["ham_um_file"] }, { uses := ["np", "ham_um_file"], defs := ["ham_um"] },
    { uses := ["print", "os", "ham_um_file"] }, { uses := ["ham", "ham_um"] }] else []) ++
  (if o.loadHam then [{ defs := ["ham_params_file"] }, { uses := ["np", "ham_params_file"], defs := ["ham_params"] },
    { uses := ["print", "os", "ham_params_file"] }] ++ (if o.loadHamUm then [{ uses := ["ham", "ham_params"] }] else []) ++
    [{ uses := ["ham", "ham_params"] }] else []) ++
  (if o.hamNoise then [{ uses := ["ham", "np"] }] else []) ++ [{ uses := ["print"] }]

/-- the checkpoint — gaussian/make_script.py:325-373 (326-348 are never reached) -/
def chkStmts (o : Options) : List Stmt :=
  if o.loadChk then
    [{ defs := ["os"] }, { uses := ["os"], defs := ["dirname", "chk_point_file"] }, { uses := ["os", "chk_point_file"], defs := ["chk_point_file", "ext"] },
      { uses := ["wfn", "np", "os", "dirname", "chk_point_file", "ext"] }, { uses := ["ham", "np", "os", "dirname", "chk_point_file", "ext"] },
      (if o.chkFiles.2.2.1 then { uses := ["ham", "np", "os", "dirname", "chk_point_file", "ext"] } else { uses := ["ham"] }),
      { uses := ["ham", "np", "os", "dirname", "chk_point_file", "ext"] }, { uses := ["ham"] }]
  else []

/-- projection space and selection of the parameters — gaussian/make_script.py:396-421 -/
def pspaceStmts (pyscf : Bool) (o : Options) : List Stmt :=
  [{ uses := ["sd_list", "wfn"] ++ sizeNames pyscf, defs := ["pspace"],
     calls := [⟨"sd_list", 2, ["num_limit", "exc_orders", "spin", "seniority"]⟩] }, { uses := ["print"] },
   { uses := ["wfn", "np", "bool"] ++ (if o.optimizeOrbs then ["ham"] else []), defs := ["param_selection"] }]

/-- constraints and weights — gaussian/make_script.py:423-437 -/
def weightStmts (o : Options) : List Stmt :=
  if o.objective = some "projected" ∨ o.objective = some "least_squares" then
    match o.constraint with
    | some "norm" =>
      [{ uses := ["NormConstraint", "wfn", "pspace", "param_selection"], defs := ["norm"], calls := [⟨"NormConstraint", 1, ["refwfn", "param_selection"]⟩] },
        { uses := ["np", "len", "pspace"], defs := ["weights"] }, { uses := ["weights"] }]
    | some "energy" =>
      [{ uses := ["EnergyConstraint", "wfn", "ham", "param_selection", "pspace"], defs := ["energy"],
         calls := [⟨"EnergyConstraint", 2, ["param_selection", "refwfn", "ref_energy", "queue_size", "min_diff", "simple"]⟩] },
        { uses := ["np", "len", "pspace"], defs := ["weights"] }, { uses := ["weights"] }]
    | _ => [{ uses := ["np", "len", "pspace"], defs := ["weights"] }]
  else []

/-- the objective — gaussian/make_script.py:439-510 -/
def objectiveStmts (o : Options) : Except ScriptErr (List Stmt) := do
  let projKws := ["param_selection", "pspace", "refwfn", "energy_type", "energy", "constraints", "eqn_weights"]
  let cons := match o.constraint with
    | none => []
    | some c => if c = "" then [] else [c]
  let ref := if o.wfnType ≠ "ap1rog" then ["pspace"] else []
  let init ← match o.objective with
    | some "projected" =>
      if o.solver = some "trustregion" then
        .ok { uses := ["ProjectedSchrodinger", "wfn", "ham", "param_selection", "pspace", "weights"], defs := ["objective"],
              calls := [⟨"ProjectedSchrodinger", 2, projKws⟩] }
      else
        .ok { uses := ["ProjectedSchrodinger", "wfn", "ham", "param_selection", "pspace", "weights"] ++ ref ++ cons, defs := ["objective"],
              calls := [⟨"ProjectedSchrodinger", 2, projKws⟩] }
    | some "least_squares" =>
      .ok { uses := ["LeastSquaresEquations", "wfn", "ham", "param_selection", "pspace", "weights"] ++ ref ++ cons, defs := ["objective"],
            calls := [⟨"LeastSquaresEquations", 2, projKws⟩] }
    | some "variational" =>
      .ok { uses := ["EnergyTwoSideProjection", "wfn", "ham", "param_selection", "pspace"], defs := ["objective"],
            calls := [⟨"EnergyTwoSideProjection", 2, ["param_selection", "pspace_l", "pspace_r", "pspace_n"]⟩] }
    | some "one_energy" =>
      .ok { uses := ["EnergyOneSideProjection", "wfn", "ham", "param_selection", "pspace"], defs := ["objective"],
            calls := [⟨"EnergyOneSideProjection", 2, ["param_selection", "refwfn"]⟩] }
    | _ => .error (.unbound "objective1")
  return [init, { uses := ["objective"] }] ++
    (if o.solver = some "trustregion" then [{ uses := ["objective", "wfn", "pspace", "len"] }] else [])

/-- normalization and energy — gaussian/make_script.py:512-525 -/
def energyStmts (o : Options) : List Stmt :=
  (if o.wfnType ∈ ["apg", "apig", "apsetg", "apg2", "apg3", "apg4", "apg5", "apg6", "apg7", "doci"] then [{ uses := ["wfn", "pspace"] }] else []) ++
  (if (o.objective = some "projected" ∨ o.objective = some "least_squares") ∧ o.solver ≠ some "trustregion" then
    [{ uses := ["objective", "pspace"], defs := ["energy_val"] }, { uses := ["print", "energy_val"] }, { uses := ["objective", "np", "energy_val"] }] ++
    (if o.constraint = some "energy" then [{ uses := ["energy", "energy_val"] }] else []) else [])

/-- the solver and the results — gaussian/make_script.py:527-547 -/
def solveStmts (pyscf : Bool) (o : Options) : Except ScriptErr (List Stmt) :=
  match solverInfo o.solver with
  | none => .error (.unbound "solver_name")
  | some (name, npos, kw) =>
    .ok ((if name = "brute" then [{ uses := ["brute", "wfn", "ham"], defs := ["results"], calls := [⟨"brute", 2, ["save_file"]⟩] }, { uses := ["print"] }]
      else match o.solverKw with
        | none => [{ uses := ["print"] }, { uses := [name, "objective"] ++ kw.uses, defs := ["results"], calls := [⟨name, 1 + npos, kw.keys⟩] }]
        | some k => [{ uses := ["print"] }, { uses := [name, "objective"] ++ k.uses, defs := ["results"], calls := [⟨name, 1, k.keys⟩] }]) ++
      [{ uses := ["results", "print"] }, { uses := ["results", "print"] },
       { uses := ["results", "print"] ++ (if pyscf then ["interface"] else ["nuc_nuc"]) }])

/-- the script of `make_script(...)` after the inputs were checked — gaussian/make_script.py:136-547, pyscf/make_script.py:128-519 -/
def makeScript (pyscf : Bool) (o : Options) : Except ScriptErr (List Stmt) :=
  if o.wfnType ∉ wfnTypes then .error (.py .valueError)
  else do
    let objective ← objectiveStmts o
    let solve ← solveStmts pyscf o
    return importStmts pyscf o ++ systemStmts pyscf ++ wfnStmts pyscf o ++ hamStmts pyscf o ++ chkStmts o ++ pspaceStmts pyscf o ++
      weightStmts o ++ objective ++ energyStmts o ++ solve

/-- the atoms in the script — pyscf/make_script.py:200-205 -/
def geometry {α : Type} (geom : List α) : Except PyErr (List α) :=
  match geom.head?, geom.getLast? with
  | some a, some b => .ok ([a] ++ (geom.drop 1).dropLast ++ [b])
  | _, _ => .error .indexError

end Fanpy.Script
