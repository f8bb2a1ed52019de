import Verif.Model.Script
import Verif.Model.SdList
import Verif.Model.Text

/-!
# Model of `make_script` of `scripts/gaussian/make_fanci_script.py` and `scripts/pyscf/make_fanci_script.py`

The scripts are lists of statements as in `Model/Script.lean`.  The inputs are checked by `check_inputs` only for gaussian
(gaussian/make_fanci_script.py:114-135, C96); the calls are commented out for pyscf (105-123).  `wfn_type.lower()` (gaussian 140) changes no
type that `check_inputs` accepts.
-/

namespace Fanpy.Script

/-- the options of `make_script`: those of the scripts without pyci, is a file for checkpoints given, and the arguments of `FANPT` -/
structure FanciOptions extends Options where
  saveChk : Bool := false
  fanptKw : Option Kw := none

/-- the imports — gaussian/make_fanci_script.py:137-153, 178-192, pyscf/make_fanci_script.py:125-157, 183 -/
def fanciImports (pyscf : Bool) (o : FanciOptions) (constraint : Option String) : List Stmt :=
  [{ defs := ["np", "os", "sys", "pyci", "interface"] },
   { defs := if pyscf then ["gto", "scf", "PYSCF"] else ["convert_to_fanci"] },
   { defs := [o.wfn.1, o.hamName, "sd_list", "ProjectedSchrodinger"] ++ (if pyscf then constraintClass constraint else []) ++
       (if o.solver = some "fanpt" then ["FANPT"] else []) }]

/-- numbers of electrons and orbitals, integrals — gaussian/make_fanci_script.py:208-239, pyscf/make_fanci_script.py:208-249 -/
def fanciSystem : Bool → List Stmt
  | false =>
    [{ defs := ["nelec"] }, { uses := ["print", "nelec"] }, { defs := ["one_int_file"] }, { uses := ["np", "one_int_file"], defs := ["one_int"] },
      { uses := ["print", "os", "one_int_file"] }, { defs := ["two_int_file"] }, { uses := ["np", "two_int_file"], defs := ["two_int"] },
      { uses := ["print", "os", "two_int_file"] }, { uses := ["one_int"], defs := ["nspin"] }, { uses := ["print", "nspin"] },
      { defs := ["nuc_nuc"] }, { uses := ["print", "nuc_nuc"] }]
  | true =>
    [{ uses := ["print"] }, { uses := ["gto"], defs := ["mol"] }, { uses := ["scf", "mol"], defs := ["myhf"] }, { uses := ["myhf"] },
      { uses := ["myhf"], defs := ["new_guess", "_", "stable"] }, { uses := ["stable", "print", "myhf", "new_guess"], defs := ["myhf", "_", "stable"] },
      { uses := ["stable", "RuntimeError"] }, { uses := ["PYSCF", "myhf"], defs := ["pyscf_interface"] }, { uses := ["print"] },
      { uses := ["print", "pyscf_interface"] }, { uses := ["print", "pyscf_interface"] }, { uses := ["print", "pyscf_interface"] }]

/-- the names of the numbers of electrons and spin orbitals -/
def fanciSizes (pyscf : Bool) : List String := if pyscf then ["pyscf_interface"] else ["nelec", "nspin"]

/-- the names of the integrals -/
def fanciInts (pyscf : Bool) : List String := if pyscf then ["pyscf_interface"] else ["one_int", "two_int"]

/-- the name of the repulsion of the nuclei -/
def fanciNuc (pyscf : Bool) : List String := if pyscf then ["pyscf_interface"] else ["nuc_nuc"]

/-- the wavefunction — gaussian/make_fanci_script.py:241-268, pyscf/make_fanci_script.py:251-275 -/
def fanciWfn (pyscf : Bool) (o : FanciOptions) : List Stmt :=
  (if o.loadWfn then [{ defs := ["wfn_params_file"] }, { uses := ["np", "wfn_params_file"], defs := ["wfn_params"] },
    { uses := ["print", "os", "wfn_params_file"] }] else []) ++
  [{ uses := [o.wfn.1] ++ fanciSizes pyscf ++ (if o.loadWfn then ["wfn_params"] else []) ++ o.wfn.2.uses, defs := ["wfn"],
     calls := [⟨o.wfn.1, 2, ["params", "memory"] ++ o.wfn.2.keys⟩] }] ++
  (if o.wfnNoise then [{ uses := ["wfn", "np"] }] else []) ++ [{ uses := ["print"] }]

/-- the Hamiltonian; `update_prev_params` is given except for `fanpt` and `cma` — gaussian/make_fanci_script.py:270-320,
pyscf/make_fanci_script.py:277-327 -/
def fanciHam (pyscf : Bool) (o : FanciOptions) : List Stmt :=
  [{ uses := [o.hamName] ++ fanciInts pyscf, defs := ["ham"],
     calls := [⟨o.hamName, 2, if o.solver = some "fanpt" ∨ o.solver = some "cma" then [] else ["update_prev_params"]⟩] }] ++
  (if o.loadHamUm then [{ defs := ["ham_um_file"] }, { uses := ["np", "ham_um_file"], defs := ["ham_um"] },
    { uses := ["print", "os", "ham_um_file"] }, { uses := ["ham", "ham_um"] }] else []) ++
  (if o.loadHam then [{ defs := ["ham_params_file"] }, { uses := ["np", "ham_params_file"], defs := ["ham_params"] },
    { uses := ["print", "os", "ham_params_file"] }] ++ (if o.loadHamUm then [{ uses := ["ham", "ham_params"] }] else []) ++
    [{ uses := ["ham", "ham_params"] }] else []) ++
  (if o.hamNoise then [{ uses := ["ham", "np"] }] else []) ++ [{ uses := ["print"] }]

/-- the checkpoint; parameters of the Hamiltonian are loaded only from files that exist when the script is made —
gaussian/make_fanci_script.py:322-363, pyscf/make_fanci_script.py:329-370 -/
def fanciChk (o : FanciOptions) : List Stmt :=
  if o.loadChk then
    [{ defs := ["os"] }, { uses := ["os"], defs := ["dirname", "chk_point_file"] }, { uses := ["os", "chk_point_file"], defs := ["chk_point_file", "ext"] },
      { uses := ["wfn", "np", "os", "dirname", "chk_point_file", "ext"] }] ++
    (if o.chkFiles.2.1 then [{ uses := ["ham", "np", "os", "dirname", "chk_point_file", "ext"] }] else []) ++
    (if o.chkFiles.2.2.1 then [{ uses := ["ham", "np", "os", "dirname", "chk_point_file", "ext"] }] else []) ++
    (if o.chkFiles.2.2.2 then [{ uses := ["ham", "np", "os", "dirname", "chk_point_file", "ext"] }] else []) ++ [{ uses := ["ham"] }]
  else []

/-- projection space and selection of the parameters — gaussian/make_fanci_script.py:365-378, pyscf/make_fanci_script.py:372-389 -/
def fanciPspace (pyscf : Bool) (o : FanciOptions) : List Stmt :=
  (if pyscf then [] else [{ uses := ["print"] }, { defs := ["fill"] }]) ++
  [{ uses := ["sd_list"] ++ fanciSizes pyscf ++ (if o.solver = some "root" then ["len", "wfn"] else []), defs := ["pspace"],
     calls := [⟨"sd_list", 2, ["num_limit", "exc_orders", "spin"]⟩] }] ++
  (if pyscf then [{ uses := ["print"] }] else []) ++ [{ uses := ["wfn", "np", "bool"], defs := ["param_selection"] }]

/-- constraints and weights (only pyscf) — pyscf/make_fanci_script.py:391-405 -/
def fanciWeights : Option String → List Stmt
  | some "norm" =>
    [{ uses := ["NormConstraint", "wfn", "pspace", "param_selection"], defs := ["norm"], calls := [⟨"NormConstraint", 1, ["refwfn", "param_selection"]⟩] },
      { uses := ["np", "len", "pspace"], defs := ["weights"] }, { uses := ["weights"] }]
  | some "energy" =>
    [{ uses := ["EnergyConstraint", "wfn", "ham", "param_selection", "pspace"], defs := ["energy"],
       calls := [⟨"EnergyConstraint", 2, ["param_selection", "refwfn", "ref_energy", "queue_size", "min_diff", "simple"]⟩] },
      { uses := ["np", "len", "pspace"], defs := ["weights"] }, { uses := ["weights"] }]
  | _ => [{ uses := ["np", "len", "pspace"], defs := ["weights"] }]

/-- the names of the constraints of the objective — pyscf/make_fanci_script.py:428-429 -/
def fanciConstraintNames : Option String → List String
  | none => []
  | some c => if c = "" then [] else [c]

/-- the objective and the energy — gaussian/make_fanci_script.py:380-398, pyscf/make_fanci_script.py:407-495 -/
def fanciObjective (pyscf : Bool) (o : FanciOptions) (constraint : Option String) : List Stmt :=
  if pyscf then
    [{ uses := ["ProjectedSchrodinger", "wfn", "ham", "param_selection", "pspace", "weights"] ++ fanciConstraintNames constraint, defs := ["objective"],
       calls := [⟨"ProjectedSchrodinger", 2, ["param_selection", "pspace", "refwfn", "energy_type", "energy", "constraints", "eqn_weights"]⟩] },
     { uses := ["objective"] }, { uses := ["objective"] }] ++
    (if constraint = some "energy" then [{ uses := ["objective"] }] else []) ++
    (if o.wfnType ∈ ["apg", "apig", "apsetg", "apg2", "apg3", "apg4", "apg5", "apg6", "apg7", "doci"] then [{ uses := ["wfn", "pspace"] }] else []) ++
    [{ uses := ["objective", "pspace"], defs := ["energy_val"] }, { uses := ["print", "energy_val"] }, { uses := ["objective", "np", "energy_val"] }] ++
    (if constraint = some "energy" then [{ uses := ["energy", "energy_val"] }] else [])
  else
    [{ uses := ["ProjectedSchrodinger", "wfn", "ham", "pspace"], defs := ["objective"],
       calls := [⟨"ProjectedSchrodinger", 2, ["energy_type", "pspace"] ++ (if o.saveChk then ["tmpfile"] else [])⟩] },
     { uses := ["objective", "pspace"], defs := ["energy_val"] }, { uses := ["print", "energy_val"] }]

/-- the arguments of the optimization after the parameters: number of positional arguments, keywords with the names used, and the mode if it is
given.  For other solvers than three the given arguments are used, and `None` is printed if there are none —
gaussian/make_fanci_script.py:155-189, 414, pyscf/make_fanci_script.py:159-195, 512 -/
def fanciSolverKw (solver : Option String) (kw : Option Kw) : ℕ × Kw :=
  match solver with
  | some "least_squares" => (0, ⟨["mode", "use_jac"] ++ (kw.getD ⟨["xtol", "ftol", "gtol", "max_nfev", "verbose"], ["objective"]⟩).keys,
      (kw.getD ⟨["xtol", "ftol", "gtol", "max_nfev", "verbose"], ["objective"]⟩).uses⟩)
  | some "root" => (0, ⟨["mode", "use_jac"] ++ (kw.getD ⟨["method", "options"], []⟩).keys, (kw.getD ⟨["method", "options"], []⟩).uses⟩)
  | some "fanpt" => (0, kw.getD ⟨["mode", "use_jac", "xtol", "ftol", "gtol", "max_nfev", "verbose"], ["objective"]⟩)
  | _ => match kw with
    | some k => (0, k)
    | none => (1, ⟨[], []⟩)

/-- the interface, the solver and the results — gaussian/make_fanci_script.py:400-452, pyscf/make_fanci_script.py:497-550 -/
def fanciSolve (pyscf : Bool) (o : FanciOptions) : List Stmt :=
  let a := fanciSolverKw o.solver o.solverKw
  let f := o.fanptKw.getD ⟨["energy_active", "resum", "ref_sd", "final_order", "lambda_i", "lambda_f", "steps"], []⟩
  let pyci : Stmt := { uses := ["interface", "objective"] ++ fanciNuc pyscf, defs := ["pyci_interface"], calls := [⟨"interface.pyci.PYCI", 2, []⟩] }
  (if o.solver = some "fanpt" then
    [{ uses := ["FANPT", "objective"] ++ fanciNuc pyscf ++ f.uses, defs := ["fanpt"], calls := [⟨"FANPT", 2, f.keys⟩] }] ++
    (if pyscf then [] else [pyci]) ++ [{ uses := ["print"] },
     { uses := ["fanpt", "wfn", "energy_val"] ++ a.2.uses, defs := ["results"], calls := [⟨"fanpt.optimize", 2 + a.1, a.2.keys⟩] }]
  else [pyci, { uses := ["print"] },
     { uses := ["pyci_interface", "np", "objective", "energy_val"] ++ a.2.uses, defs := ["results"],
       calls := [⟨"pyci_interface.objective.optimize", 1 + a.1, a.2.keys⟩] }]) ++
  [{ uses := ["results", "print"] }, { uses := ["results", "print"] }, { uses := ["results", "print"] ++ fanciNuc pyscf }]

/-- the constraint that the script uses: for pyscf and `fanpt` it is `norm` if there is none — pyscf/make_fanci_script.py:150-152 -/
def fanciConstraint (pyscf : Bool) (o : FanciOptions) : Option String :=
  if pyscf ∧ o.solver = some "fanpt" ∧ o.constraint = none then some "norm" else o.constraint

/-- the script of `make_script(...)` after the inputs were checked (gaussian).  `natoms` is the length of the geometry (pyscf) —
gaussian/make_fanci_script.py:137-452, pyscf/make_fanci_script.py:125-550 -/
def makeFanciScript (pyscf : Bool) (natoms : ℕ) (o : FanciOptions) : Except PyErr (List Stmt) :=
  if o.wfnType ∉ wfnTypes then .error .valueError
  else if o.objective ≠ some "projected" then .error .valueError
  else if pyscf ∧ o.solver ∉ [some "least_squares", some "root", some "fanpt"] then .error .valueError
  else if pyscf ∧ natoms = 0 then .error .indexError
  else if o.optimizeOrbs then .error .valueError
  else
    .ok (fanciImports pyscf o (fanciConstraint pyscf o) ++ fanciSystem pyscf ++ fanciWfn pyscf o ++ fanciHam pyscf o ++ fanciChk o ++
      fanciPspace pyscf o ++ (if pyscf then fanciWeights (fanciConstraint pyscf o) else []) ++
      fanciObjective pyscf o (fanciConstraint pyscf o) ++ fanciSolve pyscf o)

/-- the mode of `optimize`: the first positional argument after the parameters, a keyword, or the default `"lstsq"`.  Modes in keyword arguments
that the user gives are `user` — gaussian/make_fanci_script.py:161, 165, 182, interface/fanci/pyci.py:715 -/
def fanciMode (o : FanciOptions) (user : Option String) : Option String :=
  match o.solver with
  | some "least_squares" => some "lstsq"
  | some "root" => some "root"
  | some "fanpt" => if o.solverKw = none then some "lstsq" else some (user.getD "lstsq")
  | _ => if o.solverKw = none then none else some (user.getD "lstsq")

/-- the choice of the optimizer — interface/fanci/pyci.py:773-792 (the check of the number of equations for `root` is not part of it) -/
def optimizerOf : Option String → Except PyErr String
  | some "lstsq" => .ok "least_squares"
  | some "root" => .ok "root"
  | _ => .error .valueError

/-- the orders of excitation of the projection space: those that the script prints, and those that it gives to `sd_list` (`None`: all) —
pyscf/make_fanci_script.py:372-382 -/
def printedOrders (pspaceExc : Option (List ℕ)) : List ℕ × Option (List ℕ) := (pspaceExc.getD [1, 2], pspaceExc)

/-- the content of the file after `make_script(..., filename=...)`: the file is overwritten (gaussian/make_fanci_script.py:462) or the script is
put at its end (pyscf/make_fanci_script.py:560) -/
def writtenFile (pyscf : Bool) (before script : List Stmt) : List Stmt := if pyscf then before ++ script else script

/-- the number of equations and parameters of a script with the solver `root`, for parameters of shape `shape` (not empty).  The projection space
has at most `len(wfn.params)` determinants, the norm is one more equation, and the energy one more parameter; with other numbers of equations
than parameters the optimization is refused — gaussian/make_fanci_script.py:369, pyscf/make_fanci_script.py:378, interface/pyci.py:110-123,
155-161, interface/fanci/pyci.py:245-246, 781-782.  `maxProj` is the number of projections that the interface allows. -/
def fanciRoot (nelec nspin : ℕ) (shape : List ℕ) (orders : Option (List ℕ)) (maxProj : ℕ) : Except PyErr Unit :=
  match SdList.sdList nelec nspin (some (shape.headD 0 : ℕ)) orders none none false with
  | .error e => .error e
  | .ok pspace => if min pspace.length maxProj + 1 ≠ shape.prod + 1 then .error .valueError else .ok ()

/-- `text.strip(chars)` -/
def stripChars (chars text : List Char) : List Char :=
  ((text.dropWhile fun c => chars.contains c).reverse.dropWhile fun c => chars.contains c).reverse

/-- the orders of excitation on the command line — pyscf/make_fanci_script.py:575-577.  `int` of a text is as in `Model/Text.lean`, with spaces
around the number -/
def cliFanciOrders (text : List Char) : Except PyErr (List ℕ) :=
  ((stripChars ['[', ']'] text).splitOn ',').mapM fun w => Text.parseInt 10 (stripChars [' '] w)

/-- the orders of excitation on the command line of the scripts without pyci: the text is not split, and every character is a number —
pyscf/make_script.py:372, 552 -/
def cliOrders (text : List Char) : Except PyErr (List ℕ) := text.mapM fun c => Text.parseInt 10 [c]

end Fanpy.Script
