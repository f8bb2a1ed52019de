import Verif.Model.FanciScript

/-!
# Model of scripts/pyscf/run_calc.py and of the command lines it makes (scripts/pyscf/pyscf_parser.py)

`write_wfn_py` runs the program `fanpy_make_pyscf_script` or `fanpy_make_fanci_pyscf_script` in every directory.  Its result is not looked at, so
all that matters is whether a script is put into the file.

argparse is not in the repository.  What is used of it here: an option of this parser takes the next word as its value, a word that begins with
`-` is not taken as a value, of repeated options the last one counts, and everything that cannot be read ends the program.  (argparse also takes
negative numbers, a single `-` and some texts with spaces as values; they are refused here.)

Not modelled: `make_pyscf_input`, the text of the geometry (`json` gives the number of atoms or refuses it), the text of numbers (`noise` says
whether a text is a number, and whether it is not zero), `re.search` in the name of a directory (`prev` gives the two files or `None`), what is
in the batch files of `run_calcs`.
-/

namespace Fanpy.Script

/-! ### Command lines of `write_wfn_py` -/

/-- the arguments of `write_wfn_py` — run_calc.py:81-86.  `pspace`, `hamNoise` and `wfnNoise` are the texts that `str` makes of the arguments. -/
structure Job where
  wfnType : String
  geom : String
  basis : String
  optimizeOrbs : Bool := false
  pspace : Option String := none
  objective : Option String := none
  solver : Option String := none
  hamNoise : Option String := none
  wfnNoise : Option String := none
  solverKwargs : Option String := none
  wfnKwargs : Option String := none
  loadOrbs : Option String := none
  loadHam : Option String := none
  loadWfn : Option String := none
  loadChk : Option String := none
  loadPrev : Bool := false
  memory : Option String := none
  filename : Option String := none
  fanpyOnly : Bool := false

/-- `[name, value]` unless the value is `None` — run_calc.py:209-222 -/
def given (name : String) : Option String → List String
  | none => []
  | some v => [name, v]

/-- `[name, value]` if the value is a text that is not empty — run_calc.py:200-207 -/
def truthy (name : String) : Option String → List String
  | none => []
  | some v => if v = "" then [] else [name, v]

/-- the solver — run_calc.py:193-194 -/
def Job.solverName (j : Job) : String := j.solver.getD "cma"

/-- the arguments of the solver — run_calc.py:195-197 -/
def Job.solverKw (j : Job) : Option String :=
  if j.solverName = "cma" ∧ j.solverKwargs = none then
    some "sigma0=0.01, options={'ftarget': None, 'timeout': np.inf, 'tolfun': 1e-11, 'verb_filenameprefix': 'outcmaes', 'verb_log': 0}"
  else j.solverKwargs

/-- `load_files` — run_calc.py:199-207 -/
def Job.loadFiles (j : Job) : List String :=
  truthy "--load_orbs" j.loadOrbs ++ truthy "--load_ham" j.loadHam ++ truthy "--load_wfn" j.loadWfn ++ truthy "--load_chk" j.loadChk

/-- `kwargs` before the loop over the directories — run_calc.py:214-222 -/
def Job.kwargs (j : Job) : List String :=
  given "--wfn_kwargs" j.wfnKwargs ++ given "--solver_kwargs" j.solverKw ++ given "--ham_noise" j.hamNoise ++ given "--wfn_noise" j.wfnNoise

/-- the words of the command after the name of the program — run_calc.py:252-262 -/
def Job.argv (j : Job) (kwargs : List String) : List String :=
  (if j.optimizeOrbs then ["--optimize_orbs"] else []) ++
  ["--wfn_type", j.wfnType, "--geom", j.geom, "--pspace_exc", j.pspace.getD "[1, 2, 3, 4]", "--basis", j.basis,
   "--objective", j.objective.getD "variational", "--solver", j.solverName] ++ kwargs ++ j.loadFiles ++
  ["--save_chk", "checkpoint.npy", "--filename", j.filename.getD "calculate.py"] ++ given "--memory" j.memory

variable {D : Type}

/-- what `write_wfn_py` does: the commands with the directories they run in, the working directory afterwards (`none` is the one before), and the
result -/
structure Written (D : Type) where
  commands : List (D × List String)
  cwd : Option D
  result : Except PyErr Unit

/-- the loop over the directories — run_calc.py:224-264.  `skip` says that a path is not a directory or is excluded; `prev d` are the files of the
system before the one of `d` (`re_curr_sys.group` of `None` raises `AttributeError`). -/
def Job.loop (j : Job) (skip : D → Bool) (prev : D → Option (String × String)) : List D → List String → Written D
  | [], _ => ⟨[], none, .ok ()⟩
  | d :: ds, kwargs =>
    if skip d then j.loop skip prev ds kwargs
    else if j.loadPrev then
      match prev d with
      | none => ⟨[], some d, .error .attributeError⟩
      | some (ham, wfn) =>
        let kwargs := kwargs ++ ["--load_ham", ham, "--load_wfn", wfn]
        let r := j.loop skip prev ds kwargs
        { r with commands := (d, j.argv kwargs) :: r.commands }
    else
      let r := j.loop skip prev ds kwargs
      { r with commands := (d, j.argv kwargs) :: r.commands }

/-- `write_wfn_py(pattern, ...)`; `dirs` is `glob.glob(pattern)` — run_calc.py:81-264 -/
def Job.run (j : Job) (skip : D → Bool) (prev : D → Option (String × String)) (dirs : List D) : Written D := j.loop skip prev dirs j.kwargs

/-! ### The programs -/

/-- the options that take a value — pyscf_parser.py:5-110, pyscf/make_script.py:536-542, pyscf/make_fanci_script.py:565-572 -/
def valueOptions : List String :=
  ["--geom", "--wfn_type", "--basis", "--hf_units", "--pspace_exc", "--objective", "--solver", "--wfn_kwargs", "--solver_kwargs", "--ham_noise",
   "--wfn_noise", "--load_orbs", "--load_ham", "--load_ham_um", "--load_wfn", "--load_chk", "--save_chk", "--memory", "--constraint",
   "--fanpt_kwargs", "--filename"]

/-- a word that argparse does not take as a value -/
def dashed (word : String) : Bool := word.toList.head? = some '-'

/-- `parser.parse_args()`: the options in the order of the command line; `SystemExit` is `runtimeError` — pyscf_parser.py:4-110 -/
def parseArgs : List String → Except PyErr (List (String × String))
  | [] => .ok []
  | [word] => if word = "--optimize_orbs" then .ok [(word, "")] else .error .runtimeError
  | word :: v :: rest =>
    if word = "--optimize_orbs" then do return (word, "") :: (← parseArgs (v :: rest))
    else if word ∈ valueOptions then
      if dashed v then .error .runtimeError else do return (word, v) :: (← parseArgs rest)
    else .error .runtimeError

/-- the value of an option: the last one of the command line -/
def optionValue (args : List (String × String)) (name : String) : Option String := args.reverse.lookup name

/-- what the programs read from outside: the number of atoms of a geometry (`json.loads`), is a text a number that is not zero, the names in
keyword arguments, and the answers of `os.path.isfile` -/
structure Outside where
  json : String → Option ℕ
  noise : String → Option Bool
  kw : String → Kw
  chkFiles : Bool × Bool × Bool × Bool

/-- the orders of excitation; without the option they are `(1, 2)` — pyscf/make_fanci_script.py:575-577, pyscf/make_script.py:372, 552 -/
def childOrders (fanpyOnly : Bool) : Option String → Except PyErr (List ℕ)
  | none => .ok [1, 2]
  | some text => if fanpyOnly then cliOrders text.toList else cliFanciOrders text.toList

/-- the options of `make_script` on the command line — pyscf/make_script.py:546-568, pyscf/make_fanci_script.py:578-601.  Keyword arguments that
are not given are the empty text and not `None`. -/
def childOptions (w : Outside) (args : List (String × String)) (hamNoise wfnNoise : Bool) : FanciOptions where
  wfnType := (optionValue args "--wfn_type").getD ""
  optimizeOrbs := (optionValue args "--optimize_orbs").isSome
  objective := some ((optionValue args "--objective").getD "projected")
  solver := some ((optionValue args "--solver").getD "least_squares")
  solverKw := some (w.kw ((optionValue args "--solver_kwargs").getD ""))
  wfnKw := some (w.kw ((optionValue args "--wfn_kwargs").getD ""))
  hamNoise := hamNoise
  wfnNoise := wfnNoise
  loadHam := (optionValue args "--load_ham").isSome
  loadHamUm := (optionValue args "--load_ham_um").isSome
  loadWfn := (optionValue args "--load_wfn").isSome
  loadChk := (((optionValue args "--load_chk").getD "") ≠ "" : Bool)
  chkFiles := w.chkFiles
  constraint := optionValue args "--constraint"
  saveChk := (((optionValue args "--save_chk").getD "") ≠ "" : Bool)
  fanptKw := some (w.kw ((optionValue args "--fanpt_kwargs").getD ""))

/-- the program `fanpy_make_pyscf_script` (`fanpyOnly`) or `fanpy_make_fanci_pyscf_script`: the script, with the orders of excitation of its
projection space, or `none` if the program ends without one — pyscf/make_script.py:536-568, pyscf/make_fanci_script.py:565-601 -/
def child (w : Outside) (fanpyOnly : Bool) (argv : List String) : Option (List Stmt × List ℕ) := do
  let args ← (parseArgs argv).toOption
  let natoms ← w.json (← optionValue args "--geom")
  let _ ← optionValue args "--wfn_type"
  let _ ← optionValue args "--basis"
  let hamNoise ← w.noise ((optionValue args "--ham_noise").getD "0.0")
  let wfnNoise ← w.noise ((optionValue args "--wfn_noise").getD "0.0")
  let orders ← (childOrders fanpyOnly (optionValue args "--pspace_exc")).toOption
  let o := childOptions w args hamNoise wfnNoise
  if fanpyOnly then
    if natoms = 0 then none
    else return (← (makeScript true o.toOptions).toOption, orders)
  else return (← (makeFanciScript true natoms o).toOption, orders)

/-- the files `name` of the directories after `write_wfn_py`; a script is put at the end of the file — run_calc.py:252-262,
pyscf/make_script.py:530-532, pyscf/make_fanci_script.py:558-561 -/
def filesAfter [DecidableEq D] (w : Outside) (fanpyOnly : Bool) (files : D → String → List Stmt) :
    List (D × List String) → D → String → List Stmt
  | [] => files
  | (d, argv) :: rest =>
    match child w fanpyOnly argv, (parseArgs argv).toOption.bind fun a => optionValue a "--filename" with
    | some (script, _), some name =>
      filesAfter w fanpyOnly (fun e n => if e = d ∧ n = name then writtenFile true (files e n) script else files e n) rest
    | _, _ => filesAfter w fanpyOnly files rest

/-! ### Directories and times -/

/-- the names of the directories that `make_wfn_dirs(pattern, wfn_name, num_runs, prefix)` makes — run_calc.py:75-79 -/
def runDirs (numRuns : ℕ) (pre : List Char) : List (List Char) := (List.range numRuns).map fun i => pre ++ '_' :: Text.pyStr i

/-- the directory of the system before, in which `load_prev` looks for the parameters — run_calc.py:241-242 -/
def prevDir : List Char := ['0']

/-- the directories that the batch file of `run_calcs` visits for `calc_range=(a, b)` — run_calc.py:323-325 (`{a..b}` of bash, `a ≤ b`) -/
def visited (a b : ℕ) : List (List Char) := (List.range' a (b + 1 - a)).map fun i => '_' :: Text.pyStr i

/-- the time in minutes — run_calc.py:282-290; an empty text raises `IndexError` -/
def minutes (time : List Char) : Except PyErr ℕ :=
  match (time.map Char.toLower).reverse with
  | [] => .error .indexError
  | 'd' :: r => do return (← Text.parseInt 10 r.reverse) * 24 * 60
  | 'h' :: r => do return (← Text.parseInt 10 r.reverse) * 60
  | 'm' :: r => Text.parseInt 10 r.reverse
  | _ :: _ => .error .valueError

/-- is the memory accepted, and are its units GB? — run_calc.py:291-295 (`float` of the number is not modelled) -/
def memoryUnits (memory : List Char) : Except PyErr Bool :=
  match (memory.map Char.toUpper).reverse with
  | 'B' :: 'G' :: _ => .ok true
  | 'B' :: 'M' :: _ => .ok false
  | _ => .error .valueError

/-- `run_calcs(pattern, time, memory)`: the time in minutes if the jobs are submitted — run_calc.py:281-301 -/
def submission (time memory : Option (List Char)) : Except PyErr (Option ℕ) :=
  match time, memory with
  | some t, some m => do
    let n ← minutes t
    let _ ← memoryUnits m
    return some n
  | none, none => .ok none
  | _, _ => .error .valueError

end Fanpy.Script
