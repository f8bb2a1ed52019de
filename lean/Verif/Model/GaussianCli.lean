import Verif.Model.RunCalc

/-!
# Model of the command lines of scripts/gaussian (scripts/utils.py, make_script.py, make_fanci_script.py, run_calc.py, make_cc_embedding_script.py)

From the words of a command line to the arguments that `make_script` gets.  `make_script` itself is in `Verif.Model.Script`.

argparse is not in the repository.  What is used of it here: an option takes the next word as its value, `nargs="+"` takes all words up to the
next one with a dash, of repeated options the last one counts, and everything that cannot be read ends the program.  Left out: abbreviated names
of options, `--name=value`, values that begin with a dash (negative numbers, texts with spaces), `--help`.  Numbers are the texts they are
written in; whether a text is a number is an argument.
-/

namespace Fanpy.GaussianCli

open Fanpy.Slater

/-- what an option takes: `store_true`, `type=str`, `type=int`, `type=float`, `type=int` with `nargs="+"` — scripts/utils.py:282-449 -/
inductive Kind | flag | text | int | float | ints
deriving DecidableEq, Repr

/-- values of arguments; `num` and `nums` are the numbers of the texts -/
inductive Val | none | bool (b : Bool) | str (s : String) | num (s : String) | nums (l : List String)
deriving DecidableEq, Repr

/-- `parser.add_argument(name, dest=..., default=...)` — scripts/utils.py:282-449 -/
structure Opt where
  name : String
  dest : String
  kind : Kind
  default : Val
deriving DecidableEq

/-- `parser` — scripts/utils.py:282-449 -/
def options : List Opt :=
  [⟨"--nelec", "nelec", .int, .none⟩, ⟨"--one_int_file", "one_int_file", .text, .none⟩, ⟨"--two_int_file", "two_int_file", .text, .none⟩,
   ⟨"--wfn_type", "wfn_type", .text, .none⟩, ⟨"--nuc_repulsion", "nuc_nuc", .float, .num "0.0"⟩,
   ⟨"--optimize_orbs", "optimize_orbs", .flag, .bool false⟩, ⟨"--pspace", "pspace_exc", .ints, .nums ["1", "2"]⟩,
   ⟨"--objective", "objective", .text, .str "projected"⟩, ⟨"--solver", "solver", .text, .str "least_squares"⟩,
   ⟨"--ham_noise", "ham_noise", .float, .num "0.0"⟩, ⟨"--wfn_noise", "wfn_noise", .float, .num "0.0"⟩,
   ⟨"--solver_kwargs", "solver_kwargs", .text, .none⟩, ⟨"--wfn_kwargs", "wfn_kwargs", .text, .none⟩, ⟨"--load_orbs", "load_orbs", .text, .none⟩,
   ⟨"--load_ham", "load_ham", .text, .none⟩, ⟨"--load_ham_um", "load_ham_um", .text, .none⟩, ⟨"--load_wfn", "load_wfn", .text, .none⟩,
   ⟨"--load_chk", "load_chk", .text, .str ""⟩, ⟨"--save_chk", "save_chk", .text, .str ""⟩, ⟨"--memory", "memory", .text, .none⟩,
   ⟨"--nproj", "nproj", .float, .num "0"⟩]

/-- the option that the `main` functions add — make_script.py:566-572, make_fanci_script.py:470-476, make_cc_embedding_script.py:133-139 -/
def filenameOption : Opt := ⟨"--filename", "filename", .text, .none⟩

/-- is a text a number for `int` and for `float` -/
structure Numbers where
  isInt : String → Bool
  isFloat : String → Bool

/-- the words after an option that belong to it, and the others — scripts/utils.py:313-330 -/
def takes : Kind → List String → List String × List String
  | .flag, rest => ([], rest)
  | .ints, rest => (rest.takeWhile fun v => !Script.dashed v, rest.dropWhile fun v => !Script.dashed v)
  | _, [] => ([], [])
  | _, v :: rest => if Script.dashed v then ([], v :: rest) else ([v], rest)

theorem takes_le (k : Kind) (l : List String) : (takes k l).2.length ≤ l.length := by
  cases k <;> cases l <;> simp only [takes] <;> (try split) <;> simp
  exact (List.dropWhile_sublist _).length_le

/-- the value that the words of an option stand for — scripts/utils.py:282-449 -/
def convert (w : Numbers) : Kind → List String → Option Val
  | .flag, [] => some (.bool true)
  | .text, [v] => some (.str v)
  | .int, [v] => if w.isInt v then some (.num v) else none
  | .float, [v] => if w.isFloat v then some (.num v) else none
  | .ints, v :: vs => if (v :: vs).all w.isInt then some (.nums (v :: vs)) else none
  | _, _ => none

/-- the words are read from left to right; `SystemExit` is `runtimeError` — make_script.py:573 -/
def parse (w : Numbers) (opts : List Opt) : List String → List (String × Val) → Except PyErr (List (String × Val))
  | [], ns => .ok ns
  | o :: rest, ns =>
    match opts.find? fun p => p.name = o with
    | none => .error .runtimeError
    | some p =>
      match convert w p.kind (takes p.kind rest).1 with
      | none => .error .runtimeError
      | some v => parse w opts (takes p.kind rest).2 ((p.dest, v) :: ns)
termination_by words => words.length
decreasing_by
  have := takes_le p.kind rest
  simp only [List.length_cons]
  omega

/-- `parser.parse_args()`; only `--wfn_type` is required — scripts/utils.py:296-304, make_script.py:573 -/
def parseArgs (w : Numbers) (opts : List Opt) (words : List String) : Except PyErr (List (String × Val)) := do
  let ns ← parse w opts words (opts.map fun p => (p.dest, p.default))
  if ns.lookup "wfn_type" = some .none then .error .runtimeError else .ok ns

/-- `args.name` — make_script.py:574-596 -/
def attr (ns : List (String × Val)) (name : String) : Except PyErr Val :=
  match ns.lookup name with
  | some v => .ok v
  | none => .error .attributeError

/-- keyword arguments `param=args.name` — make_script.py:579-595 -/
def keywords (ns : List (String × Val)) (l : List (String × String)) : Except PyErr (List (String × Val)) :=
  l.mapM fun a => (attr ns a.2).map fun v => (a.1, v)

/-- one parameter of a call of Python: the argument, or the default — make_script.py:8-31 -/
def bindOne (bound : List (String × Val)) (p : String × Option Val) : Except PyErr (String × Val) :=
  match bound.lookup p.1, p.2 with
  | some v, _ => .ok (p.1, v)
  | none, some d => .ok (p.1, d)
  | none, none => .error .typeError

/-- a call of a function of Python with these parameters (`none`: without default) — make_script.py:574-596 -/
def bindCall (params : List (String × Option Val)) (pos : List Val) (kw : List (String × Val)) : Except PyErr (List (String × Val)) :=
  if params.length < pos.length then .error .typeError
  else if kw.any fun a => decide (a.1 ∈ (params.take pos.length).map Prod.fst) || decide (a.1 ∉ params.map Prod.fst) then .error .typeError
  else params.mapM (bindOne ((params.map Prod.fst).zip pos ++ kw))

/-- the parameters of `make_script` — make_script.py:8-31 -/
def makeScriptParams : List (String × Option Val) :=
  [("nelec", none), ("one_int_file", none), ("two_int_file", none), ("wfn_type", none), ("nuc_nuc", some (.num "0.0")),
   ("optimize_orbs", some (.bool false)), ("pspace_exc", some (.nums ["1", "2"])), ("objective", some (.str "projected")),
   ("solver", some (.str "least_squares")), ("solver_kwargs", some .none), ("wfn_kwargs", some .none), ("ham_noise", some (.num "0.0")),
   ("wfn_noise", some (.num "0.0")), ("load_orbs", some .none), ("load_ham", some .none), ("load_ham_um", some .none), ("load_wfn", some .none),
   ("load_chk", some .none), ("save_chk", some (.str "")), ("filename", some .none), ("memory", some .none), ("constraint", some .none)]

/-- the parameters of `make_script` — make_fanci_script.py:8-32 -/
def makeFanciScriptParams : List (String × Option Val) := makeScriptParams ++ [("fanpt_kwargs", some .none)]

/-- the parameters of `run_calc` — run_calc.py:6-26 -/
def runCalcParams : List (String × Option Val) :=
  [("nelec", none), ("one_int_file", none), ("two_int_file", none), ("wfn_type", none), ("nuc_nuc", some (.num "0.0")),
   ("optimize_orbs", some (.bool false)), ("pspace_exc", some (.nums ["1", "2"])), ("objective", some (.str "projected")),
   ("solver", some (.str "least_squares")), ("solver_kwargs", some .none), ("wfn_kwargs", some .none), ("ham_noise", some .none),
   ("wfn_noise", some .none), ("load_orbs", some .none), ("load_ham", some .none), ("load_ham_um", some .none), ("load_wfn", some .none),
   ("save_chk", some (.str "")), ("memory", some .none)]

/-- the parameters of `make_script` — make_cc_embedding_script.py:10-19 -/
def embeddingParams : List (String × Option Val) :=
  [("script_filenames", none), ("atom_system_inds", none), ("ao_inds_file", none), ("filename", some .none), ("memory", some .none),
   ("constraint", some .none), ("disjoint", some (.bool true)), ("loc_type", some (.str "pm"))]

/-- the positional arguments of all calls — make_script.py:575-578, run_calc.py:105-108, 137-140 -/
def positional : List String := ["nelec", "one_int_file", "two_int_file", "wfn_type"]

/-- the keyword arguments that all calls have — run_calc.py:109-121, 123, 141-153, 154 -/
def sharedKeywords : List (String × String) :=
  [("nuc_nuc", "nuc_nuc"), ("optimize_orbs", "optimize_orbs"), ("pspace_exc", "pspace_exc"), ("objective", "objective"), ("solver", "solver"),
   ("solver_kwargs", "solver_kwargs"), ("wfn_kwargs", "wfn_kwargs"), ("ham_noise", "ham_noise"), ("wfn_noise", "wfn_noise"),
   ("load_orbs", "load_orbs"), ("load_ham", "load_ham"), ("load_ham_um", "load_ham_um"), ("load_wfn", "load_wfn"), ("save_chk", "save_chk"),
   ("memory", "memory")]

/-- the keyword arguments of the calls of `make_script` in `main` — make_script.py:579-595, make_fanci_script.py:483-499 -/
def mainKeywords : List (String × String) := sharedKeywords ++ [("load_chk", "load_chk"), ("filename", "filename")]

/-- the programs — make_script.py:563-596, make_fanci_script.py:466-500, run_calc.py:131-155, make_cc_embedding_script.py:128-162 -/
inductive Program | script | fanci | runCalc | embedding
deriving DecidableEq, Repr

/-- a call `f(ns.nelec, ..., keyword=ns.keyword, ...)` of a function with these parameters — make_script.py:574-596 -/
def callWith (params : List (String × Option Val)) (kw : List (String × String)) (more ns : List (String × Val)) :
    Except PyErr (List (String × Val)) := do
  let pos ← positional.mapM (attr ns)
  let kw ← keywords ns kw
  bindCall params pos (kw ++ more)

/-- the arguments that `make_script` of the module of the program gets; the text that it returns to `run_calc` is run — make_script.py:563-596,
make_fanci_script.py:466-500, run_calc.py:103-155, make_cc_embedding_script.py:128-162 -/
def Program.run (w : Numbers) (words : List String) : Program → Except PyErr (List (String × Val))
  | .script => do callWith makeScriptParams mainKeywords [] (← parseArgs w (options ++ [filenameOption]) words)
  | .fanci => do callWith makeFanciScriptParams mainKeywords [] (← parseArgs w (options ++ [filenameOption]) words)
  | .runCalc => do
    let args ← callWith runCalcParams sharedKeywords [] (← parseArgs w options words)
    callWith makeScriptParams sharedKeywords [("filename", .num "-1")] args
  | .embedding => do
    callWith embeddingParams (mainKeywords ++ [("nproj", "nproj")]) [] (← parseArgs w (options ++ [filenameOption]) words)

end Fanpy.GaussianCli
