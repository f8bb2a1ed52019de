import Verif.Model.Slater
import Mathlib.Data.Rat.Defs
import Mathlib.Algebra.Field.Rat

/-!
# Keyword arguments of the solvers

`fanpy/solver/equation.py`, `fanpy/solver/system.py` and `fanpy/solver/wrappers.py`: what the optimizers are called with.  Dictionaries are
objects: the dictionary `options` that is passed on is the one of the caller.  Floats are rational numbers here.  The optimizer is known by
the names of its parameters; what it does with the arguments is in `Verif.Model.SolverRun`.
-/

namespace Fanpy.SolverKw

open Fanpy

/-- a Python object that is passed as an argument: `obj` is any object that is neither a dictionary nor one of the others; `dict r` is the
dictionary at address `r`; the last four are functions and lists made by the solvers — equation.py:162, 184, system.py:60-81, wrappers.py:128 -/
inductive Val
  | none | inf
  | num (q : ℚ)
  | str (s : String)
  | obj (n : ℕ)
  | dict (r : ℕ)
  | gradient | jacobian | callback
  | dims (l : List (ℚ × ℚ))
deriving DecidableEq

/-- a dictionary: keys and values in the order of insertion -/
abbrev Dict := List (String × Val)

/-- what the solvers change: dictionaries, `ham.update_prev_params`, `objective.step_print` -/
structure St where
  heap : List Dict
  updatePrev : Bool
  stepPrint : Bool

/-- `d.setdefault(key, value)` -/
def setdefault (d : Dict) (kv : String × Val) : Dict := if (d.lookup kv.1).isSome then d else d ++ [kv]

/-- consecutive calls of `setdefault` — equation.py:68-74, 160-170, system.py:52-55, 148-150 -/
def setdefaults (d : Dict) (l : Dict) : Dict := l.foldl setdefault d

/-- `kwargs.setdefault("options", {})` — equation.py:70, 163, 167, system.py:149: a new dictionary if there is none -/
def withOptions (kw : Dict) (s : St) : Dict × St :=
  match kw.lookup "options" with
  | some _ => (kw, s)
  | .none => (kw ++ [("options", .dict s.heap.length)], { s with heap := s.heap ++ [[]] })

/-- `kwargs["options"].setdefault(…)` repeatedly — equation.py:71-74, 164, 168-169, system.py:150: the dictionary of the caller is changed;
objects that are no dictionaries have no `setdefault` -/
def fillOptions (l : Dict) (kw : Dict) (s : St) : St × Except PyErr Unit :=
  match kw.lookup "options" with
  | some (.dict r) => ({ s with heap := s.heap.modify r (fun d => setdefaults d l) }, .ok ())
  | _ => (s, .error .attributeError)

/-- the call of a function with `npos` positional arguments and the keyword arguments `kw`, if its parameters are `names` -/
def call (names : List String) (npos : ℕ) (kw : Dict) : Except PyErr Dict :=
  if kw.any (fun p => decide (p.1 ∈ names.take npos) || decide (p.1 ∉ names)) then .error .typeError else .ok kw

/-- `minimize(objective, use_gradient, **kwargs)` — equation.py:160-189 with wrappers.py:65 -/
def minimizeKw (names : List String) (useGradient : Bool) (kw : Dict) (s : St) : St × Except PyErr Dict :=
  let kw1 := if useGradient then setdefaults kw [("method", .str "BFGS"), ("jac", .gradient)]
    else setdefaults kw [("method", .str "Powell")]
  let kw2 := withOptions kw1 s
  let opts : Dict := if useGradient then [("gtol", .num (1 / 10 ^ 8))]
    else [("xtol", .num (1 / 10 ^ 9)), ("ftol", .num (1 / 10 ^ 9))]
  match fillOptions opts kw2.1 kw2.2 with
  | (s', .error e) => (s', .error e)
  | (s', .ok ()) => ({ s' with updatePrev := false }, call names 2 (setdefault kw2.1 ("callback", .callback)))

/-- `cma(objective, **kwargs)` — equation.py:66-82; `nactive` is the number of active parameters -/
def cmaKw (names : List String) (nactive : ℕ) (kw : Dict) (s : St) : St × Except PyErr Dict :=
  let s := { s with updatePrev := false, stepPrint := false }
  let kw2 := withOptions (setdefaults kw [("sigma0", .num (1 / 100))]) s
  match fillOptions [("ftarget", .none), ("timeout", .inf), ("tolfun", .num (1 / 10 ^ 11)), ("verb_log", .num 0)] kw2.1 kw2.2 with
  | (s', .error e) => (s', .error e)
  | (s', .ok ()) => (s', if nactive = 1 then .error .valueError else call names 2 kw2.1)

/-- `root(objective, **kwargs)` — system.py:148-178 -/
def rootKw (names : List String) (kw : Dict) (s : St) : St × Except PyErr Dict :=
  let kw2 := withOptions (setdefaults kw [("method", .str "hybr")]) s
  match fillOptions [("xtol", .num (1 / 10 ^ 9))] kw2.1 kw2.2 with
  | (s', .error e) => (s', .error e)
  | (s', .ok ()) => ({ s' with updatePrev := false, stepPrint := false }, call names 2 (setdefault kw2.1 ("jac", .jacobian)))

/-- `least_squares(objective, **kwargs)` — system.py:52-83: `verbose=2` next to `**kwargs` -/
def leastSquaresKw (names : List String) (nactive : ℕ) (kw : Dict) (s : St) : St × Except PyErr Dict :=
  let kw1 := setdefaults kw [("xtol", .num (1 / 10 ^ 15)), ("ftol", .num (1 / 10 ^ 15)), ("gtol", .num (1 / 10 ^ 15)),
    ("max_nfev", .num (1000 * nactive))]
  let kw2 := setdefault kw1 ("jac", .jacobian)
  ({ s with updatePrev := false, stepPrint := false },
    if (kw2.lookup "verbose").isSome then .error .typeError else call names 2 (("verbose", .num 2) :: kw2))

/-- `wrap_skopt(func)(objective, **kwargs)` — wrappers.py:128-129 -/
def skoptKw (names : List String) (active : List ℚ) (kw : Dict) : Except PyErr Dict :=
  call names 1 (setdefault kw ("dimensions", .dims (active.map fun i => (i - 1 / 2, i + 1 / 2))))

/-- calls of the solvers with given keyword arguments — solver/equation.py, solver/system.py -/
inductive Solver
  | minimize (useGradient : Bool)
  | cma (nactive : ℕ)
  | root
  | leastSquares (nactive : ℕ)
deriving DecidableEq

/-- a call of a solver; `names` are the parameters of its optimizer -/
def Solver.run (names : List String) : Solver → Dict → St → St × Except PyErr Dict
  | .minimize g, kw, s => minimizeKw names g kw s
  | .cma n, kw, s => cmaKw names n kw s
  | .root, kw, s => rootKw names kw s
  | .leastSquares n, kw, s => leastSquaresKw names n kw s

end Fanpy.SolverKw
