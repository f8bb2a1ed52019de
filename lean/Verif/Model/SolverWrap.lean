import Verif.Model.Slater
import Mathlib.Data.Rat.Defs

/-!
# Model of `wrap_scipy` and `wrap_skopt` (solver/wrappers.py)

An optimizer of scipy or scikit-optimize is an arbitrary program that evaluates the objective at points of its choice, which may depend on the
values before, and ends with a result or an exception.  The objective is an arbitrary function of the parameters that may change its state.  Numbers
are rational.
-/

namespace Fanpy.SolverWrap

/-- an optimizer while it runs: it ends, raises, or evaluates the objective and goes on with the value -/
inductive Prog (V A : Type)
  | done (a : A)
  | raise (e : PyErr)
  | eval (x : List ℚ) (next : V → Prog V A)

/-- the `OptimizeResult`: `success` and `message` are attributes only of the results of scipy -/
structure Result where
  x : List ℚ
  success : Option Bool
  message : Option String
  deriving DecidableEq

/-- an objective: its active parameters, and its method `objective` — solver/wrappers.py:65, 128-129 -/
structure Objective (S V : Type) where
  active : S → List ℚ
  objective : List ℚ → S → S × Except PyErr V

/-- a value of a keyword argument: dimensions, or something else -/
inductive Val
  | dims (l : List (ℚ × ℚ))
  | other (s : String)
  deriving DecidableEq

/-- keyword arguments -/
abbrev Kw := List (String × Val)

/-- the optimizer is run; an exception of the objective ends it — solver/wrappers.py:65, 129 -/
def run {S V A : Type} (O : Objective S V) : Prog V A → S → S × Except PyErr A
  | .done a, s => (s, .ok a)
  | .raise e, s => (s, .error e)
  | .eval x next, s =>
    match O.objective x s with
    | (s, .error e) => (s, .error e)
    | (s, .ok v) => run O (next v) s

/-- the dictionary of `wrap_scipy` — solver/wrappers.py:67-71 -/
structure ScipyOutput where
  success : Bool
  params : List ℚ
  message : String
  internal : Result
  deriving DecidableEq

/-- the dictionary of `wrap_skopt` — solver/wrappers.py:131-133 -/
structure SkoptOutput where
  params : List ℚ
  internal : Result
  deriving DecidableEq

/-- `wrap_scipy(func)(objective, **kwargs)` — solver/wrappers.py:65-73 -/
def wrapScipy {S V : Type} (O : Objective S V) (func : List ℚ → Kw → Prog V Result) (kw : Kw) (s : S) : S × Except PyErr ScipyOutput :=
  match run O (func (O.active s) kw) s with
  | (s, .error e) => (s, .error e)
  | (s, .ok r) =>
    match r.success, r.message with
    | some b, some m => (s, .ok ⟨b, r.x, m, r⟩)
    | _, _ => (s, .error .attributeError)

/-- `kwargs.setdefault("dimensions", ...)` — solver/wrappers.py:128 -/
def withDimensions (kw : Kw) (active : List ℚ) : Kw :=
  if kw.any fun p => p.1 = "dimensions" then kw else kw ++ [("dimensions", .dims (active.map fun i => (i - 1 / 2, i + 1 / 2)))]

/-- `wrap_skopt(func)(objective, **kwargs)` — solver/wrappers.py:128-135 -/
def wrapSkopt {S V : Type} (O : Objective S V) (func : Kw → Prog V Result) (kw : Kw) (s : S) : S × Except PyErr SkoptOutput :=
  match run O (func (withDimensions kw (O.active s))) s with
  | (s, .error e) => (s, .error e)
  | (s, .ok r) => (s, .ok ⟨r.x, r⟩)

end Fanpy.SolverWrap
