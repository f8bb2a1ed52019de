import Verif.Model.Slater

/-! Model of the tables of parameters as stand-ins for pandas tables: attribute access, indexing, assignment and iteration
of the classes of fanpy/analysis/dataframe/{base,ci,cc,geminal}.py.

pandas is not in the repository; here it is a parameter (`Pandas`): any state, any objects, any attributes and any calls.
What is used of Python itself: the order of attribute lookup (property of the class, attributes of the object, functions of
the class, `__getattr__` after an `AttributeError`), `iter` of a class with `__getitem__` only (indices 0, 1, … until
`IndexError`), and `copy.copy`, which makes an object without attributes and then asks it for `__setstate__`.

Not modelled: the functions of the classes (`own`, a parameter here; they are the subject of `Tables`, `TablesGem` and
`TableFiles`), names with two underscores that `object` itself has, tables as arguments of functions of pandas (arguments are
handed over as they are).  `RecursionError` is `runtimeError`. -/

namespace Fanpy.Wrap

/-- pandas: its state `H`, its objects `O` (tables, series, numbers, functions, …), arguments `A`; used in
analysis/dataframe/base.py:3, 22-29, 36-41, 58.  `attr` is `getattr` (`none` is `AttributeError`), `item` is `x[key]`,
`setItem` is `x[key] = value`, `isFrame` is `isinstance(x, pd.DataFrame)`, `int` a Python integer. -/
structure Pandas (H O A : Type) where
  attr : H → O → String → Option O
  callable : O → Bool
  call : H → O → A → H × Except PyErr O
  item : H → O → O → H × Except PyErr O
  setItem : H → O → O → O → H × Except PyErr Unit
  isFrame : O → Bool
  int : ℤ → O

/-- the four classes — base.py:7, ci.py:6, cc.py:6, geminal.py:6. -/
inductive Cls
  | base | ci | cc | geminal
  deriving DecidableEq, Repr

/-- the functions of the base class — base.py:8, 19, 34, 39, 43, 48, 56, 60, 79, 99. -/
def baseFunctions : List String :=
  ["__init__", "__getattr__", "__getitem__", "__setitem__", "__repr__", "from_existing", "update_dataframe", "to_csv",
    "read_csv", "add_wfn_to_dataframe"]

/-- the functions that a class has, its own and those of the base class — ci.py:98, 131; cc.py:113, 177, 213;
geminal.py:166, 231, 274 (the other functions of these classes have names of the base class). -/
def functions : Cls → List String
  | .base => baseFunctions
  | .ci => baseFunctions ++ ["set_formatted_sds_as_index", "set_sds_as_index"]
  | .cc => baseFunctions ++ ["set_sds_as_index", "set_formatted_sds_as_index", "set_operators_as_index"]
  | .geminal => baseFunctions ++ ["set_sds_as_index", "set_formatted_sds_as_index", "set_geminals_as_index"]

/-- the property `index_view` of the classes but the base — ci.py:34-38, cc.py:41-45, geminal.py:62-66. -/
def isProperty (c : Cls) (name : String) : Bool := c ≠ .base && name == "index_view"

/-- a table of fanpy: its class, the attribute `dataframe` and the other attributes of the object — base.py:13-17. -/
structure Table (O : Type) where
  cls : Cls
  frame : Option O
  dict : String → Option O

variable {H O A : Type}

/-- the attributes of an object (its `__dict__`) — base.py:13-17, 53. -/
def Table.instAttr (t : Table O) (name : String) : Option O :=
  if name = "dataframe" then t.frame else t.dict name

/-- `from_existing` called with a table of pandas, by the base class — base.py:47-54. -/
def fromExisting (x : O) : Table O := ⟨.base, some x, fun _ => none⟩

/-- what attribute access gives: a function of the class, a value as it is, or the function `wrapper` around a function of
pandas — base.py:21-32. -/
inductive Got (O : Type)
  | own (name : String)
  | plain (x : O)
  | wrapper (fn : O)

/-- `t.name`; the number bounds the depth of calls (Python's recursion limit) — base.py:19-32, ci.py:34-38. -/
def getAttr (p : Pandas H O A) (h : H) (t : Table O) : ℕ → String → Except PyErr (Got O)
  | 0, _ => .error .runtimeError
  | n + 1, name =>
    if isProperty t.cls name then
      match getAttr p h t n "_index_view" with
      | .ok g => .ok g
      | .error .attributeError => delegate n name
      | .error e => .error e
    else
      match t.instAttr name with
      | some x => .ok (.plain x)
      | none => if name ∈ functions t.cls then .ok (.own name) else delegate n name
where
  /-- `__getattr__` — base.py:19-32. -/
  delegate (n : ℕ) (name : String) : Except PyErr (Got O) :=
    match getAttr p h t n "dataframe" with
    | .error e => .error e
    | .ok (.plain f) =>
      match p.attr h f name with
      | none => .error .attributeError
      | some x =>
        if name = "loc" ∨ name = "iloc" then .ok (.plain x)
        else if p.callable x then .ok (.wrapper x) else .ok (.plain x)
    | .ok _ => .error .attributeError

/-- a value in the hands of the user: a table of fanpy or an object of pandas. -/
inductive Out (O : Type)
  | table (t : Table O)
  | plain (x : O)

/-- `DataFrameFanpy.from_existing(result) if isinstance(result, pd.DataFrame) else result` — base.py:29, 37. -/
def wrapResult (p : Pandas H O A) (x : O) : Out O :=
  if p.isFrame x then .table (fromExisting x) else .plain x

/-- one step of a program that uses a table: `x.name`, `x.name(args)`, `x[key]`. -/
inductive Step (O A : Type)
  | get (name : String)
  | call (name : String) (args : A)
  | item (key : O)

/-- a step with an object of pandas. -/
def stepPandas (p : Pandas H O A) (h : H) (x : O) : Step O A → H × Except PyErr O
  | .get name =>
    match p.attr h x name with
    | none => (h, .error .attributeError)
    | some y => (h, .ok y)
  | .call name args =>
    match p.attr h x name with
    | none => (h, .error .attributeError)
    | some y => if p.callable y then p.call h y args else (h, .error .typeError)
  | .item key => p.item h x key

/-- the functions of the classes, called with arguments (a parameter; see `Tables`). -/
abbrev Own (H O A : Type) := Table O → String → A → H → H × Except PyErr (Out O)

/-- a step with a table of fanpy; `x.name` is looked at for values that are not functions, a function that is not called is
given as the object of pandas around which `wrapper` is — base.py:19-37. -/
def stepTable (p : Pandas H O A) (own : Own H O A) (fuel : ℕ) (h : H) (t : Table O) : Step O A → H × Except PyErr (Out O)
  | .get name =>
    match getAttr p h t fuel name with
    | .error e => (h, .error e)
    | .ok (.plain x) => (h, .ok (.plain x))
    | .ok (.wrapper x) => (h, .ok (.plain x))
    | .ok (.own _) => (h, .error .notImplemented)
  | .call name args =>
    match getAttr p h t fuel name with
    | .error e => (h, .error e)
    | .ok (.own m) => own t m args h
    | .ok (.wrapper fn) =>
      match p.call h fn args with
      | (h', .error e) => (h', .error e)
      | (h', .ok x) => (h', .ok (wrapResult p x))
    | .ok (.plain x) =>
      if p.callable x then
        match p.call h x args with
        | (h', .error e) => (h', .error e)
        | (h', .ok y) => (h', .ok (.plain y))
      else (h, .error .typeError)
  | .item key =>
    match getAttr p h t fuel "dataframe" with
    | .ok (.plain f) =>
      match p.item h f key with
      | (h', .error e) => (h', .error e)
      | (h', .ok x) => (h', .ok (wrapResult p x))
    | .ok _ => (h, .error .typeError)
    | .error e => (h, .error e)

/-- a step with either. -/
def step (p : Pandas H O A) (own : Own H O A) (fuel : ℕ) (h : H) : Out O → Step O A → H × Except PyErr (Out O)
  | .table t, s => stepTable p own fuel h t s
  | .plain x, s =>
    match stepPandas p h x s with
    | (h', .error e) => (h', .error e)
    | (h', .ok y) => (h', .ok (.plain y))

/-- steps one after the other, each with the result of the one before: `x.a(…)[…].b`. -/
def run (p : Pandas H O A) (own : Own H O A) (fuel : ℕ) (h : H) (x : Out O) : List (Step O A) → H × Except PyErr (Out O)
  | [] => (h, .ok x)
  | s :: ss =>
    match step p own fuel h x s with
    | (h', .error e) => (h', .error e)
    | (h', .ok y) => run p own fuel h' y ss

/-- the same steps with objects of pandas. -/
def runPandas (p : Pandas H O A) (h : H) (x : O) : List (Step O A) → H × Except PyErr O
  | [] => (h, .ok x)
  | s :: ss =>
    match stepPandas p h x s with
    | (h', .error e) => (h', .error e)
    | (h', .ok y) => runPandas p h' y ss

/-- `t.name = x`: no class has `__setattr__`, and `index_view` has no setter — base.py:7-58, ci.py:34-38. -/
def setAttr (t : Table O) (name : String) (x : O) : Except PyErr (Table O) :=
  if isProperty t.cls name then .error .attributeError
  else if name = "dataframe" then .ok { t with frame := some x }
  else .ok { t with dict := fun n => if n = name then some x else t.dict n }

/-- `t[key] = value` — base.py:39-41. -/
def setItemTable (p : Pandas H O A) (fuel : ℕ) (h : H) (t : Table O) (key x : O) : H × Except PyErr Unit :=
  match getAttr p h t fuel "dataframe" with
  | .ok (.plain f) => p.setItem h f key x
  | .ok _ => (h, .error .typeError)
  | .error e => (h, .error e)

/-- `update_dataframe` — base.py:56-58. -/
def updateDataframe (p : Pandas H O A) (fuel : ℕ) (h : H) (t : Table O) (new : Out O) : Except PyErr (Table O) :=
  match new with
  | .plain x =>
    if p.isFrame x then setAttr t "dataframe" x
    else
      match p.attr h x "dataframe" with
      | none => .error .attributeError
      | some f => setAttr t "dataframe" f
  | .table w =>
    match getAttr p h w fuel "dataframe" with
    | .ok (.plain f) => setAttr t "dataframe" f
    | .ok _ => .error .typeError
    | .error e => .error e

/-- the values of `for x in t`, of which at most `n` are taken: `__getitem__` with 0, 1, … — base.py:34-37. -/
def iterate (p : Pandas H O A) (own : Own H O A) (fuel : ℕ) (h : H) (t : Table O) : ℕ → ℕ → H × Except PyErr (List (Out O))
  | 0, _ => (h, .ok [])
  | n + 1, i =>
    match stepTable p own fuel h t (.item (p.int i)) with
    | (h', .error .indexError) => (h', .ok [])
    | (h', .error e) => (h', .error e)
    | (h', .ok x) =>
      match iterate p own fuel h' t n (i + 1) with
      | (h'', .ok xs) => (h'', .ok (x :: xs))
      | (h'', .error e) => (h'', .error e)

/-- what `copy.copy` does with the object it makes before it gives it attributes (`hasattr(y, "__setstate__")`): an
`AttributeError` means there is none, any other error is raised — base.py:19-24. -/
def copyCopy (p : Pandas H O A) (fuel : ℕ) (h : H) (t : Table O) : Except PyErr (Table O) :=
  match getAttr p h ⟨t.cls, none, fun _ => none⟩ fuel "__setstate__" with
  | .error .attributeError => .ok t
  | .error e => .error e
  | .ok _ => .ok t

end Fanpy.Wrap
