import Verif.Model.Slater

/-!
# Model of `ParamContainer` (eqn/utils.py)

numpy is not in the repository.  What is used of it here: `np.array` of a list or tuple stacks arrays of the same shape and raises `ValueError` if
the shapes differ (numpy 1.24 and later); an empty list is an array of floats; an array of booleans and numbers is one of numbers; everything else
(texts, `None`, integers that do not fit, objects) makes an array that is not one of numbers.  Values of numbers are in `R`.
-/

namespace Fanpy.ParamContainer

variable {R : Type}

/-- types of entries: `np.bool_`, `np.number`, others — eqn/utils.py:79, 83 -/
inductive DType | bool | number | other
deriving DecidableEq, Repr

/-- what can be given as `params`: something with `np.array(params).ndim == 0` (numbers of Python and numpy, texts, `None`, ...), a list or tuple, or an
array of at least one dimension with its entries — eqn/utils.py:76-79 -/
inductive Obj (R : Type)
  | scalar (dtype : DType) (x : R)
  | seq (l : List (Obj R))
  | array (dtype : DType) (n : ℕ) (shape : List ℕ) (data : List R)

/-- an array of numpy -/
structure Arr (R : Type) where
  dtype : DType
  shape : List ℕ
  data : List R

/-- the type of an array with entries of both types — eqn/utils.py:77 -/
def DType.join : DType → DType → DType
  | .bool, .bool => .bool
  | .other, _ => .other
  | _, .other => .other
  | _, _ => .number

/-- arrays of the same shape are stacked — eqn/utils.py:77 -/
def stack : List (Arr R) → Except PyErr (Arr R)
  | [] => .ok ⟨.number, [0], []⟩
  | a :: l =>
    if l.all fun b => b.shape = a.shape then
      .ok ⟨(l.map Arr.dtype).foldl DType.join a.dtype, (l.length + 1) :: a.shape, (a :: l).flatMap Arr.data⟩
    else .error .valueError

mutual
/-- `np.array(params)` — eqn/utils.py:77 -/
def asArray : Obj R → Except PyErr (Arr R)
  | .scalar dt x => .ok ⟨dt, [], [x]⟩
  | .array dt n shape data => .ok ⟨dt, n :: shape, data⟩
  | .seq l =>
    match asArrays l with
    | .error e => .error e
    | .ok as => stack as

/-- the arrays of the items of a list — eqn/utils.py:77 -/
def asArrays : List (Obj R) → Except PyErr (List (Arr R))
  | [] => .ok []
  | o :: l =>
    match asArray o, asArrays l with
    | .ok a, .ok as => .ok (a :: as)
    | .error e, _ => .error e
    | _, .error e => .error e
end

/-- the stored array, and whether it is the array that was given — eqn/utils.py:87 -/
structure Stored (R : Type) where
  data : List R
  shared : Bool

/-- the checks and the assignment — eqn/utils.py:81-87 -/
def store (a : Arr R) (shared : Bool) : Except PyErr (Stored R) :=
  if ¬(a.shape.length = 1 ∧ a.dtype = .number) then .error .typeError
  else if a.data.length = 0 then .error .valueError
  else .ok ⟨a.data, shared⟩

/-- `assign_params(params)` — eqn/utils.py:76-87 -/
def assignParams : Obj R → Except PyErr (Stored R)
  | .seq l =>
    match asArray (.seq l) with
    | .ok a => store a false
    | .error e => .error e
  | .scalar .number x => store ⟨.number, [1], [x]⟩ false
  | .scalar _ _ => .error .typeError
  | .array dt n shape data => store ⟨dt, n :: shape, data⟩ true

/-- `nparams` — eqn/utils.py:48-57 -/
def Stored.nparams (s : Stored R) : ℕ := s.data.length

/-- assignments one after the other, where errors are caught: the parameters afterwards — eqn/utils.py:37-46, 76-87 -/
def assignAll (s : Stored R) : List (Obj R) → Stored R
  | [] => s
  | o :: l =>
    match assignParams o with
    | .ok t => assignAll t l
    | .error _ => assignAll s l

end Fanpy.ParamContainer
