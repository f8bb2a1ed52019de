import Verif.Model.Text

/-! Model of saving parameters: `os.path.splitext` and `np.save` as far as names of files are concerned, the methods `save_params`
of wavefunctions (fanpy/wfn/base.py:292-300, composite/base_one.py:121-137, composite/lincomb.py:146-172), of Hamiltonians
(fanpy/ham/generalized_chemical.py:167-186, unrestricted_chemical.py:184-210), of `ParamContainer` (fanpy/eqn/utils.py:91-99) and of
the objectives (fanpy/eqn/base.py:277-300, interface/fanci/legacy.py:1319-1342, interface/fanci/pyci.py:582-605, wfn/utils.py:634-657).

The contents of a file are elements of an arbitrary type `P`.  A file system is the list of the writes, the last one first;
directories, permissions and the failure of a write are left out, and so are names with a null character. -/

namespace Fanpy.SaveParams
open Fanpy.Text

/-- a text: class names and names of files -/
abbrev Str := List Char

/-- position after the last `/` — `p.rfind(sep) + 1` of posixpath.splitext -/
def baseStart (s : Str) : ℕ := s.length - (s.reverse.takeWhile (· ≠ '/')).length

/-- `os.path.splitext(filename)` — the library's `_splitext`: the extension starts at the last dot of the last component of the
path, unless all characters of the component before this dot are dots -/
def splitext (s : Str) : Str × Str :=
  let dir := s.take (baseStart s)
  let base := s.drop (baseStart s)
  let ext := (base.reverse.takeWhile (· ≠ '.')).reverse
  if ext.length = base.length then (s, [])
  else
    let stem := base.take (base.length - ext.length - 1)
    if stem.all (· = '.') then (s, []) else (dir ++ stem, '.' :: ext)

/-- the suffix of files of NumPy -/
def npySuffix : Str := ['.', 'n', 'p', 'y']

/-- the name of the file that `np.save(filename, …)` writes: it ends with `.npy` -/
def npyName (s : Str) : Str := if npySuffix <:+ s then s else s ++ npySuffix

/-- objects with parameters: the name of the class, the parameters, and what else is saved with them.
`plain`: wavefunctions without other wavefunctions, `ParamContainer`; `one`: wavefunctions of one other wavefunction;
`lin`: linear combinations, products and embeddings of wavefunctions; `ham`: Hamiltonians, with the unitary matrix (generalized
and restricted) or the two unitary matrices (unrestricted) as `um`. -/
inductive Obj (P : Type)
  | plain (cls : Str) (params : P)
  | one (cls : Str) (params : P) (wfn : Obj P)
  | lin (cls : Str) (params : P) (wfns : List (Obj P))
  | ham (cls : Str) (params : P) (um : P)

variable {P : Type}

/-- `type(obj).__name__` -/
def Obj.cls : Obj P → Str
  | .plain c _ => c
  | .one c _ _ => c
  | .lin c _ _ => c
  | .ham c _ _ => c

/-- `obj.params` -/
def Obj.params : Obj P → P
  | .plain _ p => p
  | .one _ p _ => p
  | .lin _ p _ => p
  | .ham _ p _ => p

/-- the names of the components with their counters — lincomb.py:162-170, eqn/base.py:289-297: `all` are the names of all
components, `count` is `names_count`, the last argument has the names of the components that are left -/
def labelsFrom (all : List Str) : (Str → ℕ) → List Str → List Str
  | _, [] => []
  | count, name :: rest =>
    if all.count name > 1 then
      (name ++ pyStr (count name + 1)) :: labelsFrom all (Function.update count name (count name + 1)) rest
    else name :: labelsFrom all count rest

/-- `names_count = {name: 0 …}` and the loop — lincomb.py:162-170, eqn/base.py:289-297 -/
def labels (names : List Str) : List Str := labelsFrom names (fun _ => 0) names

/-- `"{}_{}{}".format(root, name, ext)` — base_one.py:137, lincomb.py:172, eqn/base.py:300 -/
def fileOf (filename name : Str) : Str := (splitext filename).1 ++ '_' :: name ++ (splitext filename).2

mutual
/-- `obj.save_params(filename)`: the names given to `np.save` and the contents, in order — wfn/base.py:300, base_one.py:134-137,
lincomb.py:160-172, eqn/utils.py:99, generalized_chemical.py:181-186, unrestricted_chemical.py:197-210 -/
def Obj.save (filename : Str) : Obj P → List (Str × P)
  | .plain _ p => [(filename, p)]
  | .one _ p w => (filename, p) :: w.save (fileOf filename w.cls)
  | .lin _ p ws => (filename, p) :: saveAll filename (labels (ws.map Obj.cls)) ws
  | .ham _ p u => [(filename, p), (fileOf filename ['u', 'm'], u)]
/-- the loop over the components — lincomb.py:166-172, eqn/base.py:293-300 -/
def saveAll (filename : Str) : List Str → List (Obj P) → List (Str × P)
  | name :: names, w :: ws => w.save (fileOf filename name) ++ saveAll filename names ws
  | _, _ => []
end

/-- `objective.save_params()` — eqn/base.py:287-300, legacy.py:1329-1342, fanci/pyci.py:592-605, wfn/utils.py:644-657 -/
def saveEqn (tmpfile : Str) (comps : List (Obj P)) : List (Str × P) :=
  if tmpfile ≠ [] then saveAll tmpfile (labels (comps.map Obj.cls)) comps else []

/-- the file system after the writes: what `np.load(file)` returns, if the file exists -/
def load (before : Str → Option P) (writes : List (Str × P)) : Str → Option P :=
  writes.foldl (fun fs w => Function.update fs (npyName w.1) (some w.2)) before

end Fanpy.SaveParams
