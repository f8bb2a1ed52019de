import Verif.Model.GbsFile

/-!
# Input of Hartree-Fock calculations

`hartreefock` of `fanpy/interface/pyscf_tools.py` (up to the call of PySCF), the script written by `fanpy/scripts/gaussian/make_localize_hf.py`
and the check in the script of `fanpy/scripts/pyscf/make_pyscf_input.py`.  Texts are ASCII (`Verif.Model.GbsFile`); files have relative names.
-/

namespace Fanpy.HfInput

open Fanpy Gbs

/-- the files of a directory -/
abbrev Dir := String → Option Txt

/-- `f.readlines()` — pyscf_tools.py:69, make_localize_hf.py:21: the lines with their ends -/
def readlines : Txt → List Txt
  | [] => []
  | c :: t =>
    if c = '\n' then [c] :: readlines t
    else
      match readlines t with
      | [] => [[c]]
      | h :: r => (c :: h) :: r

/-- `";".join(lines)` — pyscf_tools.py:70 -/
def joinSemi : List Txt → Txt
  | [] => []
  | [l] => l
  | l :: r => l ++ ';' :: joinSemi r

/-- the coordinates that PySCF is given — pyscf_tools.py:68-70 -/
def atomsOf (t : Txt) : Txt := joinSemi (((readlines t).drop 2).map strip)

/-- `hartreefock(xyz_file, …, is_unrestricted)` up to the call of `scf.RHF`: the coordinates — pyscf_tools.py:61-80.  `pkg` is the directory
of the module, `cwd` the current one. -/
def hartreefock (pkg cwd : Dir) (xyzFile : String) (isUnrestricted : Bool) : Except PyErr Txt :=
  match (pkg xyzFile).or (cwd xyzFile) with
  | none => .error .valueError
  | some t => if isUnrestricted then .error .notImplemented else .ok (atomsOf t)

/-- the file `system.xyz` that the script writes — make_localize_hf.py:20-28 -/
def systemXyz (t : Txt) : Txt :=
  let lines := (readlines t).filter fun l => decide (strip l ≠ [])
  Nat.toDigits 10 lines.length ++ '\n' :: '\n' :: lines.flatten

/-- the script up to Hartree-Fock: the files and the coordinates — make_localize_hf.py:20-29; a missing file is an `OSError` -/
def runScript (pkg cwd : Dir) (xyzFile : String) : Dir × Except PyErr Txt :=
  match cwd xyzFile with
  | none => (cwd, .error .runtimeError)
  | some t =>
    let cwd' : Dir := fun n => if n = "./system.xyz" then some (systemXyz t) else cwd n
    (cwd', hartreefock pkg cwd' "./system.xyz" false)

/-- what `localize` does for a method — pyscf_tools.py:320-347, 400 -/
inductive Branch
  | nothing | svd | iao | boys | pm | er | identity
deriving DecidableEq

/-- the branches of `localize(hf_data, method=method)` — pyscf_tools.py:320, 335-347, 400 -/
def branch : Option String → Branch
  | none => .nothing
  | some m => if m ≠ "svd" then
      if m = "iao" then .iao else if m = "boys" then .boys else if m = "pm" then .pm else if m = "er" then .er else .identity
    else .svd

/-- `method="{method}"` — make_localize_hf.py:31: the argument that the script passes for the argument of `make_script`; `None` is formatted
as `None` -/
def scriptMethod (method : Option String) : Option String := some (method.getD "None")

/-- what the script for PySCF looks at after the calculation: `converged` and the attribute `check_convergence` of `mf`, which holds a function
that replaces the test of convergence, or `None` -/
structure Mf where
  converged : Bool
  checkConvergence : Option Unit

/-- `if mf.check_convergence: raise RuntimeError` — make_pyscf_input.py:44-46 -/
def checkScript (mf : Mf) : Except PyErr Unit := if mf.checkConvergence.isSome then .error .runtimeError else .ok ()

end Fanpy.HfInput
