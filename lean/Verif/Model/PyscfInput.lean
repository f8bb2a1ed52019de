import Verif.Model.GbsFile
import Mathlib.Data.Rat.Floor

/-!
# Input files for PySCF

`make_pyscf_input` of `fanpy/scripts/pyscf/make_pyscf_input.py` and `write_pyscf_py` of `fanpy/scripts/pyscf/run_calc.py`.  Texts are lists of
characters; a path is the list of its parts from the root (no links, no `.` or `..`, every directory may be written); `float` gives the number that
Python reads in a text, or nothing where it raises `ValueError`, without infinities.
-/

namespace Fanpy.PyscfInput

open Fanpy Gbs

/-- `"{:}".format(z)` of an integer -/
def intTxt (z : ℤ) : Txt := if z < 0 then '-' :: Nat.toDigits 10 z.natAbs else Nat.toDigits 10 z.natAbs

/-- `"'{:}'".format(t)` -/
def quote (t : Txt) : Txt := '\'' :: t ++ ['\'']

/-- one line of the script: an assignment or something else -/
inductive Line
  | assign (name : String) (value : Txt)
  | other (text : Txt)

/-- the text of a line -/
def Line.text : Line → Txt
  | .assign name value => name.toList ++ " = ".toList ++ value
  | .other t => t

/-- the lines that `make_pyscf_input` puts together — make_pyscf_input.py:22-50 -/
def inputLines (coords basis memory : Txt) (charge spin : ℤ) (units : Txt) : List Line :=
  [.other ("# PySCF calculation: HF//".toList ++ basis), .other "import pyscf.gto".toList, .other "import pyscf.scf".toList, .other [],
   .assign "mol" "pyscf.gto.Mole()".toList, .assign "mol.atom" coords,
   .assign "mol.charge" (intTxt charge), .assign "mol.spin" (intTxt spin), .other [],
   .assign "mol.unit" (quote units), .assign "mol.basis" (quote basis), .assign "mol.verbose" ['4'], .assign "mol.max_memory" memory,
   .other "mol.build()".toList, .other [],
   .other "# RHF calculation".toList, .assign "mf" "pyscf.scf.RHF(mol)".toList, .assign "mf.conv_tol" "1e-12".toList,
   .assign "mf.max_cycle" "100".toList, .other "mf.kernel()".toList, .other [],
   .other "if mf.check_convergence:".toList,
   .other "    print('> PySCF calculation not converged. Aborting calculation...')".toList,
   .other "    raise RuntimeError('> PySCF calculation not converged. Aborting calculation...')".toList, .other [],
   .other "# PySCF interface".toList, .other "import fanpy.interface.pyscf".toList,
   .assign "interface" "fanpy.interface.pyscf.PYSCF(mf)".toList, .other []]

/-- `make_pyscf_input(coords, basis, memory, charge, spin, units)` — make_pyscf_input.py:22-52 -/
def makeInput (coords basis memory : Txt) (charge spin : ℤ) (units : Txt) : Txt :=
  (inputLines coords basis memory charge spin units).flatMap fun l => l.text ++ ['\n']

/-- `int(x)` of a number — run_calc.py:30, 32 -/
def truncate (x : ℚ) : ℤ := if 0 ≤ x then ⌊x⌋ else ⌈x⌉

/-- the memory in megabytes — run_calc.py:28-34 -/
def memoryMB (float : Txt → Option ℚ) (memory : Txt) : Except PyErr Txt :=
  let m := memory.map Char.toUpper
  let unit := m.drop (m.length - 2)
  let number := m.take (m.length - 2)
  if unit = ['G', 'B'] then
    match float number with
    | some x => .ok (intTxt (truncate (x * 1024)))
    | none => .error .valueError
  else if unit = ['M', 'B'] then
    match float number with
    | some x => .ok (intTxt (truncate x))
    | none => .error .valueError
  else .error .valueError

/-- a directory or a file -/
inductive Node
  | dir
  | file (t : Txt)

abbrev Path := List String
abbrev Fs := Path → Option Node

/-- the argument `input_path` -/
inductive PathArg
  | rel (p : Path)
  | abs (p : Path)

/-- `os.path.join(cwd, input_path)` — run_calc.py:38 -/
def PathArg.join (cwd : Path) : PathArg → Path
  | .rel p => cwd ++ p
  | .abs p => p

/-- `os.mkdir` of one directory that may exist -/
def makeDir (fs : Fs) (p : Path) : Except PyErr Fs :=
  match fs p with
  | none => .ok fun q => if q = p then some .dir else fs q
  | some .dir => .ok fs
  | some (.file _) => .error .runtimeError

/-- `os.makedirs(p, exist_ok=True)` — run_calc.py:40: the directories above first; an `OSError` is `runtimeError` -/
def makedirs (fs : Fs) (p : Path) : Except PyErr Fs := p.inits.foldlM makeDir fs

/-- the directory is made if it does not exist — run_calc.py:39-40 -/
def ensureDir (fs : Fs) (p : Path) : Except PyErr Fs :=
  match fs p with
  | some .dir => .ok fs
  | _ => makedirs fs p

/-- the current directory and the files -/
structure St where
  cwd : Path
  fs : Fs

/-- `write_pyscf_py(input_path, coords, basis, memory, charge, spin, units)` — run_calc.py:28-52 -/
def writePyscfPy (float : Txt → Option ℚ) (st : St) (arg : PathArg) (coords basis memory : Txt) (charge spin : ℤ) (units : Txt) :
    St × Except PyErr Unit :=
  match memoryMB float memory with
  | .error e => (st, .error e)
  | .ok mb =>
    let p := arg.join st.cwd
    match ensureDir st.fs p with
    | .error e => (st, .error e)
    | .ok fs =>
      let file := p ++ ["calculate.py"]
      match fs file with
      | some .dir => ({ cwd := p, fs := fs }, .error .runtimeError)
      | _ => ({ cwd := st.cwd, fs := fun q => if q = file then some (.file (makeInput coords basis mb charge spin units)) else fs q }, .ok ())

end Fanpy.PyscfInput
