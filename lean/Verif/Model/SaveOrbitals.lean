import Verif.Model.Slater

/-!
# Model of `save_natural_orbitals` (analysis/orbitals/natural_orbitals/ci.py)

The result of `compute_natural_orbitals` (C94) is an argument.  PySCF is not in the repository: `molden.header` and `molden.orbital_coeff` write some
text and may raise after it.  Names of files and texts are lists of characters.  `NameError` (of which `UnboundLocalError` is one) and `OSError` are
`PyErr.runtimeError`.
-/

namespace Fanpy.SaveOrbitals

/-- the files -/
abbrev Files := List Char → Option (List Char)

/-- what a function of `molden` writes and how it ends -/
structure Write where
  text : List Char
  result : Except PyErr Unit

/-- what is around the function: whether PySCF is there, whether a file can be opened, the functions of `molden` -/
structure World (N : Type) where
  pyscf : Bool
  canOpen : List Char → Bool
  header : Write
  orbitalCoeff : N → Write

/-- what is left after the call -/
structure Outcome where
  files : Files
  printed : List (List Char)
  result : Except PyErr Unit

/-- `".molden"` — natural_orbitals/ci.py:120 -/
def extension : List Char := ".molden".toList

/-- the name of the file — natural_orbitals/ci.py:120-121 -/
def moldenName (filename : List Char) : List Char :=
  if extension.isSuffixOf filename then filename else filename ++ extension

/-- a file with new contents -/
def Files.set (fs : Files) (name text : List Char) : Files := fun n => if n = name then some text else fs n

/-- the message when PySCF is missing — natural_orbitals/ci.py:116 -/
def missing : List Char := "# ERROR: PySCF package not found.".toList

/-- the message at the end — natural_orbitals/ci.py:126 -/
def exported (name : List Char) : List Char := "Molden file ".toList ++ name ++ " sucessfully exported.".toList

/-- the body of `with open(filename, "w")`: the text in the file, the messages, and the end — natural_orbitals/ci.py:123-126 -/
def body {N : Type} (w : World N) (name : List Char) (orbs : N) : List Char × List (List Char) × Except PyErr Unit :=
  if w.pyscf then
    match w.header.result with
    | .error e => (w.header.text, [], .error e)
    | .ok _ =>
      match (w.orbitalCoeff orbs).result with
      | .error e => (w.header.text ++ (w.orbitalCoeff orbs).text, [], .error e)
      | .ok _ => (w.header.text ++ (w.orbitalCoeff orbs).text, [exported name], .ok ())
  else ([], [], .error .runtimeError)

/-- `save_natural_orbitals(filename, wfn, mol, mo_coeff)` — natural_orbitals/ci.py:113-126 -/
def saveNaturalOrbitals {N : Type} (w : World N) (orbs : Except PyErr N) (filename : List Char) (fs : Files) : Outcome :=
  let printed := if w.pyscf then [] else [missing]
  match orbs with
  | .error e => ⟨fs, printed, .error e⟩
  | .ok orbs =>
    let name := moldenName filename
    if w.canOpen name then
      let b := body w name orbs
      ⟨fs.set name b.1, printed ++ b.2.1, b.2.2⟩
    else ⟨fs, printed, .error .runtimeError⟩

end Fanpy.SaveOrbitals
