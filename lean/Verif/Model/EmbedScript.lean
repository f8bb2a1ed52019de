import Verif.Model.Composite

/-! Model of the scripts for embedded wavefunctions: fanpy/scripts/gaussian/make_embedding_script.py and
make_cc_embedding_script.py (the same file but for two lines of import in the script).

What is modelled: the checks of `make_script`, the part of the script that it writes itself (lists of orbitals and numbers
of electrons of the systems), as lines with their indentation, and what these lines do; and the call of `make_script` in
`main`.  Line numbers are those of make_embedding_script.py.

Not modelled: the regular expressions that change the given scripts (lines 74-124), except that the wavefunction of system
`k` is made with `nelec{k}` electrons and `len(indices_list[k - 1])` orbitals (lines 75, 88).  The labels of the orbitals
(`ao_inds`) are natural numbers.  `NameError` is `runtimeError`. -/

namespace Fanpy.EmbedScript
open Fanpy.Composite

/-- the two programs. -/
inductive Variant
  | embedding | cc
  deriving DecidableEq, Repr

/-- `max(l)` — make_embedding_script.py:37, 58. -/
def maxOf (l : List ℤ) : Except PyErr ℤ :=
  match l with
  | [] => .error .valueError
  | x :: xs => .ok (xs.foldl max x)

/-- the checks of `make_script`; `scripts` says for each of the given scripts whether it exists —
make_embedding_script.py:32-38. -/
def check (scripts : List Bool) (inds : List ℤ) : Except PyErr Unit :=
  if scripts.any (fun e => !e) then .error .valueError
  else if scripts.length ≠ inds.toFinset.card then .error .valueError
  else
    match maxOf inds with
    | .error e => .error e
    | .ok m =>
      if inds.toFinset ≠ ((List.range (m + 1).toNat).map fun (k : ℕ) => (k : ℤ)).toFinset then .error .valueError else .ok ()

/-- `indices_list[…].append(…)`: of the orbital `i` itself or of its beta orbital, to the system with the number `ao_ind`
or to that of the atom `ao_ind` — make_embedding_script.py:46-50. -/
inductive Stmt
  | alpha (byAtom : Bool)
  | beta (byAtom : Bool)
  deriving DecidableEq, Repr

/-- a line of the script: the number of spaces before it and the statement. -/
structure Line where
  indent : ℕ
  stmt : Stmt
  deriving DecidableEq, Repr

/-- the lines after `for i, ao_ind in enumerate(ao_inds):`; the template has four spaces before the text that is put in, and
the second line of that text has its own — make_embedding_script.py:45-50, 59-60. -/
def loopLines (svd : Bool) : List Line :=
  if svd then [⟨4, .alpha false⟩, ⟨0, .beta false⟩] else [⟨4, .alpha true⟩, ⟨4, .beta true⟩]

/-- `indices_list[k]` or `indices_list[system_inds[k]]` — make_embedding_script.py:46-50. -/
def target (sys : List ℕ) (ao : ℕ) (byAtom : Bool) : Except PyErr ℕ :=
  if byAtom then
    match sys[ao]? with
    | some k => .ok k
    | none => .error .indexError
  else .ok ao

/-- one statement, for the orbital `i` with the label `ao`; `slater` says whether that name is imported —
make_embedding_script.py:46-50 and tools/slater.py:1049-1058. -/
def execStmt (slater : Bool) (nspatial : ℕ) (sys : List ℕ) (i ao : ℕ) (l : List (List ℕ)) : Stmt → Except PyErr (List (List ℕ))
  | .alpha byAtom =>
    match target sys ao byAtom with
    | .error e => .error e
    | .ok k => if k < l.length then .ok (l.modify k (· ++ [i])) else .error .indexError
  | .beta byAtom =>
    match target sys ao byAtom with
    | .error e => .error e
    | .ok k =>
      if ¬ k < l.length then .error .indexError
      else if slater = false then .error .runtimeError
      else if ¬ i < nspatial then .error .valueError
      else .ok (l.modify k (· ++ [i + nspatial]))

/-- statements one after the other. -/
def execLines (slater : Bool) (nspatial : ℕ) (sys : List ℕ) (i ao : ℕ) (l : List (List ℕ)) (lines : List Line) :
    Except PyErr (List (List ℕ)) :=
  lines.foldlM (fun l s => execStmt slater nspatial sys i ao l s.stmt) l

/-- the loop: Python takes the lines with more spaces than the line `for …` for its body; the lines after that are done once,
with the last values of `i` and `ao_ind` — make_embedding_script.py:59-60. -/
def execLoop (slater : Bool) (nspatial : ℕ) (sys aos : List ℕ) (lines : List Line) (l : List (List ℕ)) :
    Except PyErr (List (List ℕ)) :=
  match aos.zipIdx.foldlM
      (fun l p => execLines slater nspatial sys p.2 p.1 l (lines.takeWhile fun s => 0 < s.indent)) l with
  | .error e => .error e
  | .ok l' =>
    match lines.dropWhile fun s => 0 < s.indent with
    | [] => .ok l'
    | rest =>
      match aos.zipIdx.getLast? with
      | none => .error .runtimeError
      | some p => execLines slater nspatial sys p.2 p.1 l' rest

/-- the script imports `slater` itself, or one of the given scripts does — make_embedding_script.py:56 (not in
make_cc_embedding_script.py). -/
def knowsSlater (v : Variant) (given : List String) : Bool := v = .embedding || decide ("slater" ∈ given)

/-- `indices_list` — make_embedding_script.py:57-61. -/
def indicesList (v : Variant) (given : List String) (nspin : ℕ) (sys aos : List ℕ) (svd : Bool) :
    Except PyErr (List (List ℕ)) :=
  match execLoop (knowsSlater v given) (nspin / 2) sys aos (loopLines svd) (List.replicate (sys.foldl max 0 + 1) []) with
  | .error e => .error e
  | .ok l => .ok (l.map sortNat)

/-- `nelec{k+1}` — make_embedding_script.py:63-71. -/
def nelecOf (nelec nspin : ℕ) (l : List ℕ) : ℕ :=
  (l.filter fun i => decide (i < nelec / 2 ∨ (nspin / 2 ≤ i ∧ i < nspin / 2 + nelec / 2))).length

/-- the lists of orbitals and the numbers of electrons that the script makes — make_embedding_script.py:52-71. -/
def scriptLists (v : Variant) (given : List String) (nelec nspin : ℕ) (sys aos : List ℕ) (svd : Bool) :
    Except PyErr (List (List ℕ) × List ℕ) :=
  match indicesList v given nspin sys aos svd with
  | .error e => .error e
  | .ok l => .ok (l, l.map (nelecOf nelec nspin))

/-- the embedded wavefunction of the script, with the wavefunctions `wfns` of the systems —
make_embedding_script.py:102-103 (the import is not in make_cc_embedding_script.py). -/
def scriptWfn {R : Type} (v : Variant) (given : List String) (nelec nspin : ℕ) (indices : List (List ℕ)) (wfns : List (Comp R))
    (disjoint : Bool) : Except PyErr (Embed R) :=
  if v = .embedding ∨ "FixedEmbeddedWavefunction" ∈ given then Embed.init nelec nspin indices wfns disjoint
  else .error .runtimeError

/-- a call of a Python function with `npos` positional arguments and the keywords `kws`: the parameters that get a value —
the rules of the language, for functions without `*args` and `**kwargs`. -/
def bindCall (params required : List String) (npos : ℕ) (kws : List String) : Except PyErr (List String) :=
  if params.length < npos then .error .typeError
  else if kws.any (fun k => decide (k ∉ params)) then .error .typeError
  else if kws.any (fun k => decide (k ∈ params.take npos)) then .error .typeError
  else if required.any (fun k => decide (k ∉ params.take npos ++ kws)) then .error .typeError
  else .ok (params.take npos ++ kws)

/-- the parameters of `make_script` — make_embedding_script.py:10-19. -/
def makeScriptParams : List String :=
  ["script_filenames", "atom_system_inds", "ao_inds_file", "filename", "memory", "constraint", "disjoint", "loc_type"]

/-- the call of `make_script` in `main` — make_embedding_script.py:141-164. -/
def mainCall : Except PyErr (List String) :=
  bindCall makeScriptParams (makeScriptParams.take 3) 4
    ["nuc_nuc", "optimize_orbs", "pspace_exc", "nproj", "objective", "solver", "solver_kwargs", "wfn_kwargs", "ham_noise",
      "wfn_noise", "load_orbs", "load_ham", "load_ham_um", "load_wfn", "load_chk", "save_chk", "filename", "memory"]

end Fanpy.EmbedScript
