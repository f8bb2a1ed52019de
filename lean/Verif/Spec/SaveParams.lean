import Verif.Model.SaveParams

/-! What the documentation says about saved parameters: where the parameters of every object are, as a path of names from the
object that is saved.  Independent of the loops of the code. -/

namespace Fanpy.SaveParams
open Fanpy.Text

variable {P : Type}

/-- the name of the `i`-th of several components: the name of its class, with its number among the components of this class if there
is more than one -/
def label (names : List Str) (i : ℕ) : Str :=
  if names.count (names.getD i []) = 1 then names.getD i []
  else names.getD i [] ++ pyStr ((names.take (i + 1)).count (names.getD i []))

/-- the object has the data `p` at the path -/
inductive At : Obj P → List Str → P → Prop
  | self (o : Obj P) : At o [] o.params
  | one (c : Str) (p : P) (w : Obj P) (path : List Str) (q : P) (h : At w path q) : At (.one c p w) (w.cls :: path) q
  | lin (c : Str) (p : P) (ws : List (Obj P)) (i : ℕ) (w : Obj P) (hw : ws[i]? = some w) (path : List Str) (q : P) (h : At w path q) :
      At (.lin c p ws) (label (ws.map Obj.cls) i :: path) q
  | ham (c : Str) (p u : P) : At (.ham c p u) [['u', 'm']] u

/-- the components of an objective have the data `p` at the path -/
def AtEqn (comps : List (Obj P)) (path : List Str) (p : P) : Prop :=
  ∃ i w rest, comps[i]? = some w ∧ path = label (comps.map Obj.cls) i :: rest ∧ At w rest p

/-- the file of a path: the names are put between the root and the extension of the file name -/
def pathFile (filename : Str) (path : List Str) : Str :=
  npyName ((splitext filename).1 ++ path.flatMap ('_' :: ·) ++ (splitext filename).2)

/-- a class name that cannot be confused with a path: no underscore, dot or slash -/
def Plain (s : Str) : Prop := '_' ∉ s ∧ '.' ∉ s ∧ '/' ∉ s

/-- no name is that of several others followed by digits -/
def Unnumbered (names : List Str) : Prop :=
  ∀ a ∈ names, ∀ b ∈ names, 1 < names.count a → ∀ d : Str, d ≠ [] → (∀ c ∈ d, c.isDigit) → b ≠ a ++ d

/-- the names of the classes within an object are plain, and those of siblings are not numbered -/
inductive Good : Obj P → Prop
  | plain (c : Str) (p : P) : Good (.plain c p)
  | one (c : Str) (p : P) (w : Obj P) (hc : Plain w.cls) (hw : Good w) : Good (.one c p w)
  | lin (c : Str) (p : P) (ws : List (Obj P)) (hc : ∀ w ∈ ws, Plain w.cls) (hn : Unnumbered (ws.map Obj.cls)) (hw : ∀ w ∈ ws, Good w) :
      Good (.lin c p ws)
  | ham (c : Str) (p u : P) : Good (.ham c p u)

/-- the same of the components of an objective -/
def GoodEqn (comps : List (Obj P)) : Prop :=
  (∀ w ∈ comps, Plain w.cls) ∧ Unnumbered (comps.map Obj.cls) ∧ ∀ w ∈ comps, Good w

/-- the classes of Fanpy with parameters: the subclasses of `BaseWavefunction`, `BaseHamiltonian` and `ParamContainer` -/
def fanpyClasses : List Str :=
  ["AP1roG", "AP1roGSDGeneralized", "AP1roGSDSpin", "APG", "APG1roD", "APG1roSD", "APIG", "APr2G", "APset1roGD", "APset1roGSD",
    "AntisymmeterizedProductTetrets", "BaseCC", "BaseCompositeOneWavefunction", "BaseGeminal", "BaseGeneralizedHamiltonian",
    "BaseHamiltonian", "BaseQuasiparticle", "BaseUnrestrictedHamiltonian", "BaseWavefunction", "BasicAPsetG", "CCS", "CCSDQsen0",
    "CCSDTQsen0", "CCSDTsen2Qsen0", "CCSDsen0", "CIPairs", "CISD", "CIWavefunction", "CreationCC", "DOCI", "DeterminantRatio",
    "EmbeddedCC", "EmbeddedWavefunction", "FCI", "FixedEmbeddedWavefunction", "GeneralizedCC", "GeneralizedMolecularHamiltonian",
    "GeneratedHamiltonian", "GeneratedWavefunction", "JacobiWavefunction", "LinearCombinationWavefunction", "MatrixProductState",
    "NonorthWavefunction", "PCCD", "ParamContainer", "ProductWavefunction", "RestrictedBoltzmannMachine",
    "RestrictedMolecularHamiltonian", "SeniorityCC", "SeniorityZeroHamiltonian", "StandardCC", "UnrestrictedMolecularHamiltonian",
    "hCI"].map String.toList

/-- the object and all within it are of classes of Fanpy -/
inductive Uses (classes : List Str) : Obj P → Prop
  | plain (c : Str) (p : P) (h : c ∈ classes) : Uses classes (.plain c p)
  | one (c : Str) (p : P) (w : Obj P) (h : c ∈ classes) (hw : Uses classes w) : Uses classes (.one c p w)
  | lin (c : Str) (p : P) (ws : List (Obj P)) (h : c ∈ classes) (hw : ∀ w ∈ ws, Uses classes w) : Uses classes (.lin c p ws)
  | ham (c : Str) (p u : P) (h : c ∈ classes) : Uses classes (.ham c p u)

end Fanpy.SaveParams
