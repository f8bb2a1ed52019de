import Verif.Model.Tables

/-! Model of `DataFrameGeminal`, fanpy/analysis/dataframe/geminal.py.  A row has two labels (a pandas `MultiIndex`): the
geminal, a number or a text of the orbitals it replaces, and the pair of orbitals, as text or as determinant.

Files are in Model/TableFiles.lean.  Not modelled: printed messages, the names of the levels (they follow the view), the state left behind when a
method raises. -/

namespace Fanpy.Tables
open Fanpy.Slater Fanpy.Text

/-- `DataFrameGeminal` — analysis/dataframe/geminal.py:6-319.  `refSd` is the attribute `wfn_ref_sd`: `none` if the
object has no such attribute, `some none` if it is `None`. -/
structure GemTable (R : Type) where
  index : List (Label × Label)
  columns : List (String × List (Option R))
  nspatial : Option ℤ
  nspin : Option ℤ
  refSd : Option (Option ℕ)
  view : View

/-- `wfn.params` of a geminal wavefunction: a matrix, or a vector for the rank-two approximations —
geminal.py:26, 117. -/
inductive GemParams (R : Type)
  | mat (rows : List (List R))
  | vec (l : List R)

/-- the parts of a geminal wavefunction that are read — geminal.py:25-50, 116-134. -/
structure GemWfn (R : Type) where
  orbpairs : List (List ℕ)
  params : GemParams R
  ngem : ℕ
  nspatial : ℤ
  nspin : ℤ
  /-- `hasattr(wfn, "ref_sd")` and its value -/
  refSd : Option (Option ℕ)
  /-- `hasattr(wfn, "dict_reforbpair_ind")` and its keys -/
  refPairs : Option (List (List ℕ))
  cls : String

/-- the labels of the geminals — geminal.py:45-54, 129-137. -/
def GemWfn.geminals {R : Type} (w : GemWfn R) : List Label :=
  match w.refPairs with
  | some ps => ps.map opLabel
  | none => (List.range w.ngem).map .int

/-- `MultiIndex.from_product` — geminal.py:56, 139. -/
def GemWfn.rows {R : Type} (w : GemWfn R) : List (Label × Label) :=
  w.geminals.flatMap (fun g => w.orbpairs.map (fun p => (g, opLabel p)))

/-- `np.ravel(params)` — geminal.py:26. -/
def GemParams.ravel {R : Type} : GemParams R → List R
  | .mat rows => rows.flatten
  | .vec l => l

namespace GemTable
variable {R : Type}

/-- `DataFrameGeminal()` — geminal.py:9-15: no attribute `wfn_ref_sd`. -/
def empty : GemTable R :=
  { index := [], columns := [], nspatial := none, nspin := none, refSd := none, view := .geminals }

/-- `DataFrameGeminal(wfn, wfn_label)` — geminal.py:17-60.  pandas raises `ValueError` if the numbers of parameters and
rows differ. -/
def ofWfn (w : GemWfn R) (label : Option String) : Except PyErr (GemTable R) :=
  if w.params.ravel.length ≠ w.rows.length then .error .valueError
  else .ok { index := w.rows, columns := [(labelOr label w.cls, w.params.ravel.map some)],
             nspatial := some w.nspatial, nspin := some w.nspin, refSd := some (w.refSd.getD none),
             view := .geminals }

/-- `DataFrameGeminal.add_wfn_to_dataframe` up to the construction of the series — geminal.py:104-149: pandas' `Series`
refuses a matrix (`ValueError`, "Data must be 1-dimensional") and a wrong number of values. -/
def addWfnSeries (w : GemWfn R) : Except PyErr (List ((Label × Label) × R)) :=
  match w.params with
  | .mat _ => .error .valueError
  | .vec l => if l.length ≠ w.rows.length then .error .valueError else .ok (w.rows.zip l)

/-- `chars[orbital] = new` for each orbital — geminal.py:183-184, 191-192, 297-298. -/
def setChars (new : Char) : List ℕ → List Char → Except PyErr (List Char)
  | [], w => .ok w
  | i :: is, w => if i < w.length then setChars new is (w.set i new) else .error .indexError

/-- `list(map(int, label.split()))` — geminal.py:183, 191, 297; an integer has no attribute `split`. -/
def readOrbs : Label → Except PyErr (List ℕ)
  | .int _ => .error .attributeError
  | .str s => (splitSp s).mapM (parseInt 10)

/-- the characters to start from — geminal.py:180-189, 291-298. -/
def baseChars (refSd : Option (Option ℕ)) (nspatial nspin : ℤ) (g : Label) : Except PyErr (List Char) :=
  match refSd with
  | none => .error .attributeError
  | some none => .ok (List.replicate nspin.toNat '0')
  | some (some ref) => do
    let orbs ← readOrbs g
    setChars '0' orbs (fmtBits (2 * nspatial).toNat ref).reverse

/-- one row to its determinant — geminal.py:179-197. -/
def pairToSd (refSd : Option (Option ℕ)) (nspatial nspin : ℤ) (row : Label × Label) : Except PyErr (Label × Label) := do
  let w ← baseChars refSd nspatial nspin row.1
  let orbs ← readOrbs row.2
  let w2 ← setChars '1' orbs w
  let n ← parseInt 2 w2.reverse
  return (row.1, .int n)

/-- one determinant to the pair of orbitals — geminal.py:289-307.  A text is a `TypeError` in `^` and in `bin`. -/
def sdToPair (refSd : Option (Option ℕ)) (nspatial : Option ℤ) (row : Label × Label) : Except PyErr (Label × Label) :=
  match refSd with
  | none => .error .attributeError
  | some none =>
    match row.2 with
    | .int sd => .ok (row.1, opLabel (occIndices (some sd)))
    | .str _ => .error .typeError
  | some (some ref) =>
    match nspatial with
    | none => .error .valueError
    | some K => do
      let orbs ← readOrbs row.1
      let w ← setChars '0' orbs (fmtBits (2 * K).toNat ref).reverse
      let n ← parseInt 2 w.reverse
      match row.2 with
      | .int sd => return (row.1, opLabel (occIndices (some (n ^^^ sd))))
      | .str _ => .error .typeError

/-- `DataFrameGeminal.set_sds_as_index` — geminal.py:166-229. -/
def setSds (t : GemTable R) : Except PyErr (GemTable R) :=
  match t.view with
  | .geminals =>
    match t.nspin, t.nspatial with
    | some n, some K => do
      let new ← t.index.mapM (pairToSd t.refSd K n)
      return { t with index := new, view := .determinants }
    | _, _ => .error .valueError
  | .formatted => do
    let new ← t.index.mapM (fun row => (unfmtLabel row.2).map (fun l => (row.1, l)))
    return { t with index := new, view := .determinants }
  | .determinants => .ok t
  | _ => .error .valueError

/-- the second half of `set_formatted_sds_as_index` — geminal.py:239-272. -/
def setFormattedTail (t : GemTable R) : Except PyErr (GemTable R) :=
  match t.view with
  | .determinants =>
    match t.nspatial with
    | none => .error .valueError
    | some K => do
      let new ← t.index.mapM (fun row => (fmtLabel K row.2).map (fun l => (row.1, l)))
      return { t with index := new, view := .formatted }
  | .formatted => .ok t
  | _ => .error .valueError

/-- `DataFrameGeminal.set_formatted_sds_as_index` — geminal.py:231-272. -/
def setFormatted (t : GemTable R) : Except PyErr (GemTable R) := do
  let t1 ← if t.view = .geminals then setSds t else .ok t
  setFormattedTail t1

/-- the second half of `set_geminals_as_index` — geminal.py:282-319. -/
def setGeminalsTail (t : GemTable R) : Except PyErr (GemTable R) :=
  match t.view with
  | .determinants => do
    let new ← t.index.mapM (sdToPair t.refSd t.nspatial)
    return { t with index := new, view := .geminals }
  | .geminals => .ok t
  | _ => .error .valueError

/-- `DataFrameGeminal.set_geminals_as_index` — geminal.py:274-319. -/
def setGeminals (t : GemTable R) : Except PyErr (GemTable R) := do
  let t1 ← if t.view = .formatted then setSds t else .ok t
  setGeminalsTail t1

/-- `self.wfn_ref_sd` in `to_csv` — geminal.py:72-77: `__getattr__` looks for a missing attribute in the pandas object,
which has none of that name. -/
def metadataRefSd (t : GemTable R) : Except PyErr (Option ℕ) :=
  match t.refSd with
  | none => .error .attributeError
  | some r => .ok r

end GemTable

end Fanpy.Tables
