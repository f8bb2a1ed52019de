import Verif.Model.TablesGem

/-! Model of the tables of parameters in files: `to_csv` and `read_csv` of fanpy/analysis/dataframe/{base,ci,cc,geminal}.py.

A disk gives the content of each path.  A CSV file holds texts for the row labels and the cells; a JSON file holds a list
of keys and values.  pandas and json are not in the repository; what is used of them here: `DataFrame.to_csv` writes an
integer label in base ten and a text label as it is, `pandas.read_csv` makes a column of labels integers if all its texts
are numbers below `2 ^ 64` and leaves all of them texts otherwise, and `json.dump` raises `TypeError` for an object that
is not a number, a text or `None`, when a part of the file has been written already.

Not modelled: rounding of cells (the decimal numbers of the file), quotes in the CSV file, the keyword arguments of
`pandas.read_csv`, files that other programs write.  An `OSError` (no such file) is `runtimeError`. -/

namespace Fanpy.Tables
open Fanpy.Slater Fanpy.Text

/-- a path, as the text it is. -/
abbrev Path := List Char

/-- `os.path.splitext` of the standard library (posixpath), used in analysis/dataframe/base.py:64, 83: the extension
begins at the last dot of the last component, if a character other than a dot precedes it there. -/
def splitext (p : Path) : Path × Path :=
  match p.reverse.dropWhile (fun c => c ≠ '.' && c ≠ '/') with
  | '.' :: rest =>
    if (rest.takeWhile (fun c => c ≠ '/')).any (fun c => c ≠ '.') then
      (rest.reverse, '.' :: (p.reverse.takeWhile (fun c => c ≠ '.' && c ≠ '/')).reverse)
    else (p, [])
  | _ => (p, [])

/-- the names of the CSV file and of the file of metadata — analysis/dataframe/base.py:64-70, 83-89. -/
def fileNames (filename : Path) : Path × Path :=
  if (splitext filename).2.map Char.toLower ≠ ".csv".toList then
    ((splitext filename).1 ++ ".csv".toList, (splitext filename).1 ++ ".json".toList)
  else (filename, (splitext filename).1 ++ ".json".toList)

/-- the content of a CSV file: columns of label texts with the names of the levels of the index, and columns of cells —
analysis/dataframe/base.py:73. -/
structure Csv (R : Type) where
  keys : List (String × List (List Char))
  columns : List (String × List (Option R))

/-- a value of the metadata — analysis/dataframe/ci.py:44-47, cc.py:51-55, geminal.py:72-77.  `object` is any Python
object that json does not know, such as a wavefunction. -/
inductive JVal
  | null
  | int (n : ℤ)
  | view (v : View)
  | object
  deriving DecidableEq, Repr

/-- the metadata: a dictionary with text keys — ci.py:44-47. -/
abbrev Meta := List (String × JVal)

/-- the content of a file.  `cut` is a JSON file whose writing stopped in the middle — analysis/dataframe/base.py:76-77. -/
inductive File (R : Type)
  | csv (c : Csv R)
  | json (m : Meta)
  | cut

/-- the files. -/
abbrev Disk (R : Type) := Path → Option (File R)

variable {R : Type}

/-- `DataFrameFanpy.to_csv` — analysis/dataframe/base.py:60-77: the files afterwards, and the result. -/
def writeFiles (disk : Disk R) (filename : Path) (c : Csv R) (m : Meta) : Disk R × Except PyErr Unit :=
  if JVal.object ∈ m.map Prod.snd then
    (Function.update (Function.update disk (fileNames filename).1 (some (.csv c))) (fileNames filename).2 (some .cut),
      .error .typeError)
  else
    (Function.update (Function.update disk (fileNames filename).1 (some (.csv c))) (fileNames filename).2
      (some (.json m)), .ok ())

/-- the text of a label in the CSV file (pandas' `to_csv`) — analysis/dataframe/base.py:73. -/
def labelText : Label → List Char
  | .int n => pyStr n
  | .str s => s

/-- the labels that pandas makes of the texts of a column — analysis/dataframe/base.py:92. -/
def readLabels (texts : List (List Char)) : List Label :=
  match texts.mapM (parseInt 10) with
  | .ok ns => if ns.all (fun n => decide (n < 2 ^ 64)) then ns.map .int else texts.map .str
  | .error _ => texts.map .str

/-- `pd.read_csv(csv_filename, index_col=0)` — analysis/dataframe/base.py:92. -/
def readCsvFile (disk : Disk R) (filename : Path) : Except PyErr (Csv R) :=
  match disk (fileNames filename).1 with
  | none => .error .runtimeError
  | some (.csv c) => .ok c
  | some _ => .error .valueError

/-- `json.load(f)` — analysis/dataframe/base.py:95-96. -/
def readMeta (disk : Disk R) (filename : Path) : Except PyErr Meta :=
  match disk (fileNames filename).2 with
  | none => .error .runtimeError
  | some (.json m) => .ok m
  | some _ => .error .valueError

/-- `self._metadata[key]` — ci.py:59-60, cc.py:67-69, geminal.py:89-92. -/
def metaGet (m : Meta) (key : String) : Except PyErr JVal :=
  match m.lookup key with
  | none => .error .keyError
  | some v => .ok v

/-- a number of the metadata, or `None` (any other value is kept by Python as it is; none is written by this package). -/
def JVal.num : JVal → Option ℤ
  | .int n => some n
  | _ => none

/-- a view of the metadata. -/
def JVal.toView : JVal → View
  | .view v => v
  | _ => .other

/-- a number or `None` as a value of the metadata. -/
def jnum : Option ℤ → JVal
  | none => .null
  | some n => .int n

/-- the CSV file of a table with one label for each row — analysis/dataframe/base.py:73. -/
def frameCsv (f : Frame R) : Csv R := { keys := [("", f.index.map labelText)], columns := f.columns }

/-- the table that pandas makes of a CSV file with one column of labels — analysis/dataframe/base.py:92. -/
def csvFrame (c : Csv R) : Frame R :=
  { index := readLabels ((c.keys.head?.map Prod.snd).getD []), columns := c.columns }

namespace CITable

/-- the metadata of `DataFrameCI` — ci.py:44-47. -/
def metadata (t : CITable R) : Meta := [("wfn_nspatial", jnum t.nspatial), ("index_view", .view t.view)]

/-- `DataFrameCI.to_csv` — ci.py:40-50. -/
def toCsv (t : CITable R) (disk : Disk R) (filename : Path) : Disk R × Except PyErr Unit :=
  writeFiles disk filename (frameCsv t.toFrame) t.metadata

/-- `DataFrameCI.read_csv` — ci.py:52-60, base.py:79-96: the object afterwards, and the result.  The rows are replaced
before the metadata are read. -/
def readCsv (t : CITable R) (disk : Disk R) (filename : Path) : CITable R × Except PyErr Unit :=
  match readCsvFile disk filename with
  | .error e => (t, .error e)
  | .ok c =>
    match readMeta disk filename with
    | .error e => ({ t with toFrame := csvFrame c }, .error e)
    | .ok m =>
      match metaGet m "wfn_nspatial" with
      | .error e => ({ t with toFrame := csvFrame c }, .error e)
      | .ok k =>
        match metaGet m "index_view" with
        | .error e => ({ t with toFrame := csvFrame c, nspatial := k.num }, .error e)
        | .ok v => ({ toFrame := csvFrame c, nspatial := k.num, view := v.toView }, .ok ())

end CITable

namespace CCTable

/-- the metadata of `DataFrameCC` — cc.py:51-55.  `obj` says that the attribute `wfn_reference` is a wavefunction. -/
def metadata (t : CCTable R) (obj : Bool) : Meta :=
  [("wfn_nspatial", jnum t.nspatial),
   ("wfn_reference", if obj then .object else jnum (t.reference.map (fun (n : ℕ) => (n : ℤ)))),
   ("index_view", .view t.view)]

/-- `DataFrameCC.to_csv` — cc.py:47-58. -/
def toCsv (t : CCTable R) (obj : Bool) (disk : Disk R) (filename : Path) : Disk R × Except PyErr Unit :=
  writeFiles disk filename (frameCsv t.toFrame) (t.metadata obj)

/-- `DataFrameCC.read_csv` — cc.py:60-69, base.py:79-96: the object afterwards, and the result. -/
def readCsv (t : CCTable R) (disk : Disk R) (filename : Path) : CCTable R × Except PyErr Unit :=
  match readCsvFile disk filename with
  | .error e => (t, .error e)
  | .ok c =>
    match readMeta disk filename with
    | .error e => ({ t with toFrame := csvFrame c }, .error e)
    | .ok m =>
      match metaGet m "wfn_nspatial" with
      | .error e => ({ t with toFrame := csvFrame c }, .error e)
      | .ok k =>
        match metaGet m "wfn_reference" with
        | .error e => ({ t with toFrame := csvFrame c, nspatial := k.num }, .error e)
        | .ok r =>
          match metaGet m "index_view" with
          | .error e =>
            ({ t with toFrame := csvFrame c, nspatial := k.num, reference := r.num.map Int.toNat }, .error e)
          | .ok v =>
            ({ toFrame := csvFrame c, nspatial := k.num, reference := r.num.map Int.toNat, view := v.toView }, .ok ())

end CCTable

/-- the name of the second level of the index — geminal.py:55, 96-100, 200. -/
def View.level : View → String
  | .geminals => "pair"
  | .determinants => "determinants"
  | .formatted => "formatted determinants"
  | _ => ""

namespace GemTable

/-- the CSV file of a table of geminals: two columns of labels — geminal.py:55, base.py:73. -/
def csvOf (t : GemTable R) : Csv R :=
  { keys := [("geminal", t.index.map (fun r => labelText r.1)), (t.view.level, t.index.map (fun r => labelText r.2))],
    columns := t.columns }

/-- `DataFrameGeminal.to_csv` — geminal.py:68-80.  The attribute `wfn_ref_sd` is read before a file is written. -/
def toCsv (t : GemTable R) (disk : Disk R) (filename : Path) : Disk R × Except PyErr Unit :=
  match t.metadataRefSd with
  | .error e => (disk, .error e)
  | .ok r =>
    writeFiles disk filename t.csvOf
      [("wfn_nspatial", jnum t.nspatial), ("wfn_nspin", jnum t.nspin),
       ("wfn_ref_sd", jnum (r.map (fun (n : ℕ) => (n : ℤ)))), ("index_view", .view t.view)]

/-- `self.dataframe.set_index(["geminal", level])` after `reset_index()` — geminal.py:94-100: `KeyError` if a column is
missing. -/
def setIndex (c : Csv R) (level : String) : Except PyErr (List (Label × Label)) :=
  match c.keys.lookup "geminal", c.keys.lookup level with
  | some gs, some ps => .ok (List.zip (readLabels gs) (readLabels ps))
  | _, _ => .error .keyError

/-- `DataFrameGeminal.read_csv` — geminal.py:82-102, base.py:79-96: the object afterwards.  The state left behind when it
raises is not modelled. -/
def readCsv (disk : Disk R) (filename : Path) : Except PyErr (GemTable R) := do
  let c ← readCsvFile disk filename
  let m ← readMeta disk filename
  let k ← metaGet m "wfn_nspatial"
  let n ← metaGet m "wfn_nspin"
  let r ← metaGet m "wfn_ref_sd"
  let v ← metaGet m "index_view"
  if v.toView = .geminals ∨ v.toView = .determinants ∨ v.toView = .formatted then
    let rows ← setIndex c v.toView.level
    return { index := rows, columns := c.columns, nspatial := k.num, nspin := n.num,
             refSd := some (r.num.map Int.toNat), view := v.toView }
  else .error .valueError

end GemTable

end Fanpy.Tables
