import Verif.Model.Text

/-! Model of the tables of parameters, fanpy/analysis/dataframe/{base,ci,cc}.py.

A table is a list of row labels and a list of named columns.  A cell is `none` where pandas stores `NaN`.  A row label
is an integer or a text, as in the code.  Files are in Model/TableFiles.lean.  Not modelled: printed messages, the forwarding
of other attributes to pandas, the state left behind when a method raises. -/

namespace Fanpy.Tables
open Fanpy.Slater Fanpy.Text

/-- A row label: an integer or a text. -/
inductive Label
  | int (n : ℕ)
  | str (s : List Char)
  deriving DecidableEq, Repr

/-- the attribute `_index_view` — analysis/dataframe/ci.py:12, cc.py:13, geminal.py:13. -/
inductive View
  | determinants
  | formatted
  | operators
  | geminals
  | other
  deriving DecidableEq, Repr

/-- the pandas object of a table: labels of rows, and columns with one cell for each row —
analysis/dataframe/base.py:8-17. -/
structure Frame (R : Type) where
  index : List Label
  columns : List (String × List (Option R))

/-- `wfn_label or wfn.__class__.__name__` — analysis/dataframe/ci.py:30, 78, cc.py:37, 92. -/
def labelOr (label : Option String) (cls : String) : String :=
  match label with
  | none => cls
  | some s => if s = "" then cls else s

/-- values of a column or series for new row labels (pandas' `reindex`): the value of the label, `NaN` for a label
that was not there — analysis/dataframe/ci.py:88, 91. -/
def reindexVals {R : Type} (old : List Label) (vals : List (Option R)) (new : List Label) : List (Option R) :=
  new.map (fun l => if l ∈ old then vals.getD (old.idxOf l) none else none)

/-- `frame.reindex(new)`: pandas raises `ValueError` if labels are repeated, unless nothing changes —
analysis/dataframe/ci.py:88. -/
def reindex {R : Type} (f : Frame R) (new : List Label) : Except PyErr (Frame R) :=
  if new = f.index then .ok f
  else if f.index.Nodup then
    .ok { index := new, columns := f.columns.map (fun c => (c.1, reindexVals f.index c.2 new)) }
  else .error .valueError

/-- `frame[label] = values`: an existing column is replaced where it stands, a new one is put last —
analysis/dataframe/ci.py:91. -/
def setColumn {R : Type} (cols : List (String × List (Option R))) (label : String) (vals : List (Option R)) :
    List (String × List (Option R)) :=
  if label ∈ cols.map Prod.fst then cols.map (fun c => if c.1 = label then (label, vals) else c)
  else cols ++ [(label, vals)]

/-- the shared steps of `add_wfn_to_dataframe` — analysis/dataframe/ci.py:84-91, cc.py:98-105: a series of the
parameters with the labels of the wavefunction (pandas raises `ValueError` if the lengths differ), rows for the union of
the labels, and the new column.  `union` is pandas' `Index.union`; it is a parameter since the order of its result is
not modelled. -/
def addSeries {R : Type} (union : List Label → List Label → List Label) (f : Frame R) (labels : List Label)
    (params : List R) (name : String) : Except PyErr (Frame R) := do
  if params.length ≠ labels.length then .error .valueError
  else
    let g ← reindex f (union f.index labels)
    let s ← reindex { index := labels, columns := [(name, params.map some)] } g.index
    match s.columns with
    | [(_, vals)] => .ok { g with columns := setColumn g.columns name vals }
    | _ => .error .runtimeError

/-- text of a determinant, `" ".join([format(alpha)[::-1], format(beta)[::-1]])` — analysis/dataframe/ci.py:110-115,
cc.py:192-197, geminal.py:251-256.  `split_spin` checks the number of orbitals first, then computes `sd & mask`, which
is a `TypeError` for a text. -/
def fmtLabel (K : ℤ) : Label → Except PyErr Label
  | .int sd => do
    let (a, b) ← splitSpin sd K
    return .str (joinSp [(fmtBits K.toNat a).reverse, (fmtBits K.toNat b).reverse])
  | .str _ => if K ≤ 0 then .error .valueError else .error .typeError

/-- determinant of a text, `sd_alpha, sd_beta = text.split(); int(sd_beta[::-1] + sd_alpha[::-1], 2)` —
analysis/dataframe/ci.py:137-140, cc.py:160-163, geminal.py:214-215.  An integer has no attribute `split`. -/
def unfmtLabel : Label → Except PyErr Label
  | .int _ => .error .attributeError
  | .str s =>
    match splitSp s with
    | [a, b] => do
      let n ← parseInt 2 (b.reverse ++ a.reverse)
      return .int n
    | _ => .error .valueError

/-- `DataFrameCI` — analysis/dataframe/ci.py:6-152. -/
structure CITable (R : Type) extends Frame R where
  nspatial : Option ℤ
  view : View

namespace CITable
variable {R : Type}

/-- `DataFrameCI()` — ci.py:9-14. -/
def empty : CITable R := { index := [], columns := [], nspatial := none, view := .determinants }

/-- `DataFrameCI(wfn, wfn_label)` for a CI wavefunction — ci.py:16-32, base.py:12-15. -/
def ofWfn (sds : List ℕ) (params : List R) (K : ℤ) (cls : String) (label : Option String) :
    Except PyErr (CITable R) :=
  if params.length ≠ sds.length then .error .valueError
  else .ok { index := sds.map .int, columns := [(labelOr label cls, params.map some)],
             nspatial := some K, view := .determinants }

/-- `DataFrameCI.add_wfn_to_dataframe` — ci.py:62-96. -/
def addWfn (union : List Label → List Label → List Label) (t : CITable R) (sds : List ℕ) (params : List R) (K : ℤ)
    (cls : String) (label : Option String) : Except PyErr (CITable R) := do
  let f ← addSeries union t.toFrame (sds.map .int) params (labelOr label cls)
  return { toFrame := f, nspatial := (match t.nspatial with | none => some K | some k => some k), view := t.view }

/-- `DataFrameCI.set_formatted_sds_as_index` — ci.py:98-129. -/
def setFormatted (t : CITable R) : Except PyErr (CITable R) :=
  match t.view with
  | .determinants =>
    match t.nspatial with
    | none => .error .valueError
    | some K => do
      let new ← t.index.mapM (fmtLabel K)
      return { t with index := new, view := .formatted }
  | .formatted => .ok t
  | _ => .error .valueError

/-- `DataFrameCI.set_sds_as_index` — ci.py:131-152. -/
def setSds (t : CITable R) : Except PyErr (CITable R) :=
  match t.view with
  | .formatted => do
    let new ← t.index.mapM unfmtLabel
    return { t with index := new, view := .determinants }
  | .determinants => .ok t
  | _ => .error .valueError

end CITable

/-- `DataFrameCC` — analysis/dataframe/cc.py:6-248.  The reference is a determinant (a reference that is itself a
wavefunction is left out). -/
structure CCTable (R : Type) extends Frame R where
  nspatial : Option ℤ
  reference : Option ℕ
  view : View

/-- the label of an excitation operator, `" ".join(map(str, op))` — cc.py:28-29, 88-89, 235. -/
def opLabel (op : List ℕ) : Label := .str (joinSp (op.map pyStr))

/-- the two loops over the halves of an operator — cc.py:131-145: the character at each index must be `want` and is
replaced by `new`; an index past the end raises `IndexError`. -/
def flipChars (want new : Char) : List ℕ → List Char → Except PyErr (List Char)
  | [], w => .ok w
  | i :: is, w =>
    match w[i]? with
    | none => .error .indexError
    | some c => if c = want then flipChars want new is (w.set i new) else .error .valueError

/-- one operator to its determinant — cc.py:125-149. -/
def opToSd (reference : ℕ) (K : ℤ) : Label → Except PyErr Label
  | .int _ => .error .attributeError
  | .str s => do
    let op ← (splitSp s).mapM (parseInt 10)
    let w1 ← flipChars '1' '0' (op.take (op.length / 2)) (fmtBits (2 * K).toNat reference).reverse
    let w2 ← flipChars '0' '1' (op.drop (op.length / 2)) w1
    let n ← parseInt 2 w2.reverse
    return .int n

/-- one determinant to its operator — cc.py:227-236. -/
def sdToOp (reference : ℕ) (K : ℤ) : Label → Except PyErr Label
  | .str _ => if K ≤ 0 then .ok (opLabel []) else .error .typeError
  | .int sd =>
    let orbs := List.range (2 * K).toNat
    let refOccs := orbs.map (fun i => (reference >>> i) &&& 1)
    let sdOccs := orbs.map (fun i => (sd >>> i) &&& 1)
    let creation := orbs.filter (fun i => refOccs.getD i 0 = 0 ∧ sdOccs.getD i 0 = 1)
    let annihilation := orbs.filter (fun i => refOccs.getD i 0 = 1 ∧ sdOccs.getD i 0 = 0)
    .ok (opLabel (annihilation ++ creation))

namespace CCTable
variable {R : Type}

/-- `DataFrameCC()` — cc.py:9-15. -/
def empty : CCTable R :=
  { index := [], columns := [], nspatial := none, reference := none, view := .operators }

/-- `DataFrameCC(wfn, wfn_label)` — cc.py:17-39. -/
def ofWfn (exops : List (List ℕ)) (params : List R) (K : ℤ) (reference : ℕ) (cls : String) (label : Option String) :
    Except PyErr (CCTable R) :=
  if params.length ≠ exops.length then .error .valueError
  else .ok { index := exops.map opLabel, columns := [(labelOr label cls, params.map some)],
             nspatial := some K, reference := some reference, view := .operators }

/-- `DataFrameCC.add_wfn_to_dataframe` — cc.py:71-111. -/
def addWfn (union : List Label → List Label → List Label) (t : CCTable R) (exops : List (List ℕ)) (params : List R)
    (K : ℤ) (reference : ℕ) (cls : String) (label : Option String) : Except PyErr (CCTable R) := do
  let f ← addSeries union t.toFrame (exops.map opLabel) params (labelOr label cls)
  if t.nspatial = none ∨ t.reference = none then
    return { toFrame := f, nspatial := some K, reference := some reference, view := t.view }
  else return { toFrame := f, nspatial := t.nspatial, reference := t.reference, view := t.view }

/-- `DataFrameCC.set_sds_as_index` — cc.py:113-175. -/
def setSds (t : CCTable R) : Except PyErr (CCTable R) :=
  match t.view with
  | .operators =>
    match t.reference, t.nspatial with
    | some ref, some K => do
      let new ← t.index.mapM (opToSd ref K)
      return { t with index := new, view := .determinants }
    | _, _ => .error .valueError
  | .formatted => do
    let new ← t.index.mapM unfmtLabel
    return { t with index := new, view := .determinants }
  | .determinants => .ok t
  | _ => .error .valueError

/-- the second half of `set_formatted_sds_as_index` — cc.py:185-211. -/
def setFormattedTail (t : CCTable R) : Except PyErr (CCTable R) :=
  match t.view with
  | .determinants =>
    match t.nspatial with
    | none => .error .valueError
    | some K => do
      let new ← t.index.mapM (fmtLabel K)
      return { t with index := new, view := .formatted }
  | .formatted => .ok t
  | _ => .error .valueError

/-- `DataFrameCC.set_formatted_sds_as_index` — cc.py:177-211. -/
def setFormatted (t : CCTable R) : Except PyErr (CCTable R) := do
  let t1 ← if t.view = .operators then setSds t else .ok t
  setFormattedTail t1

/-- the second half of `set_operators_as_index` — cc.py:219-248.  `self.wfn_nspatial * 2` of `None` is a `TypeError`
(reached only if there is a row). -/
def setOperatorsTail (t : CCTable R) : Except PyErr (CCTable R) :=
  match t.view with
  | .determinants =>
    match t.reference with
    | none => .error .valueError
    | some ref => do
      let new ← t.index.mapM (fun l => match t.nspatial with
        | none => .error .typeError
        | some K => sdToOp ref K l)
      return { t with index := new, view := .operators }
  | .operators => .ok t
  | _ => .error .valueError

/-- `DataFrameCC.set_operators_as_index` — cc.py:213-248. -/
def setOperators (t : CCTable R) : Except PyErr (CCTable R) := do
  let t1 ← if t.view = .formatted then setSds t else .ok t
  setOperatorsTail t1

end CCTable

end Fanpy.Tables
