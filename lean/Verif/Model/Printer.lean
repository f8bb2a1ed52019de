import Verif.Model.Text
import Mathlib.Algebra.Order.Group.Abs

/-! Model of the printers of parameters, fanpy/analysis/printer/{ci,cc,geminal}.py.  A printer is modelled by the rows that
it prints: the texts of the columns and the parameter.  Not modelled: the layout (headers, padding, decimals). -/

namespace Fanpy.Printer
open Fanpy.Slater Fanpy.Text

variable {R : Type}

/-- `rows[:max_print]` — printer/ci.py:50; a negative number leaves out rows at the end. -/
def pySlice {α : Type} (m : ℤ) (l : List α) : List α :=
  if 0 ≤ m then l.take m.toNat else l.take (l.length - (-m).toNat)

/-- sort by the absolute value of the parameter in descending order (Python's sort keeps the order of equal rows, also with
`reverse=True`), drop parameters up to the threshold, keep the first `max_print` rows — printer/ci.py:41-50, 92-101,
cc.py:55-64, 116-125, geminal.py:90-99, 154-163, 203-212. -/
def select [AddCommGroup R] [LinearOrder R] {α : Type} (maxPrint : Option ℤ) (threshold : Option R)
    (rows : List (α × R)) : List (α × R) :=
  let sorted := rows.mergeSort (fun a b => decide (|b.2| ≤ |a.2|))
  let kept := match threshold with
    | none => sorted
    | some t => sorted.filter (fun r => decide (t < |r.2|))
  match maxPrint with
  | none => kept
  | some m => pySlice m kept

/-- the widths of the columns are computed with `max` over the rows, a `ValueError` if there are none —
printer/ci.py:104-105, cc.py:128-131, geminal.py:166-169, 215-217. -/
def nonempty {α : Type} (rows : List α) : Except PyErr (List α) :=
  if rows.isEmpty then .error .valueError else .ok rows

/-- the texts of one determinant — printer/ci.py:34-35. -/
def detTexts (K : ℤ) (sd : ℕ) : Except PyErr (List (List Char)) := do
  let (a, b) ← splitSpin sd K
  return [(fmtBits K.toNat a).reverse, (fmtBits K.toNat b).reverse]

/-- one row of each determinant and parameter -/
def zipRows {α β : Type} (f : α → Except PyErr β) (l : List α) (params : List R) : Except PyErr (List (β × R)) :=
  (l.zip params).mapM (fun p => (f p.1).map (fun x => (x, p.2)))

/-- `print_determinants` — printer/ci.py:12-60. -/
def printDeterminants [AddCommGroup R] [LinearOrder R] (K : ℤ) (sds : List ℕ) (params : List R)
    (maxPrint : Option ℤ) (threshold : Option R) : Except PyErr (List (List (List Char) × R)) := do
  let rows ← zipRows (detTexts K) sds params
  return select maxPrint threshold rows

/-- the occupied orbitals of one determinant — printer/ci.py:85-86. -/
def detIndexTexts (K : ℤ) (sd : ℕ) : Except PyErr (List (List Char)) := do
  let (a, b) ← splitSpin sd K
  return [joinSp ((occIndices (some a)).map pyStr), joinSp ((occIndices (some b)).map pyStr)]

/-- `print_determinants_indices` — printer/ci.py:63-115. -/
def printDeterminantsIndices [AddCommGroup R] [LinearOrder R] (K : ℤ) (sds : List ℕ) (params : List R)
    (maxPrint : Option ℤ) (threshold : Option R) : Except PyErr (List (List (List Char) × R)) := do
  let rows ← zipRows (detIndexTexts K) sds params
  nonempty (select maxPrint threshold rows)

/-- mark the orbitals of an excitation operator — printer/cc.py:41-46. -/
def markOp : List ℕ → List Char → Except PyErr (List Char)
  | [], w => .ok w
  | i :: is, w =>
    match w[i]? with
    | none => .error .indexError
    | some c => markOp is (if c = '1' then w.set i '-' else if c = '0' then w.set i '+' else w)

/-- the texts of one operator — printer/cc.py:39-53. -/
def opTexts (K nspin : ℕ) (ref : ℕ) (op : List ℕ) : Except PyErr (List (List Char)) := do
  let w ← markOp op (fmtBits nspin ref).reverse
  return [w.take K, w.drop K]

/-- `print_excitation_operators_as_determinants` — printer/cc.py:12-76. -/
def printExcitations [AddCommGroup R] [LinearOrder R] (K nspin ref : ℕ) (exops : List (List ℕ)) (params : List R)
    (maxPrint : Option ℤ) (threshold : Option R) : Except PyErr (List (List (List Char) × R)) := do
  let rows ← zipRows (opTexts K nspin ref) exops params
  return select maxPrint threshold rows

/-- the occupied orbitals of the reference — printer/cc.py:100-105. -/
def refIndices (K : ℤ) (ref : ℕ) : Except PyErr (List ℕ) := do
  let (a, b) ← splitSpin ref K
  return occIndices (some a) ++ (occIndices (some b)).map (· + K.toNat)

/-- the four lists of indices of one operator — printer/cc.py:110-114. -/
def opIndexTexts (K : ℤ) (occ : List ℕ) (op : List ℕ) : List (List Char) :=
  let alpha := fun x : ℕ => decide ((x : ℤ) < K)
  let inRef := fun x : ℕ => decide (x ∈ occ)
  [joinSp ((op.filter (fun x => alpha x && inRef x)).map pyStr),
   joinSp ((op.filter (fun x => !alpha x && inRef x)).map (fun x => pyStr (x - K.toNat))),
   joinSp ((op.filter (fun x => alpha x && !inRef x)).map pyStr),
   joinSp ((op.filter (fun x => !alpha x && !inRef x)).map (fun x => pyStr (x - K.toNat)))]

/-- `print_excitation_operators_indices` — printer/cc.py:79-150. -/
def printExcitationsIndices [AddCommGroup R] [LinearOrder R] (K : ℤ) (ref : ℕ) (exops : List (List ℕ))
    (params : List R) (maxPrint : Option ℤ) (threshold : Option R) : Except PyErr (List (List (List Char) × R)) := do
  let occ ← refIndices K ref
  nonempty (select maxPrint threshold ((exops.zip params).map (fun p => (opIndexTexts K occ p.1, p.2))))

/-- the entries of the list that `print_geminal_ops` joins: characters, or the integer zero — printer/geminal.py:34-39. -/
inductive Mark
  | char (c : Char)
  | zero
  deriving DecidableEq

/-- `"".join(marks)`: a `TypeError` if there is an integer — printer/geminal.py:64-65, 85-86. -/
def joinMarks (l : List Mark) : Except PyErr (List Char) :=
  l.mapM (fun m => match m with | .char c => .ok c | .zero => .error .typeError)

/-- `marks[idx] = c` for each index — printer/geminal.py:53-54, 60-61, 81-82. -/
def setMarks (c : Char) : List ℕ → List Mark → Except PyErr (List Mark)
  | [], w => .ok w
  | i :: is, w => if i < w.length then setMarks c is (w.set i (.char c)) else .error .indexError

/-- the texts of one geminal and pair — printer/geminal.py:50-67, 78-88.  `replaced` are the orbitals that the geminal
replaces, empty without a reference.  (The code marks them once for all pairs, here this is done for each pair.) -/
def gemTexts (K nspin : ℕ) (ref : Option ℕ) (replaced pair : List ℕ) : Except PyErr (List (List Char)) := do
  let w := match ref with
    | some r => ((fmtBits nspin r).reverse).map Mark.char
    | none => List.replicate nspin .zero
  let w ← setMarks '-' replaced w
  let w ← setMarks '+' pair w
  let a ← joinMarks (w.take K)
  let b ← joinMarks (w.drop K)
  return [a, b]

/-- `print_geminal_ops` — printer/geminal.py:13-111.  `ref` is `wfn.ref_sd` if there is one, `gems` the keys of
`dict_reforbpair_ind` if there are any. -/
def printGeminals [AddCommGroup R] [LinearOrder R] (K nspin ngem : ℕ) (ref : Option ℕ) (gems : Option (List (List ℕ)))
    (pairs : List (List ℕ)) (params : List (List R)) (maxPrint : Option ℤ) (threshold : Option R) :
    Except PyErr (List (List (List Char) × R)) := do
  let replaced := match gems with
    | some g => g
    | none => List.replicate ngem []
  let rows ← (replaced.zip params).mapM (fun gp => zipRows (gemTexts K nspin ref gp.1) pairs gp.2)
  return select maxPrint threshold rows.flatten

/-- the lists of indices of one geminal and pair — printer/geminal.py:140-152 and 196-201.  Without a reference the geminal is
`[i]` and is shown only if `i < n_spatial`. -/
def gemIndexTexts (K : ℕ) (gem : ℕ ⊕ List ℕ) (pair : List ℕ) : List (List Char) :=
  let half := fun (l : List ℕ) => [joinSp ((l.filter (fun x => x < K)).map pyStr),
    joinSp ((l.filter (fun x => ¬ x < K)).map (fun x => pyStr (x - K)))]
  match gem with
  | .inr g => half g ++ half pair
  | .inl i => joinSp (([i].filter (fun x => x < K)).map pyStr) :: half pair

/-- `print_geminal_ops_indices` — printer/geminal.py:114-233. -/
def printGeminalsIndices [AddCommGroup R] [LinearOrder R] (K ngem : ℕ) (gems : Option (List (List ℕ)))
    (pairs : List (List ℕ)) (params : List (List R)) (maxPrint : Option ℤ) (threshold : Option R) :
    Except PyErr (List (List (List Char) × R)) :=
  let labels : List (ℕ ⊕ List ℕ) := match gems with
    | some g => g.map .inr
    | none => (List.range ngem).map .inl
  nonempty (select maxPrint threshold
    ((labels.zip params).flatMap (fun gp => (pairs.zip gp.2).map (fun pp => (gemIndexTexts K gp.1 pp.1, pp.2)))))

end Fanpy.Printer
