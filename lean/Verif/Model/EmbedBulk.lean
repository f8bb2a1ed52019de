import Verif.Model.Composite

/-!
# Model of the overlaps of embedded wavefunctions with several Slater determinants

`get_overlaps` of `fanpy/wfn/composite/embedding.py:223-269` and `embedding_fixedelectron.py:176-244`, for components
without a method `get_overlaps` of their own; see `Verif.Model.Composite` for the rest of the classes.  Python integers are
unbounded: the conversion of the determinants to the integers of numpy is left out.
-/

namespace Fanpy.Composite
open Fanpy.Slater

variable {R : Type} [Field R]

/-- `wfn_contrib` — embedding.py:225-231, embedding_fixedelectron.py:183-193: one row for every subsystem; `ls` lists the
determinants of the subsystems for every determinant, `sds_list` is its transpose. -/
def contribRows (wfns : List (Comp R)) (ls : List (List (Option ℕ))) : Except PyErr (List (List R)) :=
  wfns.zipIdx.mapM fun p => ls.mapM fun l => overlapOpt p.1 (l.getD p.2 none)

/-- the contributions of the subsystems for every determinant: the columns of `wfn_contrib` -/
def columns (c : List (List R)) (n : ℕ) : List (List R) := (List.range n).map fun d => c.map fun row => row.getD d 0

/-- `EmbeddedWavefunction.get_overlaps(sds)` — embedding.py:223-233.  The array of no determinants has one dimension only,
so that there are no rows and the product is the number one; so it is if there are no components. -/
def Embed.overlaps (w : Embed R) (sds : List ℕ) : Except PyErr (R ⊕ List R) := do
  let ls ← sds.mapM w.split
  if sds = [] ∨ w.wfns = [] then return .inl 1
  else
    let c ← contribRows w.wfns ls
    return .inr ((columns c ls.length).map List.prod)

/-- the derivatives of the component for every determinant — embedding.py:268, embedding_fixedelectron.py:238-240 -/
def derivRows (wfn : Comp R) (k : ℕ) (idx : List ℕ) (ls : List (List (Option ℕ))) : Except PyErr (List (List R)) :=
  ls.mapM fun l =>
    match l.getD k none with
    | some sd => wfn.deriv sd idx
    | none => .error .typeError

/-- `EmbeddedWavefunction.get_overlaps(sds, (wfn, indices))` — embedding.py:223-269.  Without determinants the product is a
number, which cannot be indexed. -/
def Embed.overlapsDeriv (w : Embed R) (sds : List ℕ) (deriv : ℕ × List ℕ) : Except PyErr (List (List R)) := do
  let ls ← sds.mapM w.split
  let c ← contribRows w.wfns ls
  match w.wfns[indexOf w.wfns deriv.1]? with
  | none => .error .valueError
  | some wfn =>
    if sds = [] then .error .indexError
    else do
      let d ← derivRows wfn (indexOf w.wfns deriv.1) deriv.2 ls
      return List.zipWith (fun col x => productRule col (indexOf w.wfns deriv.1) x) (columns c ls.length) d

/-- the values for the determinants that are kept (`mask_nonzero_sds`), and `zero` for the others —
embedding_fixedelectron.py:195-196, 242-243 -/
def spread {α : Type} (zero : α) : List (List (Option ℕ)) → List α → List α
  | [], _ => []
  | l :: ls, vs =>
    if some 0 ∈ l then zero :: spread zero ls vs
    else match vs with
      | [] => zero :: spread zero ls []
      | v :: vs => v :: spread zero ls vs

/-- `FixedEmbeddedWavefunction.get_overlaps(sds)` — embedding_fixedelectron.py:176-197.  The array of no determinants has one
dimension only and cannot be indexed with two indices. -/
def Embed.overlapsFixed (w : Embed R) (nelecs : List ℕ) (sds : List ℕ) : Except PyErr (List R) := do
  let ls ← sds.mapM (w.splitFixed nelecs)
  if sds = [] then .error .indexError
  else
    let kept := ls.filter fun l => decide (some 0 ∉ l)
    let c ← contribRows w.wfns kept
    return spread 0 ls ((columns c kept.length).map List.prod)

/-- `output[mask_nonzero_sds] = nonzero_output` — embedding_fixedelectron.py:242-243.  If no determinant is kept the array of
derivatives has one dimension of length zero, its product with the column has the shape `(0, 0)`, and it does not fit the shape
`(0, nderiv)`. -/
def Embed.fixedRows (nderiv : ℕ) (ls : List (List (Option ℕ))) (vs : List (List R)) : Except PyErr (List (List R)) :=
  if vs = [] ∧ nderiv ≠ 0 then .error .valueError else .ok (spread (List.replicate nderiv 0) ls vs)

/-- `FixedEmbeddedWavefunction.get_overlaps(sds, (wfn, indices))` — embedding_fixedelectron.py:176-244 -/
def Embed.overlapsFixedDeriv (w : Embed R) (nelecs : List ℕ) (sds : List ℕ) (deriv : ℕ × List ℕ) :
    Except PyErr (List (List R)) := do
  let ls ← sds.mapM (w.splitFixed nelecs)
  if sds = [] then .error .indexError
  else
    let kept := ls.filter fun l => decide (some 0 ∉ l)
    let c ← contribRows w.wfns kept
    match w.wfns[indexOf w.wfns deriv.1]? with
    | none => .error .valueError
    | some wfn => do
      let d ← derivRows wfn (indexOf w.wfns deriv.1) deriv.2 kept
      Embed.fixedRows deriv.2.length ls
        (List.zipWith (fun col x => productRule col (indexOf w.wfns deriv.1) x) (columns c kept.length) d)

end Fanpy.Composite
