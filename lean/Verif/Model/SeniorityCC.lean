import Verif.Model.CC

/-!
# Model of `SeniorityCC` and `CCS`

`fanpy/wfn/cc/seniority_cc.py` and `fanpy/wfn/cc/ccs.py`, on top of `Verif.Model.CC`.  Simplified as there: `exop_combinations` is a memo
of `generate_possible_exops` and only its presence is kept; the caches of the overlaps are left out.  Operators are lists of orbitals, as
in the code.  Parameters are taken as given.
-/

namespace Fanpy.CC
open Fanpy.Slater Fanpy.It Fanpy.Graphs

/-- the argument `refwfn`: `None`, an integer, a `CIWavefunction` with its attributes `nelec`, `nspin` and `seniority`, or another object -/
inductive RefArg where
  | none
  | int (sd : ℕ)
  | ci (nelec nspin : ℕ) (seniority : Option ℤ)
  | other

/-- the attributes of `SeniorityCC`: `ci` is whether the reference is a `CIWavefunction` (then `refwfn` is not used) -/
structure SenWfn (R : Type) extends Wfn R where
  nspatial : ℕ
  ci : Bool

/-- `SeniorityCC.assign_refwfn` — seniority_cc.py:214-238: the determinant, or `none` for a `CIWavefunction` -/
def senAssignRef (nelec nspin : ℕ) : RefArg → Except PyErr (Option ℕ)
  | .none => do
    let g ← ground nelec nspin
    return some g
  | .int sd => if totalOcc (some sd) ≠ nelec then .error .valueError else .ok (some sd)
  | .ci n s sen =>
    if n ≠ nelec then .error .valueError
    else if s ≠ nspin then .error .valueError
    else if sen ≠ some 0 then .error .valueError
    else .ok none
  | .other => .error .typeError

/-- `SeniorityCC(nelec, nspin, ranks=ranks, indices=indices, refwfn=refwfn, params=params, exop_combinations=...)` —
seniority_cc.py:159-191, cc/base.py:179-187, wfn/base.py:179-210; `indices` is `none` or the two lists -/
def seniorityCC {R : Type} (nelec nspin : ℕ) (r : RankArg) (indices : Option (List ℕ × List ℕ)) (refwfn : RefArg) (params : ℕ → R)
    (memoGiven : Bool) : Except PyErr (SenWfn R) :=
  if nelec = 0 ∨ nelec % 2 ≠ 0 then .error .valueError
  else if nspin = 0 ∨ nspin % 2 = 1 then .error .valueError
  else do
    let ranks ← assignRanks nelec r
    let _ ← ground nelec nspin
    let exops := match indices with
      | none => exopsAll ranks nspin
      | some (u, v) => exopsIndices ranks u v
    let ref ← senAssignRef nelec nspin refwfn
    return { ranks, refwfn := ref.getD 0, exops, params, memo := !memoGiven, nspatial := nspin / 2, ci := ref.isNone }

/-- `combs`: annihilators and creators of the same number — seniority_cc.py:468-472 -/
def combsOf (annhs creas : List (List ℕ)) : List (List ℕ) :=
  annhs.flatMap fun a => (creas.filter fun c => a.length = c.length).map fun c => a ++ c

/-- `all(matchs)`: operators that differ have no orbital in common — seniority_cc.py:474-478 -/
def isMatch (m : List (List ℕ)) : Bool := m.all fun op => (m.filter fun o => o ≠ op).all fun o => o.all fun i => decide (i ∉ op)

/-- `SeniorityCC.generate_possible_exops(a_inds, c_inds)` — seniority_cc.py:454-484 -/
def senExops (ranks : List ℕ) (exops : List (List ℕ)) (aInds cInds : List ℕ) : Except PyErr (List (List (List ℕ))) := do
  let partitions ← ofOption (intPartition ranks ranks.length aInds.length)
  let l ← partitions.reverse.mapM fun partition => do
    let annhss ← ofOption (unorderedPartition aInds (binSizeNum partition))
    let l ← annhss.mapM fun annhs => do
      let creass ← ofOption (unorderedPartition cInds (binSizeNum partition))
      return creass.flatMap fun creas => (comb (combsOf annhs creas) ((binSizeNum partition).map Prod.snd).sum).filter isMatch
    return l.flatten
  return l.flatten.filter fun ops => ops.all fun op => op ∈ exops

/-- `complement_occ(index, sd)` — seniority_cc.py:263-274, 354-365 -/
def complementOcc (nspatial : ℕ) (sd : Option ℕ) (i : ℕ) : Except PyErr Bool := do
  let a ← isAlpha i nspatial
  return if a then occ sd (i + nspatial) else occ sd (i - nspatial)

/-- `complement_empty(index, sd)` — seniority_cc.py:276-287, 367-378 -/
def complementEmpty (nspatial : ℕ) (sd : Option ℕ) (i : ℕ) : Except PyErr Bool := do
  let a ← isAlpha i nspatial
  return if a then !occ sd (i + nspatial) else !occ sd (i - nspatial)

/-- the loop over the operators of a product: its sign, or `none` if an operator does not apply — seniority_cc.py:308-322, 399-413 -/
def senSign (nspatial : ℕ) : Option ℕ → ℤ → List (List ℕ) → Except PyErr (Option ℤ)
  | _, sign, [] => .ok (some sign)
  | sd, sign, op :: r => do
    let o ← (op.take (op.length / 2)).mapM (complementOcc nspatial sd)
    let e ← (op.drop (op.length / 2)).mapM (complementEmpty nspatial sd)
    if !(o ++ e).all id then .ok none
    else match signExcite sd (op.take (op.length / 2)) (op.drop (op.length / 2)) with
      | .error .valueError => .ok none
      | .error err => .error err
      | .ok s => do
        let sd' ← excite sd op
        senSign nspatial sd' (sign * s) r

section
variable {R : Type} [CommRing R]

/-- `product_amplitudes(inds)` — cc/base.py:517-519 -/
def prodAmp (params : ℕ → R) (inds : List ℕ) : R := (inds.map params).prod

/-- entry `j` of `product_amplitudes(inds, deriv=True)` — cc/base.py:527-531 -/
def dProdAmp (params : ℕ → R) (inds : List ℕ) (j : ℕ) : R :=
  if j ∈ inds then ((inds.filter fun i => j ≠ i).map params).prod else 0

/-- the loop over the products: `f` is the contribution of the indices of a product — seniority_cc.py:292-327, 383-418 -/
def senSum (w : SenWfn R) (f : List ℕ → R) (sd : ℕ) : Except PyErr R := do
  let cInds := (diffOrbs sd w.refwfn).1
  let aInds := (diffOrbs sd w.refwfn).2
  if !w.memo then .error .attributeError
  else do
    let lists ← senExops w.ranks w.exops aInds cInds
    let terms ← lists.mapM fun ops =>
      if ops = [] then .ok 0
      else do
        let sign ← senSign w.nspatial (some w.refwfn) 1 ops
        match sign with
        | none => return 0
        | some s => return (s : R) * f (ops.map fun op => w.exops.idxOf op)
    return terms.sum

/-- `get_overlap(sd)` — seniority_cc.py:289-335: a `CIWavefunction` has no attribute `sd_vec` -/
def senOverlap (w : SenWfn R) (sd : ℕ) : Except PyErr R :=
  if w.ci then .error .attributeError
  else if sd = w.refwfn then .ok 1
  else senSum w (prodAmp w.params) sd

/-- entry `j` of `get_overlap(sd, deriv)` — seniority_cc.py:380-426, cc/base.py:872-873: the derivatives at the reference are the number
`0.0`, which has no entries -/
def senDOverlap (w : SenWfn R) (sd j : ℕ) : Except PyErr R :=
  if w.ci then .error .attributeError
  else if sd = w.refwfn then .error .typeError
  else senSum w (fun inds => dProdAmp w.params inds j) sd

/-- entry `(i, j)` of `get_overlap_double_derivative(sd)` — cc/base.py:797-820 with the lists of `SeniorityCC` in place of dictionaries:
a list has no method `values` -/
def senDDOverlap (w : SenWfn R) (sd _i _j : ℕ) : Except PyErr R :=
  if w.ci then .error .attributeError
  else if sd = w.refwfn then .ok 0
  else do
    let _ ← signExcite (some w.refwfn) (diffOrbs sd w.refwfn).2 (diffOrbs sd w.refwfn).1
    if !w.memo then .error .attributeError
    else do
      let _ ← senExops w.ranks w.exops (diffOrbs sd w.refwfn).2 (diffOrbs sd w.refwfn).1
      .error .attributeError

end

/-! ## `CCS` -/

/-- `CCS(nelec, nspin, refwfn=refwfn, params=params, exop_combinations=...)` — ccs.py:147-157: the ranks are `[1]`, and as in `StandardCC`
the operators belong to the ground state -/
def ccs {R : Type} (nelec nspin : ℕ) (refwfn : Option ℕ) (params : ℕ → R) (memoGiven : Bool) : Except PyErr (Wfn R) :=
  standardCC nelec nspin (.list [1]) refwfn params memoGiven

/-- `CCS.generate_possible_exops(a_inds, c_inds)` — ccs.py:252-274: the indices and the sign of every product, in a list -/
def ccsExops (exops : List (List ℕ)) (aInds cInds : List ℕ) : Except PyErr (List (List ℕ × ℤ)) := do
  let l ← (perms aInds).mapM fun pa => (perms cInds).mapM fun pc => do
    let ops := (List.zip pa pc).map fun p => [p.1, p.2]
    let s ← pathSign aInds cInds ops
    let inds ← ops.mapM fun op => if op ∈ exops then .ok (exops.idxOf op) else .error .valueError
    return (inds, s)
  return l.flatten

/-- `get_overlap(sd)` of `CCS` — cc/base.py:699-730: `product_amplitudes_multi` calls `values` of the list.  The first call for a pair of
lists of orbitals can fail in `generate_possible_exops`; the list is then in the dictionary, and `again` is a later call. -/
def ccsOverlap {R : Type} [CommRing R] (w : Wfn R) (again : Bool) (sd : ℕ) : Except PyErr R :=
  if sd = w.refwfn then .ok 1
  else do
    let _ ← signExcite (some w.refwfn) (diffOrbs sd w.refwfn).2 (diffOrbs sd w.refwfn).1
    if !w.memo then .error .attributeError
    else if again then .error .attributeError
    else do
      let _ ← ccsExops w.exops (diffOrbs sd w.refwfn).2 (diffOrbs sd w.refwfn).1
      .error .attributeError

end Fanpy.CC
