import Mathlib.Algebra.BigOperators.Group.List.Basic
import Mathlib.Algebra.Ring.Int.Defs
import Verif.Model.Slater
import Verif.Model.Itertools
import Verif.Model.Graphs

/-!
# Model of the coupled cluster wavefunctions

`fanpy/wfn/cc/base.py` with a reference that is one determinant, and `fanpy/wfn/cc/standard_cc.py`.  Numbers are the elements of a
commutative ring.  Simplified: the dictionary `exop_combinations` is a memo of `generate_possible_exops` (the operators do not change
after the constructor) and only its presence is kept; the products of amplitudes are not grouped by their number of factors, and
indices are not stored as unsigned integers of the least width.
-/

namespace Fanpy.CC
open Fanpy.Slater Fanpy.It Fanpy.Graphs

/-- the argument `ranks` -/
inductive RankArg where
  | none
  | int (k : ℤ)
  | list (l : List ℤ)

/-- `assign_ranks(ranks)` — cc/base.py:262-289.  `max` of an empty list is a `ValueError`. -/
def assignRanks (nelec : ℕ) (r : RankArg) : Except PyErr (List ℕ) :=
  match r with
  | .none => if nelec = 0 then .error .valueError else .ok (List.range' 1 nelec)
  | .int k =>
    if k ≤ 0 then .error .valueError
    else if k > nelec then .error .valueError
    else .ok (List.range' 1 k.toNat)
  | .list l =>
    if ¬ l.all (fun k => decide (k > 0)) then .error .valueError
    else if l = [] then .error .valueError
    else if l.any (fun k => decide (k > nelec)) then .error .valueError
    else .ok ((l.map Int.toNat).dedup.mergeSort (fun a b => decide (a ≤ b)))

/-- the keys `(*annihilators, *creators)` in the order of their counters — cc/base.py:353-357, standard_cc.py:192-196 -/
def exopsFrom (ranks exFrom exTo : List ℕ) : List (List ℕ) :=
  ranks.flatMap fun rank => (comb exFrom rank).flatMap fun a => (comb exTo rank).map fun c => a ++ c

/-- `BaseCC.assign_exops()` — cc/base.py:330-337: all operators -/
def exopsAll (ranks : List ℕ) (nspin : ℕ) : List (List ℕ) :=
  ranks.flatMap fun rank => (comb (List.range nspin) rank).flatMap fun a =>
    (comb ((List.range nspin).filter fun i => i ∉ a) rank).map fun c => a ++ c

/-- `BaseCC.assign_exops([ex_from, ex_to])` — cc/base.py:338-358 -/
def exopsIndices (ranks exFrom exTo : List ℕ) : List (List ℕ) :=
  exopsFrom ranks (exFrom.dedup.mergeSort (fun a b => decide (a ≤ b))) (exTo.dedup.mergeSort (fun a b => decide (a ≤ b)))

/-- `StandardCC.assign_exops()` — standard_cc.py:188-197 -/
def exopsStandard (ranks : List ℕ) (nspin refwfn : ℕ) : List (List ℕ) :=
  exopsFrom ranks (occIndices (some refwfn)) ((List.range nspin).filter fun i => i ∉ occIndices (some refwfn))

/-- the attributes that the overlap reads; the position of an operator in `exops` is its parameter.  `memo` is whether there is an
attribute `exop_combinations` — cc/base.py:185-186: it is set only if the argument is `None`. -/
structure Wfn (R : Type) where
  ranks : List ℕ
  refwfn : ℕ
  exops : List (List ℕ)
  params : ℕ → R
  memo : Bool

/-- `StandardCC(nelec, nspin, ranks=ranks, refwfn=refwfn, params=params, exop_combinations=...)` — standard_cc.py:146-156: the operators
belong to the ground state, as `refwfn` is assigned after them -/
def standardCC {R : Type} (nelec nspin : ℕ) (r : RankArg) (refwfn : Option ℕ) (params : ℕ → R) (memoGiven : Bool) :
    Except PyErr (Wfn R) := do
  let ranks ← assignRanks nelec r
  let g ← ground nelec nspin
  let exops := exopsStandard ranks nspin g
  match refwfn with
  | none => return { ranks, refwfn := g, exops, params, memo := !memoGiven }
  | some m => if totalOcc (some m) ≠ nelec then .error .valueError else return { ranks, refwfn := m, exops, params, memo := !memoGiven }

/-- `bin_size_num`: the sorted counter of a partition — cc/base.py:909-912 -/
def binSizeNum (partition : List ℕ) : List (ℕ × ℕ) :=
  (partition.dedup.mergeSort (fun a b => decide (a ≤ b))).map fun s => (s, partition.count s)

/-- `grouped[size]`: the blocks of one size — cc/base.py:918-923, 928-933; a `KeyError` if there is none -/
def groupOf (parts : List (List ℕ)) (size : ℕ) : Except PyErr (List (List ℕ)) :=
  if (parts.filter fun b => b.length = size) = [] then .error .keyError else .ok (parts.filter fun b => b.length = size)

/-- `itertools.product(*ls)` -/
def productLists {α : Type} : List (List α) → List (List α)
  | [] => [[]]
  | l :: ls => l.flatMap fun x => (productLists ls).map (x :: ·)

/-- `exc_perms`, all its products, and the pairs of annihilators and creators in each — cc/base.py:935-962 -/
def pairings (spec : List (ℕ × ℕ)) (annhs creas : List (List ℕ)) : Except PyErr (List (List (List ℕ × List ℕ))) := do
  let excPerms ← spec.mapM fun sn => do
    let a ← groupOf annhs sn.1
    let c ← groupOf creas sn.1
    return (perms c).map fun p => (a, p)
  return (productLists excPerms).map fun excs => excs.flatMap fun e => List.zip e.1 e.2

/-- `num_hops` — cc/base.py:968-975; the arguments are `prev_hurdles` and the operators -/
def numHops : ℕ → List (List ℕ) → ℕ
  | _, [] => 0
  | prev, op :: r => prev * (op.length / 2) + numHops (prev + op.length / 2) r

/-- the sign of a product of operators — cc/base.py:968-983 -/
def pathSign (aInds cInds : List ℕ) (ops : List (List ℕ)) : Except PyErr ℤ := do
  let sa ← signPerm (ops.flatMap fun op => op.take (op.length / 2)) (some aInds)
  let sc ← signPerm (ops.flatMap fun op => op.drop (op.length / 2)) (some cInds)
  return (-1) ^ numHops 0 ops * sa * sc

/-- the products of operators for one pair of partitions — cc/base.py:943-993: products with an operator that is not there are skipped -/
def pathsOf (exops : List (List ℕ)) (aInds cInds : List ℕ) (combs : List (List (List ℕ × List ℕ))) : Except PyErr (List (List ℕ × ℤ)) := do
  let ops := (combs.map fun comb => comb.map fun p => p.1 ++ p.2).filter fun ops => ops.all fun op => op ∈ exops
  ops.mapM fun ops => do
    let sign ← pathSign aInds cInds ops
    return (ops.map fun op => exops.idxOf op, sign)

/-- an exhausted bound of a generator -/
def ofOption {α : Type} : Option α → Except PyErr α
  | none => .error .indexError
  | some x => .ok x

/-- `generate_possible_exops(a_inds, c_inds)` — cc/base.py:904-1009: the indices of the parameters of every product, and its sign -/
def possibleExops (ranks : List ℕ) (exops : List (List ℕ)) (aInds cInds : List ℕ) : Except PyErr (List (List ℕ × ℤ)) := do
  let partitions ← ofOption (intPartition ranks ranks.length aInds.length)
  let l ← partitions.reverse.mapM fun partition => do
    let annhss ← ofOption (unorderedPartition aInds (binSizeNum partition))
    let l ← annhss.mapM fun annhs => do
      let creass ← ofOption (unorderedPartition cInds (binSizeNum partition))
      let l ← creass.mapM fun creas => do
        let combs ← pairings (binSizeNum partition) annhs creas
        pathsOf exops aInds cInds combs
      return l.flatten
    return l.flatten
  return l.flatten

section
variable {R : Type} [CommRing R]

/-- `product_amplitudes_multi(indices_multi)` — cc/base.py:550-557 -/
def amplitudes (params : ℕ → R) (paths : List (List ℕ × ℤ)) : R := (paths.map fun p => (p.1.map params).prod * (p.2 : R)).sum

/-- entry `j` of `product_amplitudes_multi(indices_multi, deriv=True)` — cc/base.py:559-572: all occurrences of the parameter are
replaced by one in the products that contain it -/
def dAmplitudes (params : ℕ → R) (paths : List (List ℕ × ℤ)) (j : ℕ) : R :=
  (paths.map fun p => if j ∈ p.1 then (p.1.map fun i => if i = j then 1 else params i).prod * (p.2 : R) else 0).sum

/-- entry `(a, b)` of `product_amplitudes_multi_double_derivative(indices_multi)` — cc/base.py:587-618 -/
def ddAmplitudes (params : ℕ → R) (paths : List (List ℕ × ℤ)) (a b : ℕ) : R :=
  (paths.map fun p =>
    if a ∈ p.1 ∧ b ∈ p.1 ∧ (a = b → 2 ≤ p.1.count a) then (p.2 : R) * (((p.1.erase a).erase b).map params).prod else 0).sum

/-- the sign and the products for a determinant — cc/base.py:702-721, 753-772, 800-812 -/
def expansion (w : Wfn R) (sd : ℕ) : Except PyErr (ℤ × List (List ℕ × ℤ)) := do
  let cInds := (diffOrbs sd w.refwfn).1
  let aInds := (diffOrbs sd w.refwfn).2
  let sign ← signExcite (some w.refwfn) aInds cInds
  if !w.memo then .error .attributeError
  else do
    let paths ← possibleExops w.ranks w.exops aInds cInds
    return (sign, paths)

/-- `_olp(sd)` — cc/base.py:699-730 -/
def overlap (w : Wfn R) (sd : ℕ) : Except PyErr R :=
  if sd = w.refwfn then .ok 1
  else do
    let (sign, paths) ← expansion w sd
    return (sign : R) * amplitudes w.params paths

/-- entry `j` of `_olp_deriv(sd)` — cc/base.py:749-781 -/
def dOverlap (w : Wfn R) (sd : ℕ) (j : ℕ) : Except PyErr R :=
  if sd = w.refwfn then .ok 0
  else do
    let (sign, paths) ← expansion w sd
    return (sign : R) * dAmplitudes w.params paths j

/-- entry `(a, b)` of `_olp_double_derivative(sd)` — cc/base.py:797-820 -/
def ddOverlap (w : Wfn R) (sd : ℕ) (a b : ℕ) : Except PyErr R :=
  if sd = w.refwfn then .ok 0
  else do
    let (sign, paths) ← expansion w sd
    return (sign : R) * ddAmplitudes w.params paths a b

end

end Fanpy.CC
