import Verif.Model.Slater
import Verif.Model.Itertools
import Mathlib.Data.Nat.Factorial.Basic
import Mathlib.Data.Finset.SymmDiff
import Mathlib.Data.Finset.Card

/-! # Model of `fanpy/tools/graphs.py`

Python generators are modelled by the list of the values they yield. -/

namespace Fanpy.Graphs
open Fanpy.Slater

/-- A pairing scheme: a tuple of pairs of indices. -/
abbrev Scheme := List (ℕ × ℕ)

/-- `scheme[:i] + ((scheme[i][0], a), (scheme[i][1], b)) + scheme[i + 1 :]` — graphs.py:64 (and 67 with the last two
indices exchanged).  `scheme[i]` is always in range in the code; `none` would be an `IndexError`. -/
def splitPair (scheme : Scheme) (i a b : ℕ) : Option Scheme :=
  scheme[i]?.map fun p => scheme.take i ++ [(p.1, a), (p.2, b)] ++ scheme.drop (i + 1)

/-- The schemes yielded for one `scheme` of the smaller problem — graphs.py:59-68. -/
def extendScheme (n a b : ℕ) (scheme : Scheme) (innerSign : ℤ) : List (Option Scheme × ℤ) :=
  (some (scheme ++ [(a, b)]), innerSign) ::
    (List.range (n / 2 - 1)).reverse.flatMap fun i =>
      [(splitPair scheme i a b, -innerSign), (splitPair scheme i b a, innerSign)]

/-- `generate_complete_pmatch(indices, sign)` — graphs.py:21-68.  `indices[-2]`, `indices[-1]` and `indices[:-2]` are
obtained by splitting the reversed list. A scheme `none` would stand for an `IndexError`. -/
def completePmatch (indices : List ℕ) (sign : ℤ) : List (Option Scheme × ℤ) :=
  match _h : indices.reverse with
  | [] => [(some [], sign)]
  | [_] => [(some [], sign)]
  | [b, a] => [(some [(a, b)], sign)]
  | b :: a :: c :: rest =>
    if indices.length % 2 = 1 then [(some [], sign)]
    else
      (completePmatch (c :: rest).reverse sign).flatMap fun p =>
        match p.1 with
        | none => [(none, p.2)]
        | some scheme => extendScheme indices.length a b scheme p.2
termination_by indices.length
decreasing_by
  have := congrArg List.length _h
  simp at this ⊢; omega

/-- the local variables of the permutation loop — graphs.py:127-131 -/
structure PermState where
  indices : List ℕ
  cycles : List ℕ
  sign : ℤ
  deriving DecidableEq, Repr

/-- `for i in reversed(range(n))` … `else: return` — graphs.py:139-162.  The first argument is `i + 1`; `none` is the
`return` of the `else` branch, `some` the state at the `yield`.  `cycles` entries are positive, so truncated
subtraction is exact. -/
def forLoop (n : ℕ) : ℕ → PermState → Option PermState
  | 0, _ => none
  | i + 1, st =>
    let cycles := st.cycles.modify i (· - 1)
    if cycles.getD i 0 = 0 then
      forLoop n i
        { indices := st.indices.take i ++ (st.indices.drop (i + 1) ++ (st.indices.drop i).take 1)
          cycles := cycles.set i (n - i)
          sign := st.sign * (-1) ^ (n - i - 1) }
    else
      let j := cycles.getD i 0
      some
        { indices := (st.indices.set i (st.indices.getD (n - j) 0)).set (n - j) (st.indices.getD i 0)
          cycles := cycles
          sign := st.sign * -1 }

/-- `while n:` — graphs.py:138-162: the states at the successive `yield`s.  The first argument bounds the number of
iterations; `none` means that the bound was reached (shown never to happen with the bound `n!`). -/
def whileLoop (n : ℕ) : ℕ → PermState → Option (List PermState)
  | 0, _ => none
  | fuel + 1, st =>
    match forLoop n n st with
    | none => some []
    | some st' => (whileLoop n fuel st').map (st' :: ·)

/-- `[i for pair in zip(one, two) for i in pair]` — graphs.py:107 -/
def flatPairs (l : List (ℕ × ℕ)) : List ℕ := l.flatMap fun p => [p.1, p.2]

/-- `generate_biclique_pmatch(indices_one, indices_two, ordered_set, is_decreasing)` — graphs.py:71-162.
The outer `Option` is `none` if the iteration bound `n!` were exceeded. -/
def bicliquePmatch (one two : List ℕ) (ordered : Option (List ℕ)) (isDecreasing : Bool) :
    Except PyErr (Option (List (Scheme × ℤ))) := do
  let origSign ← signPerm (flatPairs (one.zip two)) ordered isDecreasing
  if one.length = 0 ∨ two.length = 0 then return some [([], 1)]
  else if one.length ≠ two.length then return some [([], 1)]
  else if (symmDiff one.toFinset two.toFinset).card < (one ++ two).length then return some [([], 1)]
  else
    let n := two.length
    let st0 : PermState := { indices := List.range n, cycles := (List.range' 1 n).reverse, sign := 1 }
    let out (st : PermState) : Scheme × ℤ := (one.zip (st.indices.map fun i => two.getD i 0), st.sign * origSign)
    return (whileLoop n n.factorial st0).map fun l => out st0 :: l.map out

/-- `while ind_size < len(bin_size_num)` — graphs.py:207-249: the values of `ind_bin` at the successive `yield`s.
The arguments are the local variables `ind_bin`, `ind_size`, `ind_bin_size`; the first argument bounds the number of
iterations and `none` means it was reached.  An `IndexError` on `prev_partition[ind_bin]` is also `none`. -/
def fillLoop (spec : List (ℕ × ℕ)) (part : List (List ℕ)) (last : ℕ) :
    ℕ → ℤ → ℕ → ℤ → Option (List ℕ)
  | 0, _, _, _ => none
  | fuel + 1, indBin, indSize, indBinSize =>
    match spec[indSize]? with
    | none => some []                                       -- loop condition fails
    | some sn =>
      let indBin := indBin + 1
      let indBinSize := indBinSize + 1
      -- graphs.py:211-218
      let advanced := decide (indBinSize = (sn.2 : ℤ))
      let indSize := if advanced then indSize + 1 else indSize
      let indBinSize := if advanced then 0 else indBinSize
      match spec[indSize]? with
      | none => some []                                     -- break
      | some sn =>
        match part[indBin.toNat]? with
        | none => none
        | some subset =>
          match subset.getLast? with
          | none =>                                         -- len(subset) == 0, graphs.py:224-238
            if sn.2 > 1 then
              (fillLoop spec part last fuel (indBin + (sn.2 - indBinSize - 1)) (indSize + 1) (-1)).map
                (indBin.toNat :: ·)
            else (fillLoop spec part last fuel indBin indSize indBinSize).map (indBin.toNat :: ·)
          | some top =>
            if ¬ (top < last) then fillLoop spec part last fuel indBin indSize indBinSize
            else if ¬ (subset.length < sn.1) then fillLoop spec part last fuel indBin indSize indBinSize
            else (fillLoop spec part last fuel indBin indSize indBinSize).map (indBin.toNat :: ·)

/-- `prev_partition[:k] + [subset + [last]] + prev_partition[k + 1 :]` — graphs.py:226, 249 -/
def putLast (part : List (List ℕ)) (last k : ℕ) : List (List ℕ) :=
  part.take k ++ [(part.getD k []) ++ [last]] ++ part.drop (k + 1)

/-- `generate_unordered_partition(collection, bin_size_num)` — graphs.py:166-249, by recursion on the reversed
collection (the code recurses on `collection[:-1]`). -/
def unorderedPartitionRev (spec : List (ℕ × ℕ)) : List ℕ → Option (List (List (List ℕ)))
  | [] => some [spec.flatMap fun sn => List.replicate sn.2 []]
  | last :: rest => do
    let prev ← unorderedPartitionRev spec rest
    let parts ← prev.mapM fun part => do
      let ks ← fillLoop spec part last ((spec.map Prod.snd).sum + spec.length + 1) (-1) 0 (-1)
      return ks.map (putLast part last)
    return parts.flatten

def unorderedPartition (collection : List ℕ) (spec : List (ℕ × ℕ)) : Option (List (List (List ℕ))) :=
  unorderedPartitionRev spec collection.reverse

/-- `int_partition_recursive(coins, num_coin_types, total)` — graphs.py:253-298, for positive coins and a total `≥ 0`
(a negative total yields nothing, which is the test `coin ≤ total` here).  A zero coin makes the code recurse for ever
(`none`), an index beyond the list of coins is an error (`none`).  -/
def intPartition (coins : List ℕ) (k total : ℕ) : Option (List (List ℕ)) :=
  if total = 0 then some [[]]
  else
    match k with
    | 0 => some []
    | k + 1 =>
      match coins[k]? with
      | none => none
      | some c =>
        if _h : c = 0 then none
        else do
          let incl ← if c ≤ total then intPartition coins (k + 1) (total - c) else some []
          let excl ← intPartition coins k total
          return incl.map (c :: ·) ++ excl
termination_by (total, k)
decreasing_by
  all_goals simp_wf
  all_goals first | (left; omega) | (right; omega)

/-- `generate_general_pmatch(indices, connectivity_matrix)` — graphs.py:301-339.  The connectivity matrix is a function
of positions; the recursion receives the submatrix on the kept positions.  The first argument bounds the recursion
depth (the length of `indices` suffices). -/
def generalPmatchAux : ℕ → List ℕ → (ℕ → ℕ → Bool) → List (Scheme × ℤ)
  | 0, _, _ => []
  | fuel + 1, indices, con =>
    match indices with
    | [a, b] => [([(a, b)], 1)]
    | one :: b :: c :: rest =>
      ((List.range (b :: c :: rest).length).filter fun j => con 0 (j + 1)).flatMap fun j =>
        let two := indices.getD (j + 1) 0
        let mask := (List.range indices.length).filter fun k =>
          decide (indices.getD k 0 ≠ one ∧ indices.getD k 0 ≠ two) && decide (0 < k)
        (generalPmatchAux fuel (mask.map fun k => indices.getD k 0)
          (fun x y => con (mask.getD x 0) (mask.getD y 0))).map fun p =>
            ((one, two) :: p.1, (-1) ^ j * p.2)
    | _ => []

def generalPmatch (indices : List ℕ) (con : ℕ → ℕ → Bool) : List (Scheme × ℤ) :=
  generalPmatchAux indices.length indices con

end Fanpy.Graphs
