import Verif.Model.Slater
import Verif.Model.Itertools

/-!
# Model of `fanpy/tools/slater.py`: array functions

Arrays are lists (row-major).  Where 64-bit wrap-around matters (`excite_bulk`), numpy's `int64` is `BitVec 64`
(two's complement); `np.left_shift(1, k)` is `1 <<< k`, which is `0` for `k ≥ 64` as in numpy.
-/

namespace Fanpy.Slater
open Fanpy.It

/-- `np.left_shift(1, indices)` followed by `np.bitwise_or.reduce` over one combination — slater.py:1103-1105,
1112-1114 (for `excite_order == 1` the reduction is skipped, which is the same on one element). -/
def bits64 (l : List ℕ) : BitVec 64 := l.foldl (fun acc i => acc ||| (1#64 <<< i)) 0#64

/-- Conversion of the Python integer `sd` to `int64`: fails from `2**63` on (numpy ≥ 2 raises `OverflowError` in
`np.bitwise_xor(sd, array)` and in `np.array([sd], dtype=int)`; older numpy raises `TypeError` in the former). -/
def toInt64 (sd : ℕ) : Except PyErr (BitVec 64) :=
  if sd < 2 ^ 63 then .ok (BitVec.ofNat 64 sd) else .error .overflow

/-- `np.ravel(np.bitwise_or(np.bitwise_xor(sd, occ)[:, None], vir[None, :]))` — slater.py:1116, 1175. -/
def combineBits (sd : BitVec 64) (occ vir : List (BitVec 64)) : List (BitVec 64) :=
  (occ.map (fun o => sd ^^^ o)).flatMap (fun x => vir.map (fun v => x ||| v))

/-- `excite_bulk(sd, occ_indices, vir_indices, excite_order)` — slater.py:1063-1116.  The result is the list of the
signed values of the array.  The type check of `excite_order` is not modelled (it is a `Nat` here). -/
def exciteBulk (sd : ℕ) (occIdx virIdx : List ℕ) (order : ℕ) : Except PyErr (List ℤ) := do
  let s ← toInt64 sd
  if order = 0 then return [s.toInt]
  else return (combineBits s ((comb occIdx order).map bits64) ((comb virIdx order).map bits64)).map BitVec.toInt

/-- `excite_bulk_two_ab(sd, occ_alpha, occ_beta, vir_alpha, vir_beta)` — slater.py:1119-1175. -/
def exciteBulkTwoAb (sd : ℕ) (occA occB virA virB : List ℕ) : Except PyErr (List ℤ) := do
  let s ← toInt64 sd
  return (combineBits s ((prod occA occB).map (fun p => bits64 [p.1, p.2]))
    ((prod virA virB).map (fun p => bits64 [p.1, p.2]))).map BitVec.toInt

/-- `while counter < num_occ and a > occ_indices[counter]: counter += 1` — slater.py:1200-1201. -/
def advance (occIdx : List ℕ) (a counter : ℕ) : ℕ :=
  if h : counter < occIdx.length then
    if a > occIdx[counter] then advance occIdx a (counter + 1) else counter
  else counter
termination_by occIdx.length - counter

/-- the loop `for a in vir_indices` filling `bin_sizes` — slater.py:1196-1202 (and 1229-1236, 1312-1322). -/
def binLoop (occIdx : List ℕ) : List ℕ → ℕ → List ℕ → List ℕ
  | [], _, bins => bins
  | a :: as, counter, bins =>
    let counter := advance occIdx a counter
    binLoop occIdx as counter (bins.modify counter (· + 1))

def binSizes (occIdx virIdx : List ℕ) : List ℕ :=
  binLoop occIdx virIdx 0 (List.replicate (occIdx.length + 1) 0)

/-- `1 if num_jumps % 2 == 0 else -1` -/
def jumpSign (numJumps : ℤ) : ℤ := if numJumps % 2 = 0 then 1 else -1

/-- Python bool used as an integer -/
def b2i (p : Prop) [Decidable p] : ℤ := if p then 1 else 0

/-- `sign_excite_one(occ_indices, vir_indices)` — slater.py:1178-1219. -/
def signExciteOne (occIdx virIdx : List ℕ) : List ℤ :=
  let bins := binSizes occIdx virIdx
  (List.range occIdx.length).flatMap fun (i : ℕ) =>
    (List.range (occIdx.length + 1)).flatMap fun (j : ℕ) =>
      let numJumps : ℤ := (i : ℤ) + (j : ℤ)
      let numJumps := if j > i then numJumps - 1 else numJumps
      List.replicate (bins.getD j 0) (jumpSign numJumps)

/-- `sign_excite_two(occ_indices, vir_indices)` — slater.py:1222-1286. -/
def signExciteTwo (occIdx virIdx : List ℕ) : List ℤ :=
  let n := occIdx.length
  let bins := binSizes occIdx virIdx
  (List.range n).flatMap fun (i1 : ℕ) =>
    (List.range' (i1 + 1) (n - (i1 + 1))).flatMap fun (i2 : ℕ) =>
      (List.range (n + 1)).flatMap fun (j1 : ℕ) =>
        if bins.getD j1 0 = 0 then []
        else
          let signJ1 := jumpSign ((i1 : ℤ) + i2 - 1 + 2 * j1)
          let signsJ2 := (List.range' (j1 + 1) (n + 1 - (j1 + 1))).flatMap fun (j2 : ℕ) =>
            if bins.getD j2 0 = 0 then []
            else
              let numJumps : ℤ := (i1 : ℤ) + i2 - 1 + j2 + j1
              let numJumps := numJumps - (b2i (j2 > i1) + b2i (j2 > i2) + b2i (j1 > i1) + b2i (j1 > i2))
              List.replicate (bins.getD j2 0) (jumpSign numJumps)
          (List.range (bins.getD j1 0)).reverse.flatMap fun (len : ℕ) => List.replicate len signJ1 ++ signsJ2

/-- `sign_excite_two_ab(occ_alpha, occ_beta, vir_alpha, vir_beta)` — slater.py:1289-1365. -/
def signExciteTwoAb (occA occB virA virB : List ℕ) : List ℤ :=
  let binsA := binSizes occA virA
  let binsB := binSizes occB virB
  (List.range occA.length).flatMap fun (ia : ℕ) =>
    (List.range occB.length).flatMap fun (ib : ℕ) =>
      (List.range (occA.length + 1)).flatMap fun (ja : ℕ) =>
        if binsA.getD ja 0 = 0 then []
        else
          let outputJb := (List.range (occB.length + 1)).flatMap fun (jb : ℕ) =>
            if binsB.getD jb 0 = 0 then []
            else
              let numJumps : ℤ := (ia : ℤ) + ib + jb + ja
              let numJumps := if ja > ia then numJumps - 1 else numJumps
              let numJumps := if jb > ib then numJumps - 1 else numJumps
              List.replicate (binsB.getD jb 0) (jumpSign numJumps)
          (List.replicate (binsA.getD ja 0) outputJb).flatten

/-- `indices = np.zeros(nspin); indices[occs] = np.arange(occs.size)` — slater.py:963-964. -/
def indexTable (occs : List ℕ) (nspin : ℕ) : List ℕ :=
  occs.zipIdx.foldl (fun arr p => arr.set p.1 p.2) (List.replicate nspin 0)

/-- annihilation part for one row — slater.py:966-977: for each annihilator count the larger entries of the row of
`shared_indices` and overwrite the entry of that orbital with `-1`. -/
def arrayAnn (table : List ℕ) : List ℕ → List ℤ → ℕ → Except PyErr (List ℤ × ℕ)
  | [], shared, jumps => .ok (shared, jumps)
  | a :: as, shared, jumps =>
    match table[a]? with
    | none => .error .indexError
    | some k => arrayAnn table as (shared.set k (-1)) (jumps + shared.countP (fun x => decide ((a : ℤ) < x)))

/-- creation part for one row — slater.py:979-984. -/
def arrayCre (shared : List ℤ) (cres : List ℕ) : ℕ :=
  (cres.map fun (c : ℕ) => shared.countP (fun x => decide (x > (c : ℤ)))).sum

/-- one entry of `sign_excite_array` — slater.py:986-992. -/
def arrayEntry (shared : List ℤ) (jumpsAnn : ℕ) (cres : List ℕ) : ℤ :=
  (-1) ^ (jumpsAnn + arrayCre shared cres) * (-1) ^ (cres.length / 2 % 2)

/-- `sign_excite_array(occs, annihilators, creators, nspin)` — slater.py:925-992.  Rows of `annihilators` and
`creators` are lists; numpy arrays have rows of equal length, which the model does not require. -/
def signExciteArray (occs : List ℕ) (anns cres : List (List ℕ)) (nspin : ℕ) : Except PyErr (List (List ℤ)) :=
  if occs.any (fun o => decide (o ≥ nspin)) then .error .indexError
  else
    anns.mapM fun row => do
      let (shared, jumps) ← arrayAnn (indexTable occs nspin) row (occs.map (fun (o : ℕ) => (o : ℤ))) 0
      return cres.map (arrayEntry shared jumps)

/-- `shared_indices_remove_one_index(indices)` — slater.py:995-1015: row `i` is `indices` without position `i`. -/
def sharedIndicesRemoveOne (l : List ℕ) : List (List ℕ) :=
  (List.range l.length).map fun i => ((l.zipIdx).filter (fun p => p.2 ≠ i)).map Prod.fst

/-- `spatial_to_spin_indices(spatial_indices, nspatial, to_beta)` — slater.py:1018-1060. -/
def spatialToSpinIndices (l : List ℤ) (nspatial : ℤ) (toBeta : Bool) : Except PyErr (List ℤ) :=
  if ¬ nspatial > 0 then .error .valueError
  else if ¬ (l.all fun i => decide (0 ≤ i ∧ i < nspatial)) then .error .valueError
  else .ok (if toBeta then l.map (· + nspatial) else l)

end Fanpy.Slater
