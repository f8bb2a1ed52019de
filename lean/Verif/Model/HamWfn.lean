import Verif.Model.Hamiltonian
import Verif.Model.SlaterBulk

/-!
# Model of `integrate_sd_wfn` and of the vectorised matrix elements

`fanpy/ham/base.py`, `generalized_chemical.py`, `restricted_chemical.py`, `unrestricted_chemical.py`, `senzero.py` and the
same loop in `ham/utils.py`.  The wavefunction is only used through `wfn.get_overlap(sd, deriv=wfn_deriv)`; it is a
function `f` from integers to numbers (excitations computed with 64-bit words may be negative, hence integers).  With
`wfn_deriv` the overlaps are vectors and the code does the same for each entry of the vector, so `f` also stands for one
entry of `get_overlap(·, deriv)`.  `ham_deriv` is not modelled here.
-/

namespace Fanpy.Ham
open Fanpy.Slater Fanpy.It

variable {R : Type} [CommRing R]

/-- `coeff * np.array([one_electron, coulomb, exchange])` -/
def scale (c : R) (t : R × R × R) : R × R × R := (c * t.1, c * t.2.1, c * t.2.2)

/-! ### Base class -/

/-- body of the innermost loop of `integrate_sd_wfn` — base.py:168-173: `excite`, overlap, matrix element.
`slater.excite` returns `None` only for indices that cannot be excited, which does not happen here (`None` would be
passed on to `get_overlap`, a `TypeError`). -/
def baseTerm {M : Type} (mul : R → M → M) (elem : ℕ → ℕ → Except PyErr M) (f : ℤ → R) (sd : ℕ) (ann cre : List ℕ) :
    Except PyErr M := do
  match ← excite (some sd) (ann ++ cre) with
  | none => .error .typeError
  | some m => do
    let v ← elem sd m
    return mul (f m) v

/-- `BaseHamiltonian.integrate_sd_wfn(sd, wfn, orders=orders, components=False)` — base.py:85-175; also the loop of
`ham/utils.py` 139-151.  `nspin` is the number of spin orbitals and `elem` is `integrate_sd_sd` (or
`integrate_sd_sd_decomposed` for `components=True`, with `mul := scale`). -/
def baseSdWfn {M : Type} [Add M] (mul : R → M → M) (nspin : ℕ) (elem : ℕ → ℕ → Except PyErr M) (f : ℤ → R) (sd : ℕ)
    (orders : List ℕ) : Except PyErr M := do
  let occIdx := occIndices (some sd)
  let virIdx := virIndices (some sd) nspin
  let v ← elem sd sd
  orders.foldlM (fun acc order =>
    (comb occIdx order).foldlM (fun acc ann =>
      (comb virIdx order).foldlM (fun acc cre => do
        let t ← baseTerm mul elem f sd ann cre
        return acc + t) acc) acc) (mul (f sd) v)

/-! ### Products of arrays -/

/-- `sign[None, :] * np.array([one.ravel(), coulomb.ravel(), exchange.ravel()])`.  Arrays of different lengths raise
`ValueError` (numpy would broadcast an array of length one; the lengths are proved equal in `C28`). -/
def mulSigns {α : Type} (mul : ℤ → α → α) (signs : List ℤ) (vals : List α) : Except PyErr (List α) :=
  if signs.length = vals.length then .ok (List.zipWith mul signs vals) else .error .valueError

/-- `np.sum(integrals * overlaps, axis=1)` -/
def dotOverlaps {α : Type} [Zero α] [Add α] (mul : R → α → α) (ints : List α) (ovl : List R) : Except PyErr α :=
  if ints.length = ovl.length then .ok (List.zipWith mul ovl ints).sum else .error .valueError

/-! ### Generalized orbitals -/

/-- `_integrate_sd_sds_zero(occ_indices)` — generalized_chemical.py:711-730. -/
def genSdsZero (H : GenHam R) (occIdx : List ℕ) : Except PyErr (R × R × R) := do
  guardIdx H.norb occIdx
  return ((occIdx.map (fun i => H.one i i)).sum, triuSum H.cIJIJ occIdx, -triuSum H.cIJJI occIdx)

/-- `_integrate_sd_sds_one(occ_indices, vir_indices)` — generalized_chemical.py:732-778. -/
def genSdsOne (H : GenHam R) (occIdx virIdx : List ℕ) : Except PyErr (List (R × R × R)) := do
  guardIdx H.norb (occIdx ++ virIdx)
  let shared := sharedIndicesRemoveOne occIdx
  let vals := (occIdx.zip shared).flatMap fun p => virIdx.map fun b =>
    (H.one p.1 b, (p.2.map (fun s => H.two s p.1 s b)).sum, -(p.2.map (fun s => H.two s p.1 b s)).sum)
  mulSigns signTimes (signExciteOne occIdx virIdx) vals

/-- `np.array(list(it.combinations(l, 2)))[:, 0]` and `[:, 1]`: the array of no combination is one-dimensional, so that
the column access raises `IndexError` — e.g. generalized_chemical.py:807-812. -/
def pairColumns (pairs : List (List ℕ)) : Except PyErr (List (ℕ × ℕ)) :=
  if pairs = [] then .error .indexError else .ok (pairs.map fun p => (p.getD 0 0, p.getD 1 0))

/-- `_integrate_sd_sds_two(occ_indices, vir_indices)` — generalized_chemical.py:780-818. -/
def genSdsTwo (H : GenHam R) (occIdx virIdx : List ℕ) : Except PyErr (List (R × R × R)) := do
  let anns ← pairColumns (comb occIdx 2)
  let cres ← pairColumns (comb virIdx 2)
  guardIdx H.norb (occIdx ++ virIdx)
  let vals := anns.flatMap fun ab => cres.map fun cd =>
    ((0 : R), H.two ab.1 ab.2 cd.1 cd.2, -H.two ab.1 ab.2 cd.2 cd.1)
  mulSigns signTimes (signExciteTwo occIdx virIdx) vals

/-- `integrate_sd_wfn(sd, wfn, components=True)` — generalized_chemical.py:1505-1639; `components=False` returns
`sumComp` of it.  `nspin` is `one_int.shape[0]`. -/
def genSdWfn (H : GenHam R) (f : ℤ → R) (sd : ℕ) : Except PyErr (R × R × R) := do
  let occIdx := occIndices (some sd)
  let virIdx := virIndices (some sd) H.norb
  let zero ← genSdsZero H occIdx
  let output := scale (f sd) zero
  let exc1 ← exciteBulk sd occIdx virIdx 1
  let one ← genSdsOne H occIdx virIdx
  let d1 ← dotOverlaps scale one (exc1.map f)
  let output := output + d1
  let exc2 ← exciteBulk sd occIdx virIdx 2
  if occIdx.length > 1 ∧ virIdx.length > 1 then do
    let two ← genSdsTwo H occIdx virIdx
    let d2 ← dotOverlaps scale two (exc2.map f)
    return output + d2
  else return output

/-! ### Unrestricted orbitals -/

/-- `_integrate_sd_sds_zero(occ_alpha, occ_beta)` — unrestricted_chemical.py:1090-1118. -/
def unrSdsZero (H : UnrHam R) (oa ob : List ℕ) : Except PyErr (R × R × R) := do
  guardIdx H.norb (oa ++ ob)
  let one := (oa.map (fun i => H.oneA i i)).sum + (ob.map (fun i => H.oneB i i)).sum
  let coulomb := triuSum H.c0IJIJ oa + fullSum H.c1IJIJ oa ob + triuSum H.c2IJIJ ob
  let exch := -triuSum H.c0IJJI oa - triuSum H.c2IJJI ob
  return (one, coulomb, exch)

/-- `_integrate_sd_sds_one_alpha(occ_alpha, occ_beta, vir_alpha)` — unrestricted_chemical.py:1120-1181. -/
def unrSdsOneA (H : UnrHam R) (oa ob va : List ℕ) : Except PyErr (List (R × R × R)) := do
  guardIdx H.norb (oa ++ ob ++ va)
  let shared := sharedIndicesRemoveOne oa
  let vals := (oa.zip shared).flatMap fun p => va.map fun b =>
    (H.oneA p.1 b,
      (p.2.map (fun s => H.twoAA s p.1 s b)).sum + (ob.map (fun s => H.twoAB p.1 s b s)).sum,
      -(p.2.map (fun s => H.twoAA s p.1 b s)).sum)
  mulSigns signTimes (signExciteOne oa va) vals

/-- `_integrate_sd_sds_one_beta(occ_alpha, occ_beta, vir_beta)` — unrestricted_chemical.py:1183-1244. -/
def unrSdsOneB (H : UnrHam R) (oa ob vb : List ℕ) : Except PyErr (List (R × R × R)) := do
  guardIdx H.norb (oa ++ ob ++ vb)
  let shared := sharedIndicesRemoveOne ob
  let vals := (ob.zip shared).flatMap fun p => vb.map fun b =>
    (H.oneB p.1 b,
      (p.2.map (fun s => H.twoBB s p.1 s b)).sum + (oa.map (fun s => H.twoAB s p.1 s b)).sum,
      -(p.2.map (fun s => H.twoBB s p.1 b s)).sum)
  mulSigns signTimes (signExciteOne ob vb) vals

/-- `sign[None, :] * np.array([coulomb, exchange])` -/
def signTimes2 (sign : ℤ) (t : R × R) : R × R := ((sign : R) * t.1, (sign : R) * t.2)

/-- `_integrate_sd_sds_two_aa(occ_alpha, occ_beta, vir_alpha)` — unrestricted_chemical.py:1246-1285.
Coulomb and exchange only. -/
def unrSdsTwoAA (H : UnrHam R) (oa va : List ℕ) : Except PyErr (List (R × R)) := do
  let anns ← pairColumns (comb oa 2)
  let cres ← pairColumns (comb va 2)
  guardIdx H.norb (oa ++ va)
  let vals := anns.flatMap fun ab => cres.map fun cd =>
    (H.twoAA ab.1 ab.2 cd.1 cd.2, -H.twoAA ab.1 ab.2 cd.2 cd.1)
  mulSigns signTimes2 (signExciteTwo oa va) vals

/-- `np.array(list(it.product(l, m)))[:, 0]` and `[:, 1]`; `IndexError` if there is no pair. -/
def prodColumns (l m : List ℕ) : Except PyErr (List (ℕ × ℕ)) :=
  if prod l m = [] then .error .indexError else .ok (prod l m)

/-- `_integrate_sd_sds_two_ab(occ_alpha, occ_beta, vir_alpha, vir_beta)` — unrestricted_chemical.py:1287-1325.
Coulomb only. -/
def unrSdsTwoAB (H : UnrHam R) (oa ob va vb : List ℕ) : Except PyErr (List R) := do
  let anns ← prodColumns oa ob
  let cres ← prodColumns va vb
  guardIdx H.norb (oa ++ ob ++ va ++ vb)
  let vals := anns.flatMap fun ab => cres.map fun cd => H.twoAB ab.1 ab.2 cd.1 cd.2
  mulSigns (fun (s : ℤ) x => (s : R) * x) (signExciteTwoAb oa ob va vb) vals

/-- `_integrate_sd_sds_two_bb(occ_alpha, occ_beta, vir_beta)` — unrestricted_chemical.py:1327-1365. -/
def unrSdsTwoBB (H : UnrHam R) (ob vb : List ℕ) : Except PyErr (List (R × R)) := do
  let anns ← pairColumns (comb ob 2)
  let cres ← pairColumns (comb vb 2)
  guardIdx H.norb (ob ++ vb)
  let vals := anns.flatMap fun ab => cres.map fun cd =>
    (H.twoBB ab.1 ab.2 cd.1 cd.2, -H.twoBB ab.1 ab.2 cd.2 cd.1)
  mulSigns signTimes2 (signExciteTwo ob vb) vals

/-- `coeff * np.array([coulomb, exchange])` -/
def scale2 (c : R) (t : R × R) : R × R := (c * t.1, c * t.2)

/-- `integrate_sd_wfn(sd, wfn, components=True)` — unrestricted_chemical.py:3266-3470.  `nspatial` is
`one_int[0].shape[0]`, `nspin` twice that. -/
def unrSdWfn (H : UnrHam R) (f : ℤ → R) (sd : ℕ) : Except PyErr (R × R × R) := do
  let n := H.norb
  let occIdx := occIndices (some sd)
  let virIdx := virIndices (some sd) (2 * n : ℕ)
  let oa := occIdx.filter (fun i => decide (i < n))
  let va := virIdx.filter (fun i => decide (i < n))
  let ob' := occIdx.filter (fun i => decide (n ≤ i))
  let vb' := virIdx.filter (fun i => decide (n ≤ i))
  let ob := ob'.map (· - n)
  let vb := vb'.map (· - n)
  let zero ← unrSdsZero H oa ob
  let output := scale (f sd) zero
  let e1a ← exciteBulk sd oa va 1
  let one ← unrSdsOneA H oa ob va
  let d ← dotOverlaps scale one (e1a.map f)
  let output := output + d
  let e1b ← exciteBulk sd (ob.map (· + n)) (vb.map (· + n)) 1
  let one ← unrSdsOneB H oa ob vb
  let d ← dotOverlaps scale one (e1b.map f)
  let output := output + d
  let e2a ← exciteBulk sd oa va 2
  let output ←
    if oa.length > 1 ∧ va.length > 1 then do
      let two ← unrSdsTwoAA H oa va
      let d ← dotOverlaps scale2 two (e2a.map f)
      pure (output.1, output.2.1 + d.1, output.2.2 + d.2)
    else pure output
  let e2ab ← exciteBulkTwoAb sd oa (ob.map (· + n)) va (vb.map (· + n))
  let output ←
    if oa.length > 0 ∧ ob.length > 0 ∧ va.length > 0 ∧ vb.length > 0 then do
      let two ← unrSdsTwoAB H oa ob va vb
      let d ← dotOverlaps (fun c x => c * x) two (e2ab.map f)
      pure (output.1, output.2.1 + d, output.2.2)
    else pure output
  let e2b ← exciteBulk sd (ob.map (· + n)) (vb.map (· + n)) 2
  if ob.length > 1 ∧ vb.length > 1 then do
    let two ← unrSdsTwoBB H ob vb
    let d ← dotOverlaps scale2 two (e2b.map f)
    return (output.1, output.2.1 + d.1, output.2.2 + d.2)
  else return output

/-! ### Restricted orbitals -/

/-- `_integrate_sd_sds_zero(occ_alpha, occ_beta)` — restricted_chemical.py:941-969. -/
def resSdsZero (H : GenHam R) (oa ob : List ℕ) : Except PyErr (R × R × R) := do
  guardIdx H.norb (oa ++ ob)
  let one := (oa.map (fun i => H.one i i)).sum + (ob.map (fun i => H.one i i)).sum
  let coulomb := triuSum H.cIJIJ oa + fullSum H.cIJIJ oa ob + triuSum H.cIJIJ ob
  let exch := -triuSum H.cIJJI oa - triuSum H.cIJJI ob
  return (one, coulomb, exch)

/-- `_integrate_sd_sds_one_alpha(occ_alpha, occ_beta, vir_alpha)` — restricted_chemical.py:971-1032. -/
def resSdsOneA (H : GenHam R) (oa ob va : List ℕ) : Except PyErr (List (R × R × R)) := do
  guardIdx H.norb (oa ++ ob ++ va)
  let shared := sharedIndicesRemoveOne oa
  let vals := (oa.zip shared).flatMap fun p => va.map fun b =>
    (H.one p.1 b,
      (p.2.map (fun s => H.two s p.1 s b)).sum + (ob.map (fun s => H.two p.1 s b s)).sum,
      -(p.2.map (fun s => H.two s p.1 b s)).sum)
  mulSigns signTimes (signExciteOne oa va) vals

/-- `_integrate_sd_sds_one_beta(occ_alpha, occ_beta, vir_beta)` — restricted_chemical.py:1034-1095. -/
def resSdsOneB (H : GenHam R) (oa ob vb : List ℕ) : Except PyErr (List (R × R × R)) := do
  guardIdx H.norb (oa ++ ob ++ vb)
  let shared := sharedIndicesRemoveOne ob
  let vals := (ob.zip shared).flatMap fun p => vb.map fun b =>
    (H.one p.1 b,
      (p.2.map (fun s => H.two s p.1 s b)).sum + (oa.map (fun s => H.two s p.1 s b)).sum,
      -(p.2.map (fun s => H.two s p.1 b s)).sum)
  mulSigns signTimes (signExciteOne ob vb) vals

/-- `_integrate_sd_sds_two_aa` — restricted_chemical.py:1097-1136, and `_integrate_sd_sds_two_bb` — 1178-1216, which is the
same computation with the beta indices. -/
def resSdsTwoSame (H : GenHam R) (oa va : List ℕ) : Except PyErr (List (R × R)) := do
  let anns ← pairColumns (comb oa 2)
  let cres ← pairColumns (comb va 2)
  guardIdx H.norb (oa ++ va)
  let vals := anns.flatMap fun ab => cres.map fun cd =>
    (H.two ab.1 ab.2 cd.1 cd.2, -H.two ab.1 ab.2 cd.2 cd.1)
  mulSigns signTimes2 (signExciteTwo oa va) vals

/-- `_integrate_sd_sds_two_ab(occ_alpha, occ_beta, vir_alpha, vir_beta)` — restricted_chemical.py:1138-1176. -/
def resSdsTwoAB (H : GenHam R) (oa ob va vb : List ℕ) : Except PyErr (List R) := do
  let anns ← prodColumns oa ob
  let cres ← prodColumns va vb
  guardIdx H.norb (oa ++ ob ++ va ++ vb)
  let vals := anns.flatMap fun ab => cres.map fun cd => H.two ab.1 ab.2 cd.1 cd.2
  mulSigns (fun (s : ℤ) x => (s : R) * x) (signExciteTwoAb oa ob va vb) vals

/-- overlaps with all excitations of one kind — restricted_chemical.py:3209-3303 (`nspin <= 64`: 64-bit words, the same
expression as `excite_bulk`) and 3305-3343 (`slater.excite`, one by one; it never returns `None` here). -/
def resOverlaps (nspin : ℕ) (f : ℤ → R) (sd : ℕ) (bulk : Except PyErr (List ℤ)) (excs : List (List ℕ)) :
    Except PyErr (List R) :=
  if nspin ≤ 64 then do
    let l ← bulk
    return l.map f
  else
    excs.mapM fun idx => do
      match ← excite (some sd) idx with
      | none => .error .typeError
      | some m => return f m

/-- `integrate_sd_wfn(sd, wfn, components=True)` — restricted_chemical.py:3117-3420. -/
def resSdWfn (H : GenHam R) (f : ℤ → R) (sd : ℕ) : Except PyErr (R × R × R) := do
  let n := H.norb
  let occIdx := occIndices (some sd)
  let virIdx := virIndices (some sd) (2 * n : ℕ)
  let oa := occIdx.filter (fun i => decide (i < n))
  let va := virIdx.filter (fun i => decide (i < n))
  let ob' := occIdx.filter (fun i => decide (n ≤ i))
  let vb' := virIdx.filter (fun i => decide (n ≤ i))
  let o1a ← resOverlaps (2 * n) f sd (exciteBulk sd oa va 1)
    ((comb oa 1).flatMap fun o => (comb va 1).map fun v => o ++ v)
  let o1b ← resOverlaps (2 * n) f sd (exciteBulk sd ob' vb' 1)
    ((comb ob' 1).flatMap fun o => (comb vb' 1).map fun v => o ++ v)
  let o2aa ← resOverlaps (2 * n) f sd (exciteBulk sd oa va 2)
    ((comb oa 2).flatMap fun o => (comb va 2).map fun v => o ++ v)
  let o2ab ← resOverlaps (2 * n) f sd (exciteBulkTwoAb sd oa ob' va vb')
    ((prod oa ob').flatMap fun o => (prod va vb').map fun v => [o.1, o.2, v.1, v.2])
  let o2bb ← resOverlaps (2 * n) f sd (exciteBulk sd ob' vb' 2)
    ((comb ob' 2).flatMap fun o => (comb vb' 2).map fun v => o ++ v)
  let ob := ob'.map (· - n)
  let vb := vb'.map (· - n)
  let zero ← resSdsZero H oa ob
  let output := scale (f sd) zero
  let one ← resSdsOneA H oa ob va
  let d ← dotOverlaps scale one o1a
  let output := output + d
  let one ← resSdsOneB H oa ob vb
  let d ← dotOverlaps scale one o1b
  let output := output + d
  let output ←
    if oa.length > 1 ∧ va.length > 1 then do
      let two ← resSdsTwoSame H oa va
      let d ← dotOverlaps scale2 two o2aa
      pure (output.1, output.2.1 + d.1, output.2.2 + d.2)
    else pure output
  let output ←
    if oa.length > 0 ∧ ob.length > 0 ∧ va.length > 0 ∧ vb.length > 0 then do
      let two ← resSdsTwoAB H oa ob va vb
      let d ← dotOverlaps (fun c x => c * x) two o2ab
      pure (output.1, output.2.1 + d, output.2.2)
    else pure output
  if ob.length > 1 ∧ vb.length > 1 then do
    let two ← resSdsTwoSame H ob vb
    let d ← dotOverlaps scale2 two o2bb
    return (output.1, output.2.1 + d.1, output.2.2 + d.2)
  else return output

/-! ### Seniority zero -/

/-- `integrate_sd_wfn(sd, wfn, components=True)` — senzero.py:81-156.  `slater.excite` is given the alpha and beta spin
orbitals of the occupied orbital `i` and the beta and alpha spin orbitals of the virtual orbital `a`. -/
def szSdWfn (H : GenHam R) (f : ℤ → R) (sd : ℕ) : Except PyErr (R × R × R) := do
  let sen ← getSeniority sd H.norb
  if sen ≠ 0 then return (0, 0, 0)
  else do
    let (a, _) ← splitSpin sd H.norb
    let occIdx := occIndices (some a)
    let virIdx := virIndices (some a) H.norb
    let v ← szDecomposed H sd sd
    occIdx.foldlM (fun acc (i : ℕ) =>
      virIdx.foldlM (fun acc (a : ℕ) => do
        let ia ← spinIndex i H.norb true
        let ib ← spinIndex i H.norb false
        let ab ← spinIndex a H.norb false
        let aa ← spinIndex a H.norb true
        let t ← baseTerm scale (szDecomposed H) f sd [ia.toNat, ib.toNat] [ab.toNat, aa.toNat]
        return acc + t) acc) (scale (f sd) v)

end Fanpy.Ham
