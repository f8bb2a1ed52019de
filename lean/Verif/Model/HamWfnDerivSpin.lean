import Verif.Model.HamWfnDeriv

/-!
# Model of `integrate_sd_wfn(sd, wfn, ham_deriv=ham_deriv)` for unrestricted and restricted orbitals

`unrestricted_chemical.py` and `restricted_chemical.py`.  As in `Model/HamWfnDeriv.lean` an entry of an array is the sum of one
term for each statement of the form `array[index arrays] -= values`.  The methods for the alpha and for the beta spin consist of the
same statements; the definitions below have as arguments the integrals `h`, `g` of the spin and the integrals `gx p s q t` with
`p`, `q` orbitals of the spin and `s`, `t` orbitals of the other one.  The methods of the restricted Hamiltonian are those of
the unrestricted one with `one_int[0]`, `one_int[1]` replaced by `one_int` and `two_int[0]`, `two_int[1]`, `two_int[2]` by
`two_int`.
-/

namespace Fanpy.Ham
open Fanpy.Slater Fanpy.It

variable {R : Type} [CommRing R]

/-! ### Entries of the arrays -/

/-- entry `(x, y)` of the arrays of `_integrate_sd_sds_deriv_zero_alpha` — unrestricted_chemical.py:1404-1481,
restricted_chemical.py:1218-1335 — and `_zero_beta` — unrestricted_chemical.py:1523-1600, restricted_chemical.py:1337-1454.
`o`, `v` are the occupied and virtual orbitals of the spin that is rotated, `o'` the occupied orbitals of the other spin. -/
def spinEntryZero (h : ℕ → ℕ → R) (g gx : ℕ → ℕ → ℕ → ℕ → R) (o o' v : List ℕ) (x y : ℕ) : R × R × R :=
  let noX := o.filter (· ≠ x)
  let noY := o.filter (· ≠ y)
  -- lines 1404-1409
  (if x ∈ o ∧ y ∈ v then (-(2 * h x y), 0, 0) else 0) +
  (if x ∈ v ∧ y ∈ o then (2 * h x y, 0, 0) else 0) +
  -- lines 1412-1433
  (if x ∈ o then (0, -(2 * (noX.map fun s => g x s y s).sum), 0) else 0) +
  (if x ∈ o then (0, -(2 * (o'.map fun s => gx x s y s).sum), 0) else 0) +
  -- lines 1435-1456
  (if y ∈ o then (0, 2 * (noY.map fun s => g x s y s).sum, 0) else 0) +
  (if y ∈ o then (0, 2 * (o'.map fun s => gx x s y s).sum, 0) else 0) +
  -- lines 1459-1481
  (if x ∈ o then (0, 0, 2 * (noX.map fun s => g x s s y).sum) else 0) +
  (if y ∈ o then (0, 0, -(2 * (noY.map fun s => g x s s y).sum)) else 0)

/-- entry `(x, y)` of the arrays of `_integrate_sd_sds_deriv_one_aa` for the excitation of `a` to `b` —
unrestricted_chemical.py:1659-1965, restricted_chemical.py:1456-1826 — and `_one_bb` — unrestricted_chemical.py:2227-2535,
restricted_chemical.py:2024-2396.  `shared` are the other occupied orbitals of the spin, `o'` the occupied orbitals of the other spin. -/
def spinEntryOne (h : ℕ → ℕ → R) (g gx : ℕ → ℕ → ℕ → ℕ → R) (a b : ℕ) (shared o' : List ℕ) (x y : ℕ) : R × R × R :=
  -- one-electron, lines 1659-1694
  (if x = a then (-h y b, 0, 0) else 0) +
  (if x = b then (-h a y, 0, 0) else 0) +
  (if y = a then (h x b, 0, 0) else 0) +
  (if y = b then (h a x, 0, 0) else 0) +
  -- coulomb, x == a, lines 1697-1724
  (if x = a then (0, -(shared.map fun s => g y s b s).sum, 0) else 0) +
  (if x = a then (0, -(o'.map fun s => gx y s b s).sum, 0) else 0) +
  -- x == b, lines 1726-1753
  (if x = b then (0, -(shared.map fun s => g a s y s).sum, 0) else 0) +
  (if x = b then (0, -(o'.map fun s => gx a s y s).sum, 0) else 0) +
  -- x in shared, lines 1755-1776
  (if x ∈ shared then (0, -g x a y b, 0) else 0) +
  (if x ∈ shared then (0, -g x b y a, 0) else 0) +
  -- y == a, lines 1778-1805
  (if y = a then (0, (shared.map fun s => g x s b s).sum, 0) else 0) +
  (if y = a then (0, (o'.map fun s => gx x s b s).sum, 0) else 0) +
  -- y == b, lines 1807-1834
  (if y = b then (0, (shared.map fun s => g a s x s).sum, 0) else 0) +
  (if y = b then (0, (o'.map fun s => gx a s x s).sum, 0) else 0) +
  -- y in shared, lines 1836-1857
  (if y ∈ shared then (0, g x a y b, 0) else 0) +
  (if y ∈ shared then (0, g x b y a, 0) else 0) +
  -- exchange, lines 1861-1912
  (if x = a then (0, 0, (shared.map fun s => g y s s b).sum) else 0) +
  (if x = b then (0, 0, (shared.map fun s => g a s s y).sum) else 0) +
  (if x ∈ shared then (0, 0, g x a b y) else 0) +
  (if x ∈ shared then (0, 0, g x b a y) else 0) +
  -- lines 1914-1965
  (if y = a then (0, 0, -(shared.map fun s => g x s s b).sum) else 0) +
  (if y = b then (0, 0, -(shared.map fun s => g a s s x).sum) else 0) +
  (if y ∈ shared then (0, 0, -g x a b y) else 0) +
  (if y ∈ shared then (0, 0, -g x b a y) else 0)

/-- entry `(x, y)` of the array of `_integrate_sd_sds_deriv_one_ba` for the excitation of the alpha orbital `a` to `b`; `o'` are the
occupied beta orbitals — unrestricted_chemical.py:2024-2068, restricted_chemical.py:1828-1923 — and of `_one_ab` with the spins
exchanged — unrestricted_chemical.py:2122-2166, restricted_chemical.py:1925-2022.  Only coulomb integrals; here the first orbitals of
`gx` have the spin of the excitation. -/
def spinEntryOther (gx : ℕ → ℕ → ℕ → ℕ → R) (a b : ℕ) (o' : List ℕ) (x y : ℕ) : R :=
  (if x ∈ o' then -gx a x b y else 0) +
  (if x ∈ o' then -gx b x a y else 0) +
  (if y ∈ o' then gx a x b y else 0) +
  (if y ∈ o' then gx b x a y else 0)

/-- entry `(x, y)` of the arrays of `_integrate_sd_sds_deriv_two_aaa` for the excitation of `a`, `b` to `c`, `d` —
unrestricted_chemical.py:2604-2787, restricted_chemical.py:2398-2647 — and `_two_bbb` — unrestricted_chemical.py:3073-3256,
restricted_chemical.py:2866-3115.  Coulomb and exchange. -/
def spinEntryTwo (g : ℕ → ℕ → ℕ → ℕ → R) (a b c d x y : ℕ) : R × R :=
  (if x = a then (-g y b c d, g y b d c) else 0) +
  (if x = b then (-g a y c d, g a y d c) else 0) +
  (if x = c then (-g a b y d, g a b d y) else 0) +
  (if x = d then (-g a b c y, g a b y c) else 0) +
  (if y = a then (g x b c d, -g x b d c) else 0) +
  (if y = b then (g a x c d, -g a x d c) else 0) +
  (if y = c then (g a b x d, -g a b d x) else 0) +
  (if y = d then (g a b c x, -g a b x c) else 0)

/-- entry `(x, y)` of the array of `_integrate_sd_sds_deriv_two_aab` (rotation of alpha orbitals, excitation of `a` alpha and `b` beta
to `c` alpha and `d` beta) — unrestricted_chemical.py:2854-2901, restricted_chemical.py:2649-2756. -/
def spinEntryTwoA (g : ℕ → ℕ → ℕ → ℕ → R) (a b c d x y : ℕ) : R :=
  (if x = a then -g y b c d else 0) +
  (if x = c then -g a b y d else 0) +
  (if y = a then g x b c d else 0) +
  (if y = c then g a b x d else 0)

/-- entry `(x, y)` of the array of `_integrate_sd_sds_deriv_two_bab` (rotation of beta orbitals) —
unrestricted_chemical.py:2963-3010, restricted_chemical.py:2758-2864. -/
def spinEntryTwoB (g : ℕ → ℕ → ℕ → ℕ → R) (a b c d x y : ℕ) : R :=
  (if x = b then -g a y c d else 0) +
  (if x = d then -g a b c y else 0) +
  (if y = b then g a x c d else 0) +
  (if y = d then g a b c x else 0)

/-! ### Arrays -/

/-- `sign * array[triu_rows, triu_cols].reshape(triu_rows.size, -1)`: `ValueError` if there is no pair of orbitals. -/
def derivRows {α : Type} (mul : ℤ → α → α) (n : ℕ) (signs : List ℤ) (entries : ℕ × ℕ → List α) :
    Except PyErr (List (List α)) :=
  if triuIndices n = [] then .error .valueError
  else (triuIndices n).mapM fun xy => mulSigns mul signs (entries xy)

/-- `_integrate_sd_sds_deriv_zero_alpha(occ_alpha, occ_beta, vir_alpha)` — unrestricted_chemical.py:1367-1484. -/
def unrDerivsZeroA (H : UnrHam R) (oa ob va : List ℕ) : Except PyErr (List (R × R × R)) := do
  guardIdx H.norb (oa ++ ob ++ va)
  return (triuIndices H.norb).map fun xy => spinEntryZero H.oneA H.twoAA H.twoAB oa ob va xy.1 xy.2

/-- `_integrate_sd_sds_deriv_zero_beta(occ_alpha, occ_beta, vir_beta)` — unrestricted_chemical.py:1486-1603. -/
def unrDerivsZeroB (H : UnrHam R) (oa ob vb : List ℕ) : Except PyErr (List (R × R × R)) := do
  guardIdx H.norb (oa ++ ob ++ vb)
  return (triuIndices H.norb).map fun xy =>
    spinEntryZero H.oneB H.twoBB (fun p s q t => H.twoAB s p t q) ob oa vb xy.1 xy.2

/-- `_integrate_sd_sds_deriv_one_aa(occ_alpha, occ_beta, vir_alpha)` — unrestricted_chemical.py:1605-1974. -/
def unrDerivsOneAA (H : UnrHam R) (oa ob va : List ℕ) : Except PyErr (List (List (R × R × R))) := do
  guardIdx H.norb (oa ++ ob ++ va)
  let shared := sharedIndicesRemoveOne oa
  derivRows signTimes H.norb (signExciteOne oa va) fun xy =>
    (oa.zip shared).flatMap fun p => va.map fun b => spinEntryOne H.oneA H.twoAA H.twoAB p.1 b p.2 ob xy.1 xy.2

/-- `_integrate_sd_sds_deriv_one_bb(occ_alpha, occ_beta, vir_beta)` — unrestricted_chemical.py:2172-2544. -/
def unrDerivsOneBB (H : UnrHam R) (oa ob vb : List ℕ) : Except PyErr (List (List (R × R × R))) := do
  guardIdx H.norb (oa ++ ob ++ vb)
  let shared := sharedIndicesRemoveOne ob
  derivRows signTimes H.norb (signExciteOne ob vb) fun xy =>
    (ob.zip shared).flatMap fun p => vb.map fun b =>
      spinEntryOne H.oneB H.twoBB (fun p s q t => H.twoAB s p t q) p.1 b p.2 oa xy.1 xy.2

/-- `sign[None, :] * array` -/
def signTimes1 (s : ℤ) (x : R) : R := (s : R) * x

/-- `_integrate_sd_sds_deriv_one_ba(occ_alpha, occ_beta, vir_alpha)`: excitation of an alpha orbital, rotation of beta orbitals —
unrestricted_chemical.py:1976-2071. -/
def unrDerivsOneBA (H : UnrHam R) (oa ob va : List ℕ) : Except PyErr (List (List R)) := do
  guardIdx H.norb (oa ++ ob ++ va)
  derivRows signTimes1 H.norb (signExciteOne oa va) fun xy =>
    oa.flatMap fun a => va.map fun b => spinEntryOther H.twoAB a b ob xy.1 xy.2

/-- `_integrate_sd_sds_deriv_one_ab(occ_alpha, occ_beta, vir_beta)`: excitation of a beta orbital, rotation of alpha orbitals —
unrestricted_chemical.py:2073-2170. -/
def unrDerivsOneAB (H : UnrHam R) (oa ob vb : List ℕ) : Except PyErr (List (List R)) := do
  guardIdx H.norb (oa ++ ob ++ vb)
  derivRows signTimes1 H.norb (signExciteOne ob vb) fun xy =>
    ob.flatMap fun a => vb.map fun b => spinEntryOther (fun p s q t => H.twoAB s p t q) a b oa xy.1 xy.2

/-- `_integrate_sd_sds_deriv_two_aaa(occ_alpha, occ_beta, vir_alpha)` — unrestricted_chemical.py:2546-2795. -/
def unrDerivsTwoAAA (H : UnrHam R) (oa va : List ℕ) : Except PyErr (List (List (R × R))) := do
  let anns ← pairColumns (comb oa 2)
  let cres ← pairColumns (comb va 2)
  guardIdx H.norb (oa ++ va)
  derivRows signTimes2 H.norb (signExciteTwo oa va) fun xy =>
    anns.flatMap fun ab => cres.map fun cd => spinEntryTwo H.twoAA ab.1 ab.2 cd.1 cd.2 xy.1 xy.2

/-- `_integrate_sd_sds_deriv_two_bbb(occ_alpha, occ_beta, vir_beta)` — unrestricted_chemical.py:3015-3264. -/
def unrDerivsTwoBBB (H : UnrHam R) (ob vb : List ℕ) : Except PyErr (List (List (R × R))) := do
  let anns ← pairColumns (comb ob 2)
  let cres ← pairColumns (comb vb 2)
  guardIdx H.norb (ob ++ vb)
  derivRows signTimes2 H.norb (signExciteTwo ob vb) fun xy =>
    anns.flatMap fun ab => cres.map fun cd => spinEntryTwo H.twoBB ab.1 ab.2 cd.1 cd.2 xy.1 xy.2

/-- `_integrate_sd_sds_deriv_two_aab(occ_alpha, occ_beta, vir_alpha, vir_beta)` — unrestricted_chemical.py:2797-2904. -/
def unrDerivsTwoAAB (H : UnrHam R) (oa ob va vb : List ℕ) : Except PyErr (List (List R)) := do
  let anns ← prodColumns oa ob
  let cres ← prodColumns va vb
  guardIdx H.norb (oa ++ ob ++ va ++ vb)
  derivRows signTimes1 H.norb (signExciteTwoAb oa ob va vb) fun xy =>
    anns.flatMap fun ab => cres.map fun cd => spinEntryTwoA H.twoAB ab.1 ab.2 cd.1 cd.2 xy.1 xy.2

/-- `_integrate_sd_sds_deriv_two_bab(occ_alpha, occ_beta, vir_alpha, vir_beta)` — unrestricted_chemical.py:2906-3013. -/
def unrDerivsTwoBAB (H : UnrHam R) (oa ob va vb : List ℕ) : Except PyErr (List (List R)) := do
  let anns ← prodColumns oa ob
  let cres ← prodColumns va vb
  guardIdx H.norb (oa ++ ob ++ va ++ vb)
  derivRows signTimes1 H.norb (signExciteTwoAb oa ob va vb) fun xy =>
    anns.flatMap fun ab => cres.map fun cd => spinEntryTwoB H.twoAB ab.1 ab.2 cd.1 cd.2 xy.1 xy.2

/-- the Hamiltonian with equal blocks: each array of `restricted_chemical.py` 1218-3115 is the array of
`unrestricted_chemical.py` with `one_int`, `two_int` in place of all blocks. -/
def GenHam.blocks (H : GenHam R) : UnrHam R := UnrHam.ofInts H.norb H.one H.one H.two H.two H.two

/-! ### Sums -/

/-- `np.sum(array * overlaps, axis=-1)` for each parameter -/
def dotRows {α : Type} [AddCommMonoid α] (mul : R → α → α) (rows : List (List α)) (overlaps : List R) : Except PyErr (List α) :=
  rows.mapM fun row => dotOverlaps mul row overlaps

/-- `output[:, columns] += values`, for columns that were checked to be nonnegative: `IndexError` for a column that does not
exist, and of several values for the same column only the last one is kept. -/
def addCols {M : Type} [Add M] (output : List M) (columns : List ℤ) (values : List M) : Except PyErr (List M) := do
  let old ← takeCols output columns
  return (columns.zip (List.zipWith (· + ·) old values)).foldl (fun out p => out.set p.1.toNat p.2) output

/-- `values` as coulomb part (`output[1, ...] +=`) -/
def asCoulomb (l : List R) : List (R × R × R) := l.map fun c => (0, c, 0)

/-- `values` as coulomb and exchange parts (`output[1:, ...] +=`) -/
def asTwo (l : List (R × R)) : List (R × R × R) := l.map fun t => (0, t.1, t.2)

/-- `UnrestrictedMolecularHamiltonian.integrate_sd_wfn(sd, wfn, ham_deriv=ham_deriv, components=True)` —
unrestricted_chemical.py:3266-3496.  The parameters of the alpha rotations are those smaller than `nparams // 2`; both spins are
written to the columns `alpha_param_indices`, `beta_param_indices` of an array with `len(ham_deriv)` columns. -/
def unrSdWfnDeriv (H : UnrHam R) (f : ℤ → R) (sd : ℕ) (deriv : List ℤ) : Except PyErr (List (R × R × R)) :=
  if ¬ (∀ i ∈ deriv, 0 ≤ i ∧ i < (H.norb * (H.norb - 1) : ℕ)) then .error .valueError
  else do
    let n := H.norb
    let occIdx := occIndices (some sd)
    let virIdx := virIndices (some sd) (2 * n : ℕ)
    let oa := occIdx.filter (fun i => decide (i < n))
    let va := virIdx.filter (fun i => decide (i < n))
    let ob' := occIdx.filter (fun i => decide (n ≤ i))
    let vb' := virIdx.filter (fun i => decide (n ≤ i))
    let half : ℤ := (n * (n - 1) : ℕ) / 2
    let colA := deriv.filter (fun i => decide (i < half))
    let colB := deriv.filter (fun i => decide (half ≤ i))
    let derA := colA
    let derB := colB.map (· - half)
    let ob := ob'.map (· - n)
    let vb := vb'.map (· - n)
    let output : List (R × R × R) := deriv.map fun _ => 0
    let zero ← unrDerivsZeroA H oa ob va
    let output ← addCols output colA (← takeCols (zero.map (scale (f sd))) derA)
    let zero ← unrDerivsZeroB H oa ob vb
    let output ← addCols output colB (← takeCols (zero.map (scale (f sd))) derB)
    let e1a ← exciteBulk sd oa va 1
    let d ← dotRows scale (← unrDerivsOneAA H oa ob va) (e1a.map f)
    let output ← addCols output colA (← takeCols d derA)
    let d ← dotRows (· * ·) (← unrDerivsOneBA H oa ob va) (e1a.map f)
    let output ← addCols output colB (← takeCols (asCoulomb d) derB)
    let e1b ← exciteBulk sd (ob.map (· + n)) (vb.map (· + n)) 1
    let d ← dotRows scale (← unrDerivsOneBB H oa ob vb) (e1b.map f)
    let output ← addCols output colB (← takeCols d derB)
    let d ← dotRows (· * ·) (← unrDerivsOneAB H oa ob vb) (e1b.map f)
    let output ← addCols output colA (← takeCols (asCoulomb d) derA)
    let e2a ← exciteBulk sd oa va 2
    let output ←
      if oa.length > 1 ∧ va.length > 1 then do
        let d ← dotRows scale2 (← unrDerivsTwoAAA H oa va) (e2a.map f)
        addCols output colA (← takeCols (asTwo d) derA)
      else pure output
    let e2ab ← exciteBulkTwoAb sd oa (ob.map (· + n)) va (vb.map (· + n))
    let output ←
      if oa.length > 0 ∧ ob.length > 0 ∧ va.length > 0 ∧ vb.length > 0 then do
        let d ← dotRows (· * ·) (← unrDerivsTwoAAB H oa ob va vb) (e2ab.map f)
        let output ← addCols output colA (← takeCols (asCoulomb d) derA)
        let d ← dotRows (· * ·) (← unrDerivsTwoBAB H oa ob va vb) (e2ab.map f)
        addCols output colB (← takeCols (asCoulomb d) derB)
      else pure output
    let e2b ← exciteBulk sd (ob.map (· + n)) (vb.map (· + n)) 2
    if ob.length > 1 ∧ vb.length > 1 then do
      let d ← dotRows scale2 (← unrDerivsTwoBBB H ob vb) (e2b.map f)
      addCols output colB (← takeCols (asTwo d) derB)
    else pure output

/-- `RestrictedMolecularHamiltonian.integrate_sd_wfn(sd, wfn, ham_deriv=ham_deriv, components=True)` —
restricted_chemical.py:3117-3420. -/
def resSdWfnDeriv (H : GenHam R) (f : ℤ → R) (sd : ℕ) (deriv : List ℤ) : Except PyErr (List (R × R × R)) :=
  if ¬ (∀ i ∈ deriv, 0 ≤ i ∧ i < (H.norb * (H.norb - 1) / 2 : ℕ)) then .error .valueError
  else do
    let n := H.norb
    let U := H.blocks
    let occIdx := occIndices (some sd)
    let virIdx := virIndices (some sd) (2 * n : ℕ)
    let oa := occIdx.filter (fun i => decide (i < n))
    let va := virIdx.filter (fun i => decide (i < n))
    let ob' := occIdx.filter (fun i => decide (n ≤ i))
    let vb' := virIdx.filter (fun i => decide (n ≤ i))
    let o1a ← resOverlaps (2 * n) f sd (exciteBulk sd oa va 1)
      ((comb oa 1).flatMap fun o => (comb va 1).map fun v => o ++ v)
    let o1b ← resOverlaps (2 * n) f sd (exciteBulk sd ob' vb' 1)
      ((comb ob' 1).flatMap fun o => (comb vb' 1).map fun v => o ++ v)
    let o2aa ← resOverlaps (2 * n) f sd (exciteBulk sd oa va 2)
      ((comb oa 2).flatMap fun o => (comb va 2).map fun v => o ++ v)
    let o2ab ← resOverlaps (2 * n) f sd (exciteBulkTwoAb sd oa ob' va vb')
      ((prod oa ob').flatMap fun o => (prod va vb').map fun v => [o.1, o.2, v.1, v.2])
    let o2bb ← resOverlaps (2 * n) f sd (exciteBulk sd ob' vb' 2)
      ((comb ob' 2).flatMap fun o => (comb vb' 2).map fun v => o ++ v)
    let ob := ob'.map (· - n)
    let vb := vb'.map (· - n)
    let output : List (R × R × R) := deriv.map fun _ => 0
    let zeroA ← unrDerivsZeroA U oa ob va
    let zeroB ← unrDerivsZeroB U oa ob vb
    let zero := List.zipWith (· + ·) zeroA zeroB
    let output := List.zipWith (· + ·) output (← takeCols (zero.map (scale (f sd))) deriv)
    let d ← dotRows scale (← unrDerivsOneAA U oa ob va) o1a
    let output := List.zipWith (· + ·) output (← takeCols d deriv)
    let d ← dotRows (· * ·) (← unrDerivsOneBA U oa ob va) o1a
    let output := List.zipWith (· + ·) output (← takeCols (asCoulomb d) deriv)
    let d ← dotRows scale (← unrDerivsOneBB U oa ob vb) o1b
    let output := List.zipWith (· + ·) output (← takeCols d deriv)
    let d ← dotRows (· * ·) (← unrDerivsOneAB U oa ob vb) o1b
    let output := List.zipWith (· + ·) output (← takeCols (asCoulomb d) deriv)
    let output ←
      if oa.length > 1 ∧ va.length > 1 then do
        let d ← dotRows scale2 (← unrDerivsTwoAAA U oa va) o2aa
        pure (List.zipWith (· + ·) output (← takeCols (asTwo d) deriv))
      else pure output
    let output ←
      if oa.length > 0 ∧ ob.length > 0 ∧ va.length > 0 ∧ vb.length > 0 then do
        let d ← dotRows (· * ·) (← unrDerivsTwoAAB U oa ob va vb) o2ab
        let output := List.zipWith (· + ·) output (← takeCols (asCoulomb d) deriv)
        let d ← dotRows (· * ·) (← unrDerivsTwoBAB U oa ob va vb) o2ab
        pure (List.zipWith (· + ·) output (← takeCols (asCoulomb d) deriv))
      else pure output
    if ob.length > 1 ∧ vb.length > 1 then do
      let d ← dotRows scale2 (← unrDerivsTwoBBB U ob vb) o2bb
      pure (List.zipWith (· + ·) output (← takeCols (asTwo d) deriv))
    else pure output

end Fanpy.Ham
