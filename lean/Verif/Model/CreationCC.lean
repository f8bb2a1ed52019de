import Verif.Model.Geminal

/-!
# Model of the creation-operator coupled cluster wavefunction

`fanpy/wfn/creation_cc.py`.  Orbitals are natural numbers; the types of the arguments are not checked, the noise is left out and the numbers are
those of a commutative ring instead of floats.  The attribute `params` is a list; the array given by the caller is the same object as
`params`, so `assignParams` is also what happens to it.
-/

namespace Fanpy.CreationCC
open Fanpy.Slater Fanpy.Graphs Fanpy.It Fanpy.Geminal

/-- The attributes: `pairs` lists the keys of `dict_orbpair_ind` in the order of their values, `matchings` are `permutations` and `signs`. -/
structure Wfn (R : Type) where
  nelec : ℕ
  nspin : ℕ
  pairs : List (ℕ × ℕ)
  params : List R
  matchings : List (List (ℕ × ℕ) × ℤ)

/-- `assign_nelec(nelec)` — creation_cc.py:108-110. -/
def checkNelec (nelec : ℕ) : Except PyErr Unit := do
  CI.checkNelec nelec
  if nelec % 2 ≠ 0 then .error .notImplemented else return ()

/-- the pairs of `assign_orbpairs(None)` — creation_cc.py:163. -/
def allPairs (nspin : ℕ) : List (ℕ × ℕ) :=
  (List.range nspin).flatMap fun i => (List.range' (i + 1) (nspin - (i + 1))).map fun j => (i, j)

/-- `assign_orbpairs(orbpairs)` — creation_cc.py:162-188; the loop is that of `BaseGeminal.assign_orbpairs`. -/
def assignOrbpairs (nspin : ℕ) (orbpairs : Option (List (ℕ × ℕ))) : Except PyErr (List (ℕ × ℕ)) :=
  baseOrbpairs (orbpairs.getD (allPairs nspin))

/-- `get_col_ind(orbpair)` — creation_cc.py:209-214. -/
def colInd (pairs : List (ℕ × ℕ)) (p : ℕ × ℕ) : Except PyErr ℕ :=
  if p ∈ pairs then .ok (pairs.idxOf p) else .error .valueError

/-- `reshape((elec_pairs, 2))` of a list — creation_cc.py:133. -/
def inPairs : List ℕ → List (ℕ × ℕ)
  | x :: y :: r => (x, y) :: inPairs r
  | _ => []

/-- the sorted orbitals of the reference, two by two — creation_cc.py:123, 127-133. -/
def refPairs (nelec nspin : ℕ) : List (ℕ × ℕ) :=
  inPairs (((List.range (nelec / 2)).flatMap fun i => [i, nspin / 2 + i]).mergeSort fun a b => decide (a ≤ b))

section
variable {R : Type} [CommRing R]

/-- `params[col_ind] = 1` for the given pairs — creation_cc.py:134-136. -/
def setOnes (pairs : List (ℕ × ℕ)) : List R → List (ℕ × ℕ) → Except PyErr (List R)
  | params, [] => .ok params
  | params, p :: r => do
    let c ← colInd pairs p
    if c < params.length then setOnes pairs (params.set c 1) r else .error .indexError

/-- `assign_params(params)` — creation_cc.py:123-137. -/
def assignParams (nelec nspin : ℕ) (pairs : List (ℕ × ℕ)) (params : Option (List R)) : Except PyErr (List R) :=
  setOnes pairs (params.getD (List.replicate (nspin * (nspin - 1) / 2) 0)) (refPairs nelec nspin)

/-- the inner loop of `get_sign` — creation_cc.py:258-260. -/
def signInner (x : ℕ) : List ℕ → ℤ → ℤ
  | [], s => s
  | y :: r, s => signInner x r (if x > y then s * -1 else s)

/-- the outer loop of `get_sign` — creation_cc.py:257-261. -/
def signOuter : List ℕ → ℤ → ℤ
  | [], s => s
  | x :: r, s => signOuter r (signInner x r s)

/-- `get_sign(indices)` — creation_cc.py:255-261. -/
def getSign (S : List (ℕ × ℕ)) : ℤ := signOuter (flatPairs S) 1

/-- `combinations(indices, r=2)` as pairs — creation_cc.py:227-228. -/
def indexPairs (nelec : ℕ) : List (ℕ × ℕ) := (comb (List.range nelec) 2).map fun c => (c.getD 0 0, c.getD 1 0)

/-- `get_permutations()` — creation_cc.py:227-239. -/
def getPermutations (nelec : ℕ) : List (List (ℕ × ℕ) × ℤ) :=
  ((comb (indexPairs nelec) (nelec / 2)).filter fun S => (flatPairs S).dedup.length = nelec).map fun S => (S, getSign S)

/-- `__init__(nelec, nspin, orbpairs=orbpairs, params=params)` — creation_cc.py:84-87. -/
def init (nelec nspin : ℕ) (orbpairs : Option (List (ℕ × ℕ))) (params : Option (List R)) : Except PyErr (Wfn R) := do
  checkNelec nelec
  CI.checkNspin nspin
  let pairs ← assignOrbpairs nspin orbpairs
  let params ← assignParams nelec nspin pairs params
  return ⟨nelec, nspin, pairs, params, getPermutations nelec⟩

/-- `array[i]`, a natural number as index -/
def item {α : Type} (l : List α) (i : ℕ) : Except PyErr α :=
  match l[i]? with
  | some x => .ok x
  | none => .error .indexError

/-- one pair of `occ_indices.take(permutation)` or of `mapped_permutations` — creation_cc.py:299, 319. -/
def takePair (occ : List ℕ) (p : ℕ × ℕ) : Except PyErr (ℕ × ℕ) := do
  let i ← item occ p.1
  let j ← item occ p.2
  return (i, j)

/-- `calculate_product(occ_indices, permutation, sign)` — creation_cc.py:299-301. -/
def calculateProduct (w : Wfn R) (occ : List ℕ) (m : List (ℕ × ℕ) × ℤ) : Except PyErr R := do
  let S ← m.1.mapM (takePair occ)
  let cols ← S.mapM (colInd w.pairs)
  let vals ← cols.mapM (item w.params)
  return (m.2 : R) * vals.prod

/-- `_olp(sd)` — creation_cc.py:276-279. -/
def overlap (w : Wfn R) (sd : ℕ) : Except PyErr R := do
  let prods ← w.matchings.mapM (calculateProduct w (occIndices (some sd)))
  return prods.sum

/-- `self.params[self.get_col_ind(p)]` — creation_cc.py:325. -/
def paramOf (w : Wfn R) (p : ℕ × ℕ) : Except PyErr R := do
  let c ← colInd w.pairs p
  item w.params c

/-- the body of the inner loop of `_olp_deriv` — creation_cc.py:324-325. -/
def derivStep (w : Wfn R) (S : List (ℕ × ℕ)) (output : List R) (p : ℕ × ℕ) : Except PyErr (List R) := do
  let c ← colInd w.pairs p
  let _ ← item output c
  let vals ← (S.filter fun q => q ≠ p).mapM (paramOf w)
  return output.modify c (· + (getSign S : R) * vals.prod)

/-- the body of the outer loop of `_olp_deriv` — creation_cc.py:319-325. -/
def derivPerm (w : Wfn R) (occ : List ℕ) (output : List R) (m : List (ℕ × ℕ) × ℤ) : Except PyErr (List R) := do
  let S ← m.1.mapM (takePair occ)
  S.foldlM (derivStep w S) output

/-- `_olp_deriv(sd)` — creation_cc.py:317-326. -/
def overlapDeriv (w : Wfn R) (sd : ℕ) : Except PyErr (List R) :=
  w.matchings.foldlM (derivPerm w (occIndices (some sd))) (List.replicate w.params.length 0)

/-- `get_overlap(sd, deriv)` for an array `deriv` of indices — creation_cc.py:352. -/
def getOverlapDeriv (w : Wfn R) (sd : ℕ) (deriv : List ℕ) : Except PyErr (List R) := do
  let d ← overlapDeriv w sd
  deriv.mapM (item d)

end

end Fanpy.CreationCC
