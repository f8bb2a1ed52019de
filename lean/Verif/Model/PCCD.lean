import Verif.Model.CC
import Verif.Model.CI

/-!
# Model of the pair coupled cluster wavefunctions

`fanpy/wfn/cc/pccd_ap1rog.py` and the classes derived from it: `apg1ro_d.py`, `apset1rog_d.py`, `ap1rog_generalized.py`, `ap1rog_spin.py`,
`apg1ro_sd.py`, `apset1rog_sd.py`, `ccsd_sen0.py`, `ccsdtq_sen0.py`, `ccsdq_sen0.py`, `ccsdt_sen2_q_sen0.py`.  See `Verif.Model.CC` for the
class they are all derived from and for what is left out.  Simplified: the parameters are given and their shape is not checked;
`exop_combinations` is recomputed; see `Verif.Model.PCCDNew` for a model of it.
-/

namespace Fanpy.PCCD
open Fanpy.Slater Fanpy.It Fanpy.CC

/-- the classes -/
inductive Kind where
  | pccd | apg1roD | apset1roGD | generalized | spin | apg1roSD | apset1roGSD | sdSen0 | sdtqSen0 | sdqSen0 | sdtSen2qSen0
deriving DecidableEq

/-- `ex_from[: len(ex_from) // 2]` — pccd_ap1rog.py:236, 238 -/
def occHalf (ref : ℕ) : List ℕ := (occIndices (some ref)).take ((occIndices (some ref)).length / 2)

/-- `ex_to` — pccd_ap1rog.py:237 -/
def virt (nspin ref : ℕ) : List ℕ := (List.range nspin).filter fun i => i ∉ occIndices (some ref)

/-- `ex_to[: len(ex_to) // 2]` — pccd_ap1rog.py:239 -/
def virtHalf (nspin ref : ℕ) : List ℕ := (virt nspin ref).take ((virt nspin ref).length / 2)

/-- `virt_alphas` — apset1rog_d.py:144; `is_alpha(i, nspatial)` is `i < nspatial` for these orbitals -/
def virtAlphas (nspin ref : ℕ) : List ℕ := (virt nspin ref).filter fun i => i < nspin / 2

/-- `virt_betas` — apset1rog_d.py:145 -/
def virtBetas (nspin ref : ℕ) : List ℕ := (virt nspin ref).filter fun i => ¬ i < nspin / 2

/-- the operators of `PCCD` — pccd_ap1rog.py:236-242, ccsd_sen0.py:225-229 -/
def pairDoubles (nspin ref : ℕ) : List (List ℕ) :=
  (occHalf ref).flatMap fun o => (virtHalf nspin ref).map fun v => [o, o + nspin / 2, v, v + nspin / 2]

/-- the operators of `APG1roD` — apg1ro_d.py:133-140 -/
def doublesAny (nspin ref : ℕ) : List (List ℕ) :=
  (occHalf ref).flatMap fun o => (virt nspin ref).flatMap fun v1 =>
    ((virt nspin ref).drop ((virt nspin ref).idxOf v1 + 1)).map fun v2 => [o, o + nspin / 2, v1, v2]

/-- the operators of `APset1roGD` for two sets of orbitals — apset1rog_d.py:146-151, 174-179 -/
def doublesSets (nspin ref : ℕ) (x y : List ℕ) : List (List ℕ) :=
  (occHalf ref).flatMap fun o => x.flatMap fun i => y.map fun j => [o, o + nspin / 2, i, j]

/-- the single excitations of the alpha orbitals to one set and of the beta orbitals to the other — ap1rog_generalized.py:157-166,
ap1rog_spin.py:158-167, apg1ro_sd.py:157-166, apset1rog_sd.py:168-177, 204-213 -/
def singlesSets (nspin ref : ℕ) (x y : List ℕ) : List (List ℕ) :=
  ((occHalf ref).flatMap fun o => x.map fun v => [o, v]) ++ ((occHalf ref).flatMap fun o => y.map fun v => [o + nspin / 2, v])

/-- seniority-zero quadruples — ccsdtq_sen0.py:175-191, ccsdt_sen2_q_sen0.py:170-185 -/
def quadruples (nspin ref : ℕ) : List (List ℕ) :=
  (occHalf ref).flatMap fun o1 => ((occHalf ref).drop ((occIndices (some ref)).idxOf o1 + 1)).flatMap fun o2 =>
    (virtHalf nspin ref).flatMap fun v1 => ((virtHalf nspin ref).drop ((virt nspin ref).idxOf v1 + 1)).map fun v2 =>
      [o1, o1 + nspin / 2, o2, o2 + nspin / 2, v1, v1 + nspin / 2, v2, v2 + nspin / 2]

/-- seniority-two triples — ccsdt_sen2_q_sen0.py:154-167 -/
def triples (nspin ref : ℕ) : List (List ℕ) :=
  (occHalf ref).flatMap fun o1 => ((occIndices (some ref)).filter fun o => o ∉ [o1, o1 + nspin / 2]).flatMap fun o2 =>
    (virtHalf nspin ref).flatMap fun v1 => ((virt nspin ref).filter fun v => v ∉ [v1, v1 + nspin / 2]).map fun v2 =>
      [o1, o1 + nspin / 2, o2, v1, v1 + nspin / 2, v2]

/-- `list(set(inds))` and `sort` — apset1rog_d.py:171-173 -/
def sortSet (l : List ℕ) : List ℕ := l.dedup.mergeSort fun a b => decide (a ≤ b)

/-- the checks of the two sets of orbitals — apset1rog_d.py:158-170, apset1rog_sd.py:188-200 -/
def checkSets (ref : ℕ) (x y : List ℤ) : Except PyErr (List ℕ × List ℕ) :=
  if ¬ x.all (fun i => decide (i ≥ 0)) then .error .valueError
  else if ∃ i ∈ x.map Int.toNat, i ∈ occIndices (some ref) then .error .valueError
  else if ¬ y.all (fun i => decide (i ≥ 0)) then .error .valueError
  else if ∃ i ∈ y.map Int.toNat, i ∈ occIndices (some ref) then .error .valueError
  else if ∃ i ∈ x, i ∈ y then .error .valueError
  else .ok (sortSet (x.map Int.toNat), sortSet (y.map Int.toNat))

/-- `assign_ranks(None)` and its checks — pccd_ap1rog.py:198-202, ap1rog_generalized.py:118-121, ccsd_sen0.py:175-180,
ccsdtq_sen0.py:122-126, ccsdq_sen0.py:118-123 -/
def assignRanks (k : Kind) (nelec : ℕ) : Except PyErr (List ℕ) :=
  match k with
  | .pccd | .apg1roD | .apset1roGD => if nelec ≤ 1 then .error .valueError else .ok [2]
  | .generalized | .spin | .apg1roSD | .apset1roGSD => .ok [1, 2]
  | .sdSen0 => if nelec ≤ 1 then .error .valueError else .ok [1, 2]
  | .sdtqSen0 | .sdtSen2qSen0 => if nelec ≤ 3 then .error .valueError else .ok [1, 2, 3, 4]
  | .sdqSen0 => if nelec ≤ 3 then .error .valueError else .ok [1, 2, 4]

/-- `assign_ranks(ranks)` with another argument — pccd_ap1rog.py:198-199, ap1rog_generalized.py:118-119 -/
def ranksError (k : Kind) : PyErr :=
  match k with
  | .generalized | .spin | .apg1roSD | .apset1roGSD => .typeError
  | _ => .valueError

/-- the operators for `indices=None`, in the order of their indices -/
def defaultExops (k : Kind) (nspin ref : ℕ) (ranks : List ℕ) : List (List ℕ) :=
  match k with
  | .pccd => pairDoubles nspin ref
  | .apg1roD => doublesAny nspin ref
  | .apset1roGD => doublesSets nspin ref (virtAlphas nspin ref) (virtBetas nspin ref)
  | .generalized => singlesSets nspin ref (virt nspin ref) (virt nspin ref) ++ pairDoubles nspin ref
  | .spin => singlesSets nspin ref (virtAlphas nspin ref) (virtBetas nspin ref) ++ pairDoubles nspin ref
  | .apg1roSD => singlesSets nspin ref (virt nspin ref) (virt nspin ref) ++ doublesAny nspin ref
  | .apset1roGSD => singlesSets nspin ref (virtAlphas nspin ref) (virtBetas nspin ref) ++
      doublesSets nspin ref (virtAlphas nspin ref) (virtBetas nspin ref)
  | .sdSen0 => ((occIndices (some ref)).flatMap fun o => (virt nspin ref).map fun v => [o, v]) ++ pairDoubles nspin ref
  | .sdtqSen0 | .sdqSen0 => exopsFrom ranks.dropLast (occIndices (some ref)) (virt nspin ref) ++ quadruples nspin ref
  | .sdtSen2qSen0 => exopsFrom ranks.dropLast.dropLast (occIndices (some ref)) (virt nspin ref) ++ triples nspin ref ++ quadruples nspin ref

/-- `assign_exops(indices)`: two sets of orbitals are accepted by the `APset1roG` classes only; the doubles of `APset1roGSD` are the default
ones even then (apset1rog_sd.py:214) -/
def assignExops (k : Kind) (nspin ref : ℕ) (ranks : List ℕ) (indices : Option (List ℤ × List ℤ)) : Except PyErr (List (List ℕ)) :=
  match indices with
  | none => .ok (defaultExops k nspin ref ranks)
  | some (x, y) =>
    match k with
    | .apset1roGD => do
      let (x, y) ← checkSets ref x y
      return doublesSets nspin ref x y
    | .apset1roGSD => do
      let (x, y) ← checkSets ref x y
      return singlesSets nspin ref x y ++ doublesSets nspin ref (virtAlphas nspin ref) (virtBetas nspin ref)
    | _ => .error .typeError

/-- `assign_refwfn(refwfn)` for an integer — pccd_ap1rog.py:267-280 -/
def assignRef (nelec nspin m : ℕ) : Except PyErr ℕ :=
  if totalOcc (some m) ≠ nelec then .error .valueError
  else if ¬ ((∀ i ∈ (occIndices (some m)).take (nelec / 2), i + nspin / 2 ∈ occIndices (some m)) ∧
      (∀ i ∈ (occIndices (some m)).drop (nelec / 2), nspin / 2 ≤ i ∧ i - nspin / 2 ∈ occIndices (some m))) then .error .valueError
  else .ok m

/-- the attributes that the overlap reads; `indExops` is the list of the operators in the order of their indices -/
structure Wfn (R : Type) where
  base : CC.Wfn R
  nspatial : ℕ
  indExops : List (List ℕ)

/-- is the class derived from `CCSDsen0`? -/
def Kind.isSen0 : Kind → Bool
  | .sdSen0 | .sdtqSen0 | .sdqSen0 | .sdtSen2qSen0 => true
  | _ => false

/-- `Class(nelec, nspin, ranks=ranks, indices=indices, refwfn=refwfn, params=params, exop_combinations=...)` — pccd_ap1rog.py:152-160,
ccsd_sen0.py:148-158, cc/base.py:178-187; `ranks` is whether there is an argument `ranks`.  `CCSDsen0` assigns the operators again for the
given reference, but not `ind_exops`. -/
def init {R : Type} (k : Kind) (nelec nspin : ℕ) (ranksGiven : Bool) (indices : Option (List ℤ × List ℤ)) (refwfn : Option ℕ) (params : ℕ → R)
    (memoGiven : Bool) : Except PyErr (Wfn R) := do
  CI.checkNelec nelec
  if nelec % 2 ≠ 0 then .error .valueError
  else do
    CI.checkNspin nspin
    let ranks ← assignRanks k nelec
    let g ← ground nelec nspin
    if k.isSen0 then do
      let ref ← match refwfn with
        | none => .ok g
        | some m => assignRef nelec nspin m
      if ranksGiven then .error (ranksError k)
      else do
        let exops ← assignExops k nspin ref ranks indices
        return ⟨⟨ranks, ref, exops, params, !memoGiven⟩, nspin / 2, defaultExops k nspin g ranks⟩
    else if ranksGiven then .error (ranksError k)
    else do
      let exops ← assignExops k nspin g ranks indices
      let ref ← match refwfn with
        | none => .ok g
        | some m => assignRef nelec nspin m
      return ⟨⟨ranks, ref, exops, params, !memoGiven⟩, nspin / 2, exops⟩

/-- the annihilators of an operator are put in `trash`, unless one is there already — pccd_ap1rog.py:364-372 -/
def trashAll : List ℕ → List ℕ → Option (List ℕ)
  | trash, [] => some trash
  | trash, j :: r => if j ∈ trash then none else trashAll (j :: trash) r

/-- one operator of a product; `none` if the product is skipped — pccd_ap1rog.py:339-372, 446-489 -/
def keepOp (n : ℕ) (occ : List ℕ) (trash exop : List ℕ) : Option (List ℕ) :=
  if exop.length = 2 then
    if exop.headD 0 ∈ trash then none
    else if exop.headD 0 < n then
      if exop.headD 0 + n ∉ occ then none else some ((exop.headD 0 + n) :: exop.headD 0 :: trash)
    else if exop.headD 0 - n ∉ occ then none else some ((exop.headD 0 - n) :: exop.headD 0 :: trash)
  else trashAll trash (exop.take (exop.length / 2))

/-- is the product of these operators kept? — pccd_ap1rog.py:336-375, 443-492 -/
def keepRow (n : ℕ) (occ : List ℕ) (ops : List (List ℕ)) : Bool := (ops.foldlM (keepOp n occ) []).isSome

/-- `indices_multi[exc_order] = indices_sign[selected_rows]` — pccd_ap1rog.py:330-377, 437-494 -/
def selectRows {R : Type} (w : Wfn R) (occ : List ℕ) (paths : List (List ℕ × ℤ)) : List (List ℕ × ℤ) :=
  paths.filter fun p => keepRow w.nspatial occ (p.1.map fun i => w.indExops.getD i [])

section
variable {R : Type} [CommRing R]

/-- `_olp(sd)` — pccd_ap1rog.py:305-393: the occupied orbitals of the determinant select the products -/
def overlap (w : Wfn R) (sd : ℕ) : Except PyErr R :=
  if sd = w.base.refwfn then .ok 1
  else do
    let (sign, paths) ← expansion w.base sd
    return (sign : R) * amplitudes w.base.params (selectRows w (occIndices (some sd)) paths)

/-- entry `j` of `_olp_deriv(sd)` — pccd_ap1rog.py:412-510: the occupied orbitals of the reference select the products -/
def dOverlap (w : Wfn R) (sd : ℕ) (j : ℕ) : Except PyErr R :=
  if sd = w.base.refwfn then .ok 0
  else do
    let (sign, paths) ← expansion w.base sd
    return (sign : R) * dAmplitudes w.base.params (selectRows w (occIndices (some w.base.refwfn)) paths) j

end

end Fanpy.PCCD
