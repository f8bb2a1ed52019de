import Mathlib.Data.List.Sort
import Verif.Model.CI
import Mathlib.Data.Finset.Range
import Mathlib.Data.Finset.Card
import Mathlib.Data.Finset.Dedup

/-!
# Model of the composite wavefunctions made of several wavefunctions

`fanpy/wfn/composite/lincomb.py`, `product.py`, `embedding.py`, `embedding_fixedelectron.py`.

A component is any object with the attributes the code uses: its identity (`==` and `hash` of a wavefunction are those of
the object), its numbers of electrons and orbitals, and the method `get_overlap` without and with `deriv`.  Left out: checks
of Python types, the memory, saving of parameters, and components with a method `get_overlaps` of their own (which is
`get_overlap` for every determinant in the classes of the package that have it).
-/

namespace Fanpy.Composite
open Fanpy.Slater

variable {R : Type} [Field R]

/-- What is used of a component. -/
structure Comp (R : Type) where
  id : ℕ
  nelec : ℕ
  nspin : ℕ
  overlap : ℕ → Except PyErr R
  deriv : ℕ → List ℕ → Except PyErr (List R)

/-- `len(set(wfns)) != len(wfns)` -/
def hasDup (wfns : List (Comp R)) : Bool := ¬ (wfns.map Comp.id).Nodup

/-- `wfns.index(wfn)` -/
def indexOf (wfns : List (Comp R)) (id : ℕ) : ℕ := (wfns.map Comp.id).idxOf id

/-- `LinearCombinationWavefunction` -/
structure LinComb (R : Type) where
  id : ℕ
  nelec : ℕ
  nspin : ℕ
  wfns : List (Comp R)
  params : List R

/-- `assign_wfns(wfns)` — lincomb.py:195-212 -/
def checkWfns (nelec : ℕ) (wfns : List (Comp R)) : Except PyErr Unit :=
  if wfns.any (fun w => w.nelec ≠ nelec) then .error .valueError
  else if wfns.length = 1 then .error .valueError
  else if hasDup wfns then .error .valueError
  else .ok ()

/-- `assign_params(params)` — lincomb.py:139-143; the base class does not check the size. -/
def lincombParams (nwfns : ℕ) : Option (List R) → Except PyErr (List R)
  | none => if nwfns = 0 then .error .indexError else .ok ((List.replicate nwfns 0).set 0 1)
  | some p => .ok p

/-- `LinearCombinationWavefunction(nelec, nspin, wfns, params=params)` — lincomb.py:84-86 -/
def LinComb.init (id nelec nspin : ℕ) (wfns : List (Comp R)) (params : Option (List R)) : Except PyErr (LinComb R) := do
  CI.checkNelec nelec
  CI.checkNspin nspin
  checkWfns nelec wfns
  let p ← lincombParams wfns.length params
  return ⟨id, nelec, nspin, wfns, p⟩

/-- `np.sum(a * b)` of one-dimensional arrays: arrays of size one are broadcast. -/
def sumTimes (a b : List R) : Except PyErr R :=
  if a.length = b.length then .ok (List.zipWith (· * ·) a b).sum
  else if a.length = 1 then .ok (b.map fun y => a.headD 0 * y).sum
  else if b.length = 1 then .ok (a.map fun x => x * b.headD 0).sum
  else .error .valueError

/-- `np.array([wfn.get_overlap(sd) for wfn in self.wfns])` — lincomb.py:256, product.py:135 -/
def contrib (wfns : List (Comp R)) (sd : ℕ) : Except PyErr (List R) := wfns.mapM fun w => w.overlap sd

/-- `get_overlap(sd)` — lincomb.py:256-258 -/
def LinComb.overlap (w : LinComb R) (sd : ℕ) : Except PyErr R := do
  sumTimes w.params (← contrib w.wfns sd)

/-- `get_overlap(sd, (wfn, indices))` — lincomb.py:256-287, where `wfn` is the object with the given identity. -/
def LinComb.overlapDeriv (w : LinComb R) (sd : ℕ) (deriv : ℕ × List ℕ) : Except PyErr (List R) := do
  let c ← contrib w.wfns sd
  if deriv.1 ∉ w.id :: w.wfns.map Comp.id then .error .valueError
  else if deriv.1 = w.id ∧ deriv.2.any (fun i => w.params.length ≤ i) then .error .valueError
  else if deriv.1 = w.id then return c
  else
    let k := indexOf w.wfns deriv.1
    match w.wfns[k]? with
    | none => .error .valueError
    | some wfn =>
      match w.params[k]? with
      | none => .error .indexError
      | some p => do
        let d ← wfn.deriv sd deriv.2
        return d.map fun x => p * x

/-- `ProductWavefunction(wfns)` — product.py:78-92 -/
def productInit (wfns : List (Comp R)) : Except PyErr (List (Comp R)) :=
  match wfns with
  | [] => .error .indexError
  | w0 :: ws => do
    CI.checkNelec w0.nelec
    CI.checkNspin w0.nspin
    if (w0 :: ws).any (fun w => w.nelec ≠ w0.nelec) then .error .valueError
    else if hasDup (w0 :: ws) then .error .valueError
    else return w0 :: ws

/-- the last four lines of `get_overlap` — product.py:165-170, embedding.py:175-180 -/
def productRule (c : List R) (k : ℕ) (d : List R) : List R :=
  d.map fun x => (c.take k).prod * (c.drop (k + 1)).prod * x

/-- `ProductWavefunction.get_overlap(sd)` — product.py:135-137 -/
def productOverlap (wfns : List (Comp R)) (sd : ℕ) : Except PyErr R := do return (← contrib wfns sd).prod

/-- `ProductWavefunction.get_overlap(sd, (wfn, indices))` — product.py:135-170 -/
def productDeriv (wfns : List (Comp R)) (sd : ℕ) (deriv : ℕ × List ℕ) : Except PyErr (List R) := do
  let c ← contrib wfns sd
  match wfns[indexOf wfns deriv.1]? with
  | none => .error .valueError
  | some wfn => do
    let d ← wfn.deriv sd deriv.2
    return productRule c (indexOf wfns deriv.1) d

/-- `ProductWavefunction.get_overlaps(sds)` — product.py:214-222: the array of all contributions is filled one wavefunction
after the other, then multiplied along the first axis. -/
def productOverlaps (wfns : List (Comp R)) (sds : List ℕ) : Except PyErr (List R) := do
  let c ← wfns.mapM fun w => sds.mapM w.overlap
  return (List.range sds.length).map fun s => (c.map fun row => row.getD s 0).prod

/-- `ProductWavefunction.get_overlaps(sds, (wfn, indices))` — product.py:214-258 -/
def productDerivs (wfns : List (Comp R)) (sds : List ℕ) (deriv : ℕ × List ℕ) : Except PyErr (List (List R)) := do
  let c ← wfns.mapM fun w => sds.mapM w.overlap
  match wfns[indexOf wfns deriv.1]? with
  | none => .error .valueError
  | some wfn => do
    let d ← sds.mapM fun sd => wfn.deriv sd deriv.2
    return (List.range sds.length).map fun s => productRule (c.map fun row => row.getD s 0) (indexOf wfns deriv.1) (d.getD s [])

/-! ## Embedding -/

/-- `EmbeddedWavefunction`; `dict i` is `dict_system_sub.get(i)` -/
structure Embed (R : Type) where
  nelec : ℕ
  nspin : ℕ
  indices : List (List ℕ)
  wfns : List (Comp R)
  dict : ℕ → Option (List (ℕ × ℕ))

/-- `sorted(indices)` -/
def sortNat (l : List ℕ) : List ℕ := l.insertionSort (· ≤ ·)

/-- The checks of the constructor for one list of indices — embedding.py:37-41. -/
def checkIndices (nspatial : ℕ) (l : List ℕ) : Bool :=
  l.Nodup ∧ (l.map fun i => if i < nspatial then i else i - nspatial).toFinset.card = l.length / 2

/-- The check that no index occurs in two subsystems — embedding.py:66-73. -/
def overlapping : List (List ℕ) → Bool
  | [] => false
  | l :: ls => ls.any (fun m => m.any fun i => i ∈ l) || overlapping ls

/-- The insertion of one index into the dictionary — embedding.py:81-85. -/
def dictStep (system : ℕ) (d : ℕ → Option (List (ℕ × ℕ))) (p : ℕ × ℕ) : ℕ → Option (List (ℕ × ℕ)) :=
  fun i => if i = p.1 then some ((d i).getD [] ++ [(system, p.2)]) else d i

/-- `dict_system_sub` — embedding.py:77-85 -/
def dictSystemSub (indices : List (List ℕ)) : ℕ → Option (List (ℕ × ℕ)) :=
  indices.zipIdx.foldl (fun d p => (sortNat p.1).zipIdx.foldl (dictStep p.2) d) fun _ => none

/-- `EmbeddedWavefunction(nelec, nspin, indices_list, wfns, disjoint=disjoint)` — embedding.py:30-90 -/
def Embed.init (nelec nspin : ℕ) (indices : List (List ℕ)) (wfns : List (Comp R)) (disjoint : Bool) :
    Except PyErr (Embed R) := do
  CI.checkNelec nelec
  CI.checkNspin nspin
  if indices.any (fun l => ! checkIndices (nspin / 2) l) then .error .valueError
  else if indices.flatten.toFinset ≠ Finset.range nspin then .error .valueError
  else if wfns.length ≠ indices.length then .error .valueError
  else if (List.zipWith (fun (w : Comp R) l => decide (w.nspin ≠ l.length)) wfns indices).any id then .error .valueError
  else if disjoint ∧ nelec ≠ (wfns.map Comp.nelec).sum then .error .valueError
  else if disjoint ∧ nspin ≠ (wfns.map Comp.nspin).sum then .error .valueError
  else if disjoint ∧ overlapping indices then .error .valueError
  else return ⟨nelec, nspin, indices, wfns, dictSystemSub indices⟩

/-- `sd_list[system_ind] = slater.create(sd_list[system_ind], j)` — embedding.py:99-100 -/
def putElectron (l : List (Option ℕ)) (p : ℕ × ℕ) : List (Option ℕ) := l.set p.1 (create (l.getD p.1 none) [p.2])

/-- one occupied orbital in `split_sd` — embedding.py:98-100 -/
def Embed.splitStep (w : Embed R) (l : List (Option ℕ)) (i : ℕ) : Except PyErr (List (Option ℕ)) :=
  match w.dict i with
  | none => .error .keyError
  | some ps => .ok (ps.foldl putElectron l)

/-- `split_sd(sd)` — embedding.py:97-101 -/
def Embed.split (w : Embed R) (sd : ℕ) : Except PyErr (List (Option ℕ)) :=
  (occIndices (some sd)).foldlM w.splitStep (List.replicate w.wfns.length (some 0))

/-- `wfn.get_overlap(sd)` where `sd` may be `None` (never the case, see `C46_split`) -/
def overlapOpt (w : Comp R) : Option ℕ → Except PyErr R
  | none => .error .typeError
  | some sd => w.overlap sd

/-- the contributions of the subsystems — embedding.py:145 -/
def contribs (wfns : List (Comp R)) (sds : List (Option ℕ)) : Except PyErr (List R) :=
  (wfns.zip sds).mapM fun p => overlapOpt p.1 p.2

/-- `EmbeddedWavefunction.get_overlap(sd)` — embedding.py:144-147 -/
def Embed.overlap (w : Embed R) (sd : ℕ) : Except PyErr R := do
  let l ← w.split sd
  return (← contribs w.wfns l).prod

/-- the derivative of the `k`-th subsystem — embedding.py:174-180 -/
def derivAt (wfns : List (Comp R)) (l : List (Option ℕ)) (c : List R) (deriv : ℕ × List ℕ) : Except PyErr (List R) :=
  match wfns[indexOf wfns deriv.1]?, l[indexOf wfns deriv.1]? with
  | some wfn, some (some sd) => do
    let d ← wfn.deriv sd deriv.2
    return productRule c (indexOf wfns deriv.1) d
  | some _, _ => .error .typeError
  | none, _ => .error .valueError

/-- `EmbeddedWavefunction.get_overlap(sd, (wfn, indices))` — embedding.py:144-180 -/
def Embed.overlapDeriv (w : Embed R) (sd : ℕ) (deriv : ℕ × List ℕ) : Except PyErr (List R) := do
  let l ← w.split sd
  let c ← contribs w.wfns l
  derivAt w.wfns l c deriv

/-- `FixedEmbeddedWavefunction.split_sd(sd)` — embedding_fixedelectron.py:36-46: `sd_nelecs` counts the creations, which
is the number of electrons of each subsystem since no creation fails (C46_split); `nelec_list` must have an entry for each subsystem. -/
def Embed.splitFixed (w : Embed R) (nelecs : List ℕ) (sd : ℕ) : Except PyErr (List (Option ℕ)) := do
  let l ← w.split sd
  if nelecs.length < w.wfns.length then .error .indexError
  else return List.zipWith (fun n s => if n ≠ totalOcc s then some 0 else s) nelecs l

/-- `FixedEmbeddedWavefunction.get_overlap(sd)` — embedding_fixedelectron.py:89-95 -/
def Embed.overlapFixed (w : Embed R) (nelecs : List ℕ) (sd : ℕ) : Except PyErr R := do
  let l ← w.splitFixed nelecs sd
  if some 0 ∈ l then return 0
  else return (← contribs w.wfns l).prod

/-- `FixedEmbeddedWavefunction.get_overlap(sd, (wfn, indices))` — embedding_fixedelectron.py:89-133 -/
def Embed.overlapFixedDeriv (w : Embed R) (nelecs : List ℕ) (sd : ℕ) (deriv : ℕ × List ℕ) : Except PyErr (List R) := do
  let l ← w.splitFixed nelecs sd
  let c ← contribs w.wfns l
  if indexOf w.wfns deriv.1 = w.wfns.length then .error .valueError
  else if some 0 ∈ l then return List.replicate deriv.2.length 0
  else derivAt w.wfns l c deriv

end Fanpy.Composite
