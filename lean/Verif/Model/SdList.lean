import Verif.Model.SlaterBulk

/-! # Model of `fanpy/tools/sd_list.py` -/

namespace Fanpy.SdList
open Fanpy.Slater Fanpy.It

/-- `satisfies_conditions(sd, nspatial, spin, seniority, hierarchy)` — sd_list.py:18-54.
The spin is given as twice its value, so that half-integers are integers (other floats never match a spin). -/
def satisfiesConditions (sd : ℕ) (nspatial : ℤ) (twoSpin seniority : Option ℤ) (hierarchy : Bool) :
    Except PyErr Bool := do
  let s ← getTwoSpin sd nspatial
  let v ← getSeniority sd nspatial
  if hierarchy then
    return (decide (twoSpin = none ∨ twoSpin = some 2 ∨ twoSpin = some s)) && decide (seniority = some (v : ℤ))
  else
    return (decide (twoSpin = none ∨ twoSpin = some s)) &&
      (match seniority with | none => true | some k => decide (k ≥ (v : ℤ)))

/-- the sort key `x - nspatial if x >= nspatial else x` — sd_list.py:138-139 -/
def energyKey (nspatial x : ℕ) : ℕ := if x ≥ nspatial then x - nspatial else x

/-- The two nested loops — sd_list.py:144-156.  The argument is the sequence of determinants produced by
`slater.excite`, in loop order; `None` would make `satisfies_conditions` raise `TypeError`. -/
def loop (nspatial : ℤ) (numLimit : Option ℕ) (twoSpin seniority : Option ℤ) (hierarchy : Bool) :
    List (Except PyErr (Option ℕ)) → ℕ → List ℕ → Except PyErr (List ℕ)
  | [], _, sds => .ok sds
  | c :: cs, count, sds => do
    match ← c with
    | none => .error .typeError
    | some sd =>
      if !(← satisfiesConditions sd nspatial twoSpin seniority hierarchy) then
        loop nspatial numLimit twoSpin seniority hierarchy cs count sds
      else
        let sds := sds ++ [sd]
        let count := count + 1
        if numLimit = some count then .ok sds
        else loop nspatial numLimit twoSpin seniority hierarchy cs count sds

/-- the test of `num_limit` — sd_list.py:116-117 -/
def badLimit : Option ℤ → Bool
  | none => false
  | some k => decide (k ≤ 0)

/-- the test `seniority < abs(2 * spin)` — sd_list.py:124-125 -/
def badSeniority : Option ℤ → Option ℤ → Bool
  | some s, some v => decide (v < |s|)
  | _, _ => false

/-- `sd_list(nelec, nspin, num_limit, exc_orders, spin, seniority, hierarchy)` — sd_list.py:57-156.
Type checks are not modelled; excitation orders are natural numbers (a negative order makes
`itertools.combinations` raise). -/
def sdList (nelec nspin : ℕ) (numLimit : Option ℤ) (excOrders : Option (List ℕ)) (twoSpin seniority : Option ℤ)
    (hierarchy : Bool) : Except PyErr (List ℕ) :=
  let excOrders := excOrders.getD (List.range' 1 nelec)
  if badLimit numLimit then .error .valueError
  else if badSeniority twoSpin seniority then .error .valueError
  else do
    let nspatial := nspin / 2
    let g ← ground nelec nspin
    let okG ← satisfiesConditions g nspatial twoSpin seniority hierarchy
    let sds := if okG then [g] else []
    let occIdx := (occIndices (some g)).mergeSort (fun a b => decide (energyKey nspatial a ≥ energyKey nspatial b))
    let virIdx := (virIndices (some g) nspin).mergeSort
      (fun a b => decide (energyKey nspatial a ≤ energyKey nspatial b))
    if numLimit = some 1 then return sds
    else
      let cands := excOrders.flatMap fun nexc =>
        (prod (comb occIdx nexc) (comb virIdx nexc)).map fun p => excite (some g) (p.1 ++ p.2)
      loop nspatial (numLimit.map Int.toNat) twoSpin seniority hierarchy cands 1 sds

end Fanpy.SdList
