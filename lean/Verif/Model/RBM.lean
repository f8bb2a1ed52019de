import Verif.Model.CreationCC

/-!
# Model of the restricted Boltzmann machine

`fanpy/wfn/network/rbm.py`.  The numbers are those of a commutative ring, the activation and its derivative are parameters (the code has
`1 + exp x` and `exp x`).  An array of shape `(a, b)` is a function of two natural numbers that is used below `a` and `b` only; the axes after the
first one of the parameters of the first layer are flattened in the order of `ndarray.flat`.  The number of electrons is not used by the class;
the parameters given as a list of arrays are assumed to have the shapes of `params_shape`.
-/

namespace Fanpy.RBM
open Fanpy.Slater

/-- The attributes; `scale` is `output_scale`, `none` if it was never set. -/
structure Wfn (R : Type) where
  nspin : ℕ
  nbath : ℕ
  orders : List ℕ
  numLayers : ℕ
  params : List (ℕ → ℕ → R)
  scale : Option R

/-- numbers of columns of the arrays of parameters: `params_shape` with the axes after the first one flattened — rbm.py:110-112. -/
def widths (nspin nbath : ℕ) (orders : List ℕ) (numLayers : ℕ) : List ℕ :=
  (orders.map fun k => nspin ^ k) ++ List.replicate (numLayers - 1) nbath

/-- `nparams` — rbm.py:86. -/
def nparams (nspin nbath : ℕ) (orders : List ℕ) (numLayers : ℕ) : ℤ :=
  ((orders.map fun k => nbath * nspin ^ k).sum : ℕ) + ((numLayers : ℤ) - 1) * (nbath : ℤ) ^ 2

section
variable {R : Type} [CommRing R]

/-- the elements of an array of shape `(a, b)` in the order of `.flat` -/
def flat (a b : ℕ) (W : ℕ → ℕ → R) : List R := (List.range a).flatMap fun i => (List.range b).map fun j => W i j

/-- `params` — rbm.py:69. -/
def flatParams (w : Wfn R) : List R :=
  ((w.params.zip (widths w.nspin w.nbath w.orders w.numLayers)).map fun q => flat w.nbath q.2 q.1).flatten

/-- `array.reshape(a, b)` of a list — rbm.py:212. -/
def reshape (a b : ℕ) (l : List R) : Except PyErr (ℕ → ℕ → R) :=
  if l.length = a * b then .ok fun i j => if i < a ∧ j < b then l.getD (i * b + j) 0 else 0 else .error .valueError

/-- the loop of `assign_params` that cuts the given array into arrays — rbm.py:210-214. -/
def structured (nbath : ℕ) : List ℕ → List R → Except PyErr (List (ℕ → ℕ → R))
  | [], _ => .ok []
  | b :: bs, l => do
    let W ← reshape nbath b (l.take (nbath * b))
    let r ← structured nbath bs (l.drop (nbath * b))
    return W :: r

/-- `template_params` and `output_scale` of `assign_template_params()` — rbm.py:157-178; `half` is the number 0.5. -/
def template (half : R) (nspin nbath : ℕ) (orders : List ℕ) (numLayers : ℕ) : List (ℕ → ℕ → R) × R :=
  ((widths nspin nbath orders numLayers).map fun _ => fun _ _ => 0, half)

/-- `__init__` with `params` `None` or an array — rbm.py:55-63, 205-220. -/
def init (half : R) (nspin nbath : ℕ) (params : Option (List R)) (numLayers : ℕ) (orders : List ℕ) : Except PyErr (Wfn R) := do
  CI.checkNspin nspin
  match params with
  | none =>
    let t := template half nspin nbath orders numLayers
    return ⟨nspin, nbath, orders, numLayers, t.1, some t.2⟩
  | some l =>
    let s ← structured nbath (widths nspin nbath orders numLayers) l
    return ⟨nspin, nbath, orders, numLayers, s, none⟩

/-- `assign_params(params)` for an array — rbm.py:209-220. -/
def assignParams (w : Wfn R) (l : List R) : Except PyErr (Wfn R) := do
  let s ← structured w.nbath (widths w.nspin w.nbath w.orders w.numLayers) l
  return { w with params := s }

/-- `occ_mask`, and the error of an orbital out of range — rbm.py:303-305. -/
def occMask (nspin sd : ℕ) : Except PyErr (ℕ → Bool) :=
  if (occIndices (some sd)).all (· < nspin) then .ok fun i => decide (i ∈ occIndices (some sd)) else .error .indexError

/-- the flattened `mask` after `m` steps of the loop — rbm.py:319-321; the value at `c` is at the position with the base `nspin` digits of `c`. -/
def maskAt (nspin : ℕ) (occ : ℕ → Bool) : ℕ → ℕ → Bool
  | 0, c => occ c
  | m + 1, c => maskAt nspin occ m (c / nspin) && occ (c % nspin)

/-- flattened `input_layer` — rbm.py:318-322; without axes it cannot be indexed with the mask. -/
def inputLayer (nspin : ℕ) (occ : ℕ → Bool) (order : ℕ) : Except PyErr (ℕ → R) :=
  if order = 0 then .error .indexError else .ok fun c => if maskAt nspin occ (order - 1) c then 1 else 0

/-- rows of a matrix times a vector: `np.sum(layer_params * input_layer, axis=…)` or `layer_params.dot(output)` — rbm.py:337, 349. -/
def dot (b : ℕ) (W : ℕ → ℕ → R) (a : ℕ → R) : ℕ → R := fun i => ∑ j ∈ Finset.range b, W i j * a j

/-- the loop over the orders: the sum of the contractions and the inputs — rbm.py:314-338. -/
def firstLayer (nspin : ℕ) (occ : ℕ → Bool) : List (ℕ × (ℕ → ℕ → R)) → (ℕ → R) → List (ℕ → R) → Except PyErr ((ℕ → R) × List (ℕ → R))
  | [], out, acts => .ok (out, acts)
  | (k, W) :: r, out, acts => do
    let x ← inputLayer nspin occ k
    firstLayer nspin occ r (fun i => out i + dot (nspin ^ k) W x i) (acts ++ [x])

/-- the loop over the other layers with the two caches — rbm.py:346-352. -/
def hiddenLayers (act : R → R) (nbath : ℕ) : List (ℕ → ℕ → R) → (ℕ → R) → List (ℕ → R) → List (ℕ → R) →
    (ℕ → R) × List (ℕ → R) × List (ℕ → R)
  | [], out, acts, lins => (out, acts, lins)
  | W :: r, out, acts, lins =>
    let z := dot nbath W out
    hiddenLayers act nbath r (fun i => act (z i)) (acts ++ [out]) (lins ++ [z])

/-- `_olp_helper(sd, cache=True)`: the output, `forward_cache_act` and `forward_cache_lin` — rbm.py:303-353; without parameters
`params_shape[0]` is an error. -/
def olpHelper (act : R → R) (w : Wfn R) (sd : ℕ) : Except PyErr ((ℕ → R) × List (ℕ → R) × List (ℕ → R)) := do
  let occ ← occMask w.nspin sd
  if widths w.nspin w.nbath w.orders w.numLayers = [] then .error .indexError else
  let (z, acts) ← firstLayer w.nspin occ (w.orders.zip w.params) (fun _ => 0) []
  return hiddenLayers act w.nbath (w.params.drop w.orders.length) (fun i => act (z i)) acts (w.orders.map fun _ => z)

/-- `self.output_scale` -/
def outputScale (w : Wfn R) : Except PyErr R :=
  match w.scale with
  | some s => .ok s
  | none => .error .attributeError

/-- `_olp(sd)` — rbm.py:277-282. -/
def olp (act : R → R) (w : Wfn R) (sd : ℕ) : Except PyErr R := do
  let (out, _, _) ← olpHelper act w sd
  let s ← outputScale w
  return ∏ y ∈ Finset.range w.nbath, out y * s

/-- the body of the loop over the layers of `_olp_deriv`; the state is `dy_da_prev` and `grads` — rbm.py:390-408. -/
def backStep (dact : R → R) (w : Wfn R) (acts lins : List (ℕ → R)) (s : R) (st : (ℕ → ℕ → R) × List (ℕ → ℕ → ℕ → R)) (i : ℕ) :
    (ℕ → ℕ → R) × List (ℕ → ℕ → ℕ → R) :=
  let a := acts.getD i 0
  let z := lins.getD i 0
  let W := w.params.getD i 0
  let dyDz : ℕ → ℕ → R := fun y r => st.1 y r * dact (z r)
  let grad : ℕ → ℕ → ℕ → R := fun y r c => dyDz y r * a c * s
  (if w.orders.length ≤ i then fun y c => ∑ r ∈ Finset.range w.nbath, dyDz y r * W r c else st.1, st.2 ++ [grad])

/-- `np.roll(np.arange(nbath), -i - 1)[:-1]` — rbm.py:413-414. -/
def otherIndices (nbath i : ℕ) : List ℕ := ((List.range nbath).rotate (i + 1)).dropLast

/-- `other_vals` — rbm.py:415. -/
def otherVals (nbath : ℕ) (vals : ℕ → R) (s : R) (y : ℕ) : R := ((otherIndices nbath y).map fun k => vals k * s).prod

/-- one array of `output`; `last` says whether it is that of `grads[-1]`, where the other values run along the second axis — rbm.py:418-420. -/
def gradFlat (nbath b : ℕ) (other : ℕ → R) (last : Bool) (g : ℕ → ℕ → ℕ → R) : List R :=
  flat nbath b fun r c => ∑ y ∈ Finset.range nbath, (if last then other r else other y) * g y r c

/-- `_olp_deriv(sd)` — rbm.py:382-421. -/
def olpDeriv (act dact : R → R) (w : Wfn R) (sd : ℕ) : Except PyErr (List R) := do
  let (vals, acts, lins) ← olpHelper act w sd
  let s ← outputScale w
  let grads := ((List.range w.params.length).reverse.foldl (backStep dact w acts lins s) (fun y r => if y = r then 1 else 0, [])).2.reverse
  let other := otherVals w.nbath vals s
  return (((grads.zip (widths w.nspin w.nbath w.orders w.numLayers)).zipIdx).map fun q =>
    gradFlat w.nbath q.1.2 other (q.2 + 1 == grads.length) q.1.1).flatten

/-- `get_overlap(sd, deriv)` for an array of indices — rbm.py:267. -/
def overlapDeriv (act dact : R → R) (w : Wfn R) (sd : ℕ) (deriv : List ℕ) : Except PyErr (List R) := do
  let d ← olpDeriv act dact w sd
  deriv.mapM (CreationCC.item d)

/-! ### `get_overlaps` — a second axis (or a last axis) for the determinants -/

/-- the loop over the orders of `get_overlaps`: `extra` is the number of axes that the earlier orders added to `occ_mask`; with any of them the mask
has more axes than `input_layer` — rbm.py:473-495. -/
def batchFirst (nspin : ℕ) (occ : ℕ → ℕ → Bool) : List (ℕ × (ℕ → ℕ → R)) → ℕ → (ℕ → ℕ → R) → List (ℕ → ℕ → R) →
    Except PyErr ((ℕ → ℕ → R) × List (ℕ → ℕ → R))
  | [], _, vals, acts => .ok (vals, acts)
  | (k, W) :: r, extra, vals, acts =>
    if 1 + k < 2 + extra + (k - 1) then .error .indexError else
    let x : ℕ → ℕ → R := fun c n => if maskAt nspin (occ n) (k - 1) c then 1 else 0
    batchFirst nspin occ r (extra + (k - 1)) (fun i n => vals i n + ∑ c ∈ Finset.range (nspin ^ k), W i c * x c n) (acts ++ [x])

/-- the loop over the other layers — rbm.py:501-505. -/
def batchHidden (act : R → R) (nbath : ℕ) : List (ℕ → ℕ → R) → (ℕ → ℕ → R) → List (ℕ → ℕ → R) → List (ℕ → ℕ → R) →
    (ℕ → ℕ → R) × List (ℕ → ℕ → R) × List (ℕ → ℕ → R)
  | [], vals, acts, lins => (vals, acts, lins)
  | W :: r, vals, acts, lins =>
    let z : ℕ → ℕ → R := fun i n => ∑ j ∈ Finset.range nbath, W i j * vals j n
    batchHidden act nbath r (fun i n => act (z i n)) (acts ++ [vals]) (lins ++ [z])

/-- the outputs of all determinants and the caches — rbm.py:459-505; determinants with different numbers of electrons are no array. -/
def batchHelper (act : R → R) (w : Wfn R) (sds : List ℕ) : Except PyErr ((ℕ → ℕ → R) × List (ℕ → ℕ → R) × List (ℕ → ℕ → R)) := do
  if ¬ (sds.all fun sd => (occIndices (some sd)).length == (occIndices (some (sds.headD 0))).length) then .error .valueError else
  if ¬ (sds.all fun sd => (occIndices (some sd)).all (· < w.nspin)) then .error .indexError else
  let occ : ℕ → ℕ → Bool := fun n i => decide (i ∈ occIndices (some (sds.getD n 0)))
  let (z, acts) ← batchFirst w.nspin occ (w.orders.zip w.params) 0 (fun _ _ => 0) []
  return batchHidden act w.nbath (w.params.drop w.orders.length) (fun i n => act (z i n)) acts (w.orders.map fun _ => z)

/-- `get_overlaps(sds)` — rbm.py:457-508. -/
def overlaps (act : R → R) (w : Wfn R) (sds : List ℕ) : Except PyErr (List R) := do
  if sds = [] then .ok [] else
  let (vals, _, _) ← batchHelper act w sds
  let s ← outputScale w
  return (List.range sds.length).map fun n => ∏ y ∈ Finset.range w.nbath, vals y n * s

/-- the body of the loop over the layers — rbm.py:515-534. -/
def batchStep (dact : R → R) (w : Wfn R) (acts lins : List (ℕ → ℕ → R)) (s : R) (st : (ℕ → ℕ → ℕ → R) × List (ℕ → ℕ → ℕ → ℕ → R)) (i : ℕ) :
    (ℕ → ℕ → ℕ → R) × List (ℕ → ℕ → ℕ → ℕ → R) :=
  let a := acts.getD i 0
  let z := lins.getD i 0
  let W := w.params.getD i 0
  let dyDz : ℕ → ℕ → ℕ → R := fun y r n => st.1 y r n * dact (z r n)
  let grad : ℕ → ℕ → ℕ → ℕ → R := fun y r c n => dyDz y r n * a c n * s
  (if w.orders.length ≤ i then fun y c n => ∑ r ∈ Finset.range w.nbath, dyDz y r n * W r c else st.1, st.2 ++ [grad])

/-- `get_overlaps(sds, deriv)` — rbm.py:457-548. -/
def overlapsDeriv (act dact : R → R) (w : Wfn R) (sds deriv : List ℕ) : Except PyErr (List (List R)) := do
  if sds = [] then .ok [] else
  let (vals, acts, lins) ← batchHelper act w sds
  let s ← outputScale w
  if w.params = [] then .error .indexError else
  let grads := ((List.range w.params.length).reverse.foldl (batchStep dact w acts lins s) (fun y r _ => if y = r then 1 else 0, [])).2.reverse
  let other : ℕ → ℕ → R := fun y n => ((otherIndices w.nbath y).map fun k => vals k n * s).prod
  let rows := (List.range sds.length).map fun n => ((grads.zip (widths w.nspin w.nbath w.orders w.numLayers)).map fun q =>
    flat w.nbath q.2 fun r c => ∑ y ∈ Finset.range w.nbath, other y n * q.1 y r c n).flatten
  rows.mapM fun d => deriv.mapM (CreationCC.item d)

/-- `normalize(pspace)` — rbm.py:579-588; `pow x` is `x ** (-0.5 / nbath)`, an error for no bath (division) and for the integer 0 of no
determinants (negative power). -/
def normalize (act : R → R) (pow : R → R) (w : Wfn R) (pspace : List ℕ) : Except PyErr (Wfn R) := do
  let olps ← pspace.mapM (olp act w)
  let norm := (olps.map fun x => x ^ 2).sum
  let s ← outputScale w
  if w.nbath = 0 then .error .zeroDivision else
  if pspace = [] then .error .zeroDivision else
  return { w with scale := some (s * pow norm) }

end

end Fanpy.RBM
