import Verif.Model.HamWfn
import Mathlib.Algebra.Ring.Int.Defs

/-!
# Model of `ham_factory` and `wfn_factory`

`fanpy/ham/utils.py` and `fanpy/wfn/utils.py`: Hamiltonians and wavefunctions made from functions.  The functions given by the caller
are arbitrary and may raise.  A parameter array is any type `P`; the derivative of an overlap is a one-dimensional array.  Numbers are
those of a commutative ring: rounding and the types of arrays (an in-place sum into an array of a smaller type raises) are left out.
-/

namespace Fanpy.Factory
open Fanpy.Slater Fanpy.It

variable {R : Type} [CommRing R]

/-! ### Hamiltonians -/

/-- the object returned by `ham_factory(integrate_sd_sd_decomposed, integrals, nspin, orders, integrate_sd_wfn)` — ham/utils.py:37-78, 203.
`custom` is the argument `integrate_sd_wfn`; `W` is the type of wavefunctions, `D` of `wfn_deriv` and `V` of the results. -/
structure MadeHam (R I W D V : Type) where
  decomposed : ℕ → ℕ → I → Except PyErr (List R)
  integrals : I
  nspin : ℕ
  orders : List ℤ
  custom : Option (I → ℕ → ℕ → W → D → Except PyErr V)

variable {I W D V : Type}

/-- `assign_integrals(integrals)` — ham/utils.py:65-78 -/
def assignIntegrals (h : MadeHam R I W D V) (integrals : I) : MadeHam R I W D V := { h with integrals := integrals }

/-- `integrate_sd_sd_decomposed(sd1, sd2)` — ham/utils.py:150-174 -/
def madeDecomposed (h : MadeHam R I W D V) (sd1 sd2 : ℕ) : Except PyErr (List R) := h.decomposed sd1 sd2 h.integrals

/-- `integrate_sd_sd(sd1, sd2)` — ham/utils.py:176-201: `np.sum` over the first axis of the components, which are numbers -/
def madeSdSd (h : MadeHam R I W D V) (sd1 sd2 : ℕ) : Except PyErr R := do
  return (← madeDecomposed h sd1 sd2).sum

/-- `it.combinations(l, order)`: a negative number raises `ValueError` -/
def combinations (l : List ℕ) (order : ℤ) : Except PyErr (List (List ℕ)) :=
  if order < 0 then .error .valueError else .ok (comb l order.toNat)

/-- innermost step — ham/utils.py:143-145.  `excite` gives no `None` for orbitals that are occupied and virtual. -/
def madeStep (sdsd : ℕ → ℕ → Except PyErr R) (smul : R → V → V) (add : V → V → Except PyErr V) (ov : ℕ → Except PyErr V) (sd : ℕ)
    (ann cre : List ℕ) (acc : V) : Except PyErr V := do
  match ← excite (some sd) (ann ++ cre) with
  | none => .error .typeError
  | some m =>
    let coeff ← ov m
    let elem ← sdsd sd m
    add acc (smul elem coeff)

/-- the loops of `integrate_sd_wfn` — ham/utils.py:135-147.  `ov m` is `wfn.get_overlap(m, deriv=wfn_deriv)`, `add` is `integral += …`. -/
def madeLoop (nspin : ℕ) (sdsd : ℕ → ℕ → Except PyErr R) (smul : R → V → V) (add : V → V → Except PyErr V) (ov : ℕ → Except PyErr V)
    (sd : ℕ) (orders : List ℤ) : Except PyErr V := do
  let occ := occIndices (some sd)
  let vir := virIndices (some sd) nspin
  let coeff ← ov sd
  let elem ← sdsd sd sd
  orders.foldlM (fun acc order => do
    let anns ← combinations occ order
    anns.foldlM (fun acc ann => do
      let cres ← combinations vir order
      cres.foldlM (fun acc cre => madeStep sdsd smul add ov sd ann cre acc) acc) acc) (smul elem coeff)

/-- `integrate_sd_wfn(sd, wfn, wfn_deriv, orders)` — ham/utils.py:80-148.  `orders` is `none` for the default, which is the value given
to `ham_factory`.  A custom function gets no orders. -/
def madeSdWfn (h : MadeHam R I W D V) (smul : R → V → V) (add : V → V → Except PyErr V) (getOverlap : W → ℕ → D → Except PyErr V) (sd : ℕ)
    (wfn : W) (deriv : D) (orders : Option (List ℤ)) : Except PyErr V :=
  match h.custom with
  | none => madeLoop h.nspin (madeSdSd h) smul add (fun m => getOverlap wfn m deriv) sd (orders.getD h.orders)
  | some g => g h.integrals h.nspin sd wfn deriv

/-- the keywords of a method of the generated class (`made`) and of `BaseHamiltonian` — ham/utils.py:80, 176 and ham/base.py:85, 206 -/
def keywords (made : Bool) : String → List String
  | "integrate_sd_wfn" => if made then ["sd", "wfn", "wfn_deriv", "orders"]
      else ["sd", "wfn", "wfn_deriv", "ham_deriv", "orders", "components"]
  | "integrate_sd_sd" => if made then ["sd1", "sd2"] else ["sd1", "sd2", "deriv"]
  | _ => []

/-- a call with two positional arguments and some keywords: a keyword that is not in the signature raises `TypeError` -/
def checkCall (made : Bool) (method : String) (kws : List String) : Except PyErr Unit :=
  if ∀ k ∈ kws, k ∈ (keywords made method).drop 2 then .ok () else .error .typeError

/-! ### Arrays -/

/-- `a += b` for one-dimensional arrays: an array of length one is added to every entry, other lengths raise `ValueError` -/
def addInto (a b : List R) : Except PyErr (List R) :=
  if b.length = a.length then .ok (List.zipWith (· + ·) a b)
  else match b with
    | [x] => .ok (a.map (· + x))
    | _ => .error .valueError

/-- `a[i]` for an integer: negative indices count from the end -/
def entry (a : List R) (i : ℤ) : Except PyErr R :=
  if 0 ≤ i then
    match a[i.toNat]? with
    | some x => .ok x
    | none => .error .indexError
  else if 0 ≤ i + a.length then .ok (a.getD (i + a.length).toNat 0)
  else .error .indexError

/-- `a[indices]` for an array of integers -/
def entries (a : List R) (indices : List ℤ) : Except PyErr (List R) := indices.mapM (entry a)

/-! ### Wavefunctions -/

/-- the object returned by `wfn_factory(olp, olp_deriv, nelec, nspin, params, memory, assign_params)` — wfn/utils.py:57-79, 159.  `custom`
is the argument `assign_params`, which sets the parameters of the object. -/
structure MadeWfn (R P A : Type) where
  olp : ℕ → P → Except PyErr R
  olpDeriv : ℕ → P → Except PyErr (List R)
  custom : Option (P → Option A → Except PyErr P)
  params : P

variable {P A : Type}

/-- `assign_params(params)` — wfn/utils.py:81-93 and wfn/base.py:265-268: by default `None` raises `NotImplementedError`, anything else is
stored as it is.  `store` stands for `self.params = params`. -/
def assignParams (w : MadeWfn R P A) (store : A → P) (a : Option A) : Except PyErr (MadeWfn R P A) :=
  match w.custom with
  | none =>
    match a with
    | none => .error .notImplemented
    | some a => .ok { w with params := store a }
  | some g => do return { w with params := ← g w.params a }

/-- a history of assignments; a call that raises leaves the object -/
def assignAll (w : MadeWfn R P A) (store : A → P) : List (Option A) → MadeWfn R P A
  | [] => w
  | a :: rest =>
    match assignParams w store a with
    | .ok w' => assignAll w' store rest
    | .error _ => assignAll w store rest

/-- `get_overlap(sd)` — wfn/utils.py:153-155 -/
def getOverlap (w : MadeWfn R P A) (sd : ℕ) : Except PyErr R := w.olp sd w.params

/-- `get_overlap(sd, deriv)` — wfn/utils.py:157 -/
def getOverlapDeriv (w : MadeWfn R P A) (sd : ℕ) (deriv : List ℤ) : Except PyErr (List R) := do
  entries (← w.olpDeriv sd w.params) deriv

end Fanpy.Factory
