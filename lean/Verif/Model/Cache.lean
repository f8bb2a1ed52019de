import Verif.Model.Slater

/-!
# Model of the caches of wavefunctions

`enable_cache`, `clear_cache` and the parameter assignments of `fanpy/wfn/base.py` and of the classes that clear their cache, with
Python's `functools.lru_cache`.  The overlap and its derivative are arbitrary functions of the parameters, and may raise.
-/

namespace Fanpy.Cache

variable {P K V D W : Type}

/-- one `functools.lru_cache(maxsize)`: the most recently used entry first; `maxsize` is `none` for Python's `None` -/
structure Layer (K V : Type) where
  maxsize : Option ℕ
  entries : List (K × V)

/-- drop the least recently used entries if there are more than `maxsize` -/
def trim (m : Option ℕ) (l : List (K × V)) : List (K × V) :=
  match m with
  | none => l
  | some n => l.take n

/-- a call of a function under some layers of `lru_cache`, the outermost first.  With `maxsize = 0` nothing is stored or looked up;
a hit becomes the most recently used; a miss calls the next layer and stores its result, but not an exception. -/
def call [DecidableEq K] (f : K → Except PyErr V) (k : K) : List (Layer K V) → List (Layer K V) × Except PyErr V
  | [] => ([], f k)
  | l :: ls =>
    if l.maxsize = some 0 then (l :: (call f k ls).1, (call f k ls).2)
    else
      match l.entries.lookup k with
      | some v => ({ l with entries := (k, v) :: l.entries.filter (fun e => e.1 ≠ k) } :: ls, .ok v)
      | none =>
        match call f k ls with
        | (ls', .ok v) => ({ l with entries := trim l.maxsize ((k, v) :: l.entries) } :: ls', .ok v)
        | (ls', .error e) => (l :: ls', .error e)

/-- `cache_clear()` of the outermost layer -/
def clearOuter : List (Layer K V) → List (Layer K V)
  | [] => []
  | l :: ls => { l with entries := [] } :: ls

/-- the keys of `_cache_fns` -/
inductive Key where
  | overlap
  | derivative
  | other

/-- the wavefunction: its parameters, the layers around `_olp` and around `_olp_deriv` (`_olp_deriv_block` for the MPS), and
`_cache_fns`: `none` if there is no such attribute, else whether it has the key `"overlap derivative"` (`"overlap"` is always there) -/
structure Wfn (P K V D W : Type) where
  params : P
  olp : List (Layer K V)
  der : List (Layer D W)
  fns : Option Bool

/-- `enable_cache(include_derivative)` — wfn/base.py:321-336, wfn/network/mps.py:538-552; the size follows from the memory -/
def enable (w : Wfn P K V D W) (includeDerivative : Bool) (maxsize : ℕ) : Wfn P K V D W :=
  { w with
    olp := { maxsize := some maxsize, entries := [] } :: w.olp
    der := if includeDerivative then { maxsize := some maxsize, entries := [] } :: w.der else w.der
    fns := some includeDerivative }

/-- `load_cache()` of `BaseCC` — wfn/cc/base.py:646-674; the closures in `_cache_fns` are replaced (the second derivative is left out);
`none` is the size for infinite memory -/
def load (w : Wfn P K V D W) (maxsize : Option ℕ) : Wfn P K V D W :=
  { w with
    olp := [{ maxsize := maxsize, entries := [] }]
    der := [{ maxsize := some 0, entries := [] }]
    fns := some true }

/-- `clear_cache(key)` — wfn/base.py:396-401; a key that is not there is a `KeyError` -/
def clear (w : Wfn P K V D W) (key : Option Key) : Wfn P K V D W × Except PyErr Unit :=
  match w.fns, key with
  | none, _ => (w, .ok ())
  | some d, none => ({ w with olp := clearOuter w.olp, der := if d then clearOuter w.der else w.der }, .ok ())
  | some _, some .overlap => ({ w with olp := clearOuter w.olp }, .ok ())
  | some true, some .derivative => ({ w with der := clearOuter w.der }, .ok ())
  | some false, some .derivative => (w, .error .keyError)
  | some _, some .other => (w, .error .keyError)

/-- `BaseWavefunction.assign_params` — wfn/base.py:265-278, without noise: the cache is not touched.  A change of the array of the
parameters in place has the same effect. -/
def assignBase (w : Wfn P K V D W) (p : P) : Wfn P K V D W := { w with params := p }

/-- `assign_params` of the classes that clear their cache — wfn/network/mps.py:340, wfn/network/rbm.py:217-220,
wfn/quasiparticle/base.py:288, wfn/quasiparticle/det_ratio.py:284, wfn/geminal/base.py:329, wfn/cc/base.py:449-450 -/
def assign (w : Wfn P K V D W) (p : P) : Wfn P K V D W := (clear (assignBase w p) none).1

/-- `get_overlap(sd)` — for example wfn/geminal/base.py:538, wfn/cc/base.py:869 -/
def overlap [DecidableEq K] (f : P → K → Except PyErr V) (w : Wfn P K V D W) (k : K) : Wfn P K V D W × Except PyErr V :=
  ({ w with olp := (call (f w.params) k w.olp).1 }, (call (f w.params) k w.olp).2)

/-- the call of the derivative in `get_overlap(sd, deriv)` — for example wfn/geminal/base.py:540, wfn/network/mps.py:506 -/
def derivative [DecidableEq D] (g : P → D → Except PyErr W) (w : Wfn P K V D W) (k : D) : Wfn P K V D W × Except PyErr W :=
  ({ w with der := (call (g w.params) k w.der).1 }, (call (g w.params) k w.der).2)

/-- what can be done to a wavefunction -/
inductive Op (P K D : Type) where
  | assign (p : P)
  | assignBase (p : P)
  | clear (key : Option Key)
  | enable (includeDerivative : Bool) (maxsize : ℕ)
  | load (maxsize : Option ℕ)
  | overlap (k : K)
  | derivative (k : D)

/-- one operation, with the exceptions caught -/
def step [DecidableEq K] [DecidableEq D] (f : P → K → Except PyErr V) (g : P → D → Except PyErr W) (w : Wfn P K V D W) :
    Op P K D → Wfn P K V D W
  | .assign p => assign w p
  | .assignBase p => assignBase w p
  | .clear key => (clear w key).1
  | .enable i m => enable w i m
  | .load m => load w m
  | .overlap k => (overlap f w k).1
  | .derivative k => (derivative g w k).1

/-- a sequence of operations -/
def run [DecidableEq K] [DecidableEq D] (f : P → K → Except PyErr V) (g : P → D → Except PyErr W) (w : Wfn P K V D W)
    (ops : List (Op P K D)) : Wfn P K V D W := ops.foldl (step f g) w

/-- a wavefunction without caches -/
def fresh (p : P) : Wfn P K V D W := { params := p, olp := [], der := [], fns := none }

end Fanpy.Cache
