import Verif.Model.Slater

/-!
# Memory of the parameters of wavefunctions

Model of the arrays behind `wfn.params`: `BaseWavefunction.assign_params` stores the array that it is given,
the subclasses store a view of it, and `BaseSchrodinger.assign_params` writes into that array.

Simplifications: an array is its entries in C order together with a flag for integer entries and a flag for C
contiguous memory; a view (`reshape`, `ravel` of a contiguous array) is the same address; the arrays that the caller
makes and those that the library makes have addresses of different kinds; the wavefunctions are
those whose `params` is one numpy array (not `NonorthWavefunction`, whose parameters are a tuple, nor
`RestrictedBoltzmannMachine`, whose `params` makes a new array on every access).
-/

namespace Fanpy.ParamHeap

open Fanpy

/-- A numpy array: number type, layout and entries (in C order). -/
structure Cell (R : Type) where
  ints : Bool
  contig : Bool
  vals : List R

/-- Addresses: arrays made by the caller (`inl`) and arrays made by the library (`inr`). -/
abbrev Addr := Nat ⊕ Nat

/-- The arrays of the process; the library has not used the addresses from `next` on. -/
structure Mem (R : Type) where
  cells : Addr → Cell R
  next : Nat

/-- What depends on the class of a wavefunction: the overlap as a function of the parameters, whether
`assign_params` calls `clear_cache` (fanpy/wfn/geminal/base.py:329, fanpy/wfn/cc/base.py:450,
fanpy/wfn/network/mps.py:340, fanpy/wfn/quasiparticle/det_ratio.py:284; not fanpy/wfn/base.py:265-278), whether
overlaps are cached (`enable_cache`, fanpy/wfn/base.py:302-384), and the number of parameters if
`assign_params` checks it (fanpy/wfn/geminal/base.py:326, fanpy/wfn/cc/base.py:447-448). -/
structure Cls (R : Type) where
  olp : List R → Nat → R
  clears : Bool
  cached : Bool
  size : Option Nat

/-- A wavefunction: address of the array `params` and the cached overlaps. -/
structure Wfn (R : Type) where
  addr : Addr
  cache : List (Nat × R)

/-- All wavefunctions and arrays. -/
structure St (R : Type) where
  mem : Mem R
  wfn : Nat → Wfn R

section
variable {R : Type}

/-- Write of the entries `v` into the array at `a`. -/
def setVals (m : Mem R) (a : Addr) (v : List R) : Mem R :=
  ⟨fun b => if b = a then ⟨(m.cells a).ints, (m.cells a).contig, v⟩ else m.cells b, m.next⟩

/-- A new array of the library; its address is `Sum.inr m.next`. -/
def alloc (m : Mem R) (c : Cell R) : Mem R :=
  ⟨fun b => if b = Sum.inr m.next then c else m.cells b, m.next + 1⟩

/-- A new array of the caller. -/
def newArr (m : Mem R) (k : Nat) (c : Cell R) : Mem R :=
  ⟨fun b => if b = Sum.inl k then c else m.cells b, m.next⟩

/-- Change of one wavefunction. -/
def setWfn (s : St R) (w : Nat) (x : Wfn R) : St R :=
  ⟨s.mem, fun v => if v = w then x else s.wfn v⟩

/-- `new_params[indices] = values` (fanpy/eqn/base.py:330): the entries are converted to the number type of the
array, so numbers stored in an array of integers lose their fractional part (`trunc`). -/
def scatter (trunc : R → R) (c : Cell R) : List Nat → List R → List R
  | i :: is, v :: vs => scatter trunc ⟨c.ints, c.contig, c.vals.set i (if c.ints then trunc v else v)⟩ is vs
  | _, _ => c.vals

/-- `assign_params(params)` of a wavefunction for an array (fanpy/wfn/base.py:265-278 and the subclasses):
arrays with a wrong number of entries are refused by the classes that check it; otherwise the array itself
becomes `params`, and the cache is cleared by the classes that do so. -/
def assign (cls : Nat → Cls R) (s : St R) (w : Nat) (a : Addr) : St R × Option PyErr :=
  match (cls w).size with
  | some n =>
    if (s.mem.cells a).vals.length = n then
      (setWfn s w ⟨a, if (cls w).clears then [] else (s.wfn w).cache⟩, none)
    else (s, some PyErr.valueError)
  | none => (setWfn s w ⟨a, if (cls w).clears then [] else (s.wfn w).cache⟩, none)

variable [Add R]

/-- `self.params += scale * (rand - 0.5)` (fanpy/wfn/base.py:271-278), inside `assign_params` of the base class,
so before the subclass clears the cache. The sum is written into the array; numpy refuses to add floats to an
array of integers in place (`UFuncTypeError`, a `TypeError`), which happens before the cache is cleared.
`noise` is the array `scale * (rand - 0.5)`. -/
def assignNoise (cls : Nat → Cls R) (s : St R) (w : Nat) (a : Addr) (noise : List R) : St R × Option PyErr :=
  match (assign cls s w a).2 with
  | some e => (s, some e)
  | none =>
    if (s.mem.cells a).ints then (setWfn s w ⟨a, (s.wfn w).cache⟩, some PyErr.typeError)
    else
      (⟨setVals s.mem a (List.zipWith (· + ·) (s.mem.cells a).vals noise), (assign cls s w a).1.wfn⟩, none)

omit [Add R] in
/-- `component.params.ravel()` (fanpy/eqn/base.py:329): the array itself if it is contiguous, else a new one. -/
def ravel (m : Mem R) (a : Addr) : Mem R × Addr :=
  if (m.cells a).contig then (m, a)
  else (alloc m ⟨(m.cells a).ints, true, (m.cells a).vals⟩, Sum.inr m.next)

omit [Add R] in
/-- `new_params = component.params.ravel(); new_params[indices] = params[...]` (fanpy/eqn/base.py:329-330) for a
component with the array `a`, the argument `x` of `assign_params` and the position `off` of the first entry of
`x` that belongs to the component. -/
def fillIn (trunc : R → R) (m : Mem R) (x a : Addr) (off : Nat) (inds : List Nat) : Mem R :=
  setVals (ravel m a).1 (ravel m a).2
    (scatter trunc ((ravel m a).1.cells (ravel m a).2) inds (((m.cells x).vals.drop off).take inds.length))

omit [Add R] in
/-- The loop of `BaseSchrodinger.assign_params` (fanpy/eqn/base.py:328-331). A component is given by its
wavefunction and the indices of its active parameters; `x` is the address of the argument. An index outside of the
array of the component is an `IndexError`; the components before it keep what they were assigned. -/
def solveLoop (trunc : R → R) (cls : Nat → Cls R) (x : Addr) :
    St R → Nat → List (Nat × List Nat) → St R × Option PyErr
  | s, _, [] => (s, none)
  | s, off, c :: rest =>
    if ∀ i ∈ c.2, i < (s.mem.cells (s.wfn c.1).addr).vals.length then
      match assign cls ⟨fillIn trunc s.mem x (s.wfn c.1).addr off c.2, s.wfn⟩ c.1
          (ravel s.mem (s.wfn c.1).addr).2 with
      | (s', none) => solveLoop trunc cls x s' (off + c.2.length) rest
      | (s', some e) => (s', some e)
    else (⟨(ravel s.mem (s.wfn c.1).addr).1, s.wfn⟩, some PyErr.indexError)

omit [Add R] in
/-- `BaseSchrodinger.assign_params(x)` (fanpy/eqn/base.py:318-331). -/
def solve (trunc : R → R) (cls : Nat → Cls R) (s : St R) (x : Addr) (comps : List (Nat × List Nat)) :
    St R × Option PyErr :=
  if (comps.map (fun c => c.2.length)).sum = (s.mem.cells x).vals.length then
    solveLoop trunc cls x s 0 comps
  else (s, some PyErr.valueError)

omit [Add R] in
/-- `BaseSchrodinger.active_params` (fanpy/eqn/base.py:262). -/
def activeParams [Inhabited R] (s : St R) (comps : List (Nat × List Nat)) : List R :=
  comps.flatMap (fun c => c.2.map (fun i => ((s.mem.cells (s.wfn c.1).addr).vals[i]?).getD default))

omit [Add R] in
/-- `get_overlap(sd)` with the cache of `enable_cache` (`functools.lru_cache`, fanpy/wfn/base.py:302-384; the
size of the cache is not modelled). -/
def overlap (cls : Nat → Cls R) (s : St R) (w sd : Nat) : St R × R :=
  if (cls w).cached then
    match (s.wfn w).cache.lookup sd with
    | some v => (s, v)
    | none =>
      (setWfn s w ⟨(s.wfn w).addr, (sd, (cls w).olp (s.mem.cells (s.wfn w).addr).vals sd) :: (s.wfn w).cache⟩,
        (cls w).olp (s.mem.cells (s.wfn w).addr).vals sd)
  else (s, (cls w).olp (s.mem.cells (s.wfn w).addr).vals sd)

/-- What a program does with arrays and wavefunctions: make an array, write an entry, `assign_params` with an
array (with the noise if `add_noise`), with the default parameters (which the classes make anew), with another
wavefunction whose array is taken (fanpy/wfn/network/mps.py:337-338, fanpy/wfn/quasiparticle/det_ratio.py:281-282),
with another wavefunction whose parameters are copied (fanpy/wfn/geminal/base.py:306-318,
fanpy/wfn/cc/base.py:425-437, for the same orbital pairs or excitations), `assign_params` of an objective, and
`get_overlap`. -/
inductive Ev (R : Type) where
  | new (k : Nat) (c : Cell R)
  | write (a : Addr) (i : Nat) (v : R)
  | assign (w : Nat) (a : Addr)
  | noise (w : Nat) (a : Addr) (r : List R)
  | default (w : Nat) (v : List R)
  | take (w w' : Nat)
  | copy (w w' : Nat)
  | solve (x : Addr) (comps : List (Nat × List Nat))
  | overlap (w sd : Nat)

/-- One event; an exception leaves the state that was reached. -/
def step (trunc : R → R) (cls : Nat → Cls R) (s : St R) : Ev R → St R × Sum (Option PyErr) R
  | .new k c => (⟨newArr s.mem k c, s.wfn⟩, Sum.inl none)
  | .write a i v =>
    if i < (s.mem.cells a).vals.length then
      (⟨setVals s.mem a (scatter trunc (s.mem.cells a) [i] [v]), s.wfn⟩, Sum.inl none)
    else (s, Sum.inl (some PyErr.indexError))
  | .assign w a => ((assign cls s w a).1, Sum.inl (assign cls s w a).2)
  | .noise w a r => ((assignNoise cls s w a r).1, Sum.inl (assignNoise cls s w a r).2)
  | .default w v =>
    ((assign cls ⟨alloc s.mem ⟨false, true, v⟩, s.wfn⟩ w (Sum.inr s.mem.next)).1,
      Sum.inl (assign cls ⟨alloc s.mem ⟨false, true, v⟩, s.wfn⟩ w (Sum.inr s.mem.next)).2)
  | .take w w' => ((assign cls s w (s.wfn w').addr).1, Sum.inl (assign cls s w (s.wfn w').addr).2)
  | .copy w w' =>
    ((assign cls ⟨alloc s.mem ⟨false, true, (s.mem.cells (s.wfn w').addr).vals⟩, s.wfn⟩ w (Sum.inr s.mem.next)).1,
      Sum.inl (assign cls ⟨alloc s.mem ⟨false, true, (s.mem.cells (s.wfn w').addr).vals⟩, s.wfn⟩ w
        (Sum.inr s.mem.next)).2)
  | .solve x comps => ((solve trunc cls s x comps).1, Sum.inl (solve trunc cls s x comps).2)
  | .overlap w sd => ((overlap cls s w sd).1, Sum.inr (overlap cls s w sd).2)

/-- A sequence of events: the final state and what was observed. -/
def run (trunc : R → R) (cls : Nat → Cls R) : St R → List (Ev R) → St R × List (Sum (Option PyErr) R)
  | s, [] => (s, [])
  | s, e :: es =>
    ((run trunc cls (step trunc cls s e).1 es).1,
      (step trunc cls s e).2 :: (run trunc cls (step trunc cls s e).1 es).2)

end

end Fanpy.ParamHeap
