import Verif.Model.ParamHeap

/-!
# Parameters as values

What a program would observe if `assign_params` copied its argument: every wavefunction has its own list of
parameters, and overlaps are always computed from them.
-/

namespace Fanpy.Spec.ParamValues

open Fanpy Fanpy.ParamHeap

/-- Arrays of the caller, parameters of the wavefunctions that were constructed, and the arrays of the caller that
were given away. -/
structure VSt (R : Type) where
  arr : Nat → List R
  par : Nat → Option (List R)
  lent : List Nat

section
variable {R : Type}

/-- Replacement of the entries with the given indices. -/
def put (v : List R) (inds : List Nat) (xs : List R) : List R :=
  (inds.zip xs).foldl (fun l p => l.set p.1 p.2) v

/-- The number of parameters is accepted. -/
def fits (c : Cls R) (v : List R) : Bool := c.size.all (fun n => v.length == n)

/-- New parameters of a wavefunction; arrays `ks` are given away. -/
def become (cls : Nat → Cls R) (v : VSt R) (w : Nat) (old new : List R) (ks : List Nat) :
    VSt R × Sum (Option PyErr) R :=
  if fits (cls w) old then
    (⟨v.arr, fun u => if u = w then some new else v.par u, ks ++ v.lent⟩, Sum.inl none)
  else (v, Sum.inl (some PyErr.valueError))

/-- Assignment of the active parameters, component by component. -/
def distribute (x : List R) : VSt R → Nat → List (Nat × List Nat) → VSt R × Sum (Option PyErr) R
  | v, _, [] => (v, Sum.inl none)
  | v, off, c :: rest =>
    if ∀ i ∈ c.2, i < ((v.par c.1).getD []).length then
      distribute x
        ⟨v.arr, fun u => if u = c.1 then some (put ((v.par c.1).getD []) c.2 ((x.drop off).take c.2.length))
          else v.par u, v.lent⟩ (off + c.2.length) rest
    else (v, Sum.inl (some PyErr.indexError))

variable [Add R]

/-- One event, if parameters are values. -/
def vstep (cls : Nat → Cls R) (v : VSt R) : Ev R → VSt R × Sum (Option PyErr) R
  | .new k c => (⟨fun j => if j = k then c.vals else v.arr j, v.par, v.lent⟩, Sum.inl none)
  | .write (Sum.inl k) i r =>
    if i < (v.arr k).length then
      (⟨fun j => if j = k then (v.arr k).set i r else v.arr j, v.par, v.lent⟩, Sum.inl none)
    else (v, Sum.inl (some PyErr.indexError))
  | .assign w (Sum.inl k) => become cls v w (v.arr k) (v.arr k) [k]
  | .noise w (Sum.inl k) r => become cls v w (v.arr k) (List.zipWith (· + ·) (v.arr k) r) [k]
  | .default w p => become cls v w p p []
  | .copy w w' => become cls v w ((v.par w').getD []) ((v.par w').getD []) []
  | .solve (Sum.inl k) comps =>
    if (comps.map (fun c => c.2.length)).sum = (v.arr k).length then distribute (v.arr k) v 0 comps
    else (v, Sum.inl (some PyErr.valueError))
  | .overlap w sd => (v, Sum.inr ((cls w).olp ((v.par w).getD []) sd))
  | _ => (v, Sum.inl none)

/-- A sequence of events, if parameters are values. -/
def vrun (cls : Nat → Cls R) : VSt R → List (Ev R) → VSt R × List (Sum (Option PyErr) R)
  | v, [] => (v, [])
  | v, e :: es => ((vrun cls (vstep cls v e).1 es).1, (vstep cls v e).2 :: (vrun cls (vstep cls v e).1 es).2)

/-- The discipline: the caller does not use an array any more after it was given to a wavefunction, arrays contain
floats, the noise has the size of the array, no wavefunction takes the array of another one, and only wavefunctions
that were constructed are used. -/
def Allowed (v : VSt R) : Ev R → Prop
  | .new k c => k ∉ v.lent ∧ c.ints = false
  | .write (Sum.inl k) _ _ => k ∉ v.lent
  | .assign _ (Sum.inl k) => k ∉ v.lent
  | .noise _ (Sum.inl k) r => k ∉ v.lent ∧ r.length = (v.arr k).length
  | .default _ _ => True
  | .copy _ w' => (v.par w').isSome
  | .solve (Sum.inl k) comps => k ∉ v.lent ∧ (∀ c ∈ comps, (v.par c.1).isSome)
  | .overlap w _ => (v.par w).isSome
  | _ => False

/-- Every event of the sequence is allowed when it happens. -/
def AllAllowed (cls : Nat → Cls R) : VSt R → List (Ev R) → Prop
  | _, [] => True
  | v, e :: es => Allowed v e ∧ AllAllowed cls (vstep cls v e).1 es

end

end Fanpy.Spec.ParamValues
