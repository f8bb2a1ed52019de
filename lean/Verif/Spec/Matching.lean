import Mathlib.Data.Sym.Sym2
import Mathlib.Data.Sym.Sym2.Order
import Mathlib.Data.Finset.Card

/-! # Specification: perfect matchings -/

namespace Fanpy.Spec

/-- `M` is a perfect matching of the complete graph on `s`: its edges join two different elements of `s` and every
element of `s` lies on exactly one edge. -/
def IsPM (s : Finset ℕ) (M : Finset (Sym2 ℕ)) : Prop :=
  (∀ e ∈ M, ¬ e.IsDiag ∧ ∀ x ∈ e, x ∈ s) ∧ ∀ x ∈ s, ∃! e, e ∈ M ∧ x ∈ e

/-- the set of unordered pairs of a pairing scheme -/
def edges (S : List (ℕ × ℕ)) : Finset (Sym2 ℕ) := (S.map fun p => s(p.1, p.2)).toFinset

end Fanpy.Spec
