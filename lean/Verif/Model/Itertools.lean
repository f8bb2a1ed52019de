import Mathlib.Data.List.Basic

/-! # Model of the parts of Python's `itertools` used by fanpy (not fanpy code itself) -/

namespace Fanpy.It

/-- `itertools.combinations(l, k)`: the `k`-element subsequences in lexicographic position order.
Used e.g. at slater.py:1098, sd_list.py:124. -/
def comb {α : Type*} : List α → ℕ → List (List α)
  | _, 0 => [[]]
  | [], _ + 1 => []
  | x :: xs, k + 1 => (comb xs k).map (x :: ·) ++ comb xs (k + 1)

/-- `itertools.product(l, m)`, used e.g. at slater.py:1158. -/
def prod {α β : Type*} (l : List α) (m : List β) : List (α × β) := l.flatMap fun a => m.map fun b => (a, b)

/-- `itertools.permutations(l)` (full length): first element varies slowest, positions in lexicographic order.
Used e.g. at math_tools.py:114, graphs.py:113. The list is given with the fuel of its own length. -/
def permsAux {α : Type*} : ℕ → List α → List (List α)
  | 0, _ => [[]]
  | n + 1, l => (List.range l.length).flatMap fun i =>
      match l[i]? with
      | none => []
      | some x => (permsAux n (l.eraseIdx i)).map (x :: ·)

def perms {α : Type*} (l : List α) : List (List α) := permsAux l.length l

end Fanpy.It
