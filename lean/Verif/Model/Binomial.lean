import Verif.Model.Slater
import Mathlib.Data.Rat.Floor

/-!
# Model of `binomial` (tools/math_tools.py)

`comb(n, k, exact=True)` of scipy is not in the repository; it is modelled by its loop for integers of Python (`_comb_int_long`).  Finite floats are
rational numbers; a message is modelled by the name of the argument and the number to which it is floored.
-/

namespace Fanpy.Binomial

/-- an argument: an integer of Python (or a boolean), a finite float (or another number that is not an `int`), an infinite float, not a number -/
inductive Num
  | int (z : ℤ)
  | float (x : ℚ)
  | inf
  | nan

/-- `numerator *= M - j; denominator *= j` for `j` from `1` to the number of terms, with `M = N + 1` — tools/math_tools.py:64 (scipy) -/
def loop (N : ℤ) : ℕ → ℤ × ℤ
  | 0 => (1, 1)
  | j + 1 => ((loop N j).1 * (N + 1 - (j + 1)), (loop N j).2 * (j + 1))

/-- `comb(n, k, exact=True)` — tools/math_tools.py:64 (scipy) -/
def comb (N k : ℤ) : ℤ :=
  if k > N ∨ N < 0 ∨ k < 0 then 0
  else
    let r := loop N (min k (N - k)).toNat
    r.1 / r.2

/-- an argument as an integer, and the messages — tools/math_tools.py:54-62; `math.floor` raises `OverflowError` for an infinite number and
`ValueError` for `nan` -/
def floored (name : String) : Num → Except PyErr (ℤ × List (String × ℤ))
  | .int z => .ok (z, [])
  | .float x => .ok (⌊x⌋, [(name, ⌊x⌋)])
  | .inf => .error .overflow
  | .nan => .error .valueError

/-- `binomial(n, k)` with the messages that it prints — tools/math_tools.py:54-64 -/
def binomial (n k : Num) : Except PyErr (ℤ × List (String × ℤ)) :=
  match floored "n" n with
  | .error e => .error e
  | .ok (n, printed) =>
    match floored "k" k with
    | .error e => .error e
    | .ok (k, printed') => .ok (comb n k, printed ++ printed')

end Fanpy.Binomial
