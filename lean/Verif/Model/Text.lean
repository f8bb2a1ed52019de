import Verif.Model.Slater
import Mathlib.Data.List.Basic
import Mathlib.Data.List.GetD

/-! Model of the text that `fanpy/analysis` writes and reads back: zero padded binary numbers, decimal numbers, and
words separated by single spaces.  A text is a list of characters. -/

namespace Fanpy.Text
open Fanpy.Slater

/-- `format(n, f"0{width}b")`: binary digits, most significant first, padded on the left with zeros —
analysis/dataframe/ci.py:112-113, cc.py:126, geminal.py:181, printer/cc.py:33, printer/ci.py:34-35.
(Only natural numbers: the code formats determinants.) -/
def fmtBits (width n : ℕ) : List Char :=
  List.replicate (width - (Nat.toDigits 2 n).length) '0' ++ Nat.toDigits 2 n

/-- `str(n)` of a natural number — analysis/dataframe/cc.py:29, 235, geminal.py:42, 302. -/
def pyStr (n : ℕ) : List Char := Nat.toDigits 10 n

/-- `" ".join(parts)` — analysis/dataframe/ci.py:110, cc.py:29, 192, 235. -/
def joinSp (parts : List (List Char)) : List Char := [' '].intercalate parts

/-- `text.split()` — analysis/dataframe/ci.py:139, cc.py:127, geminal.py:183.  Words between spaces; empty words are
dropped.  Simplification: the space is the only white space character. -/
def splitSp (s : List Char) : List (List Char) := (s.splitOn ' ').filter (fun w => !w.isEmpty)

/-- `int(text, base)` for bases up to ten — analysis/dataframe/ci.py:138, cc.py:127, 148.  Simplification: signs,
underscores and surrounding white space, which Python accepts too, are refused here; none occurs in a text made by
this package. -/
def parseInt (base : ℕ) (s : List Char) : Except PyErr ℕ :=
  if s.isEmpty then .error .valueError
  else if s.all (fun c => c.isDigit && decide (c.toNat - 48 < base)) then .ok (Nat.ofDigitChars base s 0)
  else .error .valueError

end Fanpy.Text
