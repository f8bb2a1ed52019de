import Verif.Model.Slater

/-!
# Files of basis sets

`convert_gbs_nwchem` of `fanpy/interface/pyscf_tools.py`.  A text is a list of characters, and `\s`, `\w` and `\d` are those of ASCII.

In the pattern `\s*(\w+)\s+\d+\s+\d+\.\d+\n` no character can belong to two neighbouring parts, so each part takes as many characters as it can
and there is nothing to come back to; the same holds for `^(\w+)\s`.
-/

namespace Fanpy.Gbs

open Fanpy

/-- a text -/
abbrev Txt := List Char

/-- `\s` — pyscf_tools.py:229-237 -/
def isSp (c : Char) : Bool := c = ' ' || c = '\n' || c = '\t' || c = '\r' || c = '\x0b' || c = '\x0c' ||
  c = '\x1c' || c = '\x1d' || c = '\x1e' || c = '\x1f'

/-- `\d` — pyscf_tools.py:232 -/
def isDig (c : Char) : Bool := '0' ≤ c && c ≤ '9'

/-- `\w` — pyscf_tools.py:232-234 -/
def isWord (c : Char) : Bool := isDig c || ('a' ≤ c && c ≤ 'z') || ('A' ≤ c && c ≤ 'Z') || c = '_'

/-- `text.split('****')` — pyscf_tools.py:226 -/
def splitStars : Txt → List Txt
  | '*' :: '*' :: '*' :: '*' :: t => [] :: splitStars t
  | c :: t =>
    match splitStars t with
    | h :: r => (c :: h) :: r
    | [] => [[c]]
  | [] => [[]]

/-- `text.rstrip()` — pyscf_tools.py:237 -/
def rstrip (t : Txt) : Txt := (t.reverse.dropWhile isSp).reverse

/-- `text.strip()` — pyscf_tools.py:229 -/
def strip (t : Txt) : Txt := rstrip (t.dropWhile isSp)

/-- the pattern `\s*(\w+)\s+\d+\s+\d+\.\d+\n` at the beginning of the text: the group and the text after the match — pyscf_tools.py:232 -/
def matchAt (t : Txt) : Option (Txt × Txt) :=
  let t1 := t.dropWhile isSp
  let w := t1.takeWhile isWord
  let t2 := t1.dropWhile isWord
  let t3 := t2.dropWhile isSp
  let t4 := t3.dropWhile isDig
  let t5 := t4.dropWhile isSp
  if w = [] ∨ t2.takeWhile isSp = [] ∨ t3.takeWhile isDig = [] ∨ t4.takeWhile isSp = [] ∨ t5.takeWhile isDig = [] then none
  else
    match t5.dropWhile isDig with
    | '.' :: t6 =>
      if t6.takeWhile isDig = [] then none
      else
        match t6.dropWhile isDig with
        | '\n' :: rest => some (w, rest)
        | _ => none
    | _ => none

/-- `re.split(pattern, text)` — pyscf_tools.py:232: the text before the first match, and for each match the group and the text up to the next
match.  The first argument bounds the number of characters. -/
def resplit : ℕ → Txt → Txt × List (Txt × Txt)
  | 0, t => (t, [])
  | n + 1, t =>
    match matchAt t with
    | some (w, rest) => ([], (w, (resplit n rest).1) :: (resplit n rest).2)
    | none =>
      match t with
      | [] => ([], [])
      | c :: t' => (c :: (resplit n t').1, (resplit n t').2)

/-- `re.search(r"^(\w+)\s", text).group(1)` — pyscf_tools.py:234; `None` has no `group` -/
def atomOf (t : Txt) : Except PyErr Txt :=
  match t.dropWhile isWord with
  | c :: _ => if isSp c ∧ t.takeWhile isWord ≠ [] then .ok (t.takeWhile isWord) else .error .attributeError
  | [] => .error .attributeError

/-- `gbs_dict[atom] = gbs_dict[atom] + text`, or `gbs_dict[atom] = text` — pyscf_tools.py:238-241 -/
def add (d : List (Txt × Txt)) (atom text : Txt) : List (Txt × Txt) :=
  match d with
  | [] => [(atom, text)]
  | p :: d => if p.1 = atom then (p.1, p.2 ++ text) :: d else p :: add d atom text

/-- `f'{atom} {orbtype}\n{coeffs}\n'` — pyscf_tools.py:239 -/
def entry (atom orbtype coeffs : Txt) : Txt := atom ++ ' ' :: orbtype ++ '\n' :: coeffs ++ ['\n']

/-- one section — pyscf_tools.py:229-241 -/
def step (d : List (Txt × Txt)) (section_ : Txt) : Except PyErr (List (Txt × Txt)) :=
  if strip section_ = [] then .ok d
  else
    match atomOf (resplit ((strip section_).length + 1) (strip section_)).1 with
    | .error e => .error e
    | .ok atom => .ok ((resplit ((strip section_).length + 1) (strip section_)).2.foldl
        (fun d p => add d atom (entry atom p.1 (rstrip p.2))) d)

/-- `convert_gbs_nwchem(file)` for a file with the text `t` — pyscf_tools.py:223-242 -/
def convert (t : Txt) : Except PyErr (List (Txt × Txt)) := (splitStars t).tail.foldlM step []

end Fanpy.Gbs
