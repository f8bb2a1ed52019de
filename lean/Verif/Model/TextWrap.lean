import Verif.Model.Slater

/-!
# Model of the wrapping of long calls in the scripts

`"\n".join(textwrap.wrap(head + args, width=100, subsequent_indent=" " * len(head)))` in `fanpy/scripts/gaussian/make_script.py`
(269-271, 288-290, 406-408, 485-487, 535-537), `fanpy/scripts/gaussian/make_fanci_script.py` (258-260, 279-281, 416-418),
`fanpy/scripts/pyscf/make_script.py` (263-265, 282-284, 379-381, 458-460, 508-510) and `fanpy/scripts/pyscf/make_fanci_script.py`
(265-267, 286-288, 454-456, 514-516).

`textwrap` is not part of the repository: it is modelled from the sources of the standard library.  Texts are lists of characters.
Simplifications: a tab counts as one space; where words are cut at hyphens before the wrapping is an argument.
-/

namespace Fanpy.TextWrap

/-- the characters that `textwrap` takes for white space (`_whitespace`) -/
def isWs (c : Char) : Bool := c = ' ' || c = '\n' || c = '\t' || c = '\r' || c = '\x0b' || c = '\x0c'

/-- `_munge_whitespace`: white space becomes spaces -/
def munge (t : List Char) : List Char := t.map fun c => if isWs c then ' ' else c

/-- `chunk.strip() == ''` for a chunk of the text without other white space -/
def blank (g : List Char) : Bool := g.all fun c => c = ' '

/-- one character before a list of chunks -/
def addChar (c : Char) : List (List Char) → List (List Char)
  | [] => [[c]]
  | g :: gs => if decide (c = ' ') = blank g then (c :: g) :: gs else [c] :: g :: gs

/-- the words and the gaps between them -/
def chunks : List Char → List (List Char)
  | [] => []
  | c :: t => addChar c (chunks t)

/-- `_split`: the chunks, with words cut at hyphens by `cut` -/
def split (cut : List Char → List (List Char)) (t : List Char) : List (List Char) :=
  (chunks t).flatMap fun g => if blank g then [g] else cut g

/-- a gap at the beginning of a line is dropped, unless there is no line yet -/
def dropLead (first : Bool) : List (List Char) → List (List Char)
  | [] => []
  | g :: gs => if blank g && !first then gs else g :: gs

/-- the inner loop: the chunks that fit on the line, and the others -/
def fit (width : ℕ) : ℕ → List (List Char) → List (List Char) × List (List Char)
  | _, [] => ([], [])
  | cur, g :: gs =>
    if cur + g.length ≤ width then (g :: (fit width (cur + g.length) gs).1, (fit width (cur + g.length) gs).2)
    else ([], g :: gs)

/-- `_handle_long_word`: where a word that is too long is cut -/
def cutAt (width cur : ℕ) (g : List Char) : ℕ :=
  let left := if width < 1 then 1 else width - cur
  let before := g.take left
  let after := before.reverse.takeWhile (· ≠ '-')
  let hyphen := before.length - after.length - 1
  if left < g.length ∧ '-' ∈ before ∧ 0 < hyphen ∧ (g.take hyphen).any (· ≠ '-') then hyphen + 1 else left

/-- a chunk that is too long for any line is cut -/
def long (width : ℕ) (cur : List (List Char)) : List (List Char) → List (List Char) × List (List Char)
  | [] => (cur, [])
  | g :: gs =>
    if width < g.length then
      (cur ++ [g.take (cutAt width cur.flatten.length g)], g.drop (cutAt width cur.flatten.length g) :: gs)
    else (cur, g :: gs)

/-- a gap at the end of a line is dropped -/
def dropTrail (cur : List (List Char)) : List (List Char) :=
  if blank (cur.getLast?.getD ['x']) then cur.dropLast else cur

/-- `_wrap_chunks`; `first` is whether there is no line yet, and the first argument bounds the number of rounds -/
def wrapLoop (width : ℕ) (indent : List Char) : ℕ → Bool → List (List Char) → List (List Char)
  | 0, _, _ => []
  | _ + 1, _, [] => []
  | n + 1, first, g :: gs =>
    let w := if first then width else width - indent.length
    let f := fit w 0 (dropLead first (g :: gs))
    let l := long w f.1 f.2
    let cur := dropTrail l.1
    (if cur = [] then [] else [(if first then [] else indent) ++ cur.flatten]) ++ wrapLoop width indent n (first && cur.isEmpty) l.2

/-- `textwrap.wrap(text, width=width, subsequent_indent=indent)` -/
def wrap (cut : List Char → List (List Char)) (width : ℕ) (indent text : List Char) : List (List Char) :=
  wrapLoop width indent (text.length + 1) true (split cut (munge text))

/-- the wrapped call — gaussian/make_script.py:269-271 and the other places above -/
def wrapCall (cut : List Char → List (List Char)) (head args : List Char) : List Char :=
  ['\n'].intercalate (wrap cut 100 (List.replicate head.length ' ') (head ++ args))

end Fanpy.TextWrap
