import Mathlib.Data.Nat.Digits.Defs
import Mathlib.Data.List.Sort

/-!
# Model of `fanpy/tools/slater.py`: bit-level part

A Slater determinant is a Python integer; the model uses `Nat` (negative integers, which the code never
produces, are not modelled).  The Python value `None` (an annihilated determinant) is `Option.none`.
`raise` is modelled by `Except PyErr`.  Python's `__debug__` blocks are modelled as active.
-/

namespace Fanpy

/-- Python exceptions that the modelled code raises (class only, not the message). -/
inductive PyErr where
  | valueError
  | typeError
  | indexError
  | keyError
  | notImplemented
  | overflow
  | zeroDivision
  | warning
  | attributeError
  | runtimeError
  deriving DecidableEq, Repr

namespace Slater

/-- `bin(sd)[:1:-1]`: the characters of `bin(sd)` after the prefix `0b`, reversed (least significant bit first).
`bin(0)` is `"0b0"`, hence the special case.  Used at slater.py:138, 860, 864. -/
def binRev (sd : ℕ) : List ℕ := if sd = 0 then [0] else Nat.digits 2 sd

/-- `bin(sd)[2:]`: most significant bit first.  Used at slater.py:655, 717. -/
def binStr (sd : ℕ) : List ℕ := (binRev sd).reverse

/-- `int("0b" + digits, 2)`: raises `ValueError` for the empty digit string.
Used at slater.py:402, 535, 659, 722. -/
def intOfBits : List ℕ → Except PyErr ℕ
  | [] => .error .valueError
  | l => .ok (l.foldl (fun acc d => 2 * acc + d) 0)

/-- `occ(sd, i)` — slater.py:102-119: `sd is not None and (sd >> i) % 2`. -/
def occ (sd : Option ℕ) (i : ℕ) : Bool :=
  match sd with
  | none => false
  | some s => (s >>> i) % 2 == 1

/-- `occ_indices(sd)` — slater.py:122-138. -/
def occIndices : Option ℕ → List ℕ
  | none => []
  | some sd => ((binRev sd).zipIdx.filter (fun p => p.1 ≠ 0)).map (fun p => p.2)

/-- `vir_indices(sd, norbs)` — slater.py:141-162.  `norbs` is an arbitrary Python integer. -/
def virIndices (sd : Option ℕ) (norbs : ℤ) : List ℕ :=
  match sd with
  | none => []
  | some s => if norbs ≤ 0 then [] else (List.range norbs.toNat).filter (fun i => s &&& (1 <<< i) == 0)

/-- `total_occ(sd)` — slater.py:165-182: `bin(sd).count("1")`. -/
def totalOcc : Option ℕ → ℕ
  | none => 0
  | some sd => (binRev sd).count 1

/-- `is_alpha(i, nspatial)` — slater.py:185-211 (note the guard `i > 2 * nspatial`). -/
def isAlpha (i nspatial : ℤ) : Except PyErr Bool :=
  if nspatial ≤ 0 ∨ i < 0 ∨ i > 2 * nspatial then .error .valueError else .ok (decide (i < nspatial))

/-- `spatial_index(i, nspatial)` — slater.py:214-241. -/
def spatialIndex (i nspatial : ℤ) : Except PyErr ℤ :=
  if nspatial ≤ 0 ∨ i < 0 ∨ i > 2 * nspatial then .error .valueError
  else do
    let a ← isAlpha i nspatial
    return if a then i else i - nspatial

/-- `spin_index(i, nspatial, spin)` — slater.py:244-283; `spin` is `true` for `"alpha"`, `false` for `"beta"`
(other strings are rejected by the code and not representable here). -/
def spinIndex (i nspatial : ℤ) (alpha : Bool) : Except PyErr ℤ :=
  if nspatial ≤ 0 then .error .valueError
  else if ¬ (0 ≤ i ∧ i < nspatial) then .error .valueError
  else .ok (if alpha then i else i + nspatial)

/-- `annihilate(sd, *indices)` — slater.py:286-309. -/
def annihilate : Option ℕ → List ℕ → Option ℕ
  | sd, [] => sd
  | sd, i :: is =>
    match sd with
    | none => none                                   -- `occ(None, i)` is False, so `return None`
    | some s => if !(occ (some s) i) then none else annihilate (some (s ^^^ (1 <<< i))) is

/-- `create(sd, *indices)` — slater.py:312-334. -/
def create : Option ℕ → List ℕ → Option ℕ
  | sd, [] => sd
  | sd, i :: is =>
    match sd with
    | none => none
    | some s => if !(occ (some s) i) then create (some (s ||| (1 <<< i))) is else none

/-- `excite(sd, *indices)` — slater.py:337-365. -/
def excite (sd : Option ℕ) (indices : List ℕ) : Except PyErr (Option ℕ) :=
  if indices.length % 2 ≠ 0 then .error .valueError
  else
    let sd := annihilate sd (indices.take (indices.length / 2))
    .ok (create sd (indices.drop (indices.length / 2)))

/-- `ground(nocc, norbs)` — slater.py:368-402. -/
def ground (nocc norbs : ℕ) : Except PyErr ℕ :=
  if nocc > norbs then .error .valueError
  else if norbs % 2 ≠ 0 then .error .valueError
  else do
    let alpha ← intOfBits (List.replicate (nocc / 2 + nocc % 2) 1)
    let beta ← intOfBits (List.replicate (nocc / 2) 1 ++ List.replicate (norbs / 2) 0)
    return alpha + beta

/-- `shared_sd(sd1, sd2)` — slater.py:405-421. -/
def sharedSd (sd1 sd2 : ℕ) : ℕ := sd1 &&& sd2

/-- `shared_orbs(sd1, sd2)` — slater.py:424-440. -/
def sharedOrbs (sd1 sd2 : ℕ) : List ℕ := occIndices (some (sd1 &&& sd2))

/-- `diff_orbs(sd1, sd2)` — slater.py:443-463. -/
def diffOrbs (sd1 sd2 : ℕ) : List ℕ × List ℕ :=
  let sdDiff := sd1 ^^^ sd2
  let sd1Diff := sdDiff &&& sd1
  let sd2Diff := sdDiff &&& sd2
  (occIndices (some sd1Diff), occIndices (some sd2Diff))

/-- `combine_spin(alpha_bits, beta_bits, nspatial)` — slater.py:466-499. -/
def combineSpin (alphaBits betaBits : ℕ) (nspatial : ℤ) : Except PyErr ℕ :=
  if nspatial ≤ 0 then .error .valueError else .ok (alphaBits ||| (betaBits <<< nspatial.toNat))

/-- `split_spin(block_sd, nspatial)` — slater.py:502-537. -/
def splitSpin (blockSd : ℕ) (nspatial : ℤ) : Except PyErr (ℕ × ℕ) :=
  if nspatial ≤ 0 then .error .valueError
  else do
    let mask ← intOfBits (List.replicate nspatial.toNat 1)
    return (blockSd &&& mask, blockSd >>> nspatial.toNat)

/-- `interleave_index(i, nspatial)` — slater.py:540-571. -/
def interleaveIndex (i nspatial : ℤ) : Except PyErr ℤ :=
  if i < 0 then .error .valueError
  else if i ≥ 2 * nspatial then .error .valueError
  else .ok (if i < nspatial then 2 * i else 2 * (i - nspatial) + 1)

/-- `deinterleave_index(i, nspatial)` — slater.py:574-605. -/
def deinterleaveIndex (i nspatial : ℤ) : Except PyErr ℤ :=
  if i < 0 then .error .valueError
  else if i ≥ 2 * nspatial then .error .valueError
  else .ok (if i % 2 = 0 then i / 2 else i / 2 + nspatial)

/-- `interleave(block_sd, nspatial)` — slater.py:608-660.  Strings are lists of digits;
`"0" * k` with a negative `k` is the empty string, as natural subtraction gives here. -/
def interleave (blockSd : ℕ) (nspatial : ℤ) : Except PyErr ℕ :=
  if nspatial ≤ 0 then .error .valueError
  else
    let n := nspatial.toNat
    let bits := binStr blockSd
    let bits := List.replicate (n * 2 - bits.length) 0 ++ bits
    let alphaBit := bits.drop n
    let betaBit := bits.take n
    intOfBits ((betaBit.zip alphaBit).flatMap (fun p => [p.1, p.2]))

/-- `l[-1::-2][::-1]` for a string given least significant bit first: every second element starting at the first,
put back to most significant first.  `takeEven [a,b,c,d,...] = [a,c,...]`.  Used at slater.py:718. -/
def takeEven {α : Type*} : List α → List α
  | [] => []
  | [a] => [a]
  | a :: _ :: l => a :: takeEven l

/-- `deinterleave(shuffled_sd, nspatial)` — slater.py:670-723. `sd_bit[-1::-2]` walks the string from its last
character in steps of two, i.e. over the even positions of `binRev`; `sd_bit[-2::-2]` over the odd positions. -/
def deinterleave (shuffledSd : ℕ) (nspatial : ℤ) : Except PyErr ℕ :=
  if nspatial ≤ 0 then .error .valueError
  else
    let n := nspatial.toNat
    let bitsRev := binRev shuffledSd
    let alphaBit := (takeEven bitsRev).reverse
    let betaBit := (takeEven bitsRev.tail).reverse
    let alphaBit := List.replicate (n - alphaBit.length) 0 ++ alphaBit
    let betaBit := List.replicate (n - betaBit.length) 0 ++ betaBit
    intOfBits (betaBit ++ alphaBit)

/-- `get_spin(sd, nspatial)` — slater.py:733-750.  Returned as twice the spin to stay in the integers
(the code multiplies by `0.5`, which is exact in floating point). -/
def getTwoSpin (sd : ℕ) (nspatial : ℤ) : Except PyErr ℤ := do
  let (a, b) ← splitSpin sd nspatial
  return (totalOcc (some a) : ℤ) - (totalOcc (some b) : ℤ)

/-- `get_seniority(sd, nspatial)` — slater.py:753-770. -/
def getSeniority (sd : ℕ) (nspatial : ℤ) : Except PyErr ℕ := do
  let (a, b) ← splitSpin sd nspatial
  return totalOcc (some (a ^^^ b))

/-- inner loop of `sign_perm` — slater.py:811-817. -/
def signPermInner (i : ℕ) : List ℕ → ℤ → ℤ
  | [], sign => sign
  | j :: js, sign =>
    if j > i then signPermInner i js (sign * (-1))
    else if j = i then sign
    else signPermInner i js sign

/-- outer loop of `sign_perm` — slater.py:810-818. -/
def signPermOuter (jumbled : List ℕ) : List ℕ → ℤ → ℤ
  | [], sign => sign
  | i :: is, sign => signPermOuter jumbled is (signPermInner i jumbled sign)

/-- `all(i < j for i, j in zip(l, l[1:]))` — slater.py:805. -/
def strictlyIncreasing (l : List ℕ) : Bool := (l.zip l.tail).all (fun p => decide (p.1 < p.2))

/-- `sign_perm(jumbled_set, ordered_set=None, is_decreasing=True)` — slater.py:773-818.
`sorted` is modelled by merge sort. -/
def signPerm (jumbled : List ℕ) (ordered : Option (List ℕ) := none) (isDecreasing : Bool := true) :
    Except PyErr ℤ :=
  let jumbled := if isDecreasing then jumbled.reverse else jumbled
  match ordered with
  | none => .ok (signPermOuter jumbled (jumbled.mergeSort (fun a b => decide (a ≤ b))) 1)
  | some o => if !(strictlyIncreasing o) then .error .valueError else .ok (signPermOuter jumbled o 1)

/-- `sign_swap(sd, pos_current, pos_future)` — slater.py:821-869.  (Positions are natural numbers, the code
rejects negative ones.)  `s[a:b]` is `(s.drop a).take (b - a)`. -/
def signSwap (sd : Option ℕ) (posCurrent posFuture : ℕ) : Except PyErr ℤ :=
  match sd with
  | none => .error .valueError
  | some s =>
    if !(occ (some s) posCurrent) then .error .valueError
    else
      let numTrans :=
        if posCurrent < posFuture then
          (((binRev s).drop (posCurrent + 1)).take (posFuture + 1 - (posCurrent + 1))).count 1
        else (((binRev s).drop posFuture).take (posCurrent - posFuture)).count 1
      .ok (if numTrans % 2 = 0 then 1 else -1)

/-- annihilation loop of `sign_excite` — slater.py:908-913.  Returns the sign and the determinant. -/
def signExciteAnn : Option ℕ → List ℕ → ℤ → Except PyErr (ℤ × Option ℕ)
  | sd, [], sign => .ok (sign, sd)
  | sd, i :: is, sign =>
    if !(occ sd i) then .error .valueError
    else do
      let t ← signSwap sd i 0
      signExciteAnn (annihilate sd [i]) is (sign * t)

/-- creation loop of `sign_excite` — slater.py:915-920. -/
def signExciteCre : Option ℕ → List ℕ → ℤ → Except PyErr ℤ
  | _, [], sign => .ok sign
  | sd, i :: is, sign =>
    match create sd [i] with
    | none => .error .valueError
    | some s => do
      let t ← signSwap (some s) i 0
      signExciteCre (some s) is (sign * t)

/-- `sign_excite(sd, annihilators, creators)` — slater.py:872-922. -/
def signExcite (sd : Option ℕ) (annihilators creators : List ℕ) : Except PyErr ℤ := do
  let (sign, sd') ← signExciteAnn sd annihilators 1
  signExciteCre sd' creators sign

end Slater
end Fanpy
