import Verif.Model.AP1roG
import Verif.Model.CI

/-!
# Model of the conversion of a CI wavefunction of pairs to an AP1roG wavefunction

`CIPairs.to_ap1rog` of `fanpy/wfn/ci/ci_pairs.py:115-146`.

* `np.argsort(np.abs(self.params))[-1]` is an argument, `k`: any index is allowed, so the results hold for every way in
  which `argsort` breaks ties.
* A float division by zero is not an error in numpy; the model divides in a field, and the theorems ask that the parameter
  with index `k`, the largest one, is not zero.
* The matrix of geminal coefficients is a function of the row and the column, which is zero where nothing is written.
-/

namespace Fanpy.Geminal
open Fanpy.Slater

variable {R : Type} [Field R]

/-- the Slater determinant in which the pair of the spatial orbital `i` is moved to the spatial orbital `a` —
ci_pairs.py:139-140. -/
def exciteBoth (ref n i a : ℕ) : Except PyErr (Option ℕ) := do
  let sd ← excite (some ref) [i, a]
  excite sd [i + n, a + n]

/-- `ci_params[self.dict_sd_index[sd_exc]]` — ci_pairs.py:144.  `None` is not a key. -/
def ciValue (w : CI.Wfn R) (ci : List R) (sd : Option ℕ) : Except PyErr R :=
  match sd.bind w.dict with
  | none => .error .keyError
  | some j => CI.pick ci j

/-- the body of the loops — ci_pairs.py:139-144. -/
def fillCoeff (w : CI.Wfn R) (ci : List R) (ap : AP1roG R) (G : ℕ → ℕ → R) (p : ℕ × ℕ) : Except PyErr (ℕ → ℕ → R) := do
  let sd ← exciteBoth ap.ref (w.nspin / 2) p.1 p.2
  let row ← pairKey w.nspin ap.refPairs p.1
  let col ← pairKey w.nspin ap.virPairs p.2
  let v ← ciValue w ci sd
  return fun r c => if r = row ∧ c = col then v else G r c

/-- `to_ap1rog()` — ci_pairs.py:124-146, where `k` is `ref_sd_ind`. -/
def toAP1roG (w : CI.Wfn R) (k : ℕ) : Except PyErr (AP1roG R) := do
  let ref ← CI.pick w.sds k
  let (sp, _) ← splitSpin ref (w.nspin / 2 : ℕ)
  let c ← CI.pick w.params k
  let ci := w.params.map (· / c)
  let ap ← AP1roG.init w.nelec w.nspin none none (some ref) (fun _ _ => 0)
  let G ← ((occIndices (some sp)).flatMap fun i => (virIndices (some sp) (w.nspin / 2 : ℕ)).map fun a => (i, a)).foldlM
    (fillCoeff w ci ap) (fun _ _ => 0)
  return { ap with params := G }

end Fanpy.Geminal
