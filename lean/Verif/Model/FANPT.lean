import Mathlib.Data.Nat.Factorial.Basic
import Mathlib.Data.Nat.Cast.Defs
import Mathlib.Algebra.Order.Field.Basic
import Mathlib.Algebra.Field.Basic
import Mathlib.Algebra.BigOperators.Group.Finset.Basic
import Mathlib.Algebra.Order.BigOperators.Group.Finset
import Mathlib.Order.Interval.Finset.Nat
import Mathlib.LinearAlgebra.Matrix.NonsingularInverse
import Verif.Model.Slater

/-!
# Perturbation theory for FanCI: `fanpt/`

A numpy array is modelled by a function of its indices together with its shape; entries outside the
shape are not read.  `pyci.sparse_op` is a function from Hamiltonians to matrices, and
`np.linalg.lstsq` is a parameter.
-/

namespace Fanpy.FANPT

open Finset

section
variable {R : Type} [Field R]

/-- `pyci.hamiltonian`: constant energy, one-electron and two-electron integrals -/
structure Ham (R : Type) where
  ecore : R
  one : ℕ → ℕ → R
  two : ℕ → ℕ → ℕ → ℕ → R

/-- `linear_comb_ham` — fanpt/utils.py:7-29 -/
def linearCombHam (h1 h0 : Ham R) (a1 a0 : R) : Ham R where
  ecore := a1 * h1.ecore + a0 * h0.ecore
  one := fun p q => a1 * h1.one p q + a0 * h0.one p q
  two := fun p q r s => a1 * h1.two p q r s + a0 * h0.two p q r s

/-- `reduce_to_fock` — fanpt/utils.py:32-53.  The first assignment writes the entries `[i, j, k, j]`
and the second one the entries `[i, j, j, k]`. -/
def reduceToFock (two : ℕ → ℕ → ℕ → ℕ → R) (lam : R) : ℕ → ℕ → ℕ → ℕ → R :=
  let f0 := fun p q r s => two p q r s * lam
  let f1 := fun p q r s => if s = q then two p q r s else f0 p q r s
  fun p q r s => if r = q then two p q r s else f1 p q r s

/-- The attributes of `FANPTContainer` from which the arrays are made — containers/base.py:154-221.
`ncol` is the number of active parameters of the wavefunction; if the energy is active then it is the
parameter number `ncol`.  `jac` is `fanci_objective.compute_jacobian(params)`. -/
structure Container (R : Type) where
  nproj : ℕ
  nsd : ℕ
  nequation : ℕ
  ncol : ℕ
  activeEnergy : Bool
  l : R
  ham : ℕ → ℕ → R
  fpot : ℕ → ℕ → R
  ovlp : ℕ → R
  dOvlp : ℕ → ℕ → R
  ddOvlp : ℕ → ℕ → ℕ → R
  energy : R
  jac : ℕ → ℕ → R
  ref : ℕ
  inorm : Bool

/-- The Hamiltonian and the fluctuation potential of a container — containers/base.py:173-191 -/
def operators (op : Ham R → ℕ → ℕ → R) (h1 h0 : Ham R) (l : R) : (ℕ → ℕ → R) × (ℕ → ℕ → R) :=
  (op (linearCombHam h1 h0 l (1 - l)), op (linearCombHam h1 h0 1 (-1)))

/-- The check of the normalization constraint — containers/base.py:213-221 — and of the class
`FANPTContainerEFree` — containers/energy_free.py:149-151 -/
def checkContainer (efree inorm constrained activeEnergy : Bool) : Except PyErr Unit :=
  if efree && activeEnergy then .error .typeError
  else if inorm && !constrained then .error .keyError
  else .ok ()

/-- a `pyci.sparse_op` applied to a vector over the `S` space -/
def applyOp (c : Container R) (a : ℕ → ℕ → R) (v : ℕ → R) (m : ℕ) : R := ∑ n ∈ range c.nsd, a m n * v n

/-- `FANPTContainerEParam.der_g_lambda` — containers/energy_param.py:196-210 -/
def derGLambda (c : Container R) (m : ℕ) : R := if m < c.nproj then applyOp c c.fpot c.ovlp m else 0

/-- `FANPTContainerEParam.der2_g_lambda_wfnparams` — containers/energy_param.py:212-232 -/
def der2GLambda (c : Container R) (m k : ℕ) : R :=
  if m < c.nproj then applyOp c c.fpot (fun n => c.dOvlp n k) m else 0

/-- `der3_g_lambda_wfnparams2` — containers/energy_param.py:234-278.  The entries with `k <= l` are
computed and mirrored. -/
def der3GLambda (c : Container R) (m k l : ℕ) : R :=
  if m < c.nproj then applyOp c c.fpot (fun n => c.ddOvlp n (min k l) (max k l)) m else 0

/-- `der2_g_e_wfnparams` — containers/energy_param.py:281-300 -/
def der2GE (c : Container R) (m k : ℕ) : R := if m < c.nproj then -c.dOvlp m k else 0

/-- `der3_g_e_wfnparams2` — containers/energy_param.py:302-323 -/
def der3GE (c : Container R) (m k l : ℕ) : R := if m < c.nproj then -c.ddOvlp m k l else 0

/-- `der2_g_wfnparams2` — containers/energy_param.py:343-378.  The entries with `k <= l` are computed
and mirrored. -/
def der2G (c : Container R) (m k l : ℕ) : R :=
  if m < c.nproj then
    applyOp c c.ham (fun n => c.ddOvlp n (min k l) (max k l)) m - c.energy * c.ddOvlp m (min k l) (max k l)
  else 0

/-- `FANPTContainerEParam.gen_coeff_matrix` — containers/energy_param.py:326-341 -/
def coeffMatrix (c : Container R) (m a : ℕ) : R := c.jac m a

/-- `FANPTContainerEFree.der_g_lambda` — containers/energy_free.py:167-187.  The factor
`self.d_g_lambda[self.ref_sd]` is read before the subtraction in place. -/
def freeDerGLambda (c : Container R) (m : ℕ) : R :=
  if m < c.nproj then
    if c.inorm then derGLambda c m - derGLambda c c.ref * c.ovlp m
    else derGLambda c m - derGLambda c c.ref * c.ovlp m / c.ovlp c.ref
  else derGLambda c m

/-- `FANPTContainerEFree.der2_g_lambda_wfnparams` — containers/energy_free.py:189-222.  The row
`self.d2_g_lambda_wfnparams[self.ref_sd]` is read only in the first subtraction. -/
def freeDer2GLambda (c : Container R) (m k : ℕ) : R :=
  if m < c.nproj then
    if c.inorm then
      der2GLambda c m k - der2GLambda c c.ref k * c.ovlp m - derGLambda c c.ref * c.dOvlp m k
    else
      der2GLambda c m k
        - (der2GLambda c c.ref k - derGLambda c c.ref * c.dOvlp c.ref k / c.ovlp c.ref) * c.ovlp m / c.ovlp c.ref
        - derGLambda c c.ref * c.dOvlp m k / c.ovlp c.ref
  else der2GLambda c m k

/-- `FANPTContainerEFree.gen_coeff_matrix` — containers/energy_free.py:224-254 -/
def freeCoeffMatrix (c : Container R) (m k : ℕ) : R :=
  if m < c.nproj then
    if c.inorm then c.jac m k - applyOp c c.ham (fun n => c.dOvlp n k) c.ref * c.ovlp m
    else c.jac m k
      - (applyOp c c.ham (fun n => c.dOvlp n k) c.ref - c.energy * c.dOvlp c.ref k) * c.ovlp m / c.ovlp c.ref
  else c.jac m k

/-- The arrays of a container that `FANPTConstantTerms` and `FANPTUpdater` read: those of
`FANPTContainerEFree` if `efree`, otherwise those of `FANPTContainerEParam`. -/
structure Arrays (R : Type) where
  dGLambda : ℕ → R
  d2GLambda : ℕ → ℕ → R
  coeff : ℕ → ℕ → R

/-- containers/base.py:224-226 -/
def arrays (c : Container R) (efree : Bool) : Arrays R :=
  if efree then ⟨freeDerGLambda c, freeDer2GLambda c, freeCoeffMatrix c⟩
  else ⟨derGLambda c, der2GLambda c, coeffMatrix c⟩

/-- `assign_order`, `assign_quasi_approximation_order` and `assign_previous_responses` —
containers/constant_terms.py:99-170.  The shape is `none` if the responses are not an array of arrays. -/
def checkTerms (order : ℤ) (qao : Option ℕ) (nactive : ℕ) (shape : Option (ℕ × ℕ)) : Except PyErr Unit :=
  if order < 0 then .error .valueError
  else if qao.getD 2 ≠ 2 ∧ qao.getD 2 ≠ 3 then .error .valueError
  else if order = 1 then .ok ()
  else match shape with
    | none => .error .typeError
    | some (r, k) => if (r : ℤ) ≠ order - 1 ∨ k ≠ nactive then .error .valueError else .ok ()

/-- `r_vector` — containers/constant_terms.py:187-194.  `prev o` is the response of order `o + 1`. -/
def rVector (c : Container R) (order : ℕ) (prev : ℕ → ℕ → R) (k : ℕ) : R :=
  ∑ o ∈ Ico 1 order, (order.factorial : R) / ((o.factorial : R) * ((order - o).factorial : R))
    * prev (o - 1) c.ncol * prev (order - o - 1) k

/-- `np.einsum("mkl,k,l->m", t, u, v)` -/
def einsum (c : Container R) (t : ℕ → ℕ → ℕ → R) (u v : ℕ → R) (m : ℕ) : R :=
  ∑ k ∈ range c.ncol, ∑ l ∈ range c.ncol, t m k l * u k * v l

/-- `gen_constant_terms` — containers/constant_terms.py:172-249 -/
def constantTerms (c : Container R) (efree : Bool) (order qao : ℕ) (prev : ℕ → ℕ → R) (m : ℕ) : R :=
  if order = 1 then -(arrays c efree).dGLambda m
  else if c.activeEnergy then
    let base := -(order : R) * (∑ k ∈ range c.ncol, (arrays c efree).d2GLambda m k * prev (order - 2) k)
      - ∑ k ∈ range c.ncol, der2GE c m k * rVector c order prev k
    if qao = 3 then
      if order = 2 then base - einsum c (der2G c) (prev 0) (prev 0) m
      else if order = 3 then
        base - 3 * einsum c (der2G c) (prev 1) (prev 0) m
          - 3 * prev 0 c.ncol * einsum c (der3GE c) (prev 1) (prev 0) m
          - 3 * einsum c (der3GLambda c) (prev 0) (prev 0) m
      else base
    else base
  else -(order : R) * ∑ k ∈ range c.ncol, (arrays c efree).d2GLambda m k * prev (order - 2) k

/-- `get_responses` — containers/updater.py:265-285: the first `n` rows of `resp_matrix`.  `solve` is
`self.solver(c_matrix, .)[0]`. -/
def responses (c : Container R) (efree : Bool) (qao : ℕ) (solve : (ℕ → R) → ℕ → R) : ℕ → List (ℕ → R)
  | 0 => []
  | o + 1 =>
    let prev := responses c efree qao solve o
    prev ++ [solve (constantTerms c efree (o + 1) qao fun i => prev.getD i fun _ => 0)]

/-- `assign_resum` — containers/updater.py:136-158 -/
def assignResum (activeEnergy resum : Bool) (nequation nactive : ℕ) : Bool :=
  if activeEnergy then false else if resum then decide (nequation = nactive) else false

/-- `params_updater`, the corrections — containers/updater.py:306-312 -/
def corrections (l0 finalL : R) (resp : List (ℕ → R)) (k : ℕ) : R :=
  ∑ o ∈ range resp.length, resp.getD o (fun _ => 0) k * ((finalL - l0) ^ (o + 1) / ((o + 1).factorial : R))

/-- `params_updater`, the loop over the active parameters — containers/updater.py:313-316: `mask` is
`fanci_objective.mask[:-1]` -/
def addCorrections : List Bool → List R → List R → List R
  | true :: mask, p :: ps, d :: ds => (p + d) :: addCorrections mask ps ds
  | false :: mask, p :: ps, ds => p :: addCorrections mask ps ds
  | _, ps, _ => ps

/-- `fanpt_e_response` — containers/updater.py:350-367 -/
def energyResponse (c : Container R) (finalL : R) (resp : List (ℕ → R)) : R :=
  c.energy + corrections c.l finalL resp c.ncol

/-- `energy_ham_ovlp_updater`: the new energy from the new overlaps and the operator of the new
Hamiltonian — containers/updater.py:318-345 -/
def newEnergy (c : Container R) (newOp : ℕ → ℕ → R) (newOvlp : ℕ → R) : R :=
  if c.inorm then applyOp c newOp newOvlp c.ref else applyOp c newOp newOvlp c.ref / newOvlp c.ref

end

section
variable {R : Type} [Field R]

open Matrix Classical in
/-- `inverse_coeff_matrix`, `resum_matrix`, `resum_vector` and `fanpt_resum_correction` —
containers/updater.py:160-213: `-final_l * inv(final_l * A + 1) . b` with `A = inv(C) . M` and
`b = inv(C) . d`, where `C` is the coefficient matrix, `M` is `d2_g_lambda_wfnparams` and `d` is
`d_g_lambda`.  The `LinAlgError` of a singular matrix is a `ValueError`. -/
noncomputable def resumCorrection {n : ℕ} (C M : Matrix (Fin n) (Fin n) R) (d : Fin n → R) (finalL : R) :
    Except PyErr (Fin n → R) :=
  if C.det = 0 then .error .valueError
  else
    let A := C⁻¹ * M
    let b := C⁻¹ *ᵥ d
    if (finalL • A + 1).det = 0 then .error .valueError
    else .ok (-(finalL • ((finalL • A + 1)⁻¹ *ᵥ b)))

end

section
variable {R : Type} [Field R] [LinearOrder R]

/-- `assign_final_l` and `assign_final_order` — containers/updater.py:215-257 -/
def checkUpdater (l finalL : R) (finalOrder : ℤ) : Except PyErr Unit :=
  if ¬ (l < finalL ∧ finalL ≤ 1) then .error .valueError
  else if finalOrder < 0 then .error .valueError
  else .ok ()

end

section
variable {R : Type} [Field R] [DecidableEq R]

/-- `x or y` for numbers: an argument `None` or zero takes the stored value — fanpt.py:264-267 -/
def orElse (x : Option R) (stored : R) : R :=
  match x with
  | none => stored
  | some v => if v = 0 then stored else v

/-- the values of `l` and of `final_l` of the loop — fanpt.py:286 and 300 -/
def schedule (lambdaI lambdaF : R) (steps : ℕ) : List (R × R) :=
  (List.range steps).map fun i : ℕ =>
    let l := lambdaI + i * ((lambdaF - lambdaI) / steps)
    (l, l + (lambdaF - lambdaI) / steps)

/-- The Hamiltonian in the sparse operator of `fanci_objective` at the start of every pass of the
loop: `ham0` in the first pass, and `new_ham` of the previous pass afterwards — fanpt.py:271, 320.
Constructing a container sets `pyci_ham`, which replaces `objective._ham` but not `objective._ci_op`
— interface/pyci.py:203-223. -/
def objectiveHams (h1 h0 : Ham R) (lambdaI lambdaF : R) (steps : ℕ) : List (Ham R) :=
  h0 :: ((schedule lambdaI lambdaF steps).map fun s => linearCombHam h1 h0 s.2 (1 - s.2))

end

end Fanpy.FANPT
