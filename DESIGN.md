# Design: a Lean 4 model of Fanpy

## Trusted base
* Lean 4.33.0 kernel; Mathlib (single-module imports). Theorems may depend only on
  `propext`, `Classical.choice`, `Quot.sound`. No own axioms, no `sorry`, no `native_decide`/`bv_decide`.
* The hand translation of the Python in /repo to the Lean definitions. Every model definition carries a
  comment with the file and lines it models and what was simplified.
* Not modelled anywhere: floating point rounding (numbers are elements of a commutative ring / field or ℝ),
  NumPy memory layout, I/O, printing, C extensions, third-party solvers (scipy, cma, pyscf, pyci), `TypeError`
  checks on Python types (the model is typed), negative determinants (a determinant is a `Nat`;
  Python's `gmpy2`-free integers are unbounded and so is `Nat`).

## Layout
* `Verif/Model/*.lean`  definitions mirroring the code, with citations.
* `Verif/Spec/*.lean`   small independent specifications (Fock space, permanents, matchings ...).
* `Verif/Lemmas/*.lean` helper lemmas.
* `Verif/Props/*.lean`  the property theorems (named `Cnn_...`) and, beside each, an `example` with a concrete instance.

## Plan per property
| id | model | proof |
|----|-------|-------|
| C01 | bit tests, `bin()` string as digit list | induction on binary digits, `Nat.testBit` extensionality |
| C02 | `annihilate/create/excite` as folds in `Option` | induction over index list |
| C03 | `ground` as `Except` | `testBit` of `2^k-1` and shifts |
| C04 | `diff_orbs` etc. | testBit extensionality + C02 |
| C05 | shift/mask | testBit |
| C06 | padded bit strings, slicing | testBit of the zipped strings, inverse index maps |
| C07 | popcounts | counting lemmas over `Finset.range` |
| C08 | the double loop of `sign_perm` | inversion count = `Equiv.Perm.sign` |
| C09 | slices of the bit string | popcount of a bit window |
| C10 | `sign_swap`+`annihilate` loops | refinement to Fock-space operators (spec), CAR proved for spec |
| C11 | combination lists with `bin` style counts | equality with C10 elementwise |
| C12 | 64-bit arithmetic explicit | combinations; overflow counterexample |
| C13 | row-wise jump counts | equality with C10 |
| C14 | nested loops with limit | completeness via combinations, counting |
| C15–C19 | generators as lists | induction; completeness + nodup + sign |
| C20 | Gray code loop | Ryser inclusion–exclusion, invariants of Gray code |
| C21 | determinants of Cauchy matrices | Borchardt's identity (inductive proof); if out of reach for all n: `_partial` |
| C22 | Slater–Condon functions | refinement to Fock-space matrix element |
| C23–C25 | per-spin functions | reduction to C22 |
| C26 | – | from C22 and adjointness in Fock space |
| C27 | loops over excitations | partition of determinants by excitation order |
| C28 | index tables | elementwise |
| C29 | column operations vs. matrix products | matrix algebra |
| C30 | `triu` index arithmetic | arithmetic bijection |
| C31 | delta formulas | linear algebra of the infinitesimal rotation |
| C32 | density accumulation | Fock-space expectation values |
| C33 | dictionary lookup; history | list lemmas; counterexample for stale dictionary |
| C34 | matchings × permanents | Fock-space product expansion |
| C35,C38,C39 | cofactor formulas | multilinearity (formal difference / `HasDerivAt`) |
| C36 | permanents with identity block | expansion |
| C37 | integer formula with real square root, also rounded | bounds on `Real.sqrt`/floor; monotonicity of rounding |
| C40 | cofactor formula w/o sign | true part `_partial` + counterexample |
| C41 | sum over exop combinations | operator expansion |
| C42 | products/sums | `Finset.prod` algebra; counterexample for LinearCombination |
| C43 | nine branches | minors of Givens matrices |
| C44 | Cauchy–Binet | counterexamples for derivative bugs |
| C45 | chain products | induction on chain |
| C46 | dictionary maps | testBit |
| C47 | selections as index lists, state machine | list induction |
| C48–C52 | ratios | field algebra, `HasDerivAt` |
| C53 | state machine | invariant by induction on calls |
| C54 | LRU cache state machine | invariant by induction on operations |
| C55 | `sd_list` instances | corollaries of C14 |

Status of each property is kept in MANIFEST.json.

## Axioms
Every property theorem depends on at most `propext`, `Classical.choice`, `Quot.sound` (checked with `#print axioms`
by the gate).

## Which code is modelled
| model file | code | left out |
|------------|------|----------|
| `Model/Slater.lean`, `Model/SlaterBulk.lean` | `fanpy/tools/slater.py` (all functions used by the package) | `TypeError` checks, negative integers, numpy dtypes other than the 64-bit overflow of the bulk functions |
| `Model/Itertools.lean` | `itertools.combinations/permutations` as lists | laziness |
| `Model/SdList.lean` | `fanpy/tools/sd_list.py` | – |
| `Model/Graphs.lean` | `fanpy/tools/graphs.py`: generators as lists | laziness of the generators |
| `Model/MathTools.lean` | `permanent_combinatoric`, `permanent_ryser`, `permanent_borchardt`, `adjugate` of `fanpy/tools/math_tools.py` | rounding; the singularity threshold of `adjugate` is `det = 0` |
| `Model/Hamiltonian.lean` | `integrate_sd_sd`, `integrate_sd_sd_decomposed` and their helpers in `fanpy/ham/generalized_chemical.py`, `restricted_chemical.py`, `unrestricted_chemical.py`, `senzero.py`, without `deriv` | arrays are total functions with an explicit bound check; complex conjugation does not occur in the code |
| `Model/HamWfn.lean` | `integrate_sd_wfn` of the base class and of the four Hamiltonians above, with `_integrate_sd_sds_zero/one/two*` | `wfn_deriv`/`ham_deriv` (a derivative is the same linear map applied to another function `f`); the overlap is any function of the integer handed to `get_overlap` |
| `Model/Rotation.lean` | `orb_rotate_jacobi`, `orb_rotate_matrix` of `generalized_base.py` and `unrestricted_base.py`, `param_ind_to_rowcol_ind` | cosine and sine are arguments; both unrestricted matrices have the same number of columns; alpha and beta arrays are not aliased |
| `Model/HamDeriv.lean` | the `deriv` branch of `integrate_sd_sd` and `integrate_sd_sd_decomposed` of the generalized, restricted and unrestricted chemical Hamiltonians | real integrals (`np.real` is the identity); all indices are checked before the first derivative is computed |
| `Model/Params.lean` | `math_tools.unitary_matrix`; `__init__` and `assign_params` of the generalized (restricted) and unrestricted chemical Hamiltonians | exact arithmetic: the norm comparisons and `scipy.linalg.expm` are parameters of the model; the integer square root replaces the float test of the number of elements; type checks left out |
| `Model/Density.lean` | `fanpy/ham/density.py` | `orbtype` strings other than the three; additions to the two kinds of matrices are not interleaved |
| `Model/CI.lean` | `fanpy/wfn/ci/base.py`, `cisd.py`, `fci.py`, `doci.py`, `ci_pairs.py`, `hci.py` | type and memory checks, `add_noise`, `to_ap1rog`; spins are given as twice their value; `hCI` in exact (rational) arithmetic and without `refwfn`; the order of `list(set(...))` |
| `Model/Geminal.lean` | `fanpy/wfn/geminal/base.py`, `apg.py`, `apsetg.py`, `apig.py` | `assign_params` (the parameters are given as a matrix of the right shape), the cache, type checks; exact square root in `APG.get_orbpair` |
| `Model/AP1roG.lean` | `fanpy/wfn/geminal/ap1rog.py` | as above |
| `Model/APr2G.lean` | `fanpy/wfn/geminal/rank2_approx.py` without `full_to_rank2` (the default parameters), `apr2g.py` | as above; real numbers; the array of parameters has the right size |
| `Model/Linalg.lean`, `Model/DetRatio.lean` | `fanpy/wfn/quasiparticle/det_ratio.py` | `numpy.linalg.det` is the Leibniz determinant by cofactor expansion; one-dimensional masks; `add_noise` |
| `Model/Quasiparticle.lean` | `fanpy/wfn/quasiparticle/base.py`, `tetret.py` | `assign_params` (in `Model/QuasiParams.lean`), the cache, type checks |
| `Model/MPS.lean` | `fanpy/wfn/network/mps.py` | type checks, `add_noise`, the cache, the unused `_olp_deriv`; the scale of the default parameters is an argument; negative parameter indices |
| `Model/Composite.lean` | `wfn/composite/lincomb.py`, `product.py`, `embedding.py`, `embedding_fixedelectron.py`: constructors, `get_overlap` with and without `deriv`, `ProductWavefunction.get_overlaps`, `split_sd` | type checks, memory, `get_overlaps` of the embedded wavefunctions, saving of parameters |
| `Model/Jacobi.lean` | `wfn/composite/jacobi.py` and the checks of `base_one.py` | noise, memory, saving, cache; the angle enters as its cosine and sine |
| `Model/Nonorth.lean` | `wfn/composite/nonorth.py` and the parts of `base_one.py` it uses | types, noise, memory, saving, cache; determinants of matrices are exact |
| `Model/Eqn.lean` | `eqn/utils.py`, `eqn/base.py`, `eqn/energy_oneside.py`, `eqn/energy_twoside.py`, `eqn/energy_variational.py`, `eqn/local_energy.py`, `eqn/constraints/norm.py`, `eqn/projected.py`, `eqn/least_squares.py` | type checks, printing, saving; assign_pspace/assign_refwfn; exceptions raised while overlaps are computed; empty references (numpy raises for shapes); inf and nan after a division by zero; the parameters after a failure inside LeastSquaresEquations |
| `Model/EnergyConstraint.lean` | `eqn/constraints/energy.py`: `objective` of the energy constraint | the energy is an input; real numbers; `min_diff` positive; the printed messages |
| `Model/Cache.lean` | `functools.lru_cache`, `enable_cache`, `clear_cache`, `load_cache` and the assignments that do or do not clear | sizes are inputs; the cached second derivative; `enable_cache` of a coupled cluster wavefunction; keys that compare equal with different types |
| `Model/CC.lean`, `Model/CCMemo.lean` | `wfn/cc/base.py` with one determinant as reference, `wfn/cc/standard_cc.py` | the checks of types in `assign_exops`, grouping of products by length, unsigned integer types of the stored indices, noise, parameters taken from another wavefunction |
| `Model/PCCD.lean` | `wfn/cc/pccd_ap1rog.py`, `ap1rog_generalized.py`, `ap1rog_spin.py`, `apg1ro_d.py`, `apg1ro_sd.py`, `apset1rog_d.py`, `apset1rog_sd.py`, `ccsd_sen0.py`, `ccsdtq_sen0.py`, `ccsdq_sen0.py`, `ccsdt_sen2_q_sen0.py` (operators, `_olp`, `_olp_deriv`) | `assign_params` and templates; the memo is off (`exop_combinations` given raises) |
| `Model/CreationCC.lean` | `wfn/creation_cc.py` | type checks, noise of the parameters, `dtype=float` of `np.fromiter` (numbers of a commutative ring) |
| `Model/RBM.lean` | `wfn/network/rbm.py` | floats; the activation and its derivative are parameters; parameters given as a list of arrays; `print`; `probable_sds` and caches; ragged `np.array` is taken to be a ValueError (numpy 1.24 on) |
| `Model/Solver.lean` | `solver/ci.py`, lines 126-146 of `solver/system.py` | scipy: `eigh` is a parameter with the properties `Spec.IsEigh`; the optimizers of scipy and cma; printing |
| `Model/Alias.lean` | `interface/fanci/alias.py` | floating point; the random number generator (its values are arguments) |
| `Model/FanCI.lean` | `interface/fanci/utils.py` and `legacy.py`: determinants, parameter feeding, objective, Jacobian, constraints, arguments of the optimizer | PyCI itself (its sparse operator is a matrix), the optimizers, boolean occupation arrays |
| `Model/FANPT.lean` | `fanpt/utils.py`, `fanpt/containers/*.py`, the steps of `fanpt/fanpt.py` | PyCI (the operators are matrices), `lstsq` (a function), the calls of the FanCI optimizer between the steps, result dictionaries |
| `Model/HamWfnDeriv.lean` | `ham/generalized_chemical.py` 820-1639: `_integrate_sd_sds_deriv_zero/_one/_two` (one term for each statement that adds to an array), `integrate_sd_wfn` with `ham_deriv` | complex integrals; `np.add.at`-free index arithmetic is written as a condition on the entry; `components=False` (a sum of the three) |
| `Model/HamWfnDerivSpin.lean` | `ham/unrestricted_chemical.py` 1367-3496 and `ham/restricted_chemical.py` 1218-3420: the ten `_integrate_sd_sds_deriv_*` (one term for each statement that adds to an array), `integrate_sd_wfn` with `ham_deriv` | complex integrals; the arrays of the restricted class are those of the unrestricted class with equal blocks; `components=False` (a sum of the three) |
| `Model/PCCDNew.lean` | `wfn/cc/pccd_ap1rog_NEW.py` and the classes derived from it; the dictionary `exop_combinations` of these classes and of `wfn/cc/pccd_ap1rog.py` | CI references; cache of the overlaps; shape of the parameters |
| `Model/SeniorityCC.lean` | `wfn/cc/seniority_cc.py`, `wfn/cc/ccs.py` | the caches; values of the attributes of a CI reference |
| `Model/EqnInit.lean` | constructors in `eqn/base.py`, `eqn/projected.py`, `eqn/energy_*.py`, `eqn/local_energy.py`, `eqn/constraints/norm.py`, `ComponentParameterIndices.__eq__` | `eqn_weights`, `step_print`, `step_save`, `tmpfile`; types of the wavefunction and the Hamiltonian |
| `Model/GenFanCI.lean` | `GeneratedFanCI` of `wfn/utils.py`: constructor, `compute_overlap`, `compute_overlap_deriv`, `compute_objective`, `compute_jacobian`, constraints, `optimize`; `optimize_stochastic` of the three FanCI classes | frozen parameters, `fill_wavefunction`, PyCI, saving and printing, the optimizers |
| `Model/NatOrb.lean` | `compute_natural_orbitals` of `analysis/orbitals/natural_orbitals/ci.py` | `scipy.linalg.eigh`, `np.argsort` (arguments with their documented contract), the Molden file |
| `Model/SolverRun.lean` | `minimize`, `cma` (solver/equation.py), `least_squares`, `root` (solver/system.py), `wrap_scipy`, `save_params` of the chemical Hamiltonians | the optimizers (arbitrary programs), keyword arguments, files |
| `Model/Script.lean` | `check_inputs` (scripts/utils.py), `get_wfn_info` (scripts/wavefunction_info.py), `make_script` of gaussian and pyscf as lists of statements (names used, names bound, calls), the atoms of the pyscf script, parameters of the constructors that are called | layout of the text, values, attributes of objects, the command line parser |
| `Model/ToAP1roG.lean` | `CIPairs.to_ap1rog` (ci_pairs.py:115-146) | `argsort` (the index of the reference is an argument); floats, in particular the division by a zero coefficient |
| `Model/EigPower.lean` | `eigh` and `power_symmetric` (math_tools.py:392-480) | floats; `np.linalg.eigh` and `np.argsort` are arguments with a hypothesis (`Numpy.Sound`, met by `sound_exists`); printed warnings |
| `Model/EmbedBulk.lean` | `get_overlaps` of embedded wavefunctions (embedding.py:223-269, embedding_fixedelectron.py:176-244) | components with a `get_overlaps` of their own; the width of numpy integers; floats |
| `Model/MPSOne.lean` | `MatrixProductState._olp_deriv` (mps.py:383-409) | floats |
| `Model/Text.lean`, `Model/Tables.lean` | `DataFrameCI`, `DataFrameCC` (analysis/dataframe/ci.py, cc.py) and the texts they write and read | files (`to_csv`, `read_csv`), printed messages, order of the union of rows, other attributes of pandas, the table left behind when a method raises; `int(text)` without signs or underscores |
| `Model/TablesGem.lean` | `DataFrameGeminal` (analysis/dataframe/geminal.py) | as for the tables of CI coefficients |
| `Model/Printer.lean` | the six printers of parameters (analysis/printer/ci.py, cc.py, geminal.py) as lists of rows | headers, padding, decimals of the numbers, complex parameters, not-a-number |
| `Model/FillWfn.lean` | `FanCI.fill_wavefunction` (interface/fanci/legacy.py:849-898) | pyci is an arbitrary order of listing determinants |
| `Model/FanBase.lean` | constructor, masks, constraints, `optimize` and `optimize_stochastic` of the base class (interface/fanci/legacy.py) | optimizers, objective and Jacobian are arbitrary functions; printing |
| `Model/Rank2Fit.lean` | `full_to_rank2`, `RankTwoApprox.assign_params` (wfn/geminal/rank2_approx.py:100-143, 275-447) | floats; `lstsq` and the null vectors of the SVD are arguments; noise on given parameters |
| `Model/Settings.lean` | `assign_memory` (wfn/base.py:230-246), settings and constructor of `hCI` (wfn/ci/hci.py:164-375) | `float(text)` is an argument; ASCII |
| `Model/PyciIface.lean` | `PYCI` (interface/pyci.py:20-351), constructors of the FanCI objectives (fanci/legacy.py:979-1074, fanci/pyci.py:156-260), `ProjectedSchrodinger.assign_constraints`/`assign_eqn_weights` (eqn/projected.py:388-439), `FANPT.__init__` (fanpt/fanpt.py:139-223) | classes of PyCI; printed messages; floats of `comb` |
| `Model/Localize.lean` | `localize` (interface/pyscf_tools.py:245-516) | PySCF and `np.linalg.svd` (specified by `Spec/Svd.lean`); assertions up to rounding, prints and files; labels `ao_inds` of the methods other than `svd` |
| `Model/IntHeap.lean` | checks and storage of `assign_integrals`, in-place `orb_rotate_jacobi`, copies of `set_ref_ints`, `assign_params`, `orb_rotate_matrix` (ham/generalized_base.py, unrestricted_base.py, generalized_chemical.py, unrestricted_chemical.py) as operations on a memory of arrays | partially overlapping views; aliasing of `params` and of the unitary matrices; state after an exception |
| `Model/SaveParams.lean` | `save_params` of wavefunctions, Hamiltonians, `ParamContainer` and objectives (wfn/base.py, composite/base_one.py, composite/lincomb.py, ham/generalized_chemical.py, ham/unrestricted_chemical.py, eqn/base.py, eqn/utils.py, interface/fanci/legacy.py, interface/fanci/pyci.py, wfn/utils.py), with `os.path.splitext` and the suffix of `np.save` | failing writes, links between files, the format of the files |
| `Model/FloatSteps.lean` | the steps of `fanpt/fanpt.py:284-300` with rounded numbers | overflow, subnormal numbers (a rounding is to the nearest number with 53 bits, any exponent) |
| `Model/FanptRun.lean` | `FANPT.optimize` (fanpt/fanpt.py:225-338) with the changes that it makes to the interface | the optimizer and the response equations are functions; printing; the order of errors within a container |
| `Model/FloatColumns.lean` | `APG.get_orbpair` (wfn/geminal/apg.py:172-179) and the dimension in `unitary_matrix` (tools/math_tools.py:362-365) with rounded numbers | overflow and underflow; the library's power is taken to be the correctly rounded square root |
| `Model/ParamHeap.lean` | the arrays behind `wfn.params`: `assign_params` of wavefunctions (wfn/base.py:265-278 and the subclasses) and of objectives (eqn/base.py:318-331), the cache of overlaps | a view is the address of its array; wavefunctions with one parameter array only; the size of the cache; complex numbers |
| `Model/FanciScript.lean` | `make_script` of scripts/gaussian/make_fanci_script.py:137-463 and scripts/pyscf/make_fanci_script.py:125-561, the orders on the command line (575-577) | statements are the names that they use and bind and their calls; texts of file names and memory |
| `Model/Factory.lean` | `ham_factory` of ham/utils.py:37-203, `wfn_factory` of wfn/utils.py:57-159 | rounding; types of arrays; the checks of `nelec`, `nspin` and memory |
| `Model/FanciReport.lean` | `compute_overlap_double_deriv`, and the printing and saving of `compute_objective` and `compute_jacobian`, fanci/legacy.py:1206-1317, fanci/pyci.py:395-506 | rounding; the text of the numbers; the format of the files; the lines that PyCI's own functions print |
| `Model/FciMatrix.lean` | `fci_cimatrix` of interface/pyscf_tools.py:88-207, the integrals of `PYSCF`, interface/pyscf.py:12-93 | rounding; the C code of PySCF (see the note on C119); the strings of 64 bits; the other attributes of `PYSCF` |
| `Model/TableFiles.lean` | `to_csv` and `read_csv` of analysis/dataframe/base.py:60-96, ci.py:40-60, cc.py:47-69, geminal.py:68-102 | rounding of cells; quotes in CSV files; keyword arguments of `pandas.read_csv`; what a table of geminals is after an error |
| `Model/QuasiParams.lean` | `assign_params` of `fanpy/wfn/quasiparticle/base.py:231-288` | `add_noise`, the checks of arrays by `BaseWavefunction.assign_params`, the cache, printed messages |
| `Model/RunCalc.lean` | `scripts/pyscf/run_calc.py` (`write_wfn_py`, `make_wfn_dirs`, times of `run_calcs`), `pyscf_parser.py` and the `main` functions of `pyscf/make_script.py` and `pyscf/make_fanci_script.py` | argparse (an option takes the next word; words that begin with a dash are refused) and `json.loads` (a function to the number of atoms) are taken from their documentation; the regular expression, the batch file and `make_pyscf_input` are not modelled |
| `Model/TableWrap.lean` | `analysis/dataframe/base.py` (`__getattr__`, `__getitem__`, `__setitem__`, `from_existing`, `update_dataframe`), names of the classes in `ci.py`, `cc.py`, `geminal.py` | pandas is a parameter (any state, objects, attributes, calls); the functions of the classes are a parameter here; Python's order of lookup, iteration by `__getitem__` and `copy.copy` are taken from the language; recursion limit as fuel |
| `Model/EmbedScript.lean` | `scripts/gaussian/make_embedding_script.py`, `make_cc_embedding_script.py` (`make_script`: checks and the lines it writes for the lists of orbitals and numbers of electrons; the call in `main`) | the written lines are statements with their indentation, and Python's rule for the body of a loop is applied to them; the regular expressions that change the given scripts are not modelled; labels are natural numbers; NameError is `runtimeError` |
| `Model/SolverKw.lean` | the keyword arguments of `minimize`, `cma` (solver/equation.py:66-82, 160-189), `root`, `least_squares` (solver/system.py:52-83, 148-178), `wrap_scipy`, `wrap_skopt` (solver/wrappers.py:65, 128-129) | dictionaries are objects at addresses; the optimizer is the list of the names of its parameters; floats are rational numbers; objects other than dictionaries have no `setdefault` |
| `Model/GbsFile.lean` | `convert_gbs_nwchem` (interface/pyscf_tools.py:223-242) with the two regular expressions | ASCII text; the patterns are matched without backtracking, which they do not need |
| `Model/HfInput.lean` | `hartreefock` (interface/pyscf_tools.py:61-80) up to PySCF, the branches of `localize` (320-347, 400), the script of `make_localize_hf.make_script` up to Hartree-Fock, the check of convergence in the script of `make_pyscf_input` (44-46) | ASCII text; each file has one name; the number of lines is written in decimal; that PySCF can raise on the coordinates is not modelled; that `check_convergence` of a PySCF object is a function or `None`, and `None` by default, is an assumption about PySCF |
| `Model/GemCopy.lean` | `assign_params(other)` (wfn/geminal/base.py:306-329, ap1rog.py:170-174), `dict_orbpair_ind` and `dict_ind_orbpair` of the classes (apg.py:110-112, apsetg.py:110-113) | the messages printed for ignored pairs are left out |
| `Model/GemDefault.lean` | `assign_params()` (wfn/geminal/base.py:300-304, ap1rog.py:170-174) | exact arithmetic; the cache is left out |
| `Model/PyscfInput.lean` | `make_pyscf_input` (scripts/pyscf/make_pyscf_input.py:22-52), `write_pyscf_py` (scripts/pyscf/run_calc.py:28-52) with `os.path.join`, `os.makedirs` and `open` | `float` of a text is an argument; links, permissions, `.` and `..` in paths |
| `Model/JacobiNested.lean` | `JacobiWavefunction.assign_params` (wfn/composite/jacobi.py:224-229) and `get_overlap` as the component of another one (627-628) | noise, cache, arrays of more than one angle |
| `Model/TextWrap.lean` | the calls of `textwrap.wrap` in the four `make_script` functions (lines in the header of the file), with `textwrap` of the standard library | where words are cut at hyphens is an argument; tabs count as one space |
| `Model/GaussianCli.lean` | `parser` (scripts/utils.py), the `main` functions of `scripts/gaussian/make_script.py`, `make_fanci_script.py`, `run_calc.py` and `make_cc_embedding_script.py`, `run_calc` up to the call of `make_script` | what is used of argparse (no abbreviated options, `--name=value` or values with a dash); numbers are the texts they are written in |
| `Model/ParamContainer.lean` | `ParamContainer` (eqn/utils.py) without `save_params` | what is used of `np.array` for lists and tuples; three types of entries (booleans, numbers, others); values of numbers in `R` |
| `Model/SaveOrbitals.lean` | `save_natural_orbitals` (analysis/orbitals/natural_orbitals/ci.py) | the result of `compute_natural_orbitals` is an argument (see C94); the functions of PySCF write any text and may raise; files are a map from names to texts |
| `Model/Binomial.lean` | `binomial` (tools/math_tools.py) | the loop of `scipy.special.comb` for integers; finite floats are rational numbers; messages are the name and the integer |
| `Model/EqnWeights.lean` | `assign_eqn_weights` (eqn/projected.py) at the end of the constructor, with constraints of any number of equations; the constructors of `EnergyOneSideProjection` and `EnergyConstraint` | the value of the energy; the settings of `EnergyConstraint` other than `ref_energy` (stored as they are) |
| `Model/SolverWrap.lean` | `wrap_scipy` and `wrap_skopt` (solver/wrappers.py) | optimizers are arbitrary programs that evaluate the objective; numbers are rational; `functools.wraps` |
| `Model/NormInit.lean` | the constructor of `NormConstraint` (eqn/constraints/norm.py) | the type of the wavefunction; dictionaries other than `ComponentParameterIndices` |
| `Model/CCCopy.lean` | `assign_params`, `get_ind`, `get_exop` of `BaseCC` (wfn/cc/base.py) | the dictionary is the list of its items; noise, the cache and complex parameters are left out |

## Disagreements between the code and the expected behaviour (proved)
* `is_alpha`, `spatial_index` accept the orbital index `2 * nspatial` (C05).
* `ground(0, n)` raises instead of giving the vacuum (C03).
* `excite_bulk` and friends overflow 64-bit integers from bit 63 on (C12).
* `sign_excite_array` is wrong for rows with different numbers of annihilators and creators (C13).
* `sd_list`: the limit counts the ground state even if it was rejected; excitation order 0 duplicates the ground state;
  spin 1 (a `True`-like entry of a list) disables the spin filter in one branch (C14).
* `generate_unordered_partition` does not check that the sizes add up, and raises `IndexError` for a zero count (C17).
* `int_partition_recursive` with a zero coin (C18).
* `generate_general_pmatch` does not check the connectivity of the last pair, and yields nothing for the empty set (C19).
* `GeneralizedMolecularHamiltonian.integrate_sd_sd(0, 0)` raises `ValueError`; the three other Hamiltonians return 0 (C22).
  `integrate_sd_wfn` of the vacuum gives zeros for all of them (C27).
* `integrate_sd_wfn` of the generalized and unrestricted Hamiltonians always uses signed 64-bit words, that of the restricted
  one for `nspin <= 64`; with 64 spin orbitals the overlap is asked for negative integers (C27_word_64).
* `orb_rotate_jacobi`/`orb_rotate_matrix` do not refresh the cached two-electron integrals, so that diagonal matrix elements
  are stale until `cache_two_ints()` is called (C29_stale_cache, C29_refresh).
* `param_ind_to_rowcol_ind` accepts indices that are out of range (C30_out_of_range).
* `integrate_sd_sd(sd1, sd2, deriv)` does not look at `deriv` when the determinants differ by more than two orbitals; an index that is no parameter then gives a zero and no `ValueError` (C31_far, against C31_index_error).
* A chemical Hamiltonian without orbitals cannot be constructed: `unitary_matrix` of an empty array is a `1 × 1` matrix and `assign_params` raises `ValueError` (C56_no_orbitals).
* `density_matrix(..., is_chemist_notation=True)` returns `D[a, d, b, c]` at `[a, b, c, d]`, which is neither the chemists' `D[a, c, b, d]` nor a permutation that agrees with it (C32_chemist_wrong). Determinants listed twice are counted wrongly, C32 assumes distinct ones.
* `CIWavefunction.assign_sds` does not refresh `dict_sd_index`: overlaps are those of the old list (C33_stale). Repeated determinants (C33_duplicates), determinants with orbitals beyond `nspin` (C33_out_of_space) and parameter arrays of any length (C33_short_params) are accepted.
* `CIWavefunction(nelec, nspin, seniority=k)` without `sds` raises `ValueError` if the seniority of the ground determinant is below `k` (C33_default_seniority).
* `hCI` (new version) with an odd number of electrons and any pattern but `vch` always raises `Warning` (C55_hci_odd); with a hierarchy that is no multiple of the step it includes determinants above the hierarchy (C55_hci_above).
* `APIG` takes the signature of the pairs with respect to the decreasing order, so that its overlaps are `(-1)**npair` times the coefficients of the geminal product; `APG` and `BasicAPsetG` have no such sign (C34_apig_partial).
* `APG.get_overlap` of a determinant with more electrons than the wavefunction is not zero (C34_apg_excess); `APIG` raises (C34_apig_raises).
* The derivatives of geminal overlaps raise `ValueError` for two electrons in two or more geminals: the truncated matrix of `compute_permanent` has rows but no columns (C35_two_electrons).
* `RankTwoApprox.compute_permanent` with `deriv` compares the index with the number of pairs instead of the number of geminals, so that the lambdas of further geminals are taken for columns (C38_extra_geminal); one pair in several geminals gives `IndexError` (C38_one_pair). Equal lambdas or equal epsilons are accepted and give a division by zero.
* The restricted and the unrestricted Hamiltonian read different entries of the two-electron integrals, which are equal only with the particle-exchange symmetry (C24_asymmetric).
* `DeterminantRatio.get_overlap(sd, deriv)` returns the scalar `0.0` for another number of electrons (C39_mismatch).
* `BaseQuasiparticle.compute_permsum(..., deriv)` leaves out the cofactor sign of fermionic quasiparticles (C40_fermion).
* `AntisymmeterizedProductTetrets.get_overlap` of determinants with another number of electrons raises `ValueError` (C59_not_multiple) or `IndexError` (C59_vacuum, C59_more), or gives a non-zero value (C59_fewer).
* `MatrixProductState` with one spatial orbital cannot give overlaps or derivatives (C45_one_orbital).
* C42: `LinearCombinationWavefunction.get_overlap(sd, (self, indices))` returns all coefficients' derivatives, whichever indices are requested (`C42_lincomb_ignores_indices`); the number of coefficients is not checked against the number of wavefunctions (`C42_lincomb_params`).
* C46: an embedded wavefunction accepts the same wavefunction object for two subsystems (a product does not); the derivative then contains the first subsystem only (`C46_shared_object`). No sign for the reordering of electrons between subsystems is applied; the overlap is the plain product.
* C60: an entry `0` in `nelec_list` makes every overlap zero (`C60_empty_subsystem`); for derivatives the components are evaluated at the vacuum before zeros are returned (`C60_deriv_error`).
* C43: `assign_jacobi_indices` does not compare the indices of unrestricted orbitals with the number of spin orbitals; they are accepted and `jacobi_rotation` raises an `IndexError` (`C43_unrestricted_index`).
* C44: `NonorthWavefunction` with restricted or unrestricted orbitals takes the beta orbitals of the component to begin at its own `nspatial` (wrong when the component has another number of orbitals, `C44_more_orbitals`); `get_overlap(sd, (wfn, indices))` writes to `output[i]` with `i` the parameter (`C44_deriv_order`); derivatives of beta orbitals keep the sign of the previous column and use an exhausted generator (`C44_deriv_beta_sign`, `C44_deriv_beta_generator`); restricted derivatives of beta rows and of doubly occupied rows have wrong signs (`C44_deriv_restricted_beta`, `C44_deriv_double`).
* C47: `assign_params` of an equation writes into the array of the component before the component checks it, and goes on
  component by component: a refused assignment leaves new values (`C47_refused_not_undone`).
* C48: `EnergyOneSideProjection.gradient` has `normalize=True` by default, `objective` has `normalize=False`
  (`C48_gradient_default`).
* C50: `ProjectedSchrodinger.jacobian` has `assign=False` by default and ignores the parameters (`C50_jacobian_default`);
  `objective` normalizes by default, the jacobian is not that of the normalized residuals (`C50_normalize`), and the
  constraints see the parameters before the normalization (`C50_constraint_raw`).
* C51: after an exception in `objective` or `gradient` of `LeastSquaresEquations` the class keeps the `num_eqns` of the system
  forever, and `step_print` stays off (`C51_not_restored`, `C51_failure`).
* C52 (also C48, C50): only the wavefunction and its direct components are asked for derivatives; an active parameter of a
  component of a component gets the derivative zero (`C52_nested_component`).
* C53: with `queue_size = 0` every energy above the reference is an `IndexError` (`C53_queue_zero`). For a base below one the reference can exceed the energy (`C53_small_base`). Only the energy of the last call is above the reference: earlier ones can be below it (`C53_not_below_earlier`).
* C54: `enable_cache` wraps the functions again on every call, but `clear_cache` reaches only the outermost wrapper. As the constructors of matrix product states, geminals and quasiparticles already call it, a second explicit call gives stale overlaps (`C54_twice_stale`), and one without derivatives stale derivatives (`C54_derivative_stale`).
* C41: `StandardCC` calls `assign_exops` before `assign_refwfn`, so that with another reference than the ground state the operators do not
  match it (`C41_other_reference`); `BaseCC` only multiplies operators with disjoint orbitals, so it is not an exponential if the operators
  do not commute (`C41_generalized`); determinants with fewer electrons get amplitudes or a `KeyError` (`C41_fewer_electrons`);
  passing `exop_combinations` leaves the attribute unset (`C41_memo`).  With a CI wavefunction as reference every overlap is an
  `AttributeError`, as `BaseCC` reads `refwfn.sd_vec` and `CIWavefunction` has only `sds` (read from the code, not modelled).
* C63: `assign_exops` keeps the dictionary `exop_combinations` of the old operators (`C63_stale_operators`), and its keys do not separate
  annihilators from creators (`C63_key_collision`).
* C64/C65: the amplitude of a pair excitation enters the overlap with a minus sign (`sign_excite` of `[i, i+n], [v, v+n]`), the documentation of
  `PCCD` has no sign.  `CCSDsen0` (and the classes derived from it) assigns the operators again for a given reference but keeps the operators of
  the ground state in `ind_exops`, by which products are selected (`C65_stale_operators`).  The other classes keep the operators of the ground
  state for any reference.  `APset1roGSD` ignores given index sets for its double excitations (apset1rog_sd.py:214).  `assign_refwfn` accepts
  references with orbitals outside the basis.
* C66: the quadruple excitations of `CCSDTQsen0`, `CCSDQsen0` and `CCSDTsen2Qsen0` are stored as `[o1, o1+n, o2, o2+n, ...]` but looked up in
  increasing order, so that their parameters never have an effect (`C66_quadruples`).
* C67: the overlap of `CreationCC` with a determinant of more than `nelec` electrons is that with its first `nelec` orbitals, not zero
  (`C67_excess`, `C67_excess_nonzero`); fewer electrons raise IndexError (`C67_fewer`).
* C69: `CreationCC(params=…)` overwrites the given parameters of the reference pairs with one, also in the caller's array (`C69_given`,
  `C69_overwritten`).
* C70–C73, restricted Boltzmann machine: `output_scale` is only set by `assign_template_params`, so a wavefunction constructed with parameters has no overlaps (`C70_no_scale`); `get_overlaps` overwrites `occ_mask` inside the loop over orders and fails with IndexError when an order above one is not the last (`C72_orders`); `assign_params` ignores numbers beyond `nparams`; `nparams` is too small by `nbath**2` for `num_layers=0` (`C73_no_layers`); `normalize()` without `pspace` divides by zero, as `pspace_norm` is empty (`C73_normalize_empty`).
* C74, C75: `brute(save_file=…)` saves the old parameters of the wavefunction (`C74_saved`); `root` counts constraints instead of their equations, and its slice ends become negative with more constraints than parameters, so that the number of equations is not the number of parameters (`C75_many`, `C75_constraints`).
* C76: `Alias` draws an index of weight zero if the random number is 0.0 (`C76_zero_weight_drawn`), overwrites the array of the caller (`C76_overwrites`), and does not return if more indices are asked for than have positive weight (`C76_endless`).
* C79: with a selection other than a prefix the FanCI Jacobian is evaluated at the wrong parameters (`C79_frozen`); for a `ProductWavefunction` `compute_overlap` gives every component the leading entries of `x` (`C79_product`).
* C80: `results["energy"]` is the last active parameter if the energy is frozen (`C80_frozen_energy`).
* C81–C86, perturbation theory: the linear systems have no second-order terms for constraints, although the default constraint is the norm (`C81_norm`); the third order of `quasi_approximation_order = 3` contracts `d3_g_e_wfnparams2` with the second and first instead of twice the first response (`C82_third`); the energy-free container has no second derivatives (`C83_second`); the resummed correction uses `final_l` instead of `final_l - l` (`C84_resum_start`); the error of the new energy is of first order in that of the overlaps, not of the documented order 2n + 1 (`C84_energy_order_disagrees`); `optimize(lambda_i=0.0)` uses the stored value (`C85_zero_ignored`); the first step uses the sparse operator of `ham0` for the Jacobian (`C85_first_step`); `reduce_to_fock` breaks the exchange symmetry of the electrons (`C86_asymmetric`). `FANPT` never passes constraints to the interface, so that the norm constraint is always there (`C110_fanpt`). Not modelled, but visible in the text: `assign_solver` with a solver that is not None sets no attribute.
* C87: for one spin orbital `integrate_sd_wfn(sd, wfn, ham_deriv=[])` raises `ValueError` (`reshape(0, -1)`) (`C87_one_orbital`).
* C88: `UnrestrictedMolecularHamiltonian.integrate_sd_wfn` with `ham_deriv` writes the derivative with respect to parameter `k` to column `k` of an array with `len(ham_deriv)` columns, instead of the position of `k` in `ham_deriv`: a selection of parameters raises `IndexError` or comes back in another order (`C88_unrestricted`, `C88_unrestricted_single`, `C88_unrestricted_order`). With one spatial orbital and `ham_deriv=[]` both classes raise `ValueError` (`C88_one_orbital`).
* C89: the classes of `wfn/cc/*_NEW.py`: `_olp_deriv` and `_olp_double_derivative` ignore `s_type` and always use the rule of `"sen-o"`, so that they are not the derivatives of the overlap for the other options; the products that they keep overwrite the stored ones, so that later overlaps change (`C89_free`, `C89_sen_v`, `C89_sen_ov`). `assign_refwfn` splits the occupied orbitals after the first `nspatial`: every reference with an empty orbital is rejected (`C89_reference`, `C89_constructor`). `assign_s_type` accepts any value (documented: `ValueError`), and an unknown one acts like `"free"` (`C89_names`). In `wfn/cc/pccd_ap1rog.py` the second derivative is that of `BaseCC`, which ignores the selection unless an overlap or derivative for the determinant was computed before (`C89_second_order`).
* C90, C91: `SeniorityCC`: the derivative with respect to a parameter at the reference is a `TypeError` (`_olp_deriv` returns the float `0.0`, which is then indexed), the second derivative is inherited and is an `AttributeError` for every determinant other than the reference (`exop_combinations` has lists, and `values` is called), and a seniority-zero `CIWavefunction` is accepted as reference though every overlap is then an `AttributeError` (`sd_vec` does not exist) (`C90_errors`). The check that an integer reference has seniority zero is commented out. `CCS`: `generate_possible_exops` stores a list, and every overlap away from the reference is an error (`C91_overlap_partial`, `C91_exponential_false`); the products would also be counted once for every order (`C91_products`).
* C92: a `ComponentParameterIndices` given to a constructor is kept, not copied: `ProjectedSchrodinger` with a fixed or variable energy adds the energy to it (also if the constructor then fails), and another equation with the same selection then refuses its vectors of parameters (`C92_shared`). `assign_refwfn` and `assign_pspace` of `ProjectedSchrodinger` do not check numbers of electrons or orbitals; the default constraint does (`C92_reference_unchecked`). `ComponentParameterIndices.__eq__` ignores the order of the components, so a constraint that reads the vector of parameters in another order is accepted (`C92_order`). With a fixed or variable energy, no constraint made before with its own selection is accepted (`C92_energy_constraint`).
* C93: the class made by `convert_to_fanci` ignores its argument `mask` and raises `ValueError` unless every parameter of every selected component is selected (`C93_init`); the determinants of a DOCI space are made of the alpha orbitals only (`C93_doci`, `C93_doci_wrong`); with the default `objective_type=None` only `"root"` can start (`C93_optimize_default`); `optimize_stochastic` of all three FanCI classes raises `KeyError` after the first optimization, from the `{isamp}` in the format string (`C93_stochastic`).
* C94: for determinants with different numbers of alpha electrons `compute_natural_orbitals` diagonalizes only the two diagonal blocks, and the occupations are not the eigenvalues of the density matrix (`C94_mixed`); `mo_coeff` with more rows than columns raises `ValueError`, since the result is allocated with `nspatial` rows (`C94_shape`).
* C95: `least_squares` and `root` use the Jacobian at the last evaluated point and not at the point the optimizer asks for, since `jacobian` does not assign parameters (`C95_stale_jacobian`); with active parameters of the Hamiltonian each Jacobian moves the point of reference, so the same active parameters give different values before and after (`C95_history`), while in `minimize` a misspelt attribute (`update_prev_prams`) prevents this; the energy in the output belongs to the last evaluated point and not to the solution (`C95_energy_of_last`).
* C96: `check_inputs` refuses newlines and semicolons to prevent code injection, but quotes are accepted, so that any expression without these two characters can be put into the script through the name of a file (`C96_injection`); `load_chk` and `constraint` are not checked.
* C97: `check_inputs` accepts the objectives None, `energy`, `projected_stochastic` and the solvers None and `fanpt`, for which `make_script` stops with an unbound variable (`C97_unmade`); the script for `hci` always fails since the constructor has no `params` (`C97_hci`); the default arguments of `trustregion` are a tuple (a misplaced comma) that is passed as `use_gradient` (`C97_trust`); names of constraints are not checked (`C97_constraint`); the default arguments of `rbm` use `nspin`, which scripts for pyscf do not define (`C97_rbm`); an atom alone is listed twice in the geometry (`C97_geometry`).
* C98: `to_ap1rog` raises `KeyError` if the largest coefficient does not belong to the ground state, there are at least two pairs and at least two empty spatial orbitals (`C98_convert`, `C98_fails`): it looks up pair excitations of the reference that are double pair excitations of the ground state, which the CI wavefunction does not have.
* C99: `eigh` computes `-kept_indices` for an array of booleans; numpy raises `TypeError` since version 1.13, and Fanpy requires 1.25 (setup.py:62), so that `eigh` and `power_symmetric` never return, and neither does `localize` of pyscf_tools, which calls the latter (`C99_raises`).
* C100: `get_overlaps` of an embedded wavefunction without determinants returns the number one, the derivatives raise `IndexError` (`C100_empty`); with fixed numbers of electrons the derivatives raise `ValueError` if no determinant matches, although `get_overlap` returns zeros (`C100_fixed_derivs_none`).
* C101: `_olp_deriv` of a matrix product state raises `AttributeError` for one spatial orbital (`C101_one_orbital`) and is not zero for parameters of occupations that the determinant does not have (`C101_other_occupation`; the docstring excludes this).
* C102: `DataFrameCI.add_wfn_to_dataframe` does not look at the labels in use; on a table of texts it makes new rows with integer labels, and `set_sds_as_index` then raises `AttributeError` (`C102_add_formatted_disagrees`).
* C103: `DataFrameCC.set_operators_as_index` writes the indices in increasing order, so operators in another order, such as the default quadruples of `CCSDTQsen0`, change their label on the way over determinants, and operators that differ only in order become the same row (`C103_order_disagrees`). A determinant with another number of electrons than the reference becomes an operator that cannot be read back (`C103_electrons_disagrees`). The two error messages of `set_sds_as_index` call the annihilators creation operators and the other way around.
* C104: `DataFrameGeminal.add_wfn_to_dataframe` does not flatten the matrix of coefficients and always raises `ValueError` (`C104_add_disagrees`). Wavefunctions of rank two have a vector of other numbers: `ValueError`, or a wrong table for three geminals and three pairs (`C104_rank_two_disagrees`). `DataFrameGeminal()` has no `wfn_ref_sd`, so `to_csv` raises `AttributeError` (`C104_empty_disagrees`).
* C105: `print_geminal_ops` fills the columns with the integer 0 if there is no reference and then joins them as texts: `TypeError` (`C105_geminals_disagrees`). The index printers take `max` of an empty list if no row exceeds the threshold: `ValueError`. The number of a geminal is printed by the code that prints an alpha orbital, so it is blank from the number of spatial orbitals on (last clauses of `C105_geminals_indices`).
* C106: filling by seniority leaves out part of the space, so a legal `nproj` raises `ValueError` (`C106_seniority_disagrees`).
* C107: an empty list of frozen parameters is an `IndexError` (`C107_mask`); constraints cannot be added or removed after construction (`C107_constraints_disagree`); `optimize_stochastic` with several samples raises `AttributeError` (`C107_stochastic_disagrees`).
* C108: least squares fixes the first zeta to one, so coefficients whose first pair is not used always raise `ValueError` (`C108_first_pair_disagrees`). `assign_params` stores the array before it checks it and does not clear the cache when it refuses it (`C108_assign_refused_disagrees`); the number of parameters is not checked (`C108_assign_size_disagrees`).
* C109: `"10MB"` raises `ValueError`, since `rstrip` distinguishes capitals (`C109_memory_capitals_disagree`). `hierarchy=None` passes `assign_hierarchy` but not the constructor (`C109_no_hierarchy_disagrees`).
* C110: `sd_list(spin=0)` is empty for odd electrons, so the interface has no projections (`C110_odd_disagrees`). The setters leave `objective._ci_op` (`C110_operator_disagrees`) and call a Hamiltonian as a function for the other kind (`C110_setters_disagree`). `update_objective` gives FanCI constraints to `ProjectedSchrodinger`, always gives it the norm constraint otherwise, and drops the excitation orders (`C110_update_disagrees`, `C110_update_projections_disagree`). `nparam` is `len(mask)` even for a mask of integers (`C110_mask_disagrees`). The legacy objective ignores `norm_param` (`C110_constraints`). `FANPT` makes its interface without `norm_det`, so `inorm` is always false (`C110_fanpt`).
* C111: `assert np.all(s > 0)` fails in exact arithmetic once an orbital of a system with fewer functions than remaining orbitals was removed (`C111_exhausted`; rounding noise may let it pass). Without virtual orbitals `np.vstack` raises (`C111_empty`). `u.dot(vh)` needs as many localized as molecular orbitals (`C111_other_iff`). The result is in chemists' notation (`C111_notation`), and the printed energy is not the energy (`C111_printed_disagrees`). `nelecs` sums to the number of occupied orbitals (`C111_svd`), and compares orbital numbers with system numbers otherwise (`C111_other`).
* C112: `assign_integrals` stores the arrays it is given and `orb_rotate_jacobi` writes into them, so the caller's arrays change (`C112_direct_disagrees`), `[h, h], [g, g, g]` is rotated for both spins and several times (`C112_shared_disagrees`), and an array of integers, which the generalized check accepts, loses fractional parts (`C112_integer_disagrees`). The constructors of the chemical Hamiltonians copy first and are not affected (`C112_values_gen_partial`, `C112_values_unr_partial`).
* C113: names of files are class names with counters, so classes `W`, `W`, `W1` share a file (`C113_numbered_disagrees`), and so do a component of class `A_B` and the wavefunction `B` of a component `A` (`C113_underscore_disagrees`). No class of Fanpy is affected (`C113_fanpy_classes`). The files `_um_alpha` and `_um_beta` of the documentation of the unrestricted Hamiltonian do not exist (`C113_unitary_disagrees`).
* C85, steps of FANPT with rounded numbers: `final_l` can be rounded to a number above 1, and then the updater raises a `ValueError` in the last step: so with 93 steps from 0 to 1 (`C85_rounding_disagrees`).
* C114: `optimize` calls `update_objective`, so with an objective that has other than one equation of constraints it always raises a `ValueError` (`C114_constraints_disagrees`).
* C37: with `2 ** 28` spin orbitals the rounding of the square root in `APG.get_orbpair` gives the column of the pair `(0, 2 ** 28 - 1)` the pair `(1, 1)` (`C37_float_disagrees`); up to `2 ** 25` spin orbitals it is harmless (`C37_float_orbpair`).
* C17: from a collection that is not increasing the partitions in which a bin is not increasing are lost (`C17_any_order`, `C17_order_disagrees`). The callers pass increasing collections.
* C115: `assign_params` keeps the array it is given and `BaseSchrodinger.assign_params` writes into it, so wavefunctions made from one array change together and their caches are stale (`C115_shared_disagrees`), also a matrix product state assigned from another one (`C115_take_disagrees`); two components with one array do not get the assigned parameters (`C115_components_disagree`); the noise is added to the caller's array (`C115_noise_disagrees`); arrays of integers drop fractional parts (`C115_ints_disagree`).
* C116: for gaussian, solvers that the pyci interface does not have are accepted, and the script ends with `optimize(x, None)` or ignores the solver (`C116_solver_disagrees`); the constraint is ignored (`C116_constraint_ignored`); `root` takes `len(wfn.params)` for the number of parameters, which is the number of rows for geminals, and is then always refused (`C116_root_disagrees`); `pspace_exc=None` prints `[1, 2]` and uses all orders (`C116_orders_disagree`); `--pspace_exc '(1, 2)'`, the example of the help, raises `ValueError`, and without pyci every list does (`C116_cli_disagrees`).
* C117: `orders` with 0 or with a repeated order counts determinants repeatedly (`C117_orders_disagree`); the methods of a generated Hamiltonian do not take `ham_deriv`, `deriv` and `components` (`C117_keywords`).
* C118: second derivatives are over all parameters while first derivatives are over the active ones (`C118_hessian_all`; `deriv_indices` is computed and not used); the parameters left and saved by `compute_jacobian` differ from those of `compute_objective` if the selected parameters are not the first ones (`C118_checkpoints_disagree`).
* C120: file names drop an extension other than `csv`, so `r=1.5` and `r=1.8` are one file (`C120_same_files_disagrees`); `s.csv` and `s.CSV` share metadata (`C120_metadata_disagrees`); determinants of more than 64 bits come back as texts (`C120_large_disagrees`); a failed `read_csv` leaves the new rows with the old view (`C120_read_errors`).
* C121: the copied parameters of a wavefunction with more quasiparticles than the one they come from have rows of zeros, so all overlaps of even subsets vanish (`C121_extra_rows`).
* C122: `APset1roGSD` uses the two sets of orbitals for the single excitations only (`apset1rog_sd.py:214`, `C122_sets_sd_disagrees`); sets may hold orbitals that do not exist (`C122_outside`); a parameter of `APset1roGD` whose first orbital is above the second has no effect (`C122_unordered`); `PCCD` and the classes that do not derive from `CCSDsen0` make the operators before the reference is assigned, so they never excite the electrons of another reference (`C122_reference_disagrees`).
* C123: the defaults of `write_wfn_py` (objective `variational`, solver `cma`, `run_calc.py:181-197`) are refused by the program it runs by default, and with `fanpy_only` every list of orders is refused; the exit status is not looked at, so no script is made and nothing is raised (`C123_defaults_disagree`). `load_prev` looks for parameters in a directory `0` while `make_wfn_dirs` names the directories `prefix_i` (`C123_prev_dir_disagrees`). If the name of a system cannot be read the working directory is not restored (`C123_stops`).
* C124: a table made by a function of pandas (`copy()`, `t[[...]]`) is of the base class and has lost its view and metadata (`base.py:29, 37`, `C124_lost`), so `index_view` raises AttributeError, and its `_metadata` is that of pandas; `t.columns = ...` changes what `t.columns` gives but not the table (`C124_assign_disagrees`); iteration raises KeyError (`C124_iterate_disagrees`); `copy.copy` recurses without end (`C124_copy_disagrees`).
* C125: for `loc_type="svd"` the second line of the text put into the loop is not indented (`make_embedding_script.py:46-47, 60`), so only the last beta orbital is given to a system and the embedded wavefunction is refused (`C125_svd_disagrees`); make_cc_embedding_script.py uses `slater` and `FixedEmbeddedWavefunction` without importing them (`C125_cc_disagrees`); `main` calls `make_script` with the arguments of another function (`C125_main_disagrees`).
* C126: the solvers put their defaults into the dictionary `options` of the caller, so later calls with the same dictionary get them too (`C126_shared_disagrees`); `options=None`, which scipy accepts, raises `AttributeError`, and `verbose` cannot be given to `least_squares` (`C126_errors`).
* C127: the first section of a file of basis sets is taken for comments, so the first atom is lost if no stars are before it (`C127_first_disagrees`); lines of shells with anything after the scale are not recognised (`C127_line_disagrees`).
* C128: the script of `make_localize_hf` takes the number of atoms in an XYZ file for an atom (`C128_xyz_disagrees`), quotes the method so that `None` becomes a text (`C128_method_disagrees`); the script of `make_pyscf_input` does not look at convergence (`C128_convergence_disagrees`).
* C129: `BasicAPsetG.assign_orbpairs` exchanges the two dictionaries, so that its parameters cannot be taken, or are taken as zeros, and the tables and printers of geminals raise `TypeError` (`C129_sets_disagrees`, `C129_tables_disagrees`; C104 and C105 are about the other classes); the reference pairs of an `AP1roG` are lost when its parameters are taken (`C129_ap1rog_disagrees`).
* C130: the default parameters of geminals are documented as the Hartree-Fock ground state; with more geminals than pairs of electrons other determinants have the same overlap (`C130_default_disagrees`).
* C131: coordinates that are a text, as the documentation of `make_pyscf_input` wants them, are put into the script without quotes (`C131_coords_disagrees`); negative amounts of memory are accepted (`C131_negative`); after an error while writing, the process is in another directory (`C131_cwd_disagrees`).
* C133: keyword arguments with a word of more characters than fit between the indentation and column 100 are cut in two (`C133_long_disagrees`), and a space in a string may become a line break (`C133_literal_disagrees`).
* C134: `fanpy_run_calc --load_chk file` does not load the checkpoint (`C134_run_calc`); `--nproj` has no effect in any of the programs for files with integrals (`C134_nproj_disagrees`); the `main` function of `make_cc_embedding_script.py` always ends with an error (`C134_embedding_disagrees`).
* C136: without PySCF `save_natural_orbitals` prints a message and goes on: an existing file of the name is emptied, and the call ends with a `NameError` (`C136_emptied_disagrees`).

## Partial claims

A theorem named `…_partial` is weaker than the property: either the code violates the property at the excluded inputs (a
theorem with a witness says so, see the list above and the notes in MANIFEST.json) or the rest is not proved. These are C13,
C17, C19, C23, C24, C27, C28, C31, C33, C34, C35, C36, C37, C38, C40, C41, C42, C44, C50, C51, C55, C56, C58, C59, C60, C65, C72, C73, C75, C76, C79, C80, C81, C82, C83, C84, C85, C86, C87, C88, C89, C90, C91, C92, C93, C94, C95, C97, C99, C100, C101, C108, C110, C111, C112, C113, C114, C115, C116, C119, C120, C123 and C125; the note of each claim in MANIFEST.json says
what is missing. Several of these theorems had names without the suffix in earlier commits, and entries of
seeded/LOG.jsonl from that time use the old names.
