{"id": "C01", "title": "Occupied and virtual orbital lists describe the determinant exactly", "statement": "For every Slater determinant (non-negative integer) and number of spin orbitals, occ_indices returns in strictly increasing order exactly the orbitals whose bit is set, vir_indices returns in strictly increasing order exactly the orbitals below norbs whose bit is clear, the two lists partition range(norbs) when the determinant fits, total_occ is the length of occ_indices, and the determinant is recovered from the list as the sum of 2**i.", "quantifier": "all non-negative integers sd, all norbs (and the None determinant)", "why_tests_cant": "bit patterns are unbounded; a test samples a handful of small integers", "anchors": ["fanpy/tools/slater.py:occ", "fanpy/tools/slater.py:occ_indices", "fanpy/tools/slater.py:vir_indices", "fanpy/tools/slater.py:total_occ"]}
{"id": "C02", "title": "annihilate/create/excite act on exactly the named orbitals or fail", "statement": "annihilate(sd, *inds) is a determinant iff the indices are distinct and all occupied, and then it is sd with exactly those bits cleared; create is the mirror image; create after annihilate (and annihilate after create) with the same indices restores the determinant; excite rejects an odd number of indices, and otherwise moves electrons keeping their number; the order in which indices are listed does not change the determinant.", "quantifier": "all determinants and all index sequences of any length, including repeated indices and the None determinant", "why_tests_cant": "index sequences of arbitrary length with repetitions cannot be enumerated", "anchors": ["fanpy/tools/slater.py:annihilate", "fanpy/tools/slater.py:create", "fanpy/tools/slater.py:excite"]}
{"id": "C03", "title": "ground builds the aufbau determinant", "statement": "Whenever ground(nocc, norbs) returns, the result has exactly nocc electrons, occupies the lowest (nocc+1)//2 alpha and lowest nocc//2 beta orbitals and nothing else; it raises exactly when nocc > norbs, norbs is odd (and for nocc = 0, where the string conversion fails).", "quantifier": "all pairs of natural numbers nocc, norbs", "why_tests_cant": "two unbounded parameters with parity cases", "anchors": ["fanpy/tools/slater.py:ground"]}
{"id": "C04", "title": "shared/different orbitals reconstruct the pair of determinants", "statement": "diff_orbs(sd1, sd2) lists exactly the orbitals occupied in sd1 only and in sd2 only, shared_orbs exactly those occupied in both, and exciting sd1 from its first list to its second gives sd2 (never failing).", "quantifier": "all pairs of determinants", "why_tests_cant": "quantifies over all pairs of bit strings", "anchors": ["fanpy/tools/slater.py:shared_sd", "fanpy/tools/slater.py:shared_orbs", "fanpy/tools/slater.py:diff_orbs", "fanpy/tools/slater.py:excite"]}
{"id": "C05", "title": "combine_spin and split_spin are mutually inverse", "statement": "Splitting a determinant into alpha and beta parts and recombining gives the determinant back; combining an alpha part that fits in nspatial bits with any beta part and splitting returns both parts; the alpha part of the split always fits; a non-positive nspatial is rejected by both.", "quantifier": "all determinants, all positive nspatial (and rejection for nspatial <= 0)", "why_tests_cant": "unbounded bit strings", "anchors": ["fanpy/tools/slater.py:combine_spin", "fanpy/tools/slater.py:split_spin"]}
{"id": "C06", "title": "interleave and deinterleave are inverse permutations of the orbital basis", "statement": "For determinants within 2*nspatial orbitals interleave and deinterleave are mutually inverse, move the bit of orbital i to interleave_index(i) (deinterleave_index(i)), keep the number of electrons, and the index maps are mutually inverse permutations of range(2*nspatial) with out-of-range indices rejected.", "quantifier": "all nspatial > 0, all determinants below 4**nspatial, all indices", "why_tests_cant": "string-slicing code whose correctness depends on zero padding for every width", "anchors": ["fanpy/tools/slater.py:interleave", "fanpy/tools/slater.py:deinterleave", "fanpy/tools/slater.py:interleave_index", "fanpy/tools/slater.py:deinterleave_index"]}
{"id": "C07", "title": "Spin and seniority are the physical quantities and obey their constraints", "statement": "get_spin is half the difference of the numbers of occupied alpha and beta orbitals, get_seniority the number of spatial orbitals holding exactly one electron; consequently abs(2*spin) <= seniority <= number of electrons, all three have equal parity, and a determinant has seniority zero iff every spatial orbital is empty or doubly occupied.", "quantifier": "all determinants and positive nspatial", "why_tests_cant": "universally quantified numeric relations", "anchors": ["fanpy/tools/slater.py:get_spin", "fanpy/tools/slater.py:get_seniority", "fanpy/tools/slater.py:is_alpha", "fanpy/tools/slater.py:spatial_index", "fanpy/tools/slater.py:spin_index"]}
{"id": "C08", "title": "sign_perm is the signature of the sorting permutation", "statement": "For any sequence of distinct indices sign_perm returns (-1) to the number of inversions with respect to decreasing (default) or increasing order, i.e. the signature of the permutation that sorts it; swapping two entries flips the result; an ordered_set that is not strictly increasing is rejected.", "quantifier": "all sequences of distinct indices, any length", "why_tests_cant": "n! orderings for every n", "anchors": ["fanpy/tools/slater.py:sign_perm"]}
{"id": "C09", "title": "sign_swap counts the electrons passed over", "statement": "sign_swap(sd, p, q) is (-1) to the number of occupied orbitals strictly between p and q plus one if the orbital q is occupied (for p<q: orbitals p+1..q; for p>q: q..p-1).", "quantifier": "all determinants and positions", "why_tests_cant": "unbounded", "anchors": ["fanpy/tools/slater.py:sign_swap"]}
{"id": "C10", "title": "sign_excite is the fermionic sign of the operator string", "statement": "Applying the annihilation operators and then the creation operators (in the documented order) of an excitation to the Fock-space basis state of sd gives exactly sign_excite(sd, annihilators, creators) times the basis state of excite(sd, ...), and sign_excite raises exactly when the operator string kills the state. The Fock-space operators satisfy the canonical anticommutation relations.", "quantifier": "all determinants, all index sequences of any length", "why_tests_cant": "the sign depends on all electrons and on the order of all operators; no finite sample settles it", "anchors": ["fanpy/tools/slater.py:sign_excite", "fanpy/tools/slater.py:sign_swap", "fanpy/tools/slater.py:excite"]}
{"id": "C11", "title": "Closed-form signs of bulk single/double excitations agree with sign_excite", "statement": "sign_excite_one / sign_excite_two / sign_excite_two_ab return, in the order in which excite_bulk / excite_bulk_two_ab list the excitations, exactly the signs given by sign_excite for the corresponding (reversed-creator) excitation.", "quantifier": "all sets of occupied and virtual indices, any sizes", "why_tests_cant": "vectorised index arithmetic over every combination", "anchors": ["fanpy/tools/slater.py:sign_excite_one", "fanpy/tools/slater.py:sign_excite_two", "fanpy/tools/slater.py:sign_excite_two_ab"]}
{"id": "C12", "title": "Bulk excitations enumerate exactly the excited determinants (within 63 orbitals)", "statement": "excite_bulk(sd, occ, vir, n) lists, once each and in row-major combination order, excite(sd, o, v) for all n-combinations o of occ and v of vir; this holds while all orbital indices are below 63 and fails beyond, where the 64-bit arithmetic overflows.", "quantifier": "all determinants, index lists and excitation orders", "why_tests_cant": "number of excitations is combinatorial and the 64-bit boundary is out of reach of the usual test systems", "anchors": ["fanpy/tools/slater.py:excite_bulk", "fanpy/tools/slater.py:excite_bulk_two_ab"]}
{"id": "C13", "title": "sign_excite_array agrees elementwise with sign_excite", "statement": "For any table of annihilators and creators, each entry of sign_excite_array equals sign_excite of that row.", "quantifier": "all determinants, all tables of rows of distinct occupied annihilators and distinct unoccupied creators in increasing order", "why_tests_cant": "array broadcasting over arbitrary shapes", "anchors": ["fanpy/tools/slater.py:sign_excite_array"]}
{"id": "C14", "title": "sd_list generates exactly the requested determinants without repetition", "statement": "Without num_limit the returned list contains, exactly once, every determinant with nelec electrons in nspin orbitals that is reached from the ground determinant by an excitation of an allowed order (distinct positive orders) and satisfies the spin/seniority conditions; with num_limit it is a prefix of that list with at most num_limit entries. When the ground determinant is rejected by the conditions the list has one fewer entry than num_limit allows.", "quantifier": "all nelec, nspin, spin/seniority conditions, excitation orders, limits, orbital energy orders", "why_tests_cant": "combinatorially many inputs", "anchors": ["fanpy/tools/sd_list.py:sd_list", "fanpy/tools/sd_list.py:satisfies_conditions", "fanpy/tools/slater.py:excite_bulk"]}
{"id": "C15", "title": "generate_complete_pmatch yields every perfect matching once with its sign", "statement": "For any even number of distinct indices the generator yields each partition into pairs exactly once, and the sign is the parity of the permutation that flattens the pairs relative to the input order.", "quantifier": "all even-length lists of distinct indices", "why_tests_cant": "(2n-1)!! matchings for every n", "anchors": ["fanpy/tools/graphs.py:generate_complete_pmatch"]}
{"id": "C16", "title": "generate_biclique_pmatch yields every bipartite matching once with its sign", "statement": "For two index lists of equal length the generator yields each bijection between them exactly once with sign equal to the parity of the flattened pairs; for unequal lengths (or empty lists) it yields a single empty matching.", "quantifier": "all pairs of lists", "why_tests_cant": "n! permutations, in-place cycle algorithm with sign bookkeeping", "anchors": ["fanpy/tools/graphs.py:generate_biclique_pmatch"]}
{"id": "C17", "title": "generate_unordered_partition yields every set partition with the prescribed bin sizes once", "statement": "For any collection and bin specification with matching total size, each partition of the collection into unordered bins of the given sizes is produced exactly once, bins keep the collection's order, and a collection larger than the bins yields nothing. (The code does not check the total size: fewer elements give partially filled bins. A collection that is not increasing loses the partitions with a bin that is not increasing.)", "quantifier": "all collections and bin specifications", "why_tests_cant": "combinatorially many partitions", "anchors": ["fanpy/tools/graphs.py:generate_unordered_partition"]}
{"id": "C18", "title": "int_partition_recursive yields every coin partition once", "statement": "For any list of distinct positive coins (any order prefix), the generator yields exactly the multisets of coins with the required total, each once.", "quantifier": "all coin lists and totals", "why_tests_cant": "unbounded recursion", "anchors": ["fanpy/tools/graphs.py:int_partition_recursive"]}
{"id": "C19", "title": "generate_general_pmatch yields only matchings allowed by the connectivity", "statement": "The yielded matchings are, each exactly once, the perfect matchings whose pairs are all connected except possibly the pair that starts last (the code does not check the connectivity of that pair); in particular every perfect matching of the graph is yielded exactly once. The sign is the parity of the flattened matching relative to the index list.", "quantifier": "all index lists and connectivity matrices", "why_tests_cant": "quantifies over all graphs", "anchors": ["fanpy/tools/graphs.py:generate_general_pmatch"]}
{"id": "C20", "title": "permanent_combinatoric and permanent_ryser both compute the permanent", "statement": "For every matrix (square or rectangular) both functions return the sum over injections of the smaller index set into the larger one of the products of entries; in particular they agree, and are invariant under transposition and row/column permutations.", "quantifier": "all matrices of all shapes over a field of characteristic zero", "why_tests_cant": "the Gray-code bookkeeping must be right for every size; tests use sizes up to 4", "anchors": ["fanpy/tools/math_tools.py:permanent_combinatoric", "fanpy/tools/math_tools.py:permanent_ryser"]}
{"id": "C21", "title": "permanent_borchardt equals the permanent of the rank-2 matrix", "statement": "Whenever the determinant in the denominator is non-zero, the ratio of determinants computed from lambdas, epsilons, zetas (etas) equals the permanent of the matrix zeta_j eta_i / (lambda_i - epsilon_j), for square and rectangular shapes.", "quantifier": "all sizes and all parameters with non-vanishing differences", "why_tests_cant": "algebraic identity in arbitrarily many variables", "anchors": ["fanpy/tools/math_tools.py:permanent_borchardt"]}
{"id": "C22", "title": "Generalized Hamiltonian matrix elements follow second quantisation", "statement": "RestrictedMolecular/GeneralizedMolecular Hamiltonian.integrate_sd_sd(sd1, sd2) equals the matrix element <sd1| sum h_ij a+_i a_j + 1/2 sum g_ijkl a+_i a+_j a_l a_k |sd2> evaluated in Fock space, for any one- and two-electron integrals with g_ijkl = g_jilk, except that the vacuum/vacuum element raises.", "quantifier": "all pairs of determinants, all integrals with particle-exchange symmetry, any number of orbitals", "why_tests_cant": "Slater-Condon rules need all overlap patterns and sign parities", "anchors": ["fanpy/ham/generalized_chemical.py:integrate_sd_sd_decomposed", "fanpy/ham/generalized_chemical.py:integrate_sd_sd"]}
{"id": "C23", "title": "Unrestricted Hamiltonian agrees with the generalized one", "statement": "The unrestricted integrate_sd_sd equals the generalized integrate_sd_sd for the spin-blocked integrals (alpha, alpha-beta, beta).", "quantifier": "all pairs of determinants and all integrals", "why_tests_cant": "case analysis over spin patterns for all determinants", "anchors": ["fanpy/ham/unrestricted_chemical.py:integrate_sd_sd_decomposed"]}
{"id": "C24", "title": "Restricted Hamiltonian agrees with the unrestricted one", "statement": "The restricted integrate_sd_sd equals the unrestricted one with equal spin blocks.", "quantifier": "all pairs of determinants and integrals", "why_tests_cant": "as above", "anchors": ["fanpy/ham/restricted_chemical.py:integrate_sd_sd_decomposed"]}
{"id": "C25", "title": "Seniority-zero Hamiltonian agrees with the restricted one on seniority-zero determinants", "statement": "For seniority-zero determinants, SeniorityZeroHamiltonian.integrate_sd_sd equals the restricted Hamiltonian's value when the determinants differ by at most one electron pair.", "quantifier": "all seniority-zero pairs and integrals", "why_tests_cant": "universal statement about determinants", "anchors": ["fanpy/ham/senzero.py:SeniorityZeroHamiltonian.integrate_sd_sd", "fanpy/ham/senzero.py:SeniorityZeroHamiltonian.integrate_sd_wfn"]}
{"id": "C26", "title": "The Hamiltonian matrix is symmetric for symmetric integrals", "statement": "integrate_sd_sd(sd1, sd2) = integrate_sd_sd(sd2, sd1) when the one- and two-electron integrals have hermitian (real) symmetry.", "quantifier": "all pairs of determinants and symmetric integrals", "why_tests_cant": "universal", "anchors": ["fanpy/ham/generalized_chemical.py", "fanpy/ham/restricted_chemical.py"]}
{"id": "C27", "title": "integrate_sd_wfn sums over all connected determinants exactly once", "statement": "For any overlap function f, integrate_sd_wfn(sd, wfn) equals the sum over all determinants m of integrate_sd_sd(sd, m) * f(m); no connected determinant is missed or double counted.", "quantifier": "all determinants, overlap functions, integrals, numbers of orbitals", "why_tests_cant": "the sum ranges over combinatorially many determinants", "anchors": ["fanpy/ham/base.py:BaseHamiltonian.integrate_sd_wfn", "fanpy/ham/generalized_chemical.py:integrate_sd_wfn"]}
{"id": "C28", "title": "Vectorised matrix elements agree with the scalar ones", "statement": "The arrays computed for all single and double excitations (zero/one/two parts) contain, position by position, integrate_sd_sd of the corresponding determinants in the order of excite_bulk.", "quantifier": "all determinants and integrals", "why_tests_cant": "array layouts over all excitations", "anchors": ["fanpy/ham/generalized_chemical.py:_integrate_sd_sds_one", "fanpy/ham/generalized_chemical.py:_integrate_sd_sds_two"]}
{"id": "C29", "title": "Jacobi and matrix orbital rotations are consistent", "statement": "Rotating integrals by the Jacobi angle for orbitals (p, q) equals transforming them with the corresponding Givens matrix; rotations compose (rotating by U then V equals rotating by UV), the identity leaves integrals unchanged, rotating by theta then -theta restores them, and the permutational symmetries of the integrals are preserved.", "quantifier": "all integrals, indices p != q, angles, matrices", "why_tests_cant": "continuous parameters and arbitrary dimensions", "anchors": ["fanpy/ham/generalized_base.py:orb_rotate_jacobi", "fanpy/ham/generalized_base.py:orb_rotate_matrix"]}
{"id": "C30", "title": "Orbital-rotation parameter index and (row, column) pair correspond one to one", "statement": "param_ind_to_rowcol_ind is a bijection between range(n(n-1)/2) and pairs row<col, in row-major upper-triangular order; integrate_sd_sd rejects derivative indices that are out of range (the helper itself does not).", "quantifier": "all n and indices", "why_tests_cant": "unbounded n", "anchors": ["fanpy/ham/generalized_chemical.py:param_ind_to_rowcol_ind", "fanpy/ham/restricted_chemical.py:param_ind_to_rowcol_ind"]}
{"id": "C31", "title": "Derivatives of matrix elements w.r.t. orbital rotations", "statement": "The value returned with deriv for orbital-rotation parameter (x, y) equals the first-order change of the matrix element under the antihermitian rotation generator of (x, y).", "quantifier": "all determinants, integrals with the required symmetry, parameters", "why_tests_cant": "many index coincidence cases", "anchors": ["fanpy/ham/generalized_chemical.py:_integrate_sd_sd_deriv_zero", "fanpy/ham/generalized_chemical.py:_integrate_sd_sd_deriv_one", "fanpy/ham/generalized_chemical.py:_integrate_sd_sd_deriv_two"]}
{"id": "C32", "title": "Density matrices are expectation values and have the right traces", "statement": "density_matrix over a complete list of determinants gives <a+_i a_j> and <a+_i a+_j a_l a_k>; the 1-density trace is nelec times the norm and the 2-density partial trace is (nelec-1) times the 1-density.", "quantifier": "all CI vectors", "why_tests_cant": "sums over all determinant pairs", "anchors": ["fanpy/ham/density.py:density_matrix", "fanpy/ham/density.py:add_one_density", "fanpy/ham/density.py:add_two_density"]}
{"id": "C33", "title": "CI wavefunction overlap looks up the right coefficient, derivative is one-hot", "statement": "get_overlap(sd) is the parameter at the position of sd in the list of determinants and 0 for others; the derivative w.r.t. parameter i is 1 exactly at that position; duplicate/incompatible determinants are rejected at construction. Re-assigning the determinants afterwards must keep this true (the code does not refresh its lookup table).", "quantifier": "all determinant lists, parameters, histories of assignments", "why_tests_cant": "histories of mutations", "anchors": ["fanpy/wfn/ci/base.py:CIWavefunction.get_overlap", "fanpy/wfn/ci/base.py:CIWavefunction.assign_sds"]}
{"id": "C34", "title": "Geminal overlaps are coefficients of the geminal product state", "statement": "The overlap of a geminal wavefunction (APG, APsetG, APIG) with a determinant equals the coefficient of that determinant in the product of the geminal creation operators applied to the vacuum (up to the documented ordering sign).", "quantifier": "all parameter matrices, numbers of geminals, determinants", "why_tests_cant": "sum over matchings times permanents vs. operator algebra in Fock space, all sizes", "anchors": ["fanpy/wfn/geminal/base.py:BaseGeminal._olp", "fanpy/wfn/geminal/apg.py:APG.generate_possible_orbpairs", "fanpy/wfn/geminal/apsetg.py", "fanpy/wfn/geminal/apig.py"]}
{"id": "C35", "title": "Geminal overlap derivatives are the partial derivatives", "statement": "Each entry of the derivative vector returned by get_overlap(sd, deriv) is the partial derivative of the overlap with respect to that parameter.", "quantifier": "all parameter matrices, shapes, determinants", "why_tests_cant": "continuous parameters, all shapes", "anchors": ["fanpy/wfn/geminal/base.py:BaseGeminal.compute_permanent", "fanpy/wfn/geminal/base.py:BaseGeminal._olp_deriv"]}
{"id": "C36", "title": "AP1roG is APIG with an identity reference block", "statement": "The AP1roG overlap equals, up to a sign depending only on the number of pairs, the APIG overlap with the coefficient matrix whose reference columns form the identity.", "quantifier": "all coefficient matrices, references, determinants", "why_tests_cant": "permanent expansion over all excitations", "anchors": ["fanpy/wfn/geminal/ap1rog.py:AP1roG.get_overlap", "fanpy/wfn/geminal/apig.py:APIG.generate_possible_orbpairs"]}
{"id": "C37", "title": "Orbital pair <-> column index maps are mutually inverse", "statement": "APG.get_col_ind/get_orbpair and BasicAPsetG.get_col_ind/get_orbpair are mutually inverse bijections between admissible pairs and range(norbpair); inadmissible arguments are rejected. The square root of get_orbpair is computed with floats; rounding does not change the pairs with up to 2**25 spin orbitals. (With 2**28 spin orbitals it does: the column of the pair (0, 2**28 - 1) is given the pair (1, 1).)", "quantifier": "all nspin, pairs and columns; all roundings to the nearest double", "why_tests_cant": "square-root formula for all sizes", "anchors": ["fanpy/wfn/geminal/apg.py:APG.get_col_ind", "fanpy/wfn/geminal/apg.py:APG.get_orbpair", "fanpy/wfn/geminal/apsetg.py:BasicAPsetG.get_col_ind"]}
{"id": "C38", "title": "Rank-2 geminal derivatives are the partial derivatives", "statement": "RankTwoApprox.compute_permanent with deriv returns the partial derivative of the permanent of the rank-2 matrix with respect to that lambda, epsilon or zeta.", "quantifier": "all parameters without division by zero", "why_tests_cant": "continuous", "anchors": ["fanpy/wfn/geminal/rank2_approx.py:RankTwoApprox.compute_permanent"]}
{"id": "C39", "title": "Determinant-ratio overlap derivatives are the partial derivatives", "statement": "DeterminantRatio derivative entries equal the partial derivatives of the ratio of products of determinants, zero for unoccupied columns. The constructor accepts exactly masks with at least one entry (one numerator and one denominator by default); with the default parameters the overlap of the ground state is one and those of all other determinants are zero, whatever the random numbers; decompose_index inverts the position of an entry of a matrix among the parameters.", "quantifier": "all matrices with non-zero denominators, all masks", "why_tests_cant": "continuous, all shapes", "anchors": ["fanpy/wfn/quasiparticle/det_ratio.py:DeterminantRatio._olp_deriv"]}
{"id": "C40", "title": "Quasiparticle overlap derivatives are the partial derivatives", "statement": "BaseQuasiparticle.compute_permsum(deriv) equals the partial derivative of compute_permsum; this holds for the bosonic rows but the code omits the cofactor sign for fermionic rows.", "quantifier": "all matrices and boson counts", "why_tests_cant": "continuous, all shapes", "anchors": ["fanpy/wfn/quasiparticle/base.py:BaseQuasiparticle.compute_permsum"]}
{"id": "C41", "title": "Coupled-cluster overlaps are coefficients of exp(T)|ref>", "statement": "For a single-determinant reference the overlap equals the coefficient of the determinant in sum_k T^k/k! |ref>, with T the sum of amplitudes times excitation operators from occupied to virtual orbitals.", "quantifier": "all amplitudes, ranks, references, determinants", "why_tests_cant": "sum over all products of excitations with signs", "anchors": ["fanpy/wfn/cc/base.py:BaseCC._olp", "fanpy/wfn/cc/base.py:BaseCC.generate_possible_exops"]}
{"id": "C42", "title": "Linear combination and product wavefunctions and their derivatives", "statement": "The overlap of a linear combination is the weighted sum, of a product the product, of the component overlaps; derivatives follow the sum/product rule for exactly the requested indices (LinearCombination ignores the requested indices for its own coefficients).", "quantifier": "all component values, numbers of components and index requests", "why_tests_cant": "arbitrary component functions", "anchors": ["fanpy/wfn/composite/lincomb.py:LinearCombinationWavefunction.get_overlap", "fanpy/wfn/composite/product.py:ProductWavefunction.get_overlap"]}
{"id": "C43", "title": "Jacobi-rotated wavefunction equals the orbital-transformed wavefunction", "statement": "JacobiWavefunction.get_overlap(sd) equals the sum over determinants m of det(U[sd, m]) * wfn.get_overlap(m) with U the Jacobi rotation, for generalized, unrestricted and restricted orbital types, and its derivative is the derivative in the angle.", "quantifier": "all angles, orbital pairs, determinants and component overlaps", "why_tests_cant": "minors of every size; nine branches", "anchors": ["fanpy/wfn/composite/jacobi.py:JacobiWavefunction._olp", "fanpy/wfn/composite/jacobi.py:JacobiWavefunction._olp_deriv", "fanpy/wfn/composite/nonorth.py:NonorthWavefunction._olp"]}
{"id": "C44", "title": "Non-orthogonal orbital transformations and their derivatives", "statement": "NonorthWavefunction overlaps equal the sum over determinants of minors times component overlaps; composing two transformations multiplies the matrices; derivatives are partial derivatives in each matrix entry (the restricted/unrestricted code has sign errors).", "quantifier": "all matrices and determinants", "why_tests_cant": "Cauchy-Binet for all sizes", "anchors": ["fanpy/wfn/composite/nonorth.py:NonorthWavefunction._olp", "fanpy/wfn/composite/nonorth.py:NonorthWavefunction._olp_deriv"]}
{"id": "C45", "title": "Matrix product state overlap, parameter layout and derivatives", "statement": "The MPS overlap is the product of the matrices selected by the occupation of each spatial orbital; decompose_index is the inverse of the flat layout; derivative blocks equal the partial derivatives.", "quantifier": "all bond dimensions, numbers of orbitals >= 2, parameters, determinants", "why_tests_cant": "arbitrary chain length", "anchors": ["fanpy/wfn/network/mps.py:MatrixProductState"]}
{"id": "C46", "title": "Embedded wavefunctions split determinants without losing electrons", "statement": "For disjoint subsystems split_sd distributes every electron to exactly one subsystem, recombining gives the original determinant, and the overlap is the product of the subsystem overlaps.", "quantifier": "all partitions of the orbitals and determinants", "why_tests_cant": "arbitrary partitions", "anchors": ["fanpy/wfn/composite/embedding.py:EmbeddedWavefunction.split_sd", "fanpy/wfn/composite/embedding.py:EmbeddedWavefunction.get_overlap"]}
{"id": "C47", "title": "Parameter selection round-trips", "statement": "After assign_params(x) of an objective, active_params returns x; parameters that are not selected keep their values; components not selected are untouched; each active parameter is mapped to exactly one slot of the flat vector.", "quantifier": "all selections, components and parameter vectors, all sequences of assignments", "why_tests_cant": "arbitrary index sets and histories", "anchors": ["fanpy/eqn/base.py:BaseSchrodinger.assign_params", "fanpy/eqn/base.py:BaseSchrodinger.active_params", "fanpy/eqn/base.py:BaseSchrodinger.indices_objective_params", "fanpy/eqn/utils.py:ComponentParameterIndices"]}
{"id": "C48", "title": "One-sided projected energy and its gradient", "statement": "get_energy_one_proj returns sum_m f(m)<m|H|Psi> / sum_m f(m)<m|Psi>, equals E whenever Psi is an eigenfunction with eigenvalue E (norm non-zero), is invariant to scaling of Psi, and the returned derivative is the quotient-rule derivative of that ratio.", "quantifier": "all overlap and integral values, reference lists and CI references", "why_tests_cant": "arbitrary functions", "anchors": ["fanpy/eqn/base.py:BaseSchrodinger.get_energy_one_proj"]}
{"id": "C49", "title": "Two-sided projected energy and its gradient", "statement": "get_energy_two_proj returns the ratio of the double sum over the left and right spaces to the norm sum, its derivative is the quotient-rule derivative, and for the full space it equals the one-sided energy.", "quantifier": "all spaces and values", "why_tests_cant": "arbitrary functions", "anchors": ["fanpy/eqn/base.py:BaseSchrodinger.get_energy_two_proj", "fanpy/eqn/energy_twoside.py"]}
{"id": "C50", "title": "Projected Schrodinger residuals vanish for exact solutions and the jacobian is their derivative", "statement": "objective(params) lists weighted residuals <m|H|Psi> - E<m|Psi> followed by the weighted constraints; all projection residuals are zero when Psi is an eigenfunction with eigenvalue E; jacobian(params) is the derivative of objective at the same parameters for all energy types.", "quantifier": "all projection spaces, weights, constraints, parameters", "why_tests_cant": "arbitrary differentiable parametrisations", "anchors": ["fanpy/eqn/projected.py:ProjectedSchrodinger.objective", "fanpy/eqn/projected.py:ProjectedSchrodinger.jacobian"]}
{"id": "C51", "title": "Least-squares objective and gradient", "statement": "LeastSquaresEquations.objective is the sum of squared residuals (non-negative, zero iff all residuals are zero), the gradient is its derivative, and the class-level equation count is restored after each call.", "quantifier": "all residuals and jacobians, all call histories (including failures in between)", "why_tests_cant": "histories with exceptions", "anchors": ["fanpy/eqn/least_squares.py:LeastSquaresEquations.objective", "fanpy/eqn/least_squares.py:LeastSquaresEquations.gradient"]}
{"id": "C52", "title": "Norm constraint and local energy", "statement": "NormConstraint.objective is sum f(m)<m|Psi> - 1 with gradient its derivative; LocalEnergy.objective is the sum of local energies with gradient its derivative, and equals |pspace| * E for an eigenfunction.", "quantifier": "all values", "why_tests_cant": "arbitrary functions", "anchors": ["fanpy/eqn/constraints/norm.py:NormConstraint", "fanpy/eqn/local_energy.py:LocalEnergy"]}
{"id": "C53", "title": "Energy constraint keeps its history bounded and its reference below the energies seen", "statement": "For every sequence of energies the history never exceeds queue_size, the returned value is always energy minus the reference used, and whenever the reference is adjusted after an energy at or below it the new reference does not exceed that energy (for base >= 1).", "quantifier": "all sequences of energies", "why_tests_cant": "unbounded histories", "anchors": ["fanpy/eqn/constraints/energy.py:EnergyConstraint.objective"]}
{"id": "C54", "title": "Cached overlaps are coherent with the current parameters", "statement": "For every sequence of parameter assignments, cache clears and overlap queries, the value returned for a determinant equals the uncached overlap at the current parameters, for wavefunctions whose assign_params clears the cache; with the base-class assign_params alone (no clear) stale values are possible.", "quantifier": "all operation histories, cache sizes and eviction orders", "why_tests_cant": "histories", "anchors": ["fanpy/wfn/base.py:BaseWavefunction.enable_cache", "fanpy/wfn/base.py:BaseWavefunction.clear_cache", "fanpy/wfn/base.py:BaseWavefunction.assign_params"]}
{"id": "C55", "title": "Seniority/hierarchy CI spaces", "statement": "The default determinant spaces of CISD, FCI, DOCI, CIPairs (and hCI) contain exactly the determinants of the stated excitation order / seniority.", "quantifier": "all nelec, nspin", "why_tests_cant": "combinatorial", "anchors": ["fanpy/wfn/ci/cisd.py", "fanpy/wfn/ci/doci.py", "fanpy/wfn/ci/ci_pairs.py", "fanpy/wfn/ci/hci.py"]}
{"id": "C56", "title": "Assigning orbital-rotation parameters is history independent, or incremental with update_prev_params", "statement": "For every sequence of assign_params calls with parameters of the right size (or None, meaning zeros): without update_prev_params the integrals and caches after the last call are those of the reference integrals rotated by the unitary matrix of the last parameters, whatever was assigned before; with update_prev_params every call rotates the present integrals by the unitary matrix of the change of the parameters. A wrong size raises ValueError.", "quantifier": "all integrals, all numbers of orbitals, all sequences of assignments", "why_tests_cant": "unbounded histories over real parameters", "anchors": ["fanpy/ham/generalized_chemical.py:GeneralizedMolecularHamiltonian.assign_params", "fanpy/ham/unrestricted_chemical.py:UnrestrictedMolecularHamiltonian.assign_params"]}
{"id": "C57", "title": "unitary_matrix is the exponential series of the antihermitian matrix of the parameters", "statement": "unitary_matrix accepts exactly the numbers of elements K(K-1)/2 (also with the rounding of the square root, for up to 2**48 elements), puts them in the upper triangle row by row (the order of param_ind_to_rowcol_ind), and returns the partial sum of the exponential series up to the first term below the threshold, at most num_threshold terms, or scipy's expm if a term is huge; with a single non-zero parameter the series converges to the Jacobi rotation of that pair of orbitals.", "quantifier": "all parameter lists, thresholds", "why_tests_cant": "real-valued inputs, all dimensions", "anchors": ["fanpy/tools/math_tools.py:unitary_matrix"]}
{"id": "C58", "title": "One-particle density matrix of a CI wavefunction", "statement": "CIWavefunction.compute_1rdm() returns D[i, j] = <psi| a\u2020_i a_j |psi> for the vector whose coefficients are the parameters, whatever (distinct) determinants the wavefunction has; it is symmetric and its trace is the number of electrons times the squared norm.", "quantifier": "all lists of distinct determinants, all parameters", "why_tests_cant": "signs and missing determinants over all lists", "anchors": ["fanpy/wfn/ci/base.py:CIWavefunction.compute_1rdm"]}
{"id": "C59", "title": "Overlap and derivatives of antisymmetrized products of tetrets", "statement": "For AntisymmeterizedProductTetrets with nelec = 4n electrons, get_overlap(sd) equals the coefficient of the determinant sd in T_1 T_2 ... T_n |vac>, T_r = sum over i<j<k<l of params[r, c(ijkl)] a+_i a+_j a+_k a+_l with c the position in the list of all increasing quadruples of spin orbitals, and is zero for determinants with another number of electrons; get_overlap(sd, deriv) gives the partial derivatives with respect to the flattened parameters.", "quantifier": "all n >= 1, all even nspin, all parameter matrices over a field of characteristic zero, all determinants below 2**nspin, all lists of parameter indices", "why_tests_cant": "the number of partitions into quadruples grows factorially; the sign of every partition and the independence of the order of the tetrets needs an argument for all n", "anchors": ["fanpy/wfn/quasiparticle/tetret.py", "fanpy/wfn/quasiparticle/base.py", "fanpy/tools/graphs.py"]}
{"id": "C60", "title": "Embedded wavefunctions with fixed numbers of electrons project onto them", "statement": "FixedEmbeddedWavefunction.get_overlap(sd) equals the overlap (and derivative) of the embedded wavefunction if every subsystem has exactly its number of electrons from nelec_list in sd, and zero otherwise (fails if an entry of nelec_list is 0, and derivatives may raise an error in place of zeros).", "quantifier": "all partitions, lists of electron numbers, determinants and component functions", "why_tests_cant": "arbitrary partitions and determinants", "anchors": ["fanpy/wfn/composite/embedding_fixedelectron.py:FixedEmbeddedWavefunction.split_sd", "fanpy/wfn/composite/embedding_fixedelectron.py:FixedEmbeddedWavefunction.get_overlap"]}
{"id": "C61", "title": "Derivatives of coupled-cluster overlaps", "statement": "For a determinant with as many electrons as the reference, changing one amplitude by h changes the overlap by exactly h times the entry of get_overlap(sd, deriv) for that amplitude, whatever the excitation operators are.", "quantifier": "all operators, ranks, amplitudes, h, determinants with the right number of electrons", "why_tests_cant": "all products of operators and all amplitudes", "anchors": ["fanpy/wfn/cc/base.py:BaseCC._olp_deriv", "fanpy/wfn/cc/base.py:BaseCC.product_amplitudes_multi"]}
{"id": "C62", "title": "Second derivatives of coupled-cluster overlaps", "statement": "Entry (a, b) of get_overlap_double_derivative(sd) is the rate at which the derivative with respect to amplitude a changes with amplitude b (the change is exactly linear); the matrix is symmetric with a zero diagonal.", "quantifier": "all operators, ranks, amplitudes, determinants with the right number of electrons", "why_tests_cant": "all products of operators and all pairs of amplitudes", "anchors": ["fanpy/wfn/cc/base.py:BaseCC._olp_double_derivative", "fanpy/wfn/cc/base.py:BaseCC.product_amplitudes_multi_double_derivative"]}
{"id": "C63", "title": "The memo of operator products does not change coupled-cluster overlaps", "statement": "For any sequence of overlaps, derivatives, assign_params and assign_refwfn (determinants with nelec electrons) the values are those computed without the dictionary exop_combinations, for any refresh_exops. This fails after assign_exops, and for determinants with other numbers of electrons when the reference changes.", "quantifier": "all sequences of calls, all states of the dictionary that they lead to", "why_tests_cant": "arbitrary histories", "anchors": ["fanpy/wfn/cc/base.py:BaseCC.generate_possible_exops", "fanpy/wfn/cc/base.py:BaseCC.assign_exops"]}
{"id": "C64", "title": "PCCD and AP1roG are the same wavefunction", "statement": "PCCD(nelec, nspin) with amplitudes t and AP1roG(nelec, nspin) with the coefficients -t (row: occupied pair, column: virtual pair) have the same overlap with every Slater determinant with nelec electrons, and the derivatives by corresponding parameters are the negatives of each other. The sign is that of the code's pair operator [i, i+n, v, v+n].", "quantifier": "all even nelec, all nspin, all amplitudes, all determinants with nelec electrons", "why_tests_cant": "the number of determinants and amplitudes grows with the basis; a permanent is compared with a sum over partitions into operators", "anchors": ["fanpy/wfn/cc/pccd_ap1rog.py:PCCD", "fanpy/wfn/geminal/ap1rog.py:AP1roG.get_overlap"]}
{"id": "C65", "title": "Overlaps of the geminal-like coupled cluster classes", "statement": "For PCCD, APG1roD, APset1roGD, their singles variants and CCSDsen0: the overlap is the coefficient of the determinant in prod_i (1 + T_i) applied to the reference, T_i being the sum of the operators that annihilate electrons of spatial orbital i; the operators are exactly those the class promises, without repetition; _olp_deriv is the slope of the overlap in each parameter.", "quantifier": "all classes, sizes, index sets, references, parameters and determinants with nelec electrons", "why_tests_cant": "needs the sum over all products of operators for every determinant", "anchors": ["fanpy/wfn/cc/pccd_ap1rog.py:PCCD._olp", "fanpy/wfn/cc/pccd_ap1rog.py:PCCD._olp_deriv", "fanpy/wfn/cc/ccsd_sen0.py:CCSDsen0", "fanpy/wfn/cc/apset1rog_sd.py:APset1roGSD"]}
{"id": "C66", "title": "A parameter of an operator that is not in increasing order has no effect", "statement": "For the classes derived from PCCD, a parameter whose operator does not have its annihilators and its creators in increasing order changes no overlap and has derivative zero; this holds for every quadruple excitation of CCSDTQsen0, CCSDQsen0 and CCSDTsen2Qsen0, so these parameters are without effect.", "quantifier": "all classes, sizes, references, parameters, determinants", "why_tests_cant": "absence of an effect for all determinants", "anchors": ["fanpy/wfn/cc/ccsdtq_sen0.py:CCSDTQsen0.assign_exops", "fanpy/wfn/cc/base.py:BaseCC.generate_possible_exops"]}
{"id": "C67", "title": "The creation-operator coupled cluster overlap is that of the exponential of pair creators", "statement": "For a determinant with nelec electrons all of whose pairs of orbitals are pairs of the wavefunction, CreationCC.get_overlap is its coefficient in exp(sum c_ij a+_i a+_j)|vac>; (nelec/2)! times it is the coefficient in the power nelec/2. If a pair of its orbitals is missing the call raises ValueError, for fewer electrons it raises IndexError, and for more electrons it returns the overlap with the first nelec orbitals instead of zero.", "quantifier": "all even numbers of electrons, spin orbitals, orbital pairs, parameters and determinants", "why_tests_cant": "the number of matchings grows as (2k-1)!!; the one test writes out the 15 terms of one determinant", "anchors": ["fanpy/wfn/creation_cc.py:CreationCC.get_permutations", "fanpy/wfn/creation_cc.py:CreationCC.calculate_product", "fanpy/wfn/creation_cc.py:CreationCC._olp"]}
{"id": "C68", "title": "The derivatives of the creation-operator coupled cluster overlap", "statement": "The array CreationCC._olp_deriv has one entry for every parameter, and changing a parameter by h changes the overlap by h times its entry (the overlap is affine in every parameter); get_overlap(sd, [j]) is the entry j.", "quantifier": "all wavefunctions, parameters, determinants with nelec electrons, indices, changes", "why_tests_cant": "all parameters, determinants and sizes; not tested at all in the repository", "anchors": ["fanpy/wfn/creation_cc.py:CreationCC._olp_deriv", "fanpy/wfn/creation_cc.py:CreationCC.get_overlap"]}
{"id": "C69", "title": "Parameters of the creation-operator coupled cluster wavefunction", "statement": "The default parameters give overlap one with the ground determinant and zero with every other determinant of nelec electrons; with more electrons than spin orbitals the constructor raises ValueError. Given parameters are kept except those of the pairs of neighbouring occupied orbitals of the ground determinant, which become one (also in the array of the caller).", "quantifier": "all even numbers of electrons, spin orbitals, parameters, determinants", "why_tests_cant": "all sizes and determinants", "anchors": ["fanpy/wfn/creation_cc.py:CreationCC.assign_params", "fanpy/wfn/creation_cc.py:CreationCC.assign_nelec"]}
{"id": "C70", "title": "RBM overlap is the Boltzmann network of the occupied orbitals", "statement": "For every determinant with orbitals below nspin, get_overlap(sd) is the product over the bath sites of output_scale times the output of the network: the input of a bath site is the sum, over the orders k, of its weights over all k-tuples of occupied orbitals; it goes through activation and then through the remaining layers. With orders (1, 2) and one layer this is the product of scale*(1 + exp(sum W + sum V)); it is positive for a positive scale, and one for every determinant after construction without parameters. A wavefunction constructed with an array of parameters has no output_scale: every overlap is an AttributeError. An orbital outside nspin raises IndexError.", "quantifier": "all nspin, nbath, orders, numbers of layers, parameter values, activations and determinants", "why_tests_cant": "The value is a sum over all tuples of orbitals for arbitrary orders and layers, over real parameters; tests evaluate a handful of small networks.", "anchors": ["fanpy/wfn/network/rbm.py:RestrictedBoltzmannMachine._olp_helper", "fanpy/wfn/network/rbm.py:RestrictedBoltzmannMachine._olp", "fanpy/wfn/network/rbm.py:RestrictedBoltzmannMachine.assign_template_params"]}
{"id": "C71", "title": "RBM analytic derivatives are the derivatives of the overlap", "statement": "RestrictedBoltzmannMachine._olp_deriv gives, in the order of the flattened parameters, the derivative of the overlap with respect to every parameter, for any differentiable activation whose derivative is the second function; get_overlap(sd, deriv) selects entries of it.", "quantifier": "all shapes, parameter values, determinants, directions in parameter space and differentiable activations", "why_tests_cant": "Back-propagation through arbitrary depth; tests use finite differences at a few points, which prove nothing about the others.", "anchors": ["fanpy/wfn/network/rbm.py:RestrictedBoltzmannMachine._olp_deriv", "fanpy/wfn/network/rbm.py:RestrictedBoltzmannMachine.get_overlap"]}
{"id": "C72", "title": "RBM batched overlaps agree with single overlaps", "statement": "get_overlaps(sds) and get_overlaps(sds, deriv) give get_overlap(sd) and get_overlap(sd, deriv) for every sd in the list; determinants with different numbers of electrons raise ValueError.", "quantifier": "all lists of determinants, shapes, parameters and activations", "why_tests_cant": "Agreement of two separately written tensor contractions for every shape and list length.", "anchors": ["fanpy/wfn/network/rbm.py:RestrictedBoltzmannMachine.get_overlaps"]}
{"id": "C73", "title": "RBM parameter round trip and normalization", "statement": "assign_params(P) with nparams numbers makes params return P, and a wrong number of numbers is rejected; normalize(pspace) makes the squares of the overlaps over pspace add up to one.", "quantifier": "all shapes, arrays, positive output scales and nonempty lists of determinants", "why_tests_cant": "Shapes and arrays are unbounded, and the norm is a real power whose exactness no sample shows.", "anchors": ["fanpy/wfn/network/rbm.py:RestrictedBoltzmannMachine.assign_params", "fanpy/wfn/network/rbm.py:RestrictedBoltzmannMachine.params", "fanpy/wfn/network/rbm.py:RestrictedBoltzmannMachine.nparams", "fanpy/wfn/network/rbm.py:RestrictedBoltzmannMachine.normalize"]}
{"id": "C74", "title": "brute finds the lowest state of a CI wavefunction", "statement": "Given the documented behaviour of scipy.linalg.eigh, brute(wfn, ham) gives a normalized eigenvector of the full matrix of integrate_sd_sd over the determinants of the wavefunction, and energy is the least expectation value over all coefficients. With these parameters integrate_sd_wfn(sd, wfn) is energy times get_overlap(sd) for every determinant of the wavefunction; for FCI, for every determinant with nelec electrons. Different numbers of spin orbitals raise ValueError. The file that is saved has the parameters the wavefunction had before, not the solution.", "quantifier": "all CI wavefunctions, symmetric integrals, coefficients, and all functions that behave like eigh", "why_tests_cant": "Minimality is over all real coefficient vectors; only the upper triangle is filled in, so that the claim needs the symmetry of all matrix elements.", "anchors": ["fanpy/solver/ci.py:brute", "fanpy/ham/generalized_chemical.py:integrate_sd_wfn", "fanpy/wfn/ci/fci.py:FCI"]}
{"id": "C75", "title": "root gives the solver as many equations as parameters", "statement": "root(objective) with more equations than active parameters keeps the first projections, all constraints and the weights that belong to them, so that there are as many equations as active parameters; fewer equations than parameters raise ValueError.", "quantifier": "all numbers of active parameters, projection spaces, constraints and weights", "why_tests_cant": "Slices with computed, possibly negative ends, for all sizes.", "anchors": ["fanpy/solver/system.py:root", "fanpy/eqn/projected.py:ProjectedSchrodinger.num_eqns"]}
{"id": "C76", "title": "Alias sampler", "statement": "Alias(p) builds the alias tables in place from the weights: if rand() is uniform on [0,1), a draw gives the index j with probability exactly p_j / sum(p), for any positive-sum nonnegative weights, and the sampler raises nothing. A call Alias(p)(k) returns k distinct indices, each of them with a positive weight; if k is larger than the number of indices with a positive weight then the call does not return.", "quantifier": "all weight vectors with a positive sum, all values of the random numbers, all k", "why_tests_cant": "A sampling test sees frequencies with noise and cannot tell p_j/sum(p) from a nearby value; the boundary value 0.0 of the random number has probability about 1e-16.", "anchors": ["fanpy/interface/fanci/alias.py"]}
{"id": "C77", "title": "Conversion of PyCI determinants", "statement": "convert_to_fanpy gives for each fullci/genci determinant (distinct alpha occupations, distinct beta occupations) the fanpy bitstring with exactly these alpha and beta orbitals occupied, and for a doci determinant the bitstring with both spins of each listed orbital occupied. Different occupations give different bitstrings. A repeated occupation gives None; an array without rows, and a doci array without electrons, raises IndexError.", "quantifier": "all numbers of orbitals, all integer occupation arrays with alpha orbitals below nspatial", "why_tests_cant": "Tests convert a handful of determinants of a few orbitals; the statement is for every occupation list and basis size.", "anchors": ["fanpy/interface/fanci/utils.py", "fanpy/interface/fanci/legacy.py"]}
{"id": "C78", "title": "Norm computed in chunks", "statement": "Whatever memory is left, the chunks that the FanCI interface iterates over are nonempty intervals that list every determinant of a nonempty S space once and in order, and chunks of more than one determinant fit in the memory; hence the norm constraint computed chunk by chunk is the sum of the squared overlaps minus one. An empty S space raises ZeroDivisionError.", "quantifier": "all lists of determinants, all amounts of memory (also negative), all wavefunctions", "why_tests_cant": "Tests use systems that fit into one chunk.", "anchors": ["fanpy/interface/fanci/legacy.py"]}
{"id": "C79", "title": "FanCI objective and Jacobian", "statement": "compute_objective(x) returns sum_n <m|H|n><n|Psi(x)> - E <m|Psi(x)> for the projections followed by the constraints, where Psi(x) has the selected parameters from x; compute_jacobian(x) is the derivative of compute_objective with respect to the active entries of x, for every mask of active parameters and every set of constraints (frozen parameter, frozen overlap, norm, custom).", "quantifier": "all wavefunctions with differentiable overlaps, all Hamiltonian matrices, all masks, constraints, parameters and energies", "why_tests_cant": "A finite-difference test covers one wavefunction with all parameters active; the indices differ only for frozen parameters and for products of wavefunctions.", "anchors": ["fanpy/interface/fanci/legacy.py", "fanpy/eqn/utils.py"]}
{"id": "C80", "title": "Arguments that FanCI.optimize passes to the optimizer", "statement": "optimize(x0, mode) gives the optimizer a function of the active parameters only: its value is the objective at x0 with the active entries replaced in order, at the initial guess it is the objective at x0, and its Jacobian is the derivative with respect to the active entries. A guess of the wrong length, a root search for a system that is not square and an unknown mode raise ValueError. results['energy'] is the energy of the solution.", "quantifier": "all masks, guesses, modes and objectives", "why_tests_cant": "Tests optimize with few masks; the order in which active entries are scattered matters for every mask.", "anchors": ["fanpy/interface/fanci/legacy.py"]}
{"id": "C81", "title": "Responses of perturbation theory for FanCI", "statement": "If p(l), E(l) solve the equations G(l, p, E) = 0 of a FANPT calculation (projections with the Hamiltonian l*ham1 + (1-l)*ham0, and constraints) then the N-th derivatives of p and E with respect to l solve the linear system coeff_matrix x = constant_terms of order N, so that get_responses returns the derivatives of the exact solution; and the corrected parameters satisfy the equations up to terms of order N+1.", "quantifier": "all orders N, numbers of parameters, Hamiltonians, wavefunctions, constraints, solutions", "why_tests_cant": "Tests compare the first orders for one small molecule; the statement is about derivatives of every order.", "anchors": ["fanpy/fanpt/containers/constant_terms.py", "fanpy/fanpt/containers/energy_param.py", "fanpy/fanpt/containers/updater.py"]}
{"id": "C82", "title": "Constant terms with second derivatives of the overlap", "statement": "With quasi_approximation_order = 3 the constant terms of the orders 2 and 3 include the terms with the second derivatives of the overlaps, so that the second derivatives (and, if the third derivatives of the overlaps vanish, the third ones) of an exact solution solve the linear systems of these orders for overlaps that are not linear in the parameters.", "quantifier": "all wavefunctions with twice differentiable overlaps, all Hamiltonians and solutions", "why_tests_cant": "A test of one wavefunction with few parameters can have vanishing second derivatives, so that the missing or wrong terms are not seen.", "anchors": ["fanpy/fanpt/containers/constant_terms.py", "fanpy/fanpt/containers/energy_param.py"]}
{"id": "C83", "title": "Energy-free container", "statement": "FANPTContainerEFree holds the derivatives of the equations in which the energy is replaced by <ref|H|Psi>/<ref|Psi> (or <ref|H|Psi> with intermediate normalization): d_g_lambda is the derivative with respect to l, coeff_matrix the Jacobian, d2_g_lambda_wfnparams the mixed derivative; the derivatives of an exact solution solve the linear systems.", "quantifier": "all wavefunctions, Hamiltonians, reference determinants, both normalizations", "why_tests_cant": "The corrections of the reference row are products that vanish or coincide for many small examples.", "anchors": ["fanpy/fanpt/containers/energy_free.py"]}
{"id": "C84", "title": "Update of the parameters", "statement": "The updater adds to each active parameter the sum over the orders of response * (final_l - l)^o / o!, which is the Taylor polynomial of the exact solution, and leaves frozen parameters alone. The resummed correction (frozen energy, as many equations as active parameters) is the sum of the series of all orders. Invalid final_l, final_order, order and arrays of previous responses raise.", "quantifier": "all masks, parameters, responses, orders, values of l and final_l", "why_tests_cant": "Tests start at l = 0, where final_l and final_l - l agree; the limit of the series is not a finite computation.", "anchors": ["fanpy/fanpt/containers/updater.py", "fanpy/fanpt/containers/constant_terms.py"]}
{"id": "C85", "title": "Steps of FANPT.optimize", "statement": "FANPT.optimize takes steps equal steps from lambda_i to lambda_f: each step starts where the previous one ended and the last one ends at lambda_f; the arguments given to optimize replace the stored ones; in every step the coefficient matrix is made with the Hamiltonian of the step.", "quantifier": "all numbers of steps, lambda_i < lambda_f <= 1, pairs of Hamiltonians", "why_tests_cant": "Tests use one or two schedules that start at 0.", "anchors": ["fanpy/fanpt/fanpt.py"]}
{"id": "C86", "title": "Hamiltonians of FANPT", "statement": "linear_comb_ham and the container give the operators l*H1 + (1-l)*H0 and the fluctuation potential H1 - H0, its derivative with respect to l. reduce_to_fock keeps the Coulomb and exchange integrals <pq|rq> and <pq|qr>, scales all others by lambda_val, and keeps the symmetries of the integrals.", "quantifier": "all integrals, indices, values of lambda", "why_tests_cant": "A test compares arrays of one small basis.", "anchors": ["fanpy/fanpt/utils.py", "fanpy/fanpt/containers/base.py"]}
{"id": "C87", "title": "integrate_sd_wfn with ham_deriv, generalized orbitals", "statement": "GeneralizedMolecularHamiltonian.integrate_sd_wfn(sd, wfn, ham_deriv) returns, for each requested orbital rotation, the sum over all Slater determinants m of the overlap of the wavefunction with m times the derivative of the matrix element of sd and m that integrate_sd_sd_decomposed(sd, m, deriv) returns, which is the derivative at angle zero of integrate_sd_wfn of the Hamiltonian rotated by orb_rotate_jacobi. The arrays of the helper methods contain these derivatives in the order of the excitations. Indices out of range raise ValueError.", "quantifier": "all integrals, Slater determinants, wavefunctions, lists of rotation indices", "why_tests_cant": "The vectorised code consists of some thirty statements with index arrays; tests compare them to the slow code for one Hamiltonian and a few determinants.", "anchors": ["fanpy/ham/generalized_chemical.py"]}
{"id": "C88", "title": "integrate_sd_wfn with ham_deriv, restricted and unrestricted orbitals", "statement": "RestrictedMolecularHamiltonian.integrate_sd_wfn(sd, wfn, ham_deriv) and UnrestrictedMolecularHamiltonian.integrate_sd_wfn(sd, wfn, ham_deriv) return, for each requested orbital rotation and in the order of ham_deriv, the sum over all Slater determinants m of the overlap of the wavefunction with m times the derivative of the matrix element of sd and m that integrate_sd_sd_decomposed(sd, m, deriv) returns, which is the derivative at angle zero of integrate_sd_wfn of the Hamiltonian rotated by orb_rotate_jacobi. Indices out of range raise ValueError. (The code does so for restricted orbitals, and for unrestricted orbitals only when ham_deriv is the complete range: otherwise the result of parameter k is written to column k, and IndexError is raised if a parameter is not smaller than the number of parameters requested.)", "quantifier": "all integrals, Slater determinants, wavefunctions, lists of rotation indices", "why_tests_cant": "Ten helper methods with some two thousand lines of index arithmetic; tests compare them to the slow code for one Hamiltonian, always with the complete list of parameters, which is why the wrong columns were not noticed.", "anchors": ["fanpy/ham/unrestricted_chemical.py", "fanpy/ham/restricted_chemical.py"]}
{"id": "C89", "title": "s_type of the pair coupled cluster wavefunctions, and their dictionary of products", "statement": "For the classes of fanpy.wfn.cc.*_NEW (PCCD, APG1roD, APset1roGD, AP1roGSDGeneralized, AP1roGSDSpin, APG1roSD, APset1roGSD with an argument s_type), get_overlap(sd) is the coefficient of sd in the sum of the products of excitation operators applied to the reference, over the products that s_type allows: for 'sen-o' a single excitation takes an electron from an occupied pair whose other electron is not excited by another operator of the product, for 'sen-v' it goes to an orbital whose partner is not filled by an operator of the product, for 'sen-ov' both, for 'free' all products; get_overlap(sd, deriv) and get_overlap_double_derivative(sd) are the first and second derivatives of it; none of these depends on what was computed before; a seniority-zero determinant is accepted as refwfn; another s_type raises ValueError. (The code does so for the default 'sen-o'. For the other options the derivatives are those of 'sen-o', and computing them changes the overlaps that are computed later. No reference with an empty orbital is accepted, and every s_type is.)", "quantifier": "all numbers of electrons and orbitals, classes, options, parameters, Slater determinants, sequences of calls", "why_tests_cant": "There are no tests of these classes; the derivative agrees with the overlap unless a product has two single excitations, and the overlap changes only after a derivative was computed for the same determinant.", "anchors": ["fanpy/wfn/cc/pccd_ap1rog_NEW.py", "fanpy/wfn/cc/pccd_ap1rog.py", "fanpy/wfn/cc/base.py"]}
{"id": "C90", "title": "Overlaps of SeniorityCC", "statement": "For SeniorityCC(nelec, nspin, ranks, indices, refwfn), get_overlap(sd) is the coefficient of sd in the product over the excitation operators of (1 + t s) applied to the reference, where s is the excitation operator restricted to determinants in which the opposite-spin partner of every orbital it annihilates is occupied and the partner of every orbital it creates is empty; get_overlap(sd, deriv) and get_overlap_double_derivative(sd) are its derivatives; the reference may be a seniority-zero CIWavefunction. (The code does so for operators from occupied to virtual orbitals of an integer reference. The derivative at the reference raises TypeError; the second derivative raises AttributeError for every other determinant; with a CIWavefunction every overlap raises AttributeError; an integer reference of any seniority is accepted.)", "quantifier": "all even numbers of electrons and orbitals, ranks, lists of indices, references, parameters, Slater determinants with the right number of electrons", "why_tests_cant": "The products of operators are generated by partitions and matched by set intersections; the tests have two electrons in four orbitals with operators that are put in by hand, and a stand-in CI reference that has the attribute that is missing from CIWavefunction.", "anchors": ["fanpy/wfn/cc/seniority_cc.py", "fanpy/wfn/cc/base.py"]}
{"id": "C91", "title": "Overlaps of CCS", "statement": "For CCS(nelec, nspin, refwfn), get_overlap(sd) is the coefficient of sd in exp(T) applied to the reference, where T is the sum of the amplitudes times the single excitations from occupied to virtual orbitals. (The code does so for the reference only: generate_possible_exops stores a list where the overlap expects a dictionary, and every other overlap raises an error. The list has every product as many times as it has orders.)", "quantifier": "all numbers of electrons and orbitals, references, parameters, Slater determinants, first and later calls", "why_tests_cant": "There are no tests of this class, and a list of products has to be compared with the exponential for any number of electrons.", "anchors": ["fanpy/wfn/cc/ccs.py", "fanpy/wfn/cc/base.py"]}
{"id": "C92", "title": "Constructors of the equations", "statement": "EnergyOneSideProjection, EnergyTwoSideProjection, EnergyVariational, LocalEnergy and NormConstraint keep the spaces given if all their entries are Slater determinants with the number of electrons of the wavefunction within its spin orbitals; the first entry that is not gives ValueError (TypeError if it is not a determinant). ProjectedSchrodinger(wfn, ham, ...) checks its reference in the same way, changes no ComponentParameterIndices of other equations, makes the energy a parameter exactly when energy_type is 'variable', and accepts constraints exactly when they give every entry of a vector of parameters the same meaning as the equations. (The code disagrees: a given ComponentParameterIndices is not copied and the new energy is added to it; the reference is checked by the default constraint only; constraints are accepted if their components are in another order; with a fixed or variable energy no constraint made before with its own selection is accepted.)", "quantifier": "all wavefunctions and Hamiltonians (numbers of parameters, electrons, orbitals), spaces, references, selections of parameters, energy types, lists of constraints, heaps of selections made before, successful and failing constructor calls", "why_tests_cant": "The tests construct one set of equations at a time with the default selection, so no second owner of the selection exists, the order of components never differs, and no constraint is made before the equations with a variable energy.", "anchors": ["fanpy/eqn/base.py", "fanpy/eqn/utils.py", "fanpy/eqn/projected.py", "fanpy/eqn/energy_oneside.py", "fanpy/eqn/energy_twoside.py", "fanpy/eqn/energy_variational.py", "fanpy/eqn/local_energy.py", "fanpy/eqn/constraints/norm.py"]}
{"id": "C93", "title": "FanCI class made from a wavefunction", "statement": "The objective of convert_to_fanci(wfn, ham, ...) evaluates overlaps and their derivatives at the same parameters: the entries of x one after the other in the selected parameters. For objective_type 'projected' compute_jacobian(x) is the derivative of compute_objective(x) for every equation, every constraint, every parameter and the energy, and for a product of wavefunctions; for the energy objective it is the derivative of the energy sum c_m (Hc)_m / sum c_m^2 over the P space, which is the energy x[-1] at a solution of the projected equations. optimize starts 'lstsq' for the projected objective, 'cma' and 'bfgs' for the energy, 'root' for as many equations as parameters, and raises otherwise. optimize_stochastic runs nsamp optimizations. (The code disagrees: the argument mask is ignored and the constructor raises ValueError unless all parameters of the selected components are selected; the determinants of a DOCI space lack the beta electrons; with the default objective_type=None no mode but 'root' starts; optimize_stochastic always raises KeyError after the first optimization.)", "quantifier": "all wavefunctions with right derivatives, products of wavefunctions, selections, Hamiltonian matrices, P and S spaces, constraints, parameter vectors, amounts of memory, modes and objective types", "why_tests_cant": "Finite differences at one guess for one wavefunction see neither a product of wavefunctions nor a selection of a part of the parameters, DOCI spaces are not compared with determinants, and optimize_stochastic is not run.", "anchors": ["fanpy/wfn/utils.py", "fanpy/interface/fanci/legacy.py", "fanpy/interface/fanci/pyci.py"]}
{"id": "C94", "title": "Natural orbitals of CI wavefunctions", "statement": "compute_natural_orbitals(wfn, mo_coeff) returns nspin occupations and nspin columns, first those of the alpha and then those of the beta orbitals. For each spin the occupations descend, each lies between 0 and the squared norm of the wavefunction, the columns are orthonormal and diagonalize the block of <a_i^+ a_j> of this spin; all occupations sum to the number of electrons times the squared norm. If all determinants have the same number of alpha electrons the columns diagonalize the whole density matrix. With mo_coeff, the columns are mo_coeff times these and are orthonormal in the metric in which the columns of mo_coeff are. (The code disagrees: for determinants of different spin the occupations are not the eigenvalues of the density matrix, and orbitals fewer than the basis functions they are expanded in raise ValueError.)", "quantifier": "all CI wavefunctions with distinct determinants, all real parameters, all orbital coefficients and overlap matrices", "why_tests_cant": "Tests compare with a few wavefunctions that have a single number of alpha electrons and as many orbitals as basis functions.", "anchors": ["fanpy/analysis/orbitals/natural_orbitals/ci.py"]}
{"id": "C95", "title": "Solvers: what the optimizer sees and what is left behind", "statement": "For every optimizer (any program that asks for values and derivatives of the objective, calls the callback and returns a result), minimize and cma return what the optimizer finds for one fixed function of the active parameters: the objective with the Hamiltonian rotated from where it was at the start; nothing that happens during the optimization changes that function. minimize leaves the objective at the last point it was evaluated at, cma at the solution; the callback saves the parameters of the last evaluation before it. least_squares and root do the same if no parameters of the Hamiltonian are active and derivatives are asked for only at the point of the last evaluation. The energy in the output is the energy of the last evaluation. Objectives that are not equations raise TypeError, numbers of equations that do not fit raise ValueError, and a single parameter makes cma raise ValueError after it changed update_prev_params. After any assignments of parameters with any settings of update_prev_params, save_params of the chemical Hamiltonians writes the parameters and matrices that take the reference integrals to the present ones. (The code disagrees: the Jacobian of the system solvers belongs to the last evaluated point and not to the point asked for; with active parameters of the Hamiltonian the system solvers change the function being solved whenever a Jacobian is computed; the energy in the output may belong to a rejected point.)", "quantifier": "all optimizers, objectives, Hamiltonians, starting points and settings of update_prev_params; all sequences of assignments", "why_tests_cant": "Tests run a few optimizers on small wavefunctions without active parameters of the Hamiltonian and compare the energy at convergence, where the last evaluated point and the solution agree.", "anchors": ["fanpy/solver/equation.py", "fanpy/solver/system.py", "fanpy/solver/wrappers.py", "fanpy/ham/generalized_chemical.py", "fanpy/ham/unrestricted_chemical.py"]}
{"id": "C96", "title": "Checks of the inputs of the scripts", "statement": "check_inputs accepts its arguments if and only if: the number of electrons is an integer, the repulsion and the noises are numbers (noises may be None), the flag is a boolean, the names of the files with integrals are texts without newline and semicolon, the type of the wavefunction is one of the list, the orders of excitation are integers in a list or tuple between 1 and the number of electrons, the objective and the solver are in their lists and fit together, diag is used only with CI wavefunctions and without orbital optimization, the other names of files and keyword arguments are None or such texts, and the memory is None or ends in mb or gb. Everything else raises TypeError or ValueError. (The code disagrees with its purpose: the check does not prevent code injection, since quotes are accepted.)", "quantifier": "all arguments", "why_tests_cant": "Tests try one bad value of each argument; the combinations are not enumerable, and that an accepted text stays inside its quotes is a statement about all texts.", "anchors": ["fanpy/scripts/utils.py", "fanpy/scripts/wavefunction_info.py"]}
{"id": "C97", "title": "Scripts that are generated", "statement": "make_script of gaussian and pyscf makes a script if and only if the type of wavefunction is known, the objective is projected, least_squares, variational or one_energy and the solver is cma, diag, minimize, least_squares, root or trustregion. Every name that the script uses is imported or assigned by an earlier statement (for the constraints norm and energy and keyword arguments that use only names of the system), and with the default keyword arguments every call of a constructor or function of Fanpy is accepted by its parameters. The script for pyscf lists the given atoms. (The code disagrees: objectives and solvers that check_inputs accepts stop make_script with an unbound variable; scripts for hci call the constructor with parameters it does not have; the default options of trustregion are passed as one positional argument; an unknown constraint, or rbm with pyscf, gives a script that uses an unbound name; a molecule of one atom gets two atoms.)", "quantifier": "all options of make_script and all keyword arguments", "why_tests_cant": "Tests generate a few scripts and compare text; they do not run the scripts for all combinations of wavefunction, objective, solver, constraint and files.", "anchors": ["fanpy/scripts/gaussian/make_script.py", "fanpy/scripts/pyscf/make_script.py", "fanpy/scripts/wavefunction_info.py"]}
{"id": "C98", "title": "AP1roG wavefunction of a CI wavefunction of pairs", "statement": "to_ap1rog of a CIPairs wavefunction takes the determinant with the largest coefficient as the reference. If it succeeds, the overlap of the AP1roG wavefunction with every determinant of the CI wavefunction is the coefficient of the determinant divided by that of the reference, and the overlaps with determinants with another number of electrons or a singly occupied spatial orbital are zero in both. It succeeds if the reference is the ground state, or there are two electrons, or only one spatial orbital is empty. (The code disagrees with its purpose: in all other cases it raises KeyError, because some pair excitations of the reference are not in the CI wavefunction.)", "quantifier": "all CIPairs wavefunctions with any number of electrons and orbitals, all parameters, every choice of the reference with nonzero coefficient", "why_tests_cant": "The tests convert one wavefunction of fixed size whose largest coefficient belongs to the ground state.", "anchors": ["fanpy/wfn/ci/ci_pairs.py", "fanpy/wfn/geminal/ap1rog.py"]}
{"id": "C99", "title": "Powers of symmetric matrices", "statement": "eigh of a square matrix returns the eigenvalues whose absolute value is larger than the threshold, in decreasing order, with orthonormal eigenvectors. power_symmetric returns a symmetric matrix; the product of two powers is the power with the sum of the exponents; the first power differs from the matrix by at most the sum of the thresholds in every entry; the power zero is the identity if no eigenvalue is discarded, and the power -1/2 of a positive matrix then makes it the identity. OrthogonalizationError is raised for what is not a square array, for matrices that are not symmetric, and for fractional powers with negative eigenvalues. (The code disagrees: eigh negates an array of booleans with -, which raises TypeError in every version of numpy that Fanpy supports, so neither function ever returns; the power of an empty matrix raises ValueError; eigh of a matrix that is not symmetric silently uses its lower triangle.)", "quantifier": "all real matrices of all sizes, all exponents and thresholds", "why_tests_cant": "There are no tests of these functions, and tests use a few matrices.", "anchors": ["fanpy/tools/math_tools.py"]}
{"id": "C100", "title": "Embedded wavefunctions and several determinants", "statement": "get_overlaps of an embedded wavefunction (also with fixed numbers of electrons) returns the overlaps, or their derivatives with respect to parameters of a component, with each of the determinants: the row of a determinant is what get_overlap returns for it. (The code disagrees: without determinants the overlaps are the number one instead of an empty array, and the derivatives and the wavefunctions with fixed numbers of electrons raise IndexError; if no determinant has the numbers of electrons of the subsystems, the derivatives of a wavefunction with fixed numbers of electrons raise ValueError instead of being zero.)", "quantifier": "all embedded wavefunctions, all lists of determinants, all components and indices", "why_tests_cant": "The tests compare a few determinants of one small wavefunction; none uses an empty list or only determinants that do not match.", "anchors": ["fanpy/wfn/composite/embedding.py", "fanpy/wfn/composite/embedding_fixedelectron.py"]}
{"id": "C101", "title": "Derivative of a matrix product state with respect to one parameter", "statement": "MatrixProductState._olp_deriv(sd, p) is the derivative with respect to parameter p of the overlap with the determinant that has the occupation of the parameter in its spatial orbital and the occupations of sd in all others; so it is the entry of get_overlap(sd, deriv) if the parameter belongs to sd. (The code disagrees: for one spatial orbital it raises AttributeError, since a float has no item; for parameters of other occupations it does not return zero.)", "quantifier": "all matrix product states of at least two spatial orbitals with any bond dimension and parameters, all determinants, all parameters", "why_tests_cant": "The tests compare a few entries of small states with hand-written products.", "anchors": ["fanpy/wfn/network/mps.py"]}
{"id": "C102", "title": "Tables of CI coefficients: labels and added wavefunctions", "statement": "DataFrameCI(wfn) has one row for each determinant, holding its coefficient. set_formatted_sds_as_index changes only the labels, to texts with one character per orbital that is 1 exactly if the orbital is occupied; different determinants get different texts, and set_sds_as_index gives back the table. A missing or non-positive number of orbitals and an unknown view are ValueErrors. add_wfn_to_dataframe on a table of determinants makes the rows the union of the determinants, puts the coefficients into the column of the wavefunction (which loses what it held before) and leaves every other cell as it was. (The code disagrees if the labels are texts: the coefficients land in rows of their own and set_sds_as_index then raises AttributeError.)", "quantifier": "all tables, numbers of orbitals, lists of determinants, coefficients and column names; every order of the union of rows", "why_tests_cant": "The tests convert one table of four electrons in eight orbitals, and never add a wavefunction to a table of texts.", "anchors": ["fanpy/analysis/dataframe/ci.py", "fanpy/analysis/dataframe/base.py"]}
{"id": "C103", "title": "Tables of coupled cluster amplitudes: operators, determinants and texts", "statement": "DataFrameCC(wfn) has one row for each excitation operator. set_sds_as_index succeeds exactly if every operator can be applied to the reference (first half: different occupied orbitals; second half: different orbitals that are then empty), and the label becomes the determinant made by removing the first half and adding the second; otherwise it is a ValueError if the indices are orbitals. For operators whose halves are in increasing order (annihilated occupied, created empty) operators, determinants and texts convert into each other in any order without loss; for determinants with as many electrons as the reference the way over operators is the identity. add_wfn_to_dataframe acts as in C102. (The code disagrees for operators whose indices are not in increasing order, as the default quadruples of CCSDTQsen0: the label changes, and two operators can become the same row; and determinants with another number of electrons cannot be read back.)", "quantifier": "all tables, references, lists of excitation operators of any rank, numbers of orbitals, amplitudes", "why_tests_cant": "The tests convert the operators of one StandardCC wavefunction, all of them in increasing order.", "anchors": ["fanpy/analysis/dataframe/cc.py"]}
{"id": "C104", "title": "Tables of geminal coefficients", "statement": "DataFrameGeminal(wfn) has one row for each geminal and pair of orbitals, holding the coefficient of the pair in the geminal. If the pairs are in increasing order and do not touch the orbitals of the reference that the geminal leaves alone, geminals, determinants (the pair together with these orbitals) and texts convert into each other in any order without changing labels or data. Missing information and an unknown view are ValueErrors. (The code disagrees: a BasicAPsetG raises TypeError, C129; add_wfn_to_dataframe raises ValueError for every matrix of coefficients; wavefunctions of rank two raise ValueError or, where the sizes agree by accident, give a table of other numbers; a table made without a wavefunction raises AttributeError when it is saved.)", "quantifier": "all tables, references, geminals, lists of pairs, numbers of orbitals and coefficients of wavefunctions other than BasicAPsetG", "why_tests_cant": "The tests convert the tables of two small wavefunctions, never add a wavefunction, and never use one of rank two.", "anchors": ["fanpy/analysis/dataframe/geminal.py"]}
{"id": "C105", "title": "Printed parameters: which rows, in which order, with which labels", "statement": "print_determinants, print_determinants_indices, print_excitation_operators_as_determinants, print_excitation_operators_indices, print_geminal_ops (with a reference) and print_geminal_ops_indices show exactly the rows whose absolute parameter exceeds the threshold, largest first and otherwise in the order of the wavefunction, cut off after max_print rows. The texts show the occupation of each orbital (1 and 0; - for orbitals that are emptied and + for orbitals that are filled), the index versions the lists of orbitals per spin. An operator with an index past the orbitals is an IndexError. (The code disagrees: a BasicAPsetG raises TypeError, C129; the index versions raise ValueError if no row remains; print_geminal_ops raises TypeError for every wavefunction without a reference and with at least two spatial orbitals; print_geminal_ops_indices leaves the number of a geminal blank if it is not less than the number of spatial orbitals.)", "quantifier": "all lists of determinants, operators, geminals and pairs, all real parameters, numbers of orbitals, thresholds and values of max_print (also negative)", "why_tests_cant": "There are no tests of the printers.", "anchors": ["fanpy/analysis/printer/ci.py", "fanpy/analysis/printer/cc.py", "fanpy/analysis/printer/geminal.py"]}
{"id": "C106", "title": "Projection space of the legacy FanCI problem", "statement": "FanCI.fill_wavefunction returns a wavefunction without repeated determinants: the determinants it was given come first, then determinants of lowest order of excitation (or lowest seniority) until there are nproj of them, then every determinant that a single or double excitation (a pair excitation for DOCI) connects to these. It raises ValueError exactly if fewer than nproj determinants are available, which for filling by excitation means that nproj exceeds the size of the whole space; an unknown kind of filling or wavefunction is an error. (The code disagrees: filling by seniority leaves out determinants whose seniority exceeds a limit that is too small, so that part of the space cannot be had and a legal nproj raises ValueError.)", "quantifier": "all wavefunctions of pyci (any numbers of orbitals and electrons), all starting determinants, all nproj, both ways of filling, any order in which pyci lists determinants", "why_tests_cant": "The tests build one small problem with one projection, filled by order of excitation; the limit on the seniority shows only in spaces with many open shells.", "anchors": ["fanpy/interface/fanci/legacy.py"]}
{"id": "C107", "title": "Bookkeeping of the base class of the legacy FanCI problem", "statement": "A new object has one equation for each determinant of the projection space and each constraint and as many active parameters as its mask says; the mask is all true by default, the given booleans, or false exactly at the given (possibly negative) indices. Constraints given by the user are kept and one is added for each normalized parameter and determinant, the last value winning. freeze_parameter and unfreeze_parameter change exactly the named parameters and keep the count. A constraint on a parameter has the gradient of its value in the active parameters. optimize passes to the optimizer the objective and Jacobian as functions of the active parameters, with frozen ones kept at the guess. Wrong masks, wrong sizes and unknown or unusable modes are errors. (The code disagrees: an empty list of frozen parameters is an IndexError; add_constraint and remove_constraint always raise TypeError; optimize_stochastic with more than one sample always raises AttributeError.)", "quantifier": "all numbers of parameters and projections, all masks, constraints, guesses, objectives and modes", "why_tests_cant": "The tests build a small problem; none of them freezes parameters, adds or removes constraints, or samples determinants.", "anchors": ["fanpy/interface/fanci/legacy.py"]}
{"id": "C108", "title": "Fit of geminal coefficients by a rank-two matrix", "statement": "full_to_rank2 sets up the linear system zeta_j = p_ij (lambda_i - epsilon_j) with the first zeta equal to one; whatever it returns has no vanishing denominator and reproduces the coefficients within the given deviation. Coefficients that have rank two with nonzero zetas and at least two different lambdas are reproduced exactly by least squares. RankTwoApprox.assign_params accepts an array exactly if no denominator is small, and then clears the cache; default parameters reproduce the identity (with noise) within one hundredth or raise ValueError. (The code disagrees: coefficients whose first pair of orbitals is not used always raise ValueError; an array that is refused nevertheless becomes the parameters while old values stay cached; the number of parameters is not checked.)", "quantifier": "all numbers of geminals and pairs, coefficients, deviations, parameters, random numbers, and all least-squares solvers that give the solution of smallest norm", "why_tests_cant": "The tests fit two fixed matrices; the test of default parameters is skipped because it depends on random numbers.", "anchors": ["fanpy/wfn/geminal/rank2_approx.py"]}
{"id": "C109", "title": "Memory of wavefunctions and settings of hierarchy CI", "statement": "assign_memory takes None (no limit), a number of bytes, or a number followed by mb or gb (with spaces between) in millions or billions of bytes; other texts are ValueErrors, other types TypeErrors. hCI accepts exactly the four patterns in any case of letters and with white space around them, the versions old and new (None is new), and a number as hierarchy; it stores the coefficients of the pattern and a reference with the right number of electrons (and orbitals, for a wavefunction), and refuses given determinants. (The code disagrees: units in capitals are recognised but raise ValueError; None as hierarchy is accepted by assign_hierarchy and always raises TypeError in the constructor.)", "quantifier": "all texts, numbers, sizes, references and readers of numbers", "why_tests_cant": "The tests try two texts for the memory and a few names; texts are unbounded.", "anchors": ["fanpy/wfn/base.py", "fanpy/wfn/ci/hci.py"]}
{"id": "C110", "title": "State of the interface to PyCI", "statement": "However its Hamiltonians are assigned, the interface PYCI, the objective of Fanpy and the attribute ham of the FanCI objective agree on integrals and core energy. The number of projections is that of the Fanpy objective cut to the number of determinants with the electrons of the PyCI wavefunction (or, if the projection space came from excitation orders, to the number of determinants of spin zero at these orders). The default mask has one entry per parameter and one for the energy. update_objective builds both objectives anew with the new Hamiltonian and keeps mask, normalization and memory; it succeeds exactly if the interface has no constraints and the Fanpy objective has one equation of constraints. The constructor of FANPT accepts exactly the documented combinations of options. (The code disagrees: with an odd number of electrons and excitation orders there are no projections; assigning a Hamiltonian leaves the CI operator of the old one; a Hamiltonian of the other kind raises TypeError although it is documented; update_objective raises for constraints of FanCI and for a Fanpy objective without constraints, and changes the number of projections that came from excitation orders; a mask of integers is taken for the number of parameters; norm_param is ignored by the legacy objective; FANPT never has intermediate normalization.)", "quantifier": "all objectives, numbers of electrons and orbitals, integrals, masks, options and sequences of assignments and updates", "why_tests_cant": "Tests build the interface for two or four electrons and never assign a Hamiltonian, update the objective, give a mask or use an odd number of electrons.", "anchors": ["fanpy/interface/pyci.py", "fanpy/interface/fanci/legacy.py", "fanpy/interface/fanci/pyci.py", "fanpy/fanpt/fanpt.py"]}
{"id": "C111", "title": "Localization of orbitals", "statement": "localize with the method 'svd' finds as many orthonormal orbitals in the occupied and in the virtual space as there are, sorted by systems; each of them, in the order in which they are found, has the largest overlap with the functions of a system among all unit vectors orthogonal to the ones found before and all systems, and is given to this system. The transformation from molecular orbitals (of every method) is orthogonal and does not mix occupied and virtual orbitals; integrals are transformed in every index and the closed-shell Hartree-Fock energy stays. The other methods take the localized orbitals with the largest weights in the occupied space as occupied and the closest orthogonal matrices to the overlaps; they have a result exactly if there are as many localized as molecular orbitals. (The code disagrees: in exact arithmetic the method 'svd' raises AssertionError for a space of several orbitals with more orbitals than every system has functions, and ValueError without virtual orbitals; intrinsic atomic orbitals of a basis that is not minimal raise ValueError; the two-electron integrals of the result are in chemists' notation although documented in physicists'; the printed energy uses the formula of the other notation; nelecs counts orbitals, not electrons, and for the other methods it tests if the number of the system is the number of an occupied orbital.)", "quantifier": "all numbers of orbitals, systems and functions, all overlaps and integrals, every singular value decomposition", "why_tests_cant": "Tests call localize only without a method; a comment says that the localization methods have to be fixed before they can be tested.", "anchors": ["fanpy/interface/pyscf_tools.py"]}
{"id": "C112", "title": "Ownership of the integral arrays", "statement": "Integrals are accepted exactly if their shapes (and for unrestricted orbitals their number types) fit together, and other arguments raise the documented errors. A chemical Hamiltonian that was constructed from the caller's arrays owns its integrals: after any sequence of Jacobi rotations, rotations by matrices, assign_params, set_ref_ints and cache_two_ints, and any writes of the caller into its arrays, the integrals, reference integrals, caches and parameters are what they would be if integrals were values, and the caller's arrays contain what the caller wrote; this also holds if the caller passes the same array for several blocks. (The code disagrees after a direct assign_integrals and for the base classes: orb_rotate_jacobi then changes the caller's arrays, rotates a shared array several times so that the integrals are wrong, and drops fractional parts if the array contains integers.)", "quantifier": "all memories, arrays and dimensions, all sequences of events of any length, all results of unitary_matrix", "why_tests_cant": "Tests of the rotations copy the arrays before they make the Hamiltonian and never pass the same array twice to a Hamiltonian that is rotated with orb_rotate_jacobi; aliasing over sequences of calls cannot be enumerated.", "anchors": ["fanpy/ham/generalized_base.py", "fanpy/ham/unrestricted_base.py", "fanpy/ham/generalized_chemical.py", "fanpy/ham/unrestricted_chemical.py"]}
{"id": "C113", "title": "Saved parameters", "statement": "save_params of a wavefunction, a Hamiltonian, a parameter container or an objective writes the parameters of every object within it (and the unitary matrices of Hamiltonians) to a file of its own, whose name is made of the root of the given file name, the class names on the way to the object (numbered from one if several siblings have the same class) and the extension; a file that is loaded afterwards has the data of its object, and no other file is changed. An objective without a file name writes nothing. This holds for any nesting of the classes of Fanpy. (The code disagrees for classes of users: with two components of a class W and one of a class W1, or with a class whose name contains an underscore, parameters are overwritten; and the unrestricted Hamiltonian writes neither of its two documented files _um_alpha and _um_beta but one file _um.)", "quantifier": "all file names (any directories, dots and extensions), all trees of objects of any depth and width, all contents of the file system before", "why_tests_cant": "Tests save one or two flat components to temp.npy and check that the files exist; nesting, file names with other dots and collisions of names range over all trees and texts.", "anchors": ["fanpy/eqn/base.py:save_params", "fanpy/eqn/utils.py:save_params", "fanpy/wfn/base.py:save_params", "fanpy/wfn/composite/base_one.py:save_params", "fanpy/wfn/composite/lincomb.py:save_params", "fanpy/ham/generalized_chemical.py:save_params", "fanpy/ham/unrestricted_chemical.py:save_params", "fanpy/interface/fanci/legacy.py:save_params", "fanpy/interface/fanci/pyci.py:save_params", "fanpy/wfn/utils.py:save_params"]}
{"id": "C114", "title": "Problems solved by FANPT.optimize", "statement": "FANPT.optimize gives the optimizer one problem for the ideal Hamiltonian and then one at the end of every step, in this order, each with a CI operator made of the Hamiltonian of the problem; the energy is an active parameter of every problem, and the active wavefunction parameters are those that were selected. The guess of a problem is the solution of the previous one with the corrections and the energy of perturbation theory; a frozen wavefunction parameter has the value of the argument in every problem. It returns the solution of the last problem, with its last number as the energy, which is that of the given Hamiltonian if lambda_f is 1. A call can return only if lambda_i < lambda_f <= 1; it returns if the steps go up to at most 1, the order is not negative and neither the optimizer nor the response equations raise. Afterwards the energy is active as before, and calling optimize again, also after an exception, solves the same problems with the same result. (The code disagrees with its documentation if the objective of Fanpy has other than one equation of constraints: FANPT can be constructed, but optimize always raises a ValueError.)", "quantifier": "all interfaces, masks, guesses, numbers of steps, values of lambda, optimizers and response equations (any functions, also ones that raise)", "why_tests_cant": "No test calls FANPT.optimize, and the example scripts run one molecule with a few steps; which problem is solved after which, what happens to frozen parameters, and the state after an exception in any step range over all numbers of steps and points of failure.", "anchors": ["fanpy/fanpt/fanpt.py:optimize", "fanpy/interface/pyci.py:update_objective"]}
{"id": "C115", "title": "Ownership of the parameters of wavefunctions", "statement": "If a program does not use an array any more after it gave it to a wavefunction, then everything it observes while it constructs wavefunctions, assigns parameters (given, default, with noise, or from other wavefunctions), assigns the parameters of objectives and evaluates cached overlaps is what it would observe if every wavefunction had its own copy and nothing was cached. objective.assign_params(x) changes only the arrays of the components of the objective, not x, and if these are different arrays of floats the active parameters are x afterwards. (The code disagrees if arrays are shared: wavefunctions constructed from the same array, or matrix product states and determinant ratios assigned from one another, change together, with cached overlaps of the old parameters; two such components of one objective do not get the assigned parameters; add_noise changes the array of the caller; and if the array contains integers, objective.assign_params drops the fractional parts and add_noise raises a TypeError after the parameters were replaced.)", "quantifier": "all memories, classes of wavefunctions, arrays and layouts, all sequences of events of any length, all numbers for the noise", "why_tests_cant": "Aliasing shows only over sequences of calls on several objects, and the tests look at single assignments of single objects; sequences of events and ways to share arrays cannot be enumerated.", "anchors": ["fanpy/wfn/base.py:assign_params", "fanpy/eqn/base.py:assign_params", "fanpy/wfn/network/mps.py:assign_params", "fanpy/wfn/quasiparticle/det_ratio.py:assign_params", "fanpy/wfn/geminal/base.py:assign_params", "fanpy/wfn/cc/base.py:assign_params"]}
{"id": "C116", "title": "Scripts that use pyci", "statement": "make_script of make_fanci_script makes a script if and only if the type of the wavefunction is known, the objective is 'projected', the orbitals are not optimized and, for pyscf, there is an atom and the solver is least_squares, root or fanpt; everything else raises ValueError (no atoms: IndexError). In a script every name is bound before it is used, and with default arguments every call is accepted by the function that it calls and the mode of the optimization is known. With root and a vector of parameters there are as many equations as parameters. The script prints the orders of excitation that it uses, and the command line accepts the orders as python prints a list. (The code disagrees: for gaussian other solvers are accepted and give a script that calls optimize with the mode None, which raises ValueError, or that ignores the solver; the constraint is ignored for gaussian, and for pyscf a constraint of another name is a name without value; rbm for pyscf uses a name without value; scripts of hci cannot run; with root and a matrix of parameters, as for geminals, the optimization is always refused; without orders [1, 2] is printed but all orders are used; the pyscf script is appended to the file; and the orders as the help of the command line gives them, '(1, 2)', raise ValueError.)", "quantifier": "all options, types of wavefunctions, keyword arguments and constraints, all numbers of electrons and orbitals, shapes of parameters and orders of excitation, all texts on the command line", "why_tests_cant": "The tests run the scripts of some types of wavefunctions for H2 and H4 with some options; the combinations of options, and the scripts of larger systems, cannot be run, and root is tested only for CISD, with a vector of parameters.", "anchors": ["fanpy/scripts/gaussian/make_fanci_script.py:make_script", "fanpy/scripts/pyscf/make_fanci_script.py:make_script", "fanpy/scripts/pyscf/make_fanci_script.py:main", "fanpy/interface/fanci/pyci.py:optimize"]}
{"id": "C117", "title": "Hamiltonians and wavefunctions made from functions", "statement": "integrate_sd_wfn(sd, wfn, wfn_deriv, orders) of the Hamiltonian that ham_factory returns is a sum over Slater determinants m of the overlap with m times the sum of the components that the given function returns for sd and m: once for sd, and for each other m of the same number of electrons once if the excitation order from sd to m is in orders. With the default orders, and components that vanish beyond double excitations, it is the sum over all Slater determinants, and given the matrix elements of GeneralizedMolecularHamiltonian it is the integrate_sd_wfn of that class. A negative order raises ValueError. A function for integrate_sd_wfn replaces all of this. The integrals in use are the last ones assigned. For wfn_factory, get_overlap is the given function at the parameters last assigned, None raises NotImplementedError, derivatives are in the order of deriv and an index outside raises IndexError; if olp_deriv is the derivative of olp then integrate_sd_wfn with wfn_deriv is the derivative of integrate_sd_wfn. (The code disagrees: order 0 counts sd a second time and repeated orders are counted repeatedly; and ham_deriv, deriv and components, which BaseHamiltonian takes, raise TypeError.)", "quantifier": "all functions given to the factories, all Slater determinants, numbers of orbitals, orders, parameters and histories of assignments", "why_tests_cant": "The tests use one constant function for the matrix elements and one wavefunction whose overlaps are all one, for which a determinant that is missed or exchanged for another one is not seen.", "anchors": ["fanpy/ham/utils.py:ham_factory", "fanpy/wfn/utils.py:wfn_factory"]}
{"id": "C118", "title": "Second derivatives, reports and checkpoints of the FanCI interface", "statement": "For a wavefunction of which the first k parameters are selected: an entry of compute_overlap_double_deriv is the derivative of the matching entry of compute_overlap_deriv, if get_overlap_double_derivative is the derivative of get_overlap's derivative; and after any calls of compute_objective and compute_jacobian the wavefunction, and with step_save and a tmpfile the saved file, have the parameters of the last call, the parameters that are not selected being those at the start. For all objects: compute_overlap_double_deriv raises ValueError for an unknown space, NotImplementedError for wavefunctions other than coupled cluster and IndexError without determinants; after a call of compute_objective and any calls of compute_jacobian, print_queue has the energy and the costs of that call, which together are the sum of the squares of the objective; with step_print the printed numbers are those of the queue and the norm of the wavefunction. (The code disagrees: the second derivatives are over all parameters, also frozen ones, unlike the first derivatives; and if the selected parameters are not the first ones, compute_jacobian leaves and saves other parameters than compute_objective at the same point.)", "quantifier": "all wavefunctions, Hamiltonian matrices, masks, constraints, points, options and sequences of calls", "why_tests_cant": "The tests turn step_print and step_save off and use a wavefunction whose second derivatives are all one.", "anchors": ["fanpy/interface/fanci/legacy.py:compute_overlap_double_deriv", "fanpy/interface/fanci/legacy.py:compute_objective", "fanpy/interface/fanci/legacy.py:compute_jacobian", "fanpy/interface/fanci/pyci.py:compute_overlap_double_deriv", "fanpy/interface/fanci/pyci.py:compute_objective", "fanpy/interface/fanci/pyci.py:compute_jacobian"]}
{"id": "C119", "title": "The Hamiltonian matrix of fci_cimatrix", "statement": "fci_cimatrix(hf_data) returns a matrix and a list of Slater determinants: the determinants are those with the given numbers of alpha and beta electrons (an odd electron is alpha), each exactly once, ordered by the alpha string and then by the beta string; entry (i, j) of the matrix is integrate_sd_sd of RestrictedMolecularHamiltonian for the determinants i and j; and row i times the overlaps of any wavefunction with the determinants is integrate_sd_wfn of determinant i. An object that is not PYSCF raises TypeError and another number of electrons ValueError. The integrals that the class PYSCF makes from symmetric integrals of the basis functions have the symmetries that this needs.", "quantifier": "all integrals, numbers of orbitals and electrons, determinants and wavefunctions", "why_tests_cant": "The tests compare the lowest eigenvalue for two molecules and discard the list of determinants.", "anchors": ["fanpy/interface/pyscf_tools.py:fci_cimatrix", "fanpy/interface/pyscf.py:PYSCF"]}
{"id": "C120", "title": "Tables of parameters in files", "statement": "to_csv of DataFrameCI, DataFrameCC and DataFrameGeminal writes the rows to one file and the metadata to another, whose names come from the given name: an extension other than csv is dropped. It changes no other file, and read_csv under the same name gives any object the rows, columns, numbers of orbitals, reference and view of the table, as long as the two files have not changed and the labels are numbers of 64 bits or texts with spaces, which all labels made for at most 32 spatial orbitals are. Determinants of more than 64 bits come back as texts; names that differ only in an extension other than csv are one name; names that differ only in the case of csv share their metadata; a reference that is a wavefunction raises TypeError after the old files are lost; read_csv that raises because of the metadata has replaced the rows already.", "quantifier": "all tables, disks, file names and objects that read", "why_tests_cant": "The tests write and read one table of CI with the name test.csv and compare the labels and the values.", "anchors": ["fanpy/analysis/dataframe/base.py:DataFrameFanpy.to_csv", "fanpy/analysis/dataframe/base.py:DataFrameFanpy.read_csv", "fanpy/analysis/dataframe/ci.py:DataFrameCI.read_csv", "fanpy/analysis/dataframe/cc.py:DataFrameCC.read_csv", "fanpy/analysis/dataframe/geminal.py:DataFrameGeminal.read_csv"]}
{"id": "C121", "title": "Parameters of quasiparticle wavefunctions", "statement": "Without parameters, AntisymmeterizedProductTetrets is the Hartree-Fock determinant: its overlap with the ground state is one and its overlap with every other determinant of nelec electrons is zero. It can be made exactly if nelec is a positive multiple of four and at most nspin, nspin is even, the number of quasiparticles is nelec/4 if given and no subsets are given. For every quasiparticle wavefunction, row a of the default parameters is one at subset a of the first partition of the orbitals of the ground state and zero elsewhere, and more subsets than quasiparticles raise IndexError. Parameters taken from another wavefunction raise ValueError unless electrons and orbitals agree and the other has at most as many quasiparticles; the numbers of common subsets are copied and all others are zero, so tetrets made from tetrets have the same overlaps, but a wavefunction of subsets of even size with more quasiparticles than the other has only zero overlaps. An array is read row by row and one of another size raises ValueError.", "quantifier": "all numbers of electrons, orbitals and quasiparticles, all subsets, parameters and determinants", "why_tests_cant": "The tests check the entries of the parameters for one wavefunction of four quasiparticles and one list of partitions; no test takes an overlap of a wavefunction with default or copied parameters.", "anchors": ["fanpy/wfn/quasiparticle/base.py:BaseQuasiparticle.assign_params", "fanpy/wfn/quasiparticle/tetret.py:AntisymmeterizedProductTetrets"]}
{"id": "C122", "title": "Excitation operators of the geminal-like coupled cluster classes", "statement": "CCSDTQsen0, CCSDQsen0 and CCSDTsen2Qsen0 have, for every reference, each operator once: all excitations of ranks 1, 2, 3 (CCSDTQsen0) or 1, 2, the triples that move one pair and one electron (CCSDTsen2Qsen0), and the quadruples that move two pairs to two pairs. Given two sets of orbitals, APset1roGD has each operator that moves a pair of the ground state to one orbital of each set once; APset1roGSD has the single excitations to the sets, but its double excitations are those to any alpha and any beta orbital, also outside the sets. The sets are accepted exactly if they have no negative number, no orbital occupied in the ground state and no common orbital (orbitals that do not exist are accepted); otherwise ValueError, and TypeError for all other classes. An operator to an orbital of the first set above the one of the second set has no effect. Except for CCSDsen0 and the classes derived from it, the operators are those of the ground state whatever the reference is, so with another reference the overlap with another pair may be zero for all parameters.", "quantifier": "all classes, numbers of electrons and orbitals, references, sets of orbitals, parameters and determinants", "why_tests_cant": "The tests compare the operators of four electrons in eight orbitals for the default sets and the ground state; no test gives sets that are accepted, and none makes an object with another reference.", "anchors": ["fanpy/wfn/cc/ccsdtq_sen0.py:CCSDTQsen0.assign_exops", "fanpy/wfn/cc/ccsdt_sen2_q_sen0.py:CCSDTsen2Qsen0.assign_exops", "fanpy/wfn/cc/apset1rog_d.py:APset1roGD.assign_exops", "fanpy/wfn/cc/apset1rog_sd.py:APset1roGSD.assign_exops", "fanpy/wfn/cc/pccd_ap1rog.py:PCCD.__init__"]}
{"id": "C123", "title": "Command lines of write_wfn_py", "statement": "write_wfn_py runs one program in every directory that is not passed over, in the order of glob, and comes back to the directory it started from. The program reads exactly the arguments of write_wfn_py with its defaults (orders [1, 2, 3, 4], objective variational, solver cma, file calculate.py); files of parameters that are given count before those of the previous system, and the latter are those of the system before the one of this directory. If the name of a system cannot be read while load_prev is set, AttributeError is raised there and the working directory remains that directory. A script is made exactly if the geometry can be read and has an atom, the amounts of noise are numbers, the type of the wavefunction is known, and: without fanpy_only the orders can be read, the objective is projected, the orbitals are not optimized and the solver is least_squares, root or fanpt; with fanpy_only all characters of the orders are digits and objective and solver are known. So with the defaults of write_wfn_py, and with fanpy_only for any list of orders, no script is made, and no error is raised. A script is put at the end of the file, and no other file changes. load_prev looks for a directory 0 that make_wfn_dirs never makes. A time in d, h or m is read in minutes; time and memory must be given together.", "quantifier": "all arguments of write_wfn_py, sets of directories, files in them and previous systems (words that begin with a dash and the type custom excluded where a script is made)", "why_tests_cant": "The two tests of write_wfn_py use one directory and give the objective and the solver, so they never see the defaults, fanpy_only, load_prev or a second directory; the exit status of the programs is not looked at, so a refused command passes unnoticed.", "anchors": ["fanpy/scripts/pyscf/run_calc.py:write_wfn_py", "fanpy/scripts/pyscf/run_calc.py:make_wfn_dirs", "fanpy/scripts/pyscf/run_calc.py:run_calcs", "fanpy/scripts/pyscf/pyscf_parser.py", "fanpy/scripts/pyscf/make_script.py:main", "fanpy/scripts/pyscf/make_fanci_script.py:main"]}
{"id": "C124", "title": "Tables of parameters as stand-ins for pandas tables", "statement": "Attribute access, calls of functions and indexing of a table, one after the other, do exactly what they do with the pandas table inside it (same state, same errors, same object), for names that are neither of the class nor of the object. Names of the class and of the object count before those of pandas. A table that comes out of such a step (for example copy() or t[[...]]) is of the base class and has no attribute but its pandas table; update_dataframe with it keeps the class and attributes of the table that is updated. Item assignment is that of pandas; assignment of an attribute is not, although reading it is. for x in t raises KeyError unless there is a column 0, and copy.copy raises RecursionError for every table.", "quantifier": "all behaviours of pandas (states, objects, attributes, calls), tables of the four classes, and sequences of steps", "why_tests_cant": "The tests look up a few names of one small table each; they never look at the class or the view of a table that came out of a function of pandas, never assign an attribute, iterate or copy, and cannot vary pandas.", "anchors": ["fanpy/analysis/dataframe/base.py:__getattr__", "fanpy/analysis/dataframe/base.py:__getitem__", "fanpy/analysis/dataframe/base.py:__setitem__", "fanpy/analysis/dataframe/base.py:from_existing", "fanpy/analysis/dataframe/base.py:update_dataframe", "fanpy/analysis/dataframe/ci.py:index_view"]}
{"id": "C125", "title": "Scripts for embedded wavefunctions", "statement": "make_script of the embedding programs accepts exactly existing scripts, at least one, and systems of atoms that are the numbers below the number of scripts, each used; everything else raises ValueError. The script it writes gives to each system the alpha and beta orbitals of its atoms in order and as many electrons as fill its orbitals among the lowest nelec // 2; with one label for every orbital the embedded wavefunction is then made for every even number of electrons up to the number of spin orbitals, and for disjoint systems exactly the other numbers raise ValueError. A label of no atom raises IndexError, a label too many ValueError. For loc_type svd the beta orbitals are left out but for the last, so with two or more orbitals the embedded wavefunction always raises ValueError; the script of make_cc_embedding_script.py raises NameError unless a given script imports slater; the command line of both programs always raises TypeError.", "quantifier": "all scripts, systems of atoms, labels of orbitals, numbers of electrons and orbitals, and wavefunctions of the systems", "why_tests_cant": "There is no test of these two programs; a test would run a few molecules and compare texts, while the claim is about what the written script does for every assignment of orbitals to systems.", "anchors": ["fanpy/scripts/gaussian/make_embedding_script.py:make_script", "fanpy/scripts/gaussian/make_cc_embedding_script.py:make_script", "fanpy/scripts/gaussian/make_embedding_script.py:main", "fanpy/wfn/composite/embedding.py:__init__", "fanpy/tools/slater.py:spatial_to_spin_indices"]}
{"id": "C126", "title": "Keyword arguments of the solvers", "statement": "minimize, cma, root and least_squares pass to their optimizer every keyword argument of the caller unchanged and the documented default of every argument that is missing; likewise for the entries of options, for which they use the dictionary of the caller or a new one, and they change no other dictionary. options that is not a dictionary raises AttributeError and changes no dictionary, cma with one active parameter raises ValueError, and otherwise TypeError is raised exactly if an argument that is passed on is not a parameter of the optimizer, or is one of its first two, or is verbose for least_squares. A dictionary of options that is used for several calls ends with the entries of the caller and the defaults of every solver that was called, whether or not the calls raised; so what a call passes on depends on earlier calls (the code disagrees with its documentation here: minimize without gradient passes gtol after a call with gradient). wrap_skopt searches the box of side one centred at the active parameters unless dimensions are given.", "quantifier": "all keyword arguments and dictionaries, all optimizers (given by the names of their parameters), all sequences of calls, all active parameters", "why_tests_cant": "The tests call the solvers with their defaults; which arguments reach the optimizer, and what is left in the dictionary of the caller, is not looked at, and the claim is for every dictionary and every sequence of calls.", "anchors": ["fanpy/solver/equation.py:minimize", "fanpy/solver/equation.py:cma", "fanpy/solver/system.py:root", "fanpy/solver/system.py:least_squares", "fanpy/solver/wrappers.py:wrap_scipy", "fanpy/solver/wrappers.py:wrap_skopt"]}
{"id": "C127", "title": "Files of basis sets", "statement": "convert_gbs_nwchem gives, for a file of a header and sections that each follow four stars, for every atom the text with all its shells in the order of the file (atom and kind, then the exponents and coefficients as they are in the file), whatever the white space between the words; atoms without shells are not in the result and every atom is in it once. Sections that begin with anything but a letter, digit or underscore raise AttributeError. (The code disagrees with its purpose: an atom whose section has no stars before it is lost, as the first atom of files without stars after the header; a shell whose line has anything after the scale, a blank or a second number, is lost or becomes part of the coefficients of the shell before it.)", "quantifier": "all files of ASCII text: all headers, atoms, shells and kinds of white space; coefficients are words that are not integers", "why_tests_cant": "There is no test of this function; the claim is for files with any number of atoms and shells and any white space, and depends on where a regular expression can match in any such text.", "anchors": ["fanpy/interface/pyscf_tools.py:convert_gbs_nwchem"]}
{"id": "C128", "title": "Input of Hartree-Fock calculations", "statement": "hartreefock gives PySCF the lines of the file after the first two, without the white space around them and joined by semicolons; a file in the directory of the module is preferred, a missing file raises ValueError and unrestricted calculations raise NotImplementedError. The script of make_localize_hf gives PySCF all lines of its file that are not blank, in order, and writes their number, an empty line and the lines to system.xyz and nothing else. (The code disagrees with its names and messages: the script takes the number of atoms of an XYZ file for an atom; a script made for no method of localization localizes onto the identity, where localize without a method returns the orbitals of Hartree-Fock; the script of make_pyscf_input does not look at whether the calculation converged.)", "quantifier": "all texts of the file (any number of lines, any white space), all files in the two directories, all methods", "why_tests_cant": "Tests run single molecules with files from the package; the claim is for every text, with or without a newline at the end and with blank lines anywhere, and for every combination of files in the two directories.", "anchors": ["fanpy/interface/pyscf_tools.py:hartreefock", "fanpy/interface/pyscf_tools.py:localize", "fanpy/scripts/gaussian/make_localize_hf.py:make_script", "fanpy/scripts/pyscf/make_pyscf_input.py:make_pyscf_input"]}
{"id": "C129", "title": "Parameters of a geminal wavefunction from another one", "statement": "assign_params(other) of APG, BasicAPsetG, APIG and AP1roG takes the parameters of another APG, APIG or AP1roG pair by pair: the coefficient of a pair of orbitals is that of the same pair in the other wavefunction, or zero if it has no such pair; other numbers of electrons, orbitals or geminals raise ValueError. If every pair of the other wavefunction (APG or APIG) is a pair of this one, all overlaps with determinants of its electrons agree afterwards, up to the sign of the classes. (The code disagrees with its documentation: the two dictionaries of a BasicAPsetG are exchanged, so that taking its parameters raises TypeError in APG and BasicAPsetG, even its own, and silently sets those of APIG and AP1roG to zero, and the tables and printers of geminals raise TypeError; the coefficients of the reference pairs of an AP1roG are lost, so that its overlap with the reference is one before and zero after.)", "quantifier": "all wavefunctions that the constructors make: any sizes, pairs, references and parameters", "why_tests_cant": "The one test that takes parameters from another wavefunction compares arrays with np.allclose and does not assert the result, and no test takes them from a BasicAPsetG or an AP1roG; the claim is for all pairs of wavefunctions and all determinants.", "anchors": ["fanpy/wfn/geminal/base.py:BaseGeminal.assign_params", "fanpy/wfn/geminal/apsetg.py:BasicAPsetG.assign_orbpairs", "fanpy/wfn/geminal/ap1rog.py:AP1roG.assign_params"]}
{"id": "C130", "title": "Default parameters of geminal wavefunctions", "statement": "assign_params() of APG, BasicAPsetG and APIG gives each geminal the pair of a spatial orbital with coefficient one; it raises ValueError if one of these pairs is not a pair of the wavefunction, for APG and BasicAPsetG exactly if there are more geminals than spatial orbitals. The overlap is then one, up to a sign that depends on the number of electrons and the class only, for the determinants whose electrons are paired in the first spatial orbitals, as many as there are geminals, and zero for all other determinants of the same number of electrons; with as many geminals as pairs of electrons this is the Hartree-Fock ground state, as documented. An AP1roG gives one for its reference and zero for every other determinant. (The code disagrees with its documentation if there are more geminals than pairs: other determinants have the same overlap as the ground state.)", "quantifier": "all wavefunctions that the constructors make: any sizes, pairs and references; all determinants", "why_tests_cant": "The tests compute np.allclose for the default parameters of one or two sizes without asserting it, and evaluate no overlap with them; the claim is about the state that they define, for all sizes.", "anchors": ["fanpy/wfn/geminal/base.py:BaseGeminal.assign_params", "fanpy/wfn/geminal/ap1rog.py:AP1roG.assign_params"]}
{"id": "C131", "title": "Input files for PySCF", "statement": "write_pyscf_py turns an amount of memory in GB or MB, in lower or upper case, into the largest whole number of MB that is not larger, and raises ValueError for any other text before anything changes. It makes the missing directories of the path, writes the script to calculate.py in the last of them, changes no other file and comes back to the directory it started from; if a file is in the way nothing changes. The script of make_pyscf_input assigns each of atom, charge, spin, unit, basis and max_memory once, with the given values; unit and basis are literals of the given texts, if these have no quotes, backslashes or line breaks. (The code disagrees: coordinates that are a text, as documented, are put into the script without quotes, so that it has no literal there; negative amounts of memory are accepted; if calculate.py is a directory the error leaves the process in another directory.)", "quantifier": "all texts of coordinates, basis, units and memory, all charges and spins, all paths, current directories and trees of files", "why_tests_cant": "The test of write_pyscf_py replaces make_pyscf_input and looks for the coordinates in the file, so the text it gives is never run; the other test gives a list. Neither looks at the current directory afterwards, at other files, or at the memory.", "anchors": ["fanpy/scripts/pyscf/run_calc.py:write_pyscf_py", "fanpy/scripts/pyscf/make_pyscf_input.py:make_pyscf_input"]}
{"id": "C132", "title": "Rotations of two orbitals after each other", "statement": "A JacobiWavefunction without parameters has the overlaps of its component. With a JacobiWavefunction turned by an angle \u03b8 as the component of one turned by \u03c6, for the same orbitals, the overlaps are those of the first component turned by \u03b8 + \u03c6, so that the opposite angle gives the overlaps of the first component back. For every angle the sum of the squares of the overlaps with all determinants is that of the component, and if the overlaps of the component with all determinants of some number of electrons vanish, so do those of the wavefunction.", "quantifier": "all numbers of orbitals, pairs of rotated orbitals, kinds of orbitals (restricted, unrestricted, generalized), real components, angles and determinants", "why_tests_cant": "The tests compare overlaps for four or eight spin orbitals and some angles with formulas written in the same way or with another wavefunction; the one that puts one rotation into another takes other orbitals. None looks at a sum over determinants, and the default angle is never used to evaluate an overlap.", "anchors": ["fanpy/wfn/composite/jacobi.py:JacobiWavefunction.assign_params", "fanpy/wfn/composite/jacobi.py:JacobiWavefunction._olp", "fanpy/wfn/composite/jacobi.py:JacobiWavefunction.get_overlap"]}
{"id": "C133", "title": "Long calls in the scripts are wrapped without changing them", "statement": "The scripts wrap the calls that make the wavefunction, the Hamiltonian, the projection space and the objective and that run the solver to 100 characters. If every word and every gap of the call leaves room for the indentation and no word is cut at hyphens, the wrapped call has the same words in the same order, every line has at most 100 characters, and all lines but the first begin with as many spaces as the text up to the opening parenthesis is long and then something else. The first line begins with that text and the first argument if they fit, so that no line break is outside of the parentheses. A call of at most 100 characters is not changed. (The code disagrees: a longer word, such as a list without spaces in the keyword arguments, is cut in two, and a space in a string may become a line break, which makes the script invalid.)", "quantifier": "all texts of the head and the arguments of a call", "why_tests_cant": "The tests make scripts for some kinds of wavefunctions and solvers; none has keyword arguments long enough to be cut or with spaces in a string, and none looks at the line breaks.", "anchors": ["fanpy/scripts/gaussian/make_script.py:make_script", "fanpy/scripts/gaussian/make_fanci_script.py:make_script", "fanpy/scripts/pyscf/make_script.py:make_script", "fanpy/scripts/pyscf/make_fanci_script.py:make_script"]}
{"id": "C134", "title": "Command lines of the programs that take files with integrals", "statement": "fanpy_make_script, fanpy_make_fanci_script and fanpy_run_calc read their options in any order. They call make_script with the values of the options, the last one if an option is repeated, and with the defaults of the parser for the other arguments; fanpy_run_calc asks for the script to be returned. Without --wfn_type, and after a word that is not an option, they end before make_script is called. (The code disagrees: --load_chk of fanpy_run_calc and --nproj of all programs are read and have no effect; the main function of make_cc_embedding_script.py calls its make_script with arguments that it does not have, so that no command line makes a script.)", "quantifier": "all command lines of options of the parser with values that do not begin with a dash, and for the refused ones all words after the first one that is not an option", "why_tests_cant": "The only test of these programs runs fanpy_run_calc with four options of one value each; an option among the others that is forgotten or exchanged is not seen.", "anchors": ["fanpy/scripts/utils.py:parser", "fanpy/scripts/gaussian/make_script.py:main", "fanpy/scripts/gaussian/make_fanci_script.py:main", "fanpy/scripts/gaussian/run_calc.py:main", "fanpy/scripts/gaussian/run_calc.py:run_calc", "fanpy/scripts/gaussian/make_cc_embedding_script.py:main"]}
{"id": "C135", "title": "Parameters of a ParamContainer", "statement": "ParamContainer.assign_params accepts a number, a list or tuple of numbers and booleans with at least one number, and an array of one dimension with at least one number, and nothing else. The entries are stored in their order; an array is stored itself, everything else in a new array. An empty list or array is a ValueError; other types, only booleans, and further dimensions are a TypeError. After any assignments, of which some may be refused, the parameters are those of the last accepted one and nparams is at least one.", "quantifier": "all numbers, arrays and nested lists, and all sequences of assignments", "why_tests_cant": "test_assign_param gives seven accepted and three refused values, among them no lists that are nested, mixed or empty, and never looks at the parameters after a refused assignment.", "anchors": ["fanpy/eqn/utils.py:ParamContainer.assign_params", "fanpy/eqn/utils.py:ParamContainer.nparams", "fanpy/eqn/utils.py:ParamContainer.__init__"]}
{"id": "C136", "title": "Files with natural orbitals", "statement": "save_natural_orbitals(filename, ...) writes one file, whose name is filename with .molden added if it does not end in it, and changes no other file. On success the file has the header and the natural orbitals and nothing else; calling it again with the name of the file writes the same file. If the natural orbitals cannot be computed, or the file cannot be opened, no file is changed. (The code disagrees: without PySCF only a message is printed; the call goes on, empties an existing file of this name and ends with a NameError.)", "quantifier": "all names, all contents of files, all results of compute_natural_orbitals, all texts that the functions of PySCF write and all places where they may raise", "why_tests_cant": "No test calls save_natural_orbitals; with PySCF installed its absence, and with orbitals that can be computed the errors, are not seen.", "anchors": ["fanpy/analysis/orbitals/natural_orbitals/ci.py:save_natural_orbitals"]}
{"id": "C137", "title": "Binomial coefficients", "statement": "binomial(n, k) is the number of sets of k objects out of n objects, and 0 if n or k is negative or k is greater than n. A float is replaced by the largest integer that is not above it, with one message for each. Infinite numbers and nan are refused.", "quantifier": "all integers and all floats n and k", "why_tests_cant": "test_binomial compares a handful of pairs, and does not look at the messages or at numbers that have no floor.", "anchors": ["fanpy/tools/math_tools.py:binomial"]}
{"id": "C138", "title": "Wrapped optimizers of scipy and scikit-optimize", "statement": "The function made by wrap_scipy runs the optimizer from the active parameters of the objective with all keyword arguments and returns its success, point, message and result. The one made by wrap_skopt passes on given dimensions and otherwise a box around the active parameters: an optimizer that stays in its dimensions evaluates and returns only points whose entries differ by at most one half from them. Both pass on exceptions of the optimizer and of the objective, and leave the objective at the last evaluated point, which need not be the point that is returned. A result without success or message is an AttributeError of wrap_scipy.", "quantifier": "all optimizers (programs that choose each point from the values before), all objectives that keep the parameters they are evaluated at, all keyword arguments", "why_tests_cant": "The tests run a few optimizers on one objective with one parameter and no state; they never use the default dimensions, and never look at exceptions or at the parameters that the objective is left with.", "anchors": ["fanpy/solver/wrappers.py:wrap_scipy", "fanpy/solver/wrappers.py:wrap_skopt"]}
{"id": "C139", "title": "Parameters of a coupled cluster wavefunction given to another", "statement": "For coupled cluster wavefunctions with equal nelec and nspin, w.assign_params(other) gives each excitation operator of w the amplitude that it has in other, and zero if other does not have it, whatever the orders of the operators are; one message is printed for each operator of other that w lacks, and nelec, nspin and exops stay. If w has all operators of other, copying back restores the parameters of other. Other nelec or nspin is a ValueError, as is an array of another shape; no argument gives zeros. get_ind and get_exop are inverse to each other, with a ValueError for unknown operators and numbers. If both are StandardCC with the same reference and w has all ranks of other, w gets the overlaps of other with all determinants with nelec electrons.", "quantifier": "all pairs of wavefunctions whose operators are different and numbered from zero, all amplitudes", "why_tests_cant": "test_assign_params copies once, between wavefunctions with the same operators in the same order, and the result of its np.allclose is not asserted; other operators or orders are never copied.", "anchors": ["fanpy/wfn/cc/base.py:BaseCC.assign_params", "fanpy/wfn/cc/base.py:BaseCC.get_ind", "fanpy/wfn/cc/base.py:BaseCC.get_exop"]}
