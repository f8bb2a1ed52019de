{
 "claims": [
  {
   "property": "C01",
   "status": "proved",
   "theorems": [
    "Fanpy.Props.C01_occ_vir_indices",
    "Fanpy.Props.C01_none"
   ],
   "note": "occ_indices/vir_indices/total_occ for every determinant"
  },
  {
   "property": "C02",
   "status": "proved",
   "theorems": [
    "Fanpy.Props.C02_annihilate",
    "Fanpy.Props.C02_create",
    "Fanpy.Props.C02_create_annihilate",
    "Fanpy.Props.C02_annihilate_create",
    "Fanpy.Props.C02_order_irrelevant",
    "Fanpy.Props.C02_excite",
    "Fanpy.Props.C02_none"
   ],
   "note": "annihilate/create/excite for every determinant and index list"
  },
  {
   "property": "C03",
   "status": "proved",
   "theorems": [
    "Fanpy.Props.C03_ground_error",
    "Fanpy.Props.C03_ground"
   ],
   "note": "including the exact set of inputs on which ground raises"
  },
  {
   "property": "C04",
   "status": "proved",
   "theorems": [
    "Fanpy.Props.C04_diff_orbs"
   ],
   "note": ""
  },
  {
   "property": "C05",
   "status": "proved",
   "theorems": [
    "Fanpy.Props.C05_combine_split",
    "Fanpy.Props.C05_split_combine",
    "Fanpy.Props.C05_rejects"
   ],
   "note": ""
  },
  {
   "property": "C06",
   "status": "proved",
   "theorems": [
    "Fanpy.Props.C06_index_maps",
    "Fanpy.Props.C06_interleave_bits",
    "Fanpy.Props.C06_deinterleave_bits",
    "Fanpy.Props.C06_round_trip",
    "Fanpy.Props.C06_rejects"
   ],
   "note": ""
  },
  {
   "property": "C07",
   "status": "proved",
   "theorems": [
    "Fanpy.Props.C07_spin_seniority",
    "Fanpy.Props.C07_constraints",
    "Fanpy.Props.C07_index_functions",
    "Fanpy.Props.C07_guard_accepts_out_of_range"
   ],
   "note": "also records that is_alpha/spatial_index accept the index 2*nspatial"
  },
  {
   "property": "C08",
   "status": "proved",
   "theorems": [
    "Fanpy.Props.C08_sign_perm",
    "Fanpy.Props.C08_every_sequence",
    "Fanpy.Props.C08_swap",
    "Fanpy.Props.C08_rejects"
   ],
   "note": "against Mathlib Equiv.Perm.sign"
  },
  {
   "property": "C09",
   "status": "proved",
   "theorems": [
    "Fanpy.Props.C09_sign_swap",
    "Fanpy.Props.C09_symmetric"
   ],
   "note": ""
  },
  {
   "property": "C10",
   "status": "proved",
   "theorems": [
    "Fanpy.Props.C10_sign_excite",
    "Fanpy.Props.C10_excite_none_iff",
    "Fanpy.Props.C10_car",
    "Fanpy.Props.C10_none"
   ],
   "note": "against a Fock space whose operators are proved to satisfy the CAR"
  },
  {
   "property": "C11",
   "status": "proved",
   "theorems": [
    "Fanpy.Props.C11_sign_excite_one",
    "Fanpy.Props.C11_sign_excite_two",
    "Fanpy.Props.C11_sign_excite_two_ab"
   ],
   "note": ""
  },
  {
   "property": "C12",
   "status": "proved",
   "theorems": [
    "Fanpy.Props.C12_excite_bulk",
    "Fanpy.Props.C12_excite_bulk_two_ab",
    "Fanpy.Props.C12_overflow"
   ],
   "note": "below 63 orbitals, with a proof that the 64-bit code is wrong beyond"
  },
  {
   "property": "C13",
   "status": "partial",
   "theorems": [
    "Fanpy.Props.C13_sign_excite_array_partial",
    "Fanpy.Props.C13_unequal_numbers_differ",
    "Fanpy.Props.C13_shared_indices",
    "Fanpy.Props.C13_spatial_to_spin"
   ],
   "note": "for rows with as many annihilators as creators, creators increasing; missing: rows of unequal lengths, where C13_unequal_numbers_differ proves that the code differs"
  },
  {
   "property": "C14",
   "status": "proved",
   "theorems": [
    "Fanpy.Props.C14_raises",
    "Fanpy.Props.C14_sd_list",
    "Fanpy.Props.C14_limit",
    "Fanpy.Props.C14_order_zero_duplicates"
   ],
   "note": "including the exact raising conditions and the deviations of the code (limit counting, order 0 duplicates)"
  },
  {
   "property": "C15",
   "status": "proved",
   "theorems": [
    "Fanpy.Props.C15_complete_pmatch",
    "Fanpy.Props.C15_degenerate"
   ],
   "note": ""
  },
  {
   "property": "C16",
   "status": "proved",
   "theorems": [
    "Fanpy.Props.C16_biclique_pmatch",
    "Fanpy.Props.C16_degenerate",
    "Fanpy.Props.C16_rejects"
   ],
   "note": ""
  },
  {
   "property": "C17",
   "status": "partial",
   "theorems": [
    "Fanpy.Props.C17_any_order",
    "Fanpy.Props.C17_order_disagrees",
    "Fanpy.Props.C17_unordered_partition_partial",
    "Fanpy.Props.C17_size_not_checked",
    "Fanpy.Props.C17_zero_number"
   ],
   "note": "for increasing collections and positive sizes and numbers that add up; C17_any_order says what is yielded for collections in any order: the claim is false there, partitions are lost (C17_order_disagrees); also for zero numbers, which the code mishandles (C17_zero_number); the code does not check the total size (C17_size_not_checked)"
  },
  {
   "property": "C18",
   "status": "proved",
   "theorems": [
    "Fanpy.Props.C18_int_partition",
    "Fanpy.Props.C18_zero_coin"
   ],
   "note": ""
  },
  {
   "property": "C19",
   "status": "partial",
   "theorems": [
    "Fanpy.Props.C19_general_pmatch_partial",
    "Fanpy.Props.C19_sign",
    "Fanpy.Props.C19_complete_partial",
    "Fanpy.Props.C19_last_pair_unchecked"
   ],
   "note": "exact characterisation of the yielded matchings of a non-empty list of distinct indices; missing: the empty list, whose empty matching is not yielded; the last pair is not checked by the code (C19_last_pair_unchecked)"
  },
  {
   "property": "C20",
   "status": "proved",
   "theorems": [
    "Fanpy.Props.C20_combinatoric",
    "Fanpy.Props.C20_ryser",
    "Fanpy.Props.C20_empty",
    "Fanpy.Props.C20_square",
    "Fanpy.Props.C20_transpose",
    "Fanpy.Props.C20_permute"
   ],
   "note": "exact arithmetic in a field of characteristic zero; the number of iterations of the Ryser loop is bounded"
  },
  {
   "property": "C21",
   "status": "proved",
   "theorems": [
    "Fanpy.Props.C21_borchardt",
    "Fanpy.Props.C21_agrees",
    "Fanpy.Props.C21_errors",
    "Fanpy.Props.C21_adjugate"
   ],
   "note": "exact arithmetic; parameters without repetitions and without common value, for which the denominators are proved non-zero; adjugate covered too"
  },
  {
   "property": "C22",
   "status": "proved",
   "theorems": [
    "Fanpy.Props.C22_decomposed",
    "Fanpy.Props.C22_generalized",
    "Fanpy.Props.C22_vacuum",
    "Fanpy.Props.C22_exchange"
   ],
   "note": "exact arithmetic in a field of characteristic zero; integrals with particle-exchange symmetry; the vacuum/vacuum element raises ValueError (C22_vacuum)"
  },
  {
   "property": "C23",
   "status": "partial",
   "theorems": [
    "Fanpy.Props.C23_unrestricted_partial",
    "Fanpy.Props.C23_unrestricted_fock"
   ],
   "note": "componentwise for all pairs of determinants except vacuum/vacuum, where the claim is false since the generalized Hamiltonian raises (C22_vacuum); C23_unrestricted_fock covers that pair for the unrestricted one"
  },
  {
   "property": "C24",
   "status": "partial",
   "theorems": [
    "Fanpy.Props.C24_restricted_partial",
    "Fanpy.Props.C24_asymmetric",
    "Fanpy.Props.C24_restricted_fock"
   ],
   "note": "componentwise and including the exceptions, for two-electron integrals with the particle-exchange symmetry; without it the claim is false (C24_asymmetric)"
  },
  {
   "property": "C25",
   "status": "proved",
   "theorems": [
    "Fanpy.Props.C25_seniority_zero",
    "Fanpy.Props.C25_other",
    "Fanpy.Props.C25_fock"
   ],
   "note": "componentwise; all pairs of seniority-zero determinants, and zero for all others"
  },
  {
   "property": "C26",
   "status": "proved",
   "theorems": [
    "Fanpy.Props.C26_generalized",
    "Fanpy.Props.C26_unrestricted",
    "Fanpy.Props.C26_restricted",
    "Fanpy.Props.C26_seniority_zero"
   ],
   "note": "generalized, unrestricted, restricted (componentwise) and seniority-zero Hamiltonians, over any commutative ring"
  },
  {
   "property": "C27",
   "status": "partial",
   "theorems": [
    "Fanpy.Props.C27_base",
    "Fanpy.Props.C27_generalized",
    "Fanpy.Props.C27_generalized_vacuum",
    "Fanpy.Props.C27_generalized_fock",
    "Fanpy.Props.C27_unrestricted_fock",
    "Fanpy.Props.C27_restricted_fock_partial",
    "Fanpy.Props.C27_seniority_zero",
    "Fanpy.Props.C27_unrestricted",
    "Fanpy.Props.C27_restricted_partial",
    "Fanpy.Props.C27_word_64"
   ],
   "note": "generalized and unrestricted up to 63 spin orbitals, restricted for all numbers of spatial orbitals but 32, seniority-zero and base class for all; C27_word_64 proves that the code is wrong with 64 spin orbitals (signed 64-bit words); the derivatives with respect to orbital rotations are in C31"
  },
  {
   "property": "C28",
   "status": "partial",
   "theorems": [
    "Fanpy.Props.C28_generalized_one_partial",
    "Fanpy.Props.C28_generalized_two_partial",
    "Fanpy.Props.C28_unrestricted_partial",
    "Fanpy.Props.C28_restricted_partial"
   ],
   "note": "zero, one and two parts of the generalized, unrestricted and restricted Hamiltonians, in the order of excite_bulk up to 63 spin orbitals; missing: more orbitals, where excite_bulk itself is wrong (C12_overflow); for the generalized Hamiltonian the order of excite is proved without a bound"
  },
  {
   "property": "C29",
   "status": "proved",
   "theorems": [
    "Fanpy.Props.C29_jacobi_eq_matrix",
    "Fanpy.Props.C29_jacobi_comm",
    "Fanpy.Props.C29_jacobi_error",
    "Fanpy.Props.C29_matrix_error",
    "Fanpy.Props.C29_compose",
    "Fanpy.Props.C29_identity",
    "Fanpy.Props.C29_inverse",
    "Fanpy.Props.C29_one_symmetric",
    "Fanpy.Props.C29_two_symmetric",
    "Fanpy.Props.C29_operator_one",
    "Fanpy.Props.C29_operator_two",
    "Fanpy.Props.C29_givens_orthogonal",
    "Fanpy.Props.C29_stale_cache",
    "Fanpy.Props.C29_refresh",
    "Fanpy.Props.C29_unrestricted_jacobi_eq_matrix",
    "Fanpy.Props.C29_unrestricted_error",
    "Fanpy.Props.C29_unrestricted_compose",
    "Fanpy.Props.C29_unrestricted_inverse"
   ],
   "note": "generalized/restricted and unrestricted integrals, over any commutative ring; the operator with the rotated integrals is the original operator in the rotated basis (C29_operator_one/two); C29_stale_cache proves that the rotation methods leave the cached two-electron integrals of the chemical Hamiltonians stale"
  },
  {
   "property": "C30",
   "status": "proved",
   "theorems": [
    "Fanpy.Props.C30_position",
    "Fanpy.Props.C30_position_surjective",
    "Fanpy.Props.C30_position_range",
    "Fanpy.Props.C30_bijection",
    "Fanpy.Props.C30_row_major",
    "Fanpy.Props.C30_unrestricted",
    "Fanpy.Props.C30_out_of_range"
   ],
   "note": "generalized, restricted and unrestricted; the function itself does not reject indices that are out of range (C30_out_of_range), its callers do (C31)"
  },
  {
   "property": "C31",
   "status": "partial",
   "theorems": [
    "Fanpy.Props.C31_generalized_partial",
    "Fanpy.Props.C31_unrestricted",
    "Fanpy.Props.C31_restricted",
    "Fanpy.Props.C31_integrate_sd_sd_partial",
    "Fanpy.Props.C31_index_error",
    "Fanpy.Props.C31_far"
   ],
   "note": "real integrals with the usual symmetries; HasDerivAt of the matrix element of the rotated Hamiltonian, for all pairs of determinants of the restricted and unrestricted Hamiltonians and all but vacuum/vacuum of the generalized one, whose matrix element raises; error cases in C31_index_error and C31_far"
  },
  {
   "property": "C32",
   "status": "proved",
   "theorems": [
    "Fanpy.Props.C32_generalized",
    "Fanpy.Props.C32_restricted",
    "Fanpy.Props.C32_unrestricted",
    "Fanpy.Props.C32_trace_generalized",
    "Fanpy.Props.C32_trace_restricted",
    "Fanpy.Props.C32_trace_unrestricted",
    "Fanpy.Props.C32_truncation",
    "Fanpy.Props.C32_empty",
    "Fanpy.Props.C32_chemist",
    "Fanpy.Props.C32_chemist_wrong"
   ],
   "note": "all three orbital types, distinct determinants; expectation values and traces for a threshold that is not positive, bound on the truncation error for others; is_chemist_notation does not give the chemists' notation (C32_chemist, C32_chemist_wrong)"
  },
  {
   "property": "C33",
   "status": "partial",
   "theorems": [
    "Fanpy.Props.C33_construct",
    "Fanpy.Props.C33_lookup_partial",
    "Fanpy.Props.C33_deriv_partial",
    "Fanpy.Props.C33_deriv_linear",
    "Fanpy.Props.C33_history_params_partial",
    "Fanpy.Props.C33_history",
    "Fanpy.Props.C33_stale",
    "Fanpy.Props.C33_duplicates",
    "Fanpy.Props.C33_out_of_space",
    "Fanpy.Props.C33_short_params",
    "Fanpy.Props.C33_default_seniority",
    "Fanpy.Props.C33_import"
   ],
   "note": "distinct determinants, any history of assign_params; the rest of the claim is false of the code: repeated determinants (C33_duplicates) and determinants outside of the space (C33_out_of_space) are accepted, and after assign_sds the lookup table is stale (C33_stale; C33_history says what the code does)"
  },
  {
   "property": "C34",
   "status": "partial",
   "theorems": [
    "Fanpy.Props.C34_apg_partial",
    "Fanpy.Props.C34_apsetg_partial",
    "Fanpy.Props.C34_apig_partial",
    "Fanpy.Props.C34_apig_raises",
    "Fanpy.Props.C34_apg_odd",
    "Fanpy.Props.C34_apsetg_uneven",
    "Fanpy.Props.C34_apg_excess"
   ],
   "note": "APG, BasicAPsetG and APIG with any number of geminals, over any field of characteristic zero, for the determinants with the electrons of the wavefunction; APIG has the sign (-1)^npair; for other determinants the claim is false: APG gives non-zero overlaps to determinants with more electrons (C34_apg_excess) and APIG raises (C34_apig_raises)"
  },
  {
   "property": "C35",
   "status": "partial",
   "theorems": [
    "Fanpy.Props.C35_ap1rog",
    "Fanpy.Props.C35_deriv_partial",
    "Fanpy.Props.C35_hasDerivAt_partial",
    "Fanpy.Props.C35_index",
    "Fanpy.Props.C35_two_electrons"
   ],
   "note": "APG, BasicAPsetG and APIG for determinants with the electrons of the wavefunction, AP1roG for all; missing: two electrons in two or more geminals, where the code raises ValueError (C35_two_electrons)"
  },
  {
   "property": "C36",
   "status": "partial",
   "theorems": [
    "Fanpy.Props.C36_apig_partial",
    "Fanpy.Props.C36_reference",
    "Fanpy.Props.C36_zero"
   ],
   "note": "all references and orders of the pairs the constructor accepts, for determinants with the electrons of the wavefunction; for others the claim is false: AP1roG gives zero (C36_zero), APIG raises (C34_apig_raises)"
  },
  {
   "property": "C37",
   "status": "partial",
   "theorems": [
    "Fanpy.Props.C37_float_orbpair",
    "Fanpy.Props.C37_float_disagrees",
    "Fanpy.Props.C37_apg_length",
    "Fanpy.Props.C37_apg_col",
    "Fanpy.Props.C37_apg_col_rejects",
    "Fanpy.Props.C37_apg_orbpair_partial",
    "Fanpy.Props.C37_apg_orbpair_rejects",
    "Fanpy.Props.C37_apsetg_length",
    "Fanpy.Props.C37_apsetg_col",
    "Fanpy.Props.C37_apsetg_col_rejects",
    "Fanpy.Props.C37_apsetg_orbpair",
    "Fanpy.Props.C37_apsetg_orbpair_rejects",
    "Fanpy.Props.C37_table",
    "Fanpy.Props.C37_table_rejects"
   ],
   "note": "C37_float_orbpair: with any rounding to the nearest double and up to 2^25 spin orbitals; C37_float_disagrees: with 2^28 spin orbitals the rounded formula is wrong. In exact arithmetic (C37_apg_orbpair_partial) without a bound. x ** 0.5 is taken to be the correctly rounded square root."
  },
  {
   "property": "C38",
   "status": "partial",
   "theorems": [
    "Fanpy.Props.C38_permanent_partial",
    "Fanpy.Props.C38_overlap",
    "Fanpy.Props.C38_deriv_partial",
    "Fanpy.Props.C38_index",
    "Fanpy.Props.C38_refused",
    "Fanpy.Props.C38_one_pair",
    "Fanpy.Props.C38_extra_geminal"
   ],
   "note": "compute_permanent and get_overlap: the partial derivatives for all lambdas, epsilons and zetas when the number of geminals is the number of pairs (the default), for different lambdas and different epsilons; exact arithmetic; otherwise the claim is false: wrong derivative for the lambdas of further geminals (C38_extra_geminal), IndexError for one pair in several geminals (C38_one_pair)"
  },
  {
   "property": "C39",
   "status": "proved",
   "theorems": [
    "Fanpy.Props.C39_overlap",
    "Fanpy.Props.C39_deriv",
    "Fanpy.Props.C39_mismatch",
    "Fanpy.Props.C39_outside",
    "Fanpy.Props.C39_init",
    "Fanpy.Props.C39_init_mask",
    "Fanpy.Props.C39_decompose",
    "Fanpy.Props.C39_default"
   ],
   "note": "Overlap and derivatives of the determinant ratio for every number of matrices, one-dimensional masks, entries at which no denominator vanishes; derivative indices are natural numbers. C39_mismatch: for another number of electrons get_overlap with deriv gives the scalar 0."
  },
  {
   "property": "C40",
   "status": "partial",
   "theorems": [
    "Fanpy.Props.C40_permsum",
    "Fanpy.Props.C40_boson_partial",
    "Fanpy.Props.C40_fermion",
    "Fanpy.Props.C40_no_boson"
   ],
   "note": "Values for bosonic and fermionic quasiparticles (C40_permsum); derivatives proved if all quasiparticles are bosons (C40_boson_partial). C40_fermion: the derivative with fermions lacks the cofactor sign, a concrete witness. C40_no_boson: the error branch without bosons."
  },
  {
   "property": "C41",
   "status": "partial",
   "theorems": [
    "Fanpy.Props.C41_overlap_partial",
    "Fanpy.Props.C41_ranks",
    "Fanpy.Props.C41_standard_partial",
    "Fanpy.Props.C41_parameters",
    "Fanpy.Props.C41_memo",
    "Fanpy.Props.C41_other_reference",
    "Fanpy.Props.C41_fewer_electrons",
    "Fanpy.Props.C41_generalized"
   ],
   "note": "Proved for StandardCC with the ground state as reference and determinants with the right number of electrons (and for any operators from a set of orbitals to a disjoint set). Fails, with theorems, for another reference (the operators remain those of the ground state), for fewer electrons (an amplitude or a KeyError), for BaseCC/GeneralizedCC (operators that do not commute), and if exop_combinations is passed (AttributeError). C41_ranks and C41_parameters cover assign_ranks and the numbering of the amplitudes."
  },
  {
   "property": "C42",
   "status": "partial",
   "theorems": [
    "Fanpy.Props.C42_lincomb_init",
    "Fanpy.Props.C42_lincomb_partial",
    "Fanpy.Props.C42_lincomb_params",
    "Fanpy.Props.C42_component_error",
    "Fanpy.Props.C42_lincomb_component_partial",
    "Fanpy.Props.C42_lincomb_own",
    "Fanpy.Props.C42_lincomb_own_partial",
    "Fanpy.Props.C42_lincomb_ignores_indices",
    "Fanpy.Props.C42_lincomb_value_error",
    "Fanpy.Props.C42_product_init",
    "Fanpy.Props.C42_product",
    "Fanpy.Props.C42_product_deriv",
    "Fanpy.Props.C42_product_bulk"
   ],
   "note": "Overlaps and derivatives of linear combinations and products of arbitrary components, constructors and error branches. Partial: for its own coefficients LinearCombination ignores the requested indices (C42_lincomb_ignores_indices); the number of coefficients is not checked (C42_lincomb_params)."
  },
  {
   "property": "C43",
   "status": "proved",
   "theorems": [
    "Fanpy.Props.C43_indices",
    "Fanpy.Props.C43_indices_error",
    "Fanpy.Props.C43_init",
    "Fanpy.Props.C43_init_orbtype",
    "Fanpy.Props.C43_rotation_generalized",
    "Fanpy.Props.C43_rotation_restricted",
    "Fanpy.Props.C43_rotation_unrestricted",
    "Fanpy.Props.C43_unrestricted_index",
    "Fanpy.Props.C43_overlap_spin",
    "Fanpy.Props.C43_overlap_restricted",
    "Fanpy.Props.C43_deriv_spin",
    "Fanpy.Props.C43_deriv_restricted",
    "Fanpy.Props.C43_deriv_error",
    "Fanpy.Props.C43_component_error"
   ],
   "note": "Overlaps and derivatives for generalized, unrestricted and restricted orbitals with indices of existing orbitals; C43_unrestricted_index shows that indices of unrestricted orbitals outside of the orbitals are accepted."
  },
  {
   "property": "C44",
   "status": "partial",
   "theorems": [
    "Fanpy.Props.C44_init",
    "Fanpy.Props.C44_orbtype",
    "Fanpy.Props.C44_overlap_generalized",
    "Fanpy.Props.C44_generalized_electrons",
    "Fanpy.Props.C44_overlap_restricted_partial",
    "Fanpy.Props.C44_overlap_unrestricted_partial",
    "Fanpy.Props.C44_compose_generalized",
    "Fanpy.Props.C44_compose_unrestricted_partial",
    "Fanpy.Props.C44_compose_restricted_partial",
    "Fanpy.Props.C44_deriv_generalized_partial",
    "Fanpy.Props.C44_deriv_unrestricted_alpha_partial",
    "Fanpy.Props.C44_deriv_restricted_partial",
    "Fanpy.Props.C44_deriv_error",
    "Fanpy.Props.C44_more_orbitals",
    "Fanpy.Props.C44_deriv_order",
    "Fanpy.Props.C44_deriv_beta_sign",
    "Fanpy.Props.C44_deriv_beta_generator",
    "Fanpy.Props.C44_deriv_restricted_beta",
    "Fanpy.Props.C44_deriv_double"
   ],
   "note": "Overlaps and compositions of generalized orbitals are proved for all inputs; restricted and unrestricted overlaps and compositions for components with the same number of orbitals (wrong otherwise: C44_more_orbitals). Full gradients of generalized orbitals, alpha entries of unrestricted orbitals and rows without a beta electron of restricted orbitals are proved; the other derivatives are refuted (C44_deriv_order, C44_deriv_beta_sign, C44_deriv_beta_generator, C44_deriv_restricted_beta, C44_deriv_double)."
  },
  {
   "property": "C45",
   "status": "proved",
   "theorems": [
    "Fanpy.Props.C45_overlap",
    "Fanpy.Props.C45_outside",
    "Fanpy.Props.C45_decompose",
    "Fanpy.Props.C45_layout",
    "Fanpy.Props.C45_deriv",
    "Fanpy.Props.C45_default",
    "Fanpy.Props.C45_default_scale",
    "Fanpy.Props.C45_short_params",
    "Fanpy.Props.C45_decompose_error",
    "Fanpy.Props.C45_one_orbital"
   ],
   "note": "At least two spatial orbitals and determinants within the orbitals; other determinants are an IndexError (C45_outside), too few parameters a ValueError (C45_short_params). One spatial orbital, which the property excludes: C45_one_orbital."
  },
  {
   "property": "C46",
   "status": "proved",
   "theorems": [
    "Fanpy.Props.C46_init",
    "Fanpy.Props.C46_split",
    "Fanpy.Props.C46_outside",
    "Fanpy.Props.C46_recombine",
    "Fanpy.Props.C46_injective",
    "Fanpy.Props.C46_electrons",
    "Fanpy.Props.C46_spin",
    "Fanpy.Props.C46_overlap",
    "Fanpy.Props.C46_deriv_partial",
    "Fanpy.Props.C46_shared_object"
   ],
   "note": "Splitting, recombination, conservation of electrons and spin, product of overlaps, constructor and error branches. Beyond the statement: derivatives for distinct wavefunction objects (C46_deriv_partial; C46_shared_object shows that it fails otherwise)."
  },
  {
   "property": "C47",
   "status": "proved",
   "theorems": [
    "Fanpy.Props.C47_set_item",
    "Fanpy.Props.C47_init",
    "Fanpy.Props.C47_assign",
    "Fanpy.Props.C47_assign_succeeds",
    "Fanpy.Props.C47_wrong_length",
    "Fanpy.Props.C47_unselected",
    "Fanpy.Props.C47_history",
    "Fanpy.Props.C47_slots",
    "Fanpy.Props.C47_refused_not_undone",
    "Fanpy.Props.C47_all_params"
   ],
   "note": "All selections, stores and histories of assignments, including refused ones; C47_refused_not_undone shows that a refused assignment is not undone. C47_all_params relates active_params to all_params."
  },
  {
   "property": "C48",
   "status": "proved",
   "theorems": [
    "Fanpy.Props.C48_objective",
    "Fanpy.Props.C48_refused",
    "Fanpy.Props.C48_eigen",
    "Fanpy.Props.C48_scale",
    "Fanpy.Props.C48_gradient",
    "Fanpy.Props.C48_gradient_default",
    "Fanpy.Props.C48_gradient_no_normalize"
   ],
   "note": "Value, eigenfunctions, scaling and gradient for lists of determinants and CI references, given that the derivatives of wavefunction and Hamiltonian are right. C48_gradient_default: EnergyOneSideProjection.gradient normalizes by default and objective does not, so with a wavefunction that has normalize the default gradient is not the derivative at the given parameters."
  },
  {
   "property": "C49",
   "status": "proved",
   "theorems": [
    "Fanpy.Props.C49_objective",
    "Fanpy.Props.C49_refused",
    "Fanpy.Props.C49_full",
    "Fanpy.Props.C49_eigen",
    "Fanpy.Props.C49_gradient",
    "Fanpy.Props.C49_variational",
    "Fanpy.Props.C49_variational_eigen"
   ],
   "note": "Value, gradient, full space and eigenfunctions, given that the derivatives of wavefunction and Hamiltonian are right. C49_variational and C49_variational_eigen are about EnergyVariational."
  },
  {
   "property": "C50",
   "status": "partial",
   "theorems": [
    "Fanpy.Props.C50_objective",
    "Fanpy.Props.C50_eigen",
    "Fanpy.Props.C50_weights",
    "Fanpy.Props.C50_refused",
    "Fanpy.Props.C50_norm_constraint_value",
    "Fanpy.Props.C50_jacobian_partial",
    "Fanpy.Props.C50_jacobian_after_objective_partial",
    "Fanpy.Props.C50_norm_constraint",
    "Fanpy.Props.C50_jacobian_default",
    "Fanpy.Props.C50_normalize",
    "Fanpy.Props.C50_constraint_raw"
   ],
   "note": "Residuals, weights, constraints and eigenfunctions for all energy types; the jacobian is the derivative with assign=True, and with the default flags right after the objective at the same parameters, if the wavefunction has no normalize. Otherwise the claim is false: C50_jacobian_default (the parameters are ignored), C50_normalize, C50_constraint_raw."
  },
  {
   "property": "C51",
   "status": "partial",
   "theorems": [
    "Fanpy.Props.C51_objective",
    "Fanpy.Props.C51_failure",
    "Fanpy.Props.C51_gradient_partial",
    "Fanpy.Props.C51_restored_partial",
    "Fanpy.Props.C51_not_restored"
   ],
   "note": "Sum of squares, zero exactly for solutions; gradient is the derivative if the wavefunction has no normalize; the number of equations is restored if no call fails. After a failure it is never restored (C51_not_restored)."
  },
  {
   "property": "C52",
   "status": "proved",
   "theorems": [
    "Fanpy.Props.C52_norm_objective",
    "Fanpy.Props.C52_local_objective",
    "Fanpy.Props.C52_refused",
    "Fanpy.Props.C52_norm_gradient",
    "Fanpy.Props.C52_local_gradient",
    "Fanpy.Props.C52_nested_component"
   ],
   "note": "Norm constraint and local energy with gradients, given that the derivatives of wavefunction and Hamiltonian are right and that the overlap depends on the parameters of the wavefunction and its components only; C52_nested_component: parameters of components of components get the derivative zero."
  },
  {
   "property": "C53",
   "status": "proved",
   "theorems": [
    "Fanpy.Props.C53_history",
    "Fanpy.Props.C53_value",
    "Fanpy.Props.C53_queue_zero",
    "Fanpy.Props.C53_lowered",
    "Fanpy.Props.C53_below",
    "Fanpy.Props.C53_raised",
    "Fanpy.Props.C53_simple",
    "Fanpy.Props.C53_small_base",
    "Fanpy.Props.C53_raised_case",
    "Fanpy.Props.C53_not_below_earlier"
   ],
   "note": "All sequences of energies over the reals; the reference is also at most the energy of each call. queue_size = 0 is an IndexError (C53_queue_zero); a base below one fails (C53_small_base); the reference can rise above earlier energies (C53_not_below_earlier)."
  },
  {
   "property": "C54",
   "status": "proved",
   "theorems": [
    "Fanpy.Props.C54_coherent",
    "Fanpy.Props.C54_coherent_cc",
    "Fanpy.Props.C54_size",
    "Fanpy.Props.C54_clear",
    "Fanpy.Props.C54_base_stale",
    "Fanpy.Props.C54_twice_stale",
    "Fanpy.Props.C54_derivative_stale"
   ],
   "note": "All histories of clearing assignments, clears, queries and at most one enable_cache; coupled cluster with any number of load_cache. Stale values with the base assignment (C54_base_stale) and with a second enable_cache (C54_twice_stale, C54_derivative_stale)."
  },
  {
   "property": "C55",
   "status": "partial",
   "theorems": [
    "Fanpy.Props.C55_fci",
    "Fanpy.Props.C55_fci_length",
    "Fanpy.Props.C55_fci_exists",
    "Fanpy.Props.C55_cisd",
    "Fanpy.Props.C55_cisd_exists",
    "Fanpy.Props.C55_doci",
    "Fanpy.Props.C55_doci_exists",
    "Fanpy.Props.C55_ci_pairs",
    "Fanpy.Props.C55_ci_pairs_exists",
    "Fanpy.Props.C55_hci",
    "Fanpy.Props.C55_hci_exists",
    "Fanpy.Props.C55_hci_new_partial",
    "Fanpy.Props.C55_hci_above",
    "Fanpy.Props.C55_hci_odd"
   ],
   "note": "FCI, CISD, DOCI, CIPairs for all inputs; hCI (four patterns) for even numbers of electrons and hierarchies that are multiples of the step; otherwise the claim is false: hCI takes determinants above the hierarchy (C55_hci_above) or always raises (C55_hci_odd); C55_hci says which determinants it has in all cases"
  },
  {
   "property": "C56",
   "status": "partial",
   "theorems": [
    "Fanpy.Props.C56_wrong_size",
    "Fanpy.Props.C56_last_only_partial",
    "Fanpy.Props.C56_update_partial",
    "Fanpy.Props.C56_update_incremental_partial",
    "Fanpy.Props.C56_unrestricted_wrong_size",
    "Fanpy.Props.C56_unrestricted_last_only_partial",
    "Fanpy.Props.C56_unrestricted_update_partial",
    "Fanpy.Props.C56_no_orbitals"
   ],
   "note": "generalized/restricted and unrestricted with at least one orbital; without orbitals the claim is false, the constructor raises ValueError (C56_no_orbitals)"
  },
  {
   "property": "C57",
   "status": "proved",
   "theorems": [
    "Fanpy.Props.C57_float_dim",
    "Fanpy.Props.C57_gives",
    "Fanpy.Props.C57_triu_position",
    "Fanpy.Props.C57_antiherm",
    "Fanpy.Props.C57_size",
    "Fanpy.Props.C57_term_pow",
    "Fanpy.Props.C57_taylor",
    "Fanpy.Props.C57_one_parameter"
   ],
   "note": "exact arithmetic; the Frobenius-norm tests and scipy.linalg.expm are arbitrary functions of the model"
  },
  {
   "property": "C58",
   "status": "partial",
   "theorems": [
    "Fanpy.Props.C58_rdm_partial",
    "Fanpy.Props.C58_rdm_init_partial",
    "Fanpy.Props.C58_trace_partial"
   ],
   "note": "distinct determinants within the orbitals and as many parameters as determinants, lookup table as made by the constructor; missing: wavefunctions after assign_sds, or with determinants outside of the space, which the code accepts (C33_stale, C33_out_of_space)"
  },
  {
   "property": "C59",
   "status": "partial",
   "theorems": [
    "Fanpy.Props.C59_overlap_partial",
    "Fanpy.Props.C59_deriv_partial",
    "Fanpy.Props.C59_not_multiple",
    "Fanpy.Props.C59_vacuum",
    "Fanpy.Props.C59_fewer",
    "Fanpy.Props.C59_more"
   ],
   "note": "Value and derivatives for determinants with nelec electrons. For another number of electrons the code does not give zero: C59_not_multiple (ValueError), C59_vacuum and C59_more (IndexError), C59_fewer (a non-zero value)."
  },
  {
   "property": "C60",
   "status": "partial",
   "theorems": [
    "Fanpy.Props.C60_match_partial",
    "Fanpy.Props.C60_mismatch",
    "Fanpy.Props.C60_zero",
    "Fanpy.Props.C60_short",
    "Fanpy.Props.C60_empty_subsystem",
    "Fanpy.Props.C60_deriv_error"
   ],
   "note": "Equal to the embedded wavefunction for matching positive numbers of electrons and zero for a mismatch. Fails for entries that are zero (C60_empty_subsystem); derivatives may raise (C60_deriv_error)."
  },
  {
   "property": "C61",
   "status": "proved",
   "theorems": [
    "Fanpy.Props.C61_derivative"
   ],
   "note": "For determinants with as many electrons as the reference, any operators."
  },
  {
   "property": "C62",
   "status": "proved",
   "theorems": [
    "Fanpy.Props.C62_second_derivative"
   ],
   "note": "For determinants with as many electrons as the reference, any operators."
  },
  {
   "property": "C63",
   "status": "proved",
   "theorems": [
    "Fanpy.Props.C63_memo",
    "Fanpy.Props.C63_fixed_reference",
    "Fanpy.Props.C63_stale_operators",
    "Fanpy.Props.C63_key_collision"
   ],
   "note": "Two theorems: changing references with nelec electrons everywhere, and a fixed reference with any determinants. C63_stale_operators and C63_key_collision are the failures outside."
  },
  {
   "property": "C64",
   "status": "proved",
   "theorems": [
    "Fanpy.Props.C64_overlap",
    "Fanpy.Props.C64_derivative"
   ],
   "note": "Default pairs and reference; the code's pair operator has the sign opposite to its documentation."
  },
  {
   "property": "C65",
   "status": "partial",
   "theorems": [
    "Fanpy.Props.C65_product_partial",
    "Fanpy.Props.C65_operators",
    "Fanpy.Props.C65_derivative_partial",
    "Fanpy.Props.C65_stale_operators",
    "Fanpy.Props.C65_memory_partial"
   ],
   "note": "Overlap for classes without triple excitations, operators and derivatives; reference within the basis. Fails for CCSDsen0 with another reference than the ground state (C65_stale_operators)."
  },
  {
   "property": "C66",
   "status": "proved",
   "theorems": [
    "Fanpy.Props.C66_unordered",
    "Fanpy.Props.C66_quadruples"
   ],
   "note": "Any class; the quadruple excitations for references within the basis."
  },
  {
   "property": "C67",
   "status": "proved",
   "theorems": [
    "Fanpy.Props.C67_overlap",
    "Fanpy.Props.C67_exponential",
    "Fanpy.Props.C67_missing_pair",
    "Fanpy.Props.C67_fewer",
    "Fanpy.Props.C67_excess",
    "Fanpy.Props.C67_excess_nonzero"
   ],
   "note": "coefficient in the exponential; errors for missing pairs and fewer electrons; value for more electrons"
  },
  {
   "property": "C68",
   "status": "proved",
   "theorems": [
    "Fanpy.Props.C68_derivative"
   ],
   "note": "slopes in every parameter, numbers of a commutative ring"
  },
  {
   "property": "C69",
   "status": "proved",
   "theorems": [
    "Fanpy.Props.C69_given",
    "Fanpy.Props.C69_default",
    "Fanpy.Props.C69_too_many",
    "Fanpy.Props.C69_overwritten"
   ],
   "note": "default and given parameters, error for too many electrons"
  },
  {
   "property": "C70",
   "status": "proved",
   "theorems": [
    "Fanpy.Props.C70_overlap",
    "Fanpy.Props.C70_boltzmann",
    "Fanpy.Props.C70_positive",
    "Fanpy.Props.C70_default",
    "Fanpy.Props.C70_no_scale",
    "Fanpy.Props.C70_orbital_error",
    "Fanpy.Props.C70_order_zero"
   ],
   "note": "Overlap formula, positivity, default value and error branches, for every shape. Activation is a parameter; floating point is not modelled."
  },
  {
   "property": "C71",
   "status": "proved",
   "theorems": [
    "Fanpy.Props.C71_derivative",
    "Fanpy.Props.C71_exponential"
   ],
   "note": "Derivative along every line in parameter space, for every differentiable activation, and for 1 + exp; numbers are reals."
  },
  {
   "property": "C72",
   "status": "partial",
   "theorems": [
    "Fanpy.Props.C72_overlaps_partial",
    "Fanpy.Props.C72_orders",
    "Fanpy.Props.C72_electrons",
    "Fanpy.Props.C72_derivatives_partial"
   ],
   "note": "Proved when every order but the last is one; otherwise get_overlaps is an IndexError though get_overlap has a value (C72_orders)."
  },
  {
   "property": "C73",
   "status": "partial",
   "theorems": [
    "Fanpy.Props.C73_roundtrip_partial",
    "Fanpy.Props.C73_no_layers",
    "Fanpy.Props.C73_normalize",
    "Fanpy.Props.C73_normalize_empty"
   ],
   "note": "Round trip proved; a longer array is cut silently instead of being rejected, nparams is wrong without layers (C73_no_layers), and normalize() with the default empty pspace_norm is a ZeroDivisionError (C73_normalize_empty). Numbers are reals, the power is a real power."
  },
  {
   "property": "C74",
   "status": "proved",
   "theorems": [
    "Fanpy.Props.C74_lowest",
    "Fanpy.Props.C74_nspin",
    "Fanpy.Props.C74_saved",
    "Fanpy.Props.C74_projected",
    "Fanpy.Props.C74_fci"
   ],
   "note": "The eigenvalue solver is a parameter with the documented properties of scipy.linalg.eigh(lower=False); such a function exists (exists_isEigh). The projected equation is proved for the generalized Hamiltonian within 63 orbitals."
  },
  {
   "property": "C75",
   "status": "partial",
   "theorems": [
    "Fanpy.Props.C75_root_partial",
    "Fanpy.Props.C75_constraints",
    "Fanpy.Props.C75_many"
   ],
   "note": "Proved if every constraint is one equation and there are at least as many parameters as constraints; otherwise false (C75_constraints, C75_many)."
  },
  {
   "property": "C76",
   "status": "partial",
   "theorems": [
    "Fanpy.Props.C76_distribution",
    "Fanpy.Props.C76_defined",
    "Fanpy.Props.C76_support_partial",
    "Fanpy.Props.C76_call_partial",
    "Fanpy.Props.C76_endless",
    "Fanpy.Props.C76_reach",
    "Fanpy.Props.C76_zero_weight_drawn",
    "Fanpy.Props.C76_overwrites"
   ],
   "note": "Distribution proved as the Lebesgue measure of the set of random numbers that give an index. Disagreements: for the random number 0.0 an index of weight zero can be drawn, the weights of the caller are overwritten, and a call that asks for more indices than have positive weight never returns. Floating point is not modelled."
  },
  {
   "property": "C77",
   "status": "proved",
   "theorems": [
    "Fanpy.Props.C77_fci",
    "Fanpy.Props.C77_doci",
    "Fanpy.Props.C77_injective",
    "Fanpy.Props.C77_repeated",
    "Fanpy.Props.C77_empty"
   ],
   "note": "Occupation arrays of integers; the boolean encoding of PyCI is not modelled."
  },
  {
   "property": "C78",
   "status": "proved",
   "theorems": [
    "Fanpy.Props.C78_chunks",
    "Fanpy.Props.C78_empty",
    "Fanpy.Props.C78_norm"
   ],
   "note": "The chunk size is a parameter of the model (the memory estimate only chooses it)."
  },
  {
   "property": "C79",
   "status": "partial",
   "theorems": [
    "Fanpy.Props.C79_jacobian_partial",
    "Fanpy.Props.C79_objective_partial",
    "Fanpy.Props.C79_frozen",
    "Fanpy.Props.C79_product"
   ],
   "note": "Proved for one wavefunction whose selected parameters are the first k, any mask below k, all constraints. Disagreements: for another selection the derivative is evaluated at the wrong parameters (C79_frozen), and for products the overlap uses the wrong entries (C79_product)."
  },
  {
   "property": "C80",
   "status": "partial",
   "theorems": [
    "Fanpy.Props.C80_arguments",
    "Fanpy.Props.C80_errors",
    "Fanpy.Props.C80_jacobian_partial",
    "Fanpy.Props.C80_energy_partial",
    "Fanpy.Props.C80_frozen_energy"
   ],
   "note": "The function, the Jacobian and the checks are proved; the reported energy only if the energy is active (C80_frozen_energy is the disagreement). The optimizer itself is not modelled."
  },
  {
   "property": "C81",
   "status": "partial",
   "theorems": [
    "Fanpy.Props.C81_first",
    "Fanpy.Props.C81_orders_partial",
    "Fanpy.Props.C81_responses_partial",
    "Fanpy.Props.C81_residual_partial",
    "Fanpy.Props.C81_norm"
   ],
   "note": "First order for all differentiable overlaps and constraints; all orders for affine overlaps and affine constraints. Disagreement: rows of constraints have no constant terms, so for the default norm constraint the second derivatives of a solution do not solve the system (C81_norm). lstsq is a hypothesis (it returns the solution of a system that has exactly one)."
  },
  {
   "property": "C82",
   "status": "partial",
   "theorems": [
    "Fanpy.Props.C82_arrays",
    "Fanpy.Props.C82_third_partial",
    "Fanpy.Props.C82_third_constraints",
    "Fanpy.Props.C82_second_partial",
    "Fanpy.Props.C82_third"
   ],
   "note": "C82_second_partial: second order for all twice differentiable overlaps, rows of projections and of affine constraints. C82_arrays: the three arrays are the mixed derivatives of the equations. C82_third_partial: third order for overlaps with constant second derivatives, up to the one term where the code disagrees (C82_third: it contracts the wrong responses); C82_third_constraints: the rows of affine constraints in the third order. Missing, as the code has no such terms: third derivatives of the overlaps, and constraints that are not affine."
  },
  {
   "property": "C83",
   "status": "partial",
   "theorems": [
    "Fanpy.Props.C83_lambda",
    "Fanpy.Props.C83_jacobian",
    "Fanpy.Props.C83_mixed",
    "Fanpy.Props.C83_first_partial",
    "Fanpy.Props.C83_second",
    "Fanpy.Props.C83_checks"
   ],
   "note": "The arrays and the first order for all differentiable overlaps. Disagreement: the second order lacks the second derivatives of the energy-free equations, also for affine overlaps (C83_second). C83_checks: what the containers refuse."
  },
  {
   "property": "C84",
   "status": "partial",
   "theorems": [
    "Fanpy.Props.C84_update",
    "Fanpy.Props.C84_taylor_partial",
    "Fanpy.Props.C84_resum_linear",
    "Fanpy.Props.C84_resum_remainder_partial",
    "Fanpy.Props.C84_resum_limit_partial",
    "Fanpy.Props.C84_resum_start",
    "Fanpy.Props.C84_resum_choice",
    "Fanpy.Props.C84_energy",
    "Fanpy.Props.C84_energy_order_disagrees",
    "Fanpy.Props.C84_checks"
   ],
   "note": "Taylor polynomial for affine overlaps and constraints; resummation for l = 0. Disagreement: for l != 0 the resummed correction uses final_l instead of final_l - l (C84_resum_start). C84_energy: the new energy is exact for exact overlaps; its error is of first order in theirs, against the documented 2n + 1 rule (C84_energy_order_disagrees)."
  },
  {
   "property": "C85",
   "status": "partial",
   "theorems": [
    "Fanpy.Props.C85_schedule_partial",
    "Fanpy.Props.C85_zero_ignored",
    "Fanpy.Props.C85_objective",
    "Fanpy.Props.C85_first_step",
    "Fanpy.Props.C85_float_exact",
    "Fanpy.Props.C85_rounding_exists",
    "Fanpy.Props.C85_float_pow",
    "Fanpy.Props.C85_rounding_disagrees"
   ],
   "note": "Schedule proved for real arithmetic. Disagreements: a zero argument is ignored (C85_zero_ignored), and in the first step the operator of the objective belongs to ham0 also if lambda_i is not 0 (C85_first_step). With rounded numbers (any rounding to the nearest double): C85_float_pow, the schedule is exact if the number of steps is a power of two; C85_rounding_disagrees, with 93 steps the last one ends above 1 and is refused."
  },
  {
   "property": "C86",
   "status": "partial",
   "theorems": [
    "Fanpy.Props.C86_fock",
    "Fanpy.Props.C86_asymmetric",
    "Fanpy.Props.C86_operators_partial"
   ],
   "note": "The operators under the hypothesis that pyci.sparse_op is linear in the Hamiltonian. Disagreement: reduce_to_fock loses the symmetry under exchange of the electrons (C86_asymmetric)."
  },
  {
   "property": "C87",
   "status": "partial",
   "theorems": [
    "Fanpy.Props.C87_arrays",
    "Fanpy.Props.C87_sum",
    "Fanpy.Props.C87_range",
    "Fanpy.Props.C87_one_orbital",
    "Fanpy.Props.C87_rotation_partial"
   ],
   "note": "C87_arrays, C87_sum, C87_range: every statement that fills the arrays is modelled (one term for each); the sum over all determinants is proved for 2..63 spin orbitals over any commutative ring. C87_rotation_partial: derivative of the rotated Hamiltonian, for real integrals with the usual symmetries. Disagreement (C87_one_orbital): with one spin orbital, where there is no parameter, an empty ham_deriv raises ValueError. Not modelled: complex integrals, wfn_deriv together with ham_deriv, more than 63 orbitals (see C27_word_64)."
  },
  {
   "property": "C88",
   "status": "partial",
   "theorems": [
    "Fanpy.Props.C88_unrestricted",
    "Fanpy.Props.C88_unrestricted_all",
    "Fanpy.Props.C88_unrestricted_single",
    "Fanpy.Props.C88_unrestricted_order",
    "Fanpy.Props.C88_unrestricted_range",
    "Fanpy.Props.C88_restricted_range",
    "Fanpy.Props.C88_restricted_partial",
    "Fanpy.Props.C88_one_orbital",
    "Fanpy.Props.C88_unrestricted_rotation",
    "Fanpy.Props.C88_restricted_rotation_partial"
   ],
   "note": "C88_restricted_partial (2 or more spatial orbitals except 32), C88_unrestricted (2..31 spatial orbitals; describes the result for every list of parameters), C88_unrestricted_all: sums over all determinants over any commutative ring, for two-electron integrals with g_ijkl = g_jilk. C88_unrestricted_rotation, C88_restricted_rotation_partial: derivative of the rotated Hamiltonian, real integrals with the usual symmetries. Disagreements: for unrestricted orbitals values are written to the column with the number of the parameter (C88_unrestricted, C88_unrestricted_order), so that a single parameter other than the first raises IndexError (C88_unrestricted_single); with one spatial orbital an empty ham_deriv raises ValueError (C88_one_orbital). Not modelled: complex integrals, 64-bit overflow (see C27_word_64)."
  },
  {
   "property": "C89",
   "status": "partial",
   "theorems": [
    "Fanpy.Props.C89_names",
    "Fanpy.Props.C89_reference",
    "Fanpy.Props.C89_constructor",
    "Fanpy.Props.C89_sen_o",
    "Fanpy.Props.C89_derivatives_partial",
    "Fanpy.Props.C89_overlap_partial",
    "Fanpy.Props.C89_free",
    "Fanpy.Props.C89_sen_v",
    "Fanpy.Props.C89_sen_ov",
    "Fanpy.Props.C89_second_order"
   ],
   "note": "C89_overlap_partial: overlaps for all options with an empty dictionary. C89_sen_o: with the default option the values of any sequence of overlaps, derivatives, second derivatives and assign_params are those of the classes without s_type (C65). C89_derivatives_partial: the derivatives are those of sen-o for every option. C65_memory_partial: the same independence of earlier calls for the classes without s_type. Disagreements: C89_reference, C89_constructor (references are rejected unless all orbitals are occupied), C89_free, C89_sen_v, C89_sen_ov (wrong derivatives, and overlaps that change after a derivative), C89_second_order (the classes without s_type inherit a second derivative that ignores the selection). Not modelled: CI references, the lru_cache of overlaps. C89_names: a name that is no option is accepted and acts like free."
  },
  {
   "property": "C90",
   "status": "partial",
   "theorems": [
    "Fanpy.Props.C90_overlap_partial",
    "Fanpy.Props.C90_derivative_partial",
    "Fanpy.Props.C90_errors",
    "Fanpy.Props.C90_constructor"
   ],
   "note": "C90_overlap_partial, C90_derivative_partial: overlaps and derivatives for all integer references and determinants with the right number of electrons (derivatives away from the reference). C90_constructor: exactly which arguments are accepted. Disagreements: C90_errors (TypeError for a derivative at the reference, AttributeError for second derivatives, CI references and given exop_combinations). Not covered: operators that are not from occupied to virtual orbitals (they have parameters but never contribute), the caches."
  },
  {
   "property": "C91",
   "status": "partial",
   "theorems": [
    "Fanpy.Props.C91_overlap_partial",
    "Fanpy.Props.C91_products",
    "Fanpy.Props.C91_exponential_false"
   ],
   "note": "C91_overlap_partial: one at the reference, an error for every other determinant. C91_exponential_false: so the overlap is not that of exp(T). C91_products: the products are counted once for every pair of orders."
  },
  {
   "property": "C92",
   "status": "partial",
   "theorems": [
    "Fanpy.Props.C92_one_sided",
    "Fanpy.Props.C92_two_sided",
    "Fanpy.Props.C92_local",
    "Fanpy.Props.C92_frame",
    "Fanpy.Props.C92_equal",
    "Fanpy.Props.C92_projected_partial",
    "Fanpy.Props.C92_energy_constraint",
    "Fanpy.Props.C92_shared",
    "Fanpy.Props.C92_reference_unchecked",
    "Fanpy.Props.C92_order",
    "Fanpy.Props.C92_weights",
    "Fanpy.Props.C92_energy_constraint_init",
    "Fanpy.Props.C92_norm_init",
    "Fanpy.Props.C92_norm_shared"
   ],
   "note": "C92_one_sided, C92_two_sided, C92_local: which spaces are accepted, what is kept, which error. C92_frame: no other selection changes, also on failure. C92_projected_partial: energy, constraints and selection of the equations made. C92_weights: the weights of the equations, given or by default. C92_energy_constraint_init, C92_norm_init: the constructors of EnergyConstraint and NormConstraint. C92_norm_shared: norm constraints with the selection of the equations are accepted. C92_equal: equality of selections is equality up to the order of the items. Disagreements: C92_shared, C92_reference_unchecked, C92_order, C92_energy_constraint. LeastSquaresEquations has the constructor of ProjectedSchrodinger. Not covered: types of the wavefunction, the Hamiltonian and the name of the file."
  },
  {
   "property": "C93",
   "status": "partial",
   "theorems": [
    "Fanpy.Props.C93_init",
    "Fanpy.Props.C93_nproj",
    "Fanpy.Props.C93_feed",
    "Fanpy.Props.C93_energy_gradient",
    "Fanpy.Props.C93_energy_solution",
    "Fanpy.Props.C93_jacobian_partial",
    "Fanpy.Props.C93_doci",
    "Fanpy.Props.C93_doci_wrong",
    "Fanpy.Props.C93_optimize",
    "Fanpy.Props.C93_optimize_default",
    "Fanpy.Props.C93_optimize_missing",
    "Fanpy.Props.C93_stochastic"
   ],
   "note": "C93_init, C93_nproj: when the constructor succeeds. C93_feed: the parameters that are fed. C93_jacobian_partial, C93_energy_gradient: the Jacobian and the gradient are the derivatives, for one wavefunction and for products. C93_energy_solution. C93_optimize, C93_optimize_missing: decision table. Disagreements: C93_init (ValueError for a part of the parameters), C93_doci, C93_doci_wrong, C93_optimize_default, C93_stochastic. Not covered: parameters frozen after the construction, fill_wavefunction."
  },
  {
   "property": "C94",
   "status": "partial",
   "theorems": [
    "Fanpy.Props.C94_natural_partial",
    "Fanpy.Props.C94_sum_partial",
    "Fanpy.Props.C94_ao_partial",
    "Fanpy.Props.C94_shape",
    "Fanpy.Props.C94_whole_partial",
    "Fanpy.Props.C94_mixed"
   ],
   "note": "C94_natural_partial: order, bounds, orthonormality, diagonalization for each spin. C94_sum_partial: sum. C94_whole_partial: the whole density matrix when the number of alpha electrons is fixed. C94_ao_partial: in the basis of mo_coeff. C94_shape: shapes that raise. Disagreements: C94_mixed, C94_shape. eigh and argsort are arguments that satisfy their documentation (such functions exist: eigh_exists, argsort_exists); numbers are real, not floating point. save_natural_orbitals (Molden file) is not covered."
  },
  {
   "property": "C95",
   "status": "partial",
   "theorems": [
    "Fanpy.Props.C95_minimize",
    "Fanpy.Props.C95_minimize_refuses",
    "Fanpy.Props.C95_cma",
    "Fanpy.Props.C95_cma_refuses",
    "Fanpy.Props.C95_least_squares_partial",
    "Fanpy.Props.C95_root_partial",
    "Fanpy.Props.C95_system_refuses",
    "Fanpy.Props.C95_energy_of_last",
    "Fanpy.Props.C95_stale_jacobian",
    "Fanpy.Props.C95_lawful",
    "Fanpy.Props.C95_rebase",
    "Fanpy.Props.C95_save",
    "Fanpy.Props.C95_lawfulU",
    "Fanpy.Props.C95_saveU",
    "Fanpy.Props.C95_history"
   ],
   "note": "C95_minimize, C95_cma: for every optimizer, what is returned and left behind. C95_lawful, C95_lawfulU: the chemical Hamiltonians satisfy the assumption. C95_least_squares_partial, C95_root_partial: frozen Hamiltonian, derivatives at the last evaluated point. C95_minimize_refuses, C95_cma_refuses, C95_system_refuses: errors. C95_rebase: what is evaluated after a Jacobian with active parameters of the Hamiltonian. C95_save, C95_saveU: save_params. Disagreements: C95_energy_of_last, C95_stale_jacobian, C95_history. The optimizers are arbitrary programs; scipy, cma and keyword arguments are not modelled."
  },
  {
   "property": "C96",
   "status": "proved",
   "theorems": [
    "Fanpy.Props.C96_accepts",
    "Fanpy.Props.C96_errors",
    "Fanpy.Props.C96_injection",
    "Fanpy.Props.C96_types"
   ],
   "note": "C96_accepts: exactly the arguments that are accepted. C96_errors: what is raised otherwise. Disagreement: C96_injection."
  },
  {
   "property": "C97",
   "status": "partial",
   "theorems": [
    "Fanpy.Props.C97_made",
    "Fanpy.Props.C97_closed_partial",
    "Fanpy.Props.C97_unmade",
    "Fanpy.Props.C97_calls",
    "Fanpy.Props.C97_hci",
    "Fanpy.Props.C97_trust",
    "Fanpy.Props.C97_constraint",
    "Fanpy.Props.C97_rbm",
    "Fanpy.Props.C97_geometry"
   ],
   "note": "C97_made: when a script is made. C97_closed_partial: names are bound before they are used. C97_calls: calls fit the parameters. C97_geometry: the atoms. Disagreements: C97_unmade, C97_hci, C97_trust, C97_constraint, C97_rbm. The script is modelled as a list of statements with the names they use and bind and their calls; the layout of the text and the values are not modelled, nor are attributes of objects."
  },
  {
   "property": "C98",
   "status": "proved",
   "theorems": [
    "Fanpy.Props.C98_convert",
    "Fanpy.Props.C98_zero",
    "Fanpy.Props.C98_fails"
   ],
   "note": "C98_convert: when the conversion succeeds, the overlaps, and the error otherwise. C98_zero: determinants outside. Disagreement: C98_fails."
  },
  {
   "property": "C99",
   "status": "partial",
   "theorems": [
    "Fanpy.Props.C99_raises",
    "Fanpy.Props.C99_eigh_partial",
    "Fanpy.Props.C99_power_errors",
    "Fanpy.Props.C99_power_add",
    "Fanpy.Props.C99_power_one",
    "Fanpy.Props.C99_power_zero",
    "Fanpy.Props.C99_inverse_sqrt_partial"
   ],
   "note": "C99_raises: with the versions of numpy that are supported nothing is returned (disagreement). C99_eigh_partial, C99_power_errors, C99_power_add, C99_power_one, C99_power_zero, C99_inverse_sqrt_partial: the results with older versions. Partial because the numbers are reals instead of floats, and np.linalg.eigh and np.argsort are assumed to be correct (such functions exist: sound_exists)."
  },
  {
   "property": "C100",
   "status": "partial",
   "theorems": [
    "Fanpy.Props.C100_overlaps_partial",
    "Fanpy.Props.C100_empty",
    "Fanpy.Props.C100_unknown",
    "Fanpy.Props.C100_derivs_partial",
    "Fanpy.Props.C100_fixed",
    "Fanpy.Props.C100_fixed_derivs",
    "Fanpy.Props.C100_fixed_derivs_none"
   ],
   "note": "C100_overlaps_partial, C100_derivs_partial, C100_fixed, C100_fixed_derivs: the results are those of get_overlap. C100_empty, C100_fixed_derivs_none: the disagreements. Partial because components with a get_overlaps of their own (RBM, products and embedded wavefunctions) are left out, and numpy integers are unbounded."
  },
  {
   "property": "C101",
   "status": "partial",
   "theorems": [
    "Fanpy.Props.C101_deriv_partial",
    "Fanpy.Props.C101_one_orbital",
    "Fanpy.Props.C101_other_occupation"
   ],
   "note": "C101_deriv_partial: the value. C101_one_orbital, C101_other_occupation: the disagreements. Partial because numbers are in a field instead of floats."
  },
  {
   "property": "C102",
   "status": "proved",
   "theorems": [
    "Fanpy.Props.C102_roundtrip",
    "Fanpy.Props.C102_injective",
    "Fanpy.Props.C102_errors",
    "Fanpy.Props.C102_of_wfn",
    "Fanpy.Props.C102_add",
    "Fanpy.Props.C102_add_length",
    "Fanpy.Props.C102_add_formatted_disagrees"
   ],
   "note": "C102_of_wfn, C102_roundtrip, C102_injective, C102_errors, C102_add, C102_add_length; C102_add_formatted_disagrees is the disagreement. pandas enters through reindex (lookup by label), assignment of a column and a union of labels in any order."
  },
  {
   "property": "C103",
   "status": "proved",
   "theorems": [
    "Fanpy.Props.C103_of_wfn",
    "Fanpy.Props.C103_to_determinants",
    "Fanpy.Props.C103_invalid_operator",
    "Fanpy.Props.C103_roundtrip",
    "Fanpy.Props.C103_roundtrip_determinants",
    "Fanpy.Props.C103_add",
    "Fanpy.Props.C103_errors",
    "Fanpy.Props.C103_order_disagrees",
    "Fanpy.Props.C103_electrons_disagrees"
   ],
   "note": "C103_of_wfn, C103_to_determinants (exactly when and what), C103_invalid_operator, C103_roundtrip, C103_roundtrip_determinants, C103_add, C103_errors; C103_order_disagrees and C103_electrons_disagrees are the disagreements. pandas as in C102; a reference that is itself a wavefunction is left out."
  },
  {
   "property": "C104",
   "status": "proved",
   "theorems": [
    "Fanpy.Props.C104_roundtrip",
    "Fanpy.Props.C104_of_wfn",
    "Fanpy.Props.C104_add_disagrees",
    "Fanpy.Props.C104_rank_two_disagrees",
    "Fanpy.Props.C104_empty_disagrees",
    "Fanpy.Props.C104_errors"
   ],
   "note": "C104_of_wfn, C104_roundtrip, C104_errors; C104_add_disagrees, C104_rank_two_disagrees and C104_empty_disagrees are the disagreements. pandas as in C102."
  },
  {
   "property": "C105",
   "status": "proved",
   "theorems": [
    "Fanpy.Props.C105_determinants",
    "Fanpy.Props.C105_determinants_indices",
    "Fanpy.Props.C105_excitations",
    "Fanpy.Props.C105_excitations_index_error",
    "Fanpy.Props.C105_excitations_indices",
    "Fanpy.Props.C105_geminals_disagrees",
    "Fanpy.Props.C105_geminals",
    "Fanpy.Props.C105_geminals_indices",
    "Fanpy.Props.C105_no_orbitals"
   ],
   "note": "C105_determinants, C105_determinants_indices, C105_excitations, C105_excitations_index_error, C105_excitations_indices, C105_geminals, C105_geminals_indices, C105_no_orbitals; C105_geminals_disagrees and the clauses on ValueError and blank numbers are the disagreements. A printer is modelled by its rows; the layout and the decimals of the numbers are left out, as are complex parameters and not-a-number."
  },
  {
   "property": "C106",
   "status": "proved",
   "theorems": [
    "Fanpy.Props.C106_filled",
    "Fanpy.Props.C106_too_few",
    "Fanpy.Props.C106_excitation_complete",
    "Fanpy.Props.C106_levels",
    "Fanpy.Props.C106_seniority_disagrees",
    "Fanpy.Props.C106_errors"
   ],
   "note": "C106_filled, C106_too_few, C106_excitation_complete, C106_errors; C106_seniority_disagrees is the disagreement. That pyci lists every determinant with a property once is the hypothesis ListsAll; someOrder_listsAll shows that it can be met."
  },
  {
   "property": "C107",
   "status": "proved",
   "theorems": [
    "Fanpy.Props.C107_mask",
    "Fanpy.Props.C107_init",
    "Fanpy.Props.C107_freeze",
    "Fanpy.Props.C107_constraints_disagree",
    "Fanpy.Props.C107_param_constraint",
    "Fanpy.Props.C107_optimize",
    "Fanpy.Props.C107_optimize_errors",
    "Fanpy.Props.C107_stochastic_disagrees"
   ],
   "note": "C107_mask, C107_init, C107_freeze, C107_param_constraint, C107_optimize, C107_optimize_errors; C107_constraints_disagree, C107_stochastic_disagrees and the last clause of C107_mask are the disagreements. Objective, Jacobian and optimizer are arbitrary functions."
  },
  {
   "property": "C108",
   "status": "partial",
   "theorems": [
    "Fanpy.Props.C108_accepted",
    "Fanpy.Props.C108_recovers_partial",
    "Fanpy.Props.C108_first_pair_disagrees",
    "Fanpy.Props.C108_errors",
    "Fanpy.Props.C108_assign",
    "Fanpy.Props.C108_assign_refused_disagrees",
    "Fanpy.Props.C108_assign_size_disagrees",
    "Fanpy.Props.C108_default_missing",
    "Fanpy.Props.C108_default"
   ],
   "note": "C108_accepted, C108_recovers_partial, C108_errors, C108_assign, C108_default; C108_first_pair_disagrees, C108_assign_refused_disagrees and C108_assign_size_disagrees are the disagreements. exists_isLeastSquares shows that the hypothesis on np.linalg.lstsq can be met. Partial because numbers are real instead of floats and the vectors of the SVD method are arbitrary."
  },
  {
   "property": "C109",
   "status": "proved",
   "theorems": [
    "Fanpy.Props.C109_memory",
    "Fanpy.Props.C109_memory_unit",
    "Fanpy.Props.C109_memory_capitals_disagree",
    "Fanpy.Props.C109_pattern",
    "Fanpy.Props.C109_alphas",
    "Fanpy.Props.C109_reference",
    "Fanpy.Props.C109_hci",
    "Fanpy.Props.C109_no_hierarchy_disagrees",
    "Fanpy.Props.C109_hci_errors"
   ],
   "note": "C109_memory, C109_memory_unit, C109_pattern, C109_alphas, C109_reference, C109_hci, C109_hci_errors; C109_memory_capitals_disagree and C109_no_hierarchy_disagrees are the disagreements. The reading of numbers by float is an arbitrary function; white space and letters are those of ASCII."
  },
  {
   "property": "C110",
   "status": "partial",
   "theorems": [
    "Fanpy.Props.C110_consistent_partial",
    "Fanpy.Props.C110_projections",
    "Fanpy.Props.C110_projections_orders",
    "Fanpy.Props.C110_odd_disagrees",
    "Fanpy.Props.C110_setters",
    "Fanpy.Props.C110_setters_disagree",
    "Fanpy.Props.C110_operator_disagrees",
    "Fanpy.Props.C110_update_ok",
    "Fanpy.Props.C110_update",
    "Fanpy.Props.C110_update_disagrees",
    "Fanpy.Props.C110_default_mask",
    "Fanpy.Props.C110_construct_ok",
    "Fanpy.Props.C110_mask_disagrees",
    "Fanpy.Props.C110_constraints",
    "Fanpy.Props.C110_fanpt",
    "Fanpy.Props.C110_update_projections_disagree"
   ],
   "note": "C110_consistent_partial, C110_projections, C110_projections_orders, C110_setters, C110_update_ok, C110_update, C110_default_mask, C110_construct_ok, C110_constraints, C110_fanpt; C110_odd_disagrees, C110_setters_disagree, C110_operator_disagrees, C110_update_disagrees, C110_update_projections_disagree and C110_mask_disagrees are the disagreements. Partial because PyCI itself is external (its Hamiltonian keeps what it is given, its FanCI class collects constraints as the copy in legacy.py does) and binomial coefficients are exact instead of floats."
  },
  {
   "property": "C111",
   "status": "partial",
   "theorems": [
    "Fanpy.Props.C111_block",
    "Fanpy.Props.C111_succeeds",
    "Fanpy.Props.C111_empty",
    "Fanpy.Props.C111_exhausted",
    "Fanpy.Props.C111_svd",
    "Fanpy.Props.C111_svd_iff",
    "Fanpy.Props.C111_rotation",
    "Fanpy.Props.C111_notation",
    "Fanpy.Props.C111_energy_partial",
    "Fanpy.Props.C111_printed_formula",
    "Fanpy.Props.C111_printed_disagrees",
    "Fanpy.Props.C111_closest",
    "Fanpy.Props.C111_other_iff",
    "Fanpy.Props.C111_other"
   ],
   "note": "C111_block, C111_succeeds, C111_svd, C111_svd_iff, C111_rotation, C111_energy_partial, C111_closest, C111_other_iff, C111_other; C111_empty, C111_exhausted, C111_notation and C111_printed_disagrees are the disagreements. The singular value decomposition is an argument that meets IsSvd, which exists for every matrix (exists_isSvd). Partial because numbers are real instead of floats and what PySCF computes is an argument. C111_printed_formula says what is printed."
  },
  {
   "property": "C112",
   "status": "partial",
   "theorems": [
    "Fanpy.Props.C112_check_gen",
    "Fanpy.Props.C112_check_gen_error",
    "Fanpy.Props.C112_check_unr",
    "Fanpy.Props.C112_check_unr_type",
    "Fanpy.Props.C112_values_gen_partial",
    "Fanpy.Props.C112_values_unr_partial",
    "Fanpy.Props.C112_direct_gen",
    "Fanpy.Props.C112_direct_disagrees",
    "Fanpy.Props.C112_direct_unr",
    "Fanpy.Props.C112_shared",
    "Fanpy.Props.C112_shared_disagrees",
    "Fanpy.Props.C112_cast",
    "Fanpy.Props.C112_integer_disagrees"
   ],
   "note": "C112_check_gen, C112_check_gen_error, C112_check_unr, C112_check_unr_type, C112_values_gen_partial, C112_values_unr_partial, C112_direct_gen, C112_direct_unr, C112_shared, C112_cast; C112_direct_disagrees, C112_shared_disagrees and C112_integer_disagrees are the disagreements. Partial because numbers are exact, arrays that overlap partially are not modelled and a sequence ends at its first exception."
  },
  {
   "property": "C113",
   "status": "partial",
   "theorems": [
    "Fanpy.Props.C113_file_partial",
    "Fanpy.Props.C113_only",
    "Fanpy.Props.C113_distinct",
    "Fanpy.Props.C113_objective",
    "Fanpy.Props.C113_objective_none",
    "Fanpy.Props.C113_splitext",
    "Fanpy.Props.C113_fanpy_classes",
    "Fanpy.Props.C113_fanpy_objective",
    "Fanpy.Props.C113_numbered_disagrees",
    "Fanpy.Props.C113_underscore_disagrees",
    "Fanpy.Props.C113_unitary_disagrees"
   ],
   "note": "C113_file_partial, C113_only, C113_distinct, C113_objective, C113_objective_none, C113_splitext, C113_fanpy_classes, C113_fanpy_objective; C113_numbered_disagrees, C113_underscore_disagrees and C113_unitary_disagrees are the disagreements. Partial because os.path.splitext and np.save are modelled from their documentation, and the file system is a map from names to contents."
  },
  {
   "property": "C114",
   "status": "partial",
   "theorems": [
    "Fanpy.Props.C114_problems",
    "Fanpy.Props.C114_guesses",
    "Fanpy.Props.C114_frozen",
    "Fanpy.Props.C114_result_partial",
    "Fanpy.Props.C114_again",
    "Fanpy.Props.C114_errors",
    "Fanpy.Props.C114_succeeds",
    "Fanpy.Props.C114_refused",
    "Fanpy.Props.C114_arguments",
    "Fanpy.Props.C114_init",
    "Fanpy.Props.C114_constraints_disagrees",
    "Fanpy.Props.C114_interval"
   ],
   "note": "C114_problems, C114_guesses, C114_frozen, C114_result_partial, C114_again, C114_errors, C114_succeeds, C114_refused, C114_arguments, C114_init, C114_interval; C114_constraints_disagrees is the disagreement. Partial because numbers are exact, and because the optimizer and the response equations are arbitrary functions of the objective and the parameters (so that what they might keep, such as the parameters of the wavefunction object, is not seen)."
  },
  {
   "property": "C115",
   "status": "partial",
   "theorems": [
    "Fanpy.Props.C115_refines_partial",
    "Fanpy.Props.C115_assigned",
    "Fanpy.Props.C115_assigned_ints",
    "Fanpy.Props.C115_frame",
    "Fanpy.Props.C115_refused",
    "Fanpy.Props.C115_shared",
    "Fanpy.Props.C115_noise_writes",
    "Fanpy.Props.C115_noise_ints",
    "Fanpy.Props.C115_take",
    "Fanpy.Props.C115_shared_disagrees",
    "Fanpy.Props.C115_components_disagree",
    "Fanpy.Props.C115_take_disagrees",
    "Fanpy.Props.C115_ints_disagree",
    "Fanpy.Props.C115_noise_disagrees"
   ],
   "note": "C115_refines_partial is the refinement for programs that give arrays away; C115_assigned, C115_frame and C115_refused describe objective.assign_params in every state; C115_shared, C115_take, C115_noise_writes, C115_noise_ints and C115_assigned_ints say what happens otherwise; C115_shared_disagrees, C115_components_disagree, C115_take_disagrees, C115_ints_disagree and C115_noise_disagrees are the disagreements. Partial because numbers are exact and because parameters that are not one array (NonorthWavefunction, RestrictedBoltzmannMachine) and complex numbers in arrays of reals are not modelled."
  },
  {
   "property": "C116",
   "status": "partial",
   "theorems": [
    "Fanpy.Props.C116_made",
    "Fanpy.Props.C116_errors",
    "Fanpy.Props.C116_closed_partial",
    "Fanpy.Props.C116_calls",
    "Fanpy.Props.C116_mode",
    "Fanpy.Props.C116_solver_disagrees",
    "Fanpy.Props.C116_constraint_ignored",
    "Fanpy.Props.C116_constraint",
    "Fanpy.Props.C116_norm",
    "Fanpy.Props.C116_rbm",
    "Fanpy.Props.C116_hci",
    "Fanpy.Props.C116_root",
    "Fanpy.Props.C116_root_disagrees",
    "Fanpy.Props.C116_orders",
    "Fanpy.Props.C116_orders_disagree",
    "Fanpy.Props.C116_file",
    "Fanpy.Props.C116_cli",
    "Fanpy.Props.C116_cli_disagrees"
   ],
   "note": "C116_made and C116_errors say when a script is made, C116_closed_partial and C116_calls are about its names and calls, C116_mode, C116_root, C116_norm and C116_orders about the optimization, C116_file and C116_cli about files and the command line; C116_solver_disagrees, C116_constraint_ignored, C116_constraint, C116_rbm, C116_hci, C116_root_disagrees, C116_orders_disagree and C116_cli_disagrees are the disagreements. Partial because the text of the statements is left out: a script is its names, bindings and calls."
  },
  {
   "property": "C117",
   "status": "proved",
   "theorems": [
    "Fanpy.Props.C117_number",
    "Fanpy.Props.C117_array",
    "Fanpy.Props.C117_array_lengths",
    "Fanpy.Props.C117_default",
    "Fanpy.Props.C117_negative",
    "Fanpy.Props.C117_custom",
    "Fanpy.Props.C117_integrals",
    "Fanpy.Props.C117_generalized",
    "Fanpy.Props.C117_wfn",
    "Fanpy.Props.C117_wfn_custom",
    "Fanpy.Props.C117_wfn_errors",
    "Fanpy.Props.C117_derivative",
    "Fanpy.Props.C117_keywords",
    "Fanpy.Props.C117_orders_disagree"
   ],
   "note": "C117_number and C117_array are the sums for numbers and for derivatives, C117_default and C117_generalized the default orders, C117_negative, C117_wfn_errors and C117_keywords the errors, C117_custom and C117_integrals the other methods, C117_wfn and C117_derivative the wavefunctions; C117_orders_disagree and C117_keywords are the disagreements. Numbers are those of a commutative ring (real numbers for the derivative)."
  },
  {
   "property": "C118",
   "status": "proved",
   "theorems": [
    "Fanpy.Props.C118_hessian_errors",
    "Fanpy.Props.C118_hessian",
    "Fanpy.Props.C118_hessian_all",
    "Fanpy.Props.C118_queue",
    "Fanpy.Props.C118_queue_others",
    "Fanpy.Props.C118_printed",
    "Fanpy.Props.C118_printed_values",
    "Fanpy.Props.C118_file",
    "Fanpy.Props.C118_checkpoints_disagree"
   ],
   "note": "C118_hessian and C118_hessian_errors are the second derivatives, C118_queue, C118_printed and C118_printed_values the reports, C118_file the checkpoints; C118_hessian_all and C118_checkpoints_disagree are the disagreements. Numbers are those of a field (real numbers for derivatives). With all parameters active the pyci class leaves the equations to PyCI, which is taken to make the calls that masked_compute_jacobian makes."
  },
  {
   "property": "C119",
   "status": "partial",
   "theorems": [
    "Fanpy.Props.C119_errors",
    "Fanpy.Props.C119_electrons",
    "Fanpy.Props.C119_determinants",
    "Fanpy.Props.C119_matrix_partial",
    "Fanpy.Props.C119_product_partial",
    "Fanpy.Props.C119_integrals",
    "Fanpy.Props.C119_pyscf"
   ],
   "note": "C119_determinants and C119_electrons are the determinants, C119_matrix_partial the entries, C119_product_partial the products with overlaps, C119_errors the errors, C119_integrals and C119_pyscf the integrals. PySCF is not in the repository: what its functions cistring, ao2mo, FCImake_hdiag_uhf and hermi_triu compute is part of the model, and that FCIpspace_h0tril computes the matrix elements below the diagonal is a hypothesis (TrilSpec). Numbers are those of a field of characteristic zero, integers have no bound (PySCF strings have 64 bits), and C119_product_partial is not for 32 spatial orbitals (C27_word_64)."
  },
  {
   "property": "C120",
   "status": "partial",
   "theorems": [
    "Fanpy.Props.C120_names",
    "Fanpy.Props.C120_only",
    "Fanpy.Props.C120_ci_partial",
    "Fanpy.Props.C120_cc_partial",
    "Fanpy.Props.C120_geminal_partial",
    "Fanpy.Props.C120_geminal_columns",
    "Fanpy.Props.C120_labels",
    "Fanpy.Props.C120_large_disagrees",
    "Fanpy.Props.C120_same_files_disagrees",
    "Fanpy.Props.C120_metadata_disagrees",
    "Fanpy.Props.C120_reference",
    "Fanpy.Props.C120_read_errors",
    "Fanpy.Props.C120_ci_reads_cc",
    "Fanpy.Props.C120_geminal_empty"
   ],
   "note": "C120_names, C120_only, C120_ci_partial, C120_cc_partial, C120_geminal_partial and C120_labels are names, other files, the three round trips and the labels; C120_large_disagrees, C120_same_files_disagrees and C120_metadata_disagrees are the disagreements; C120_reference, C120_read_errors, C120_ci_reads_cc and C120_geminal_empty are the errors. pandas and json are not in the repository: how they write and read labels is part of the model, and the cells are kept exactly, while pandas writes decimal numbers."
  },
  {
   "property": "C121",
   "status": "proved",
   "theorems": [
    "Fanpy.Props.C121_default_rows",
    "Fanpy.Props.C121_default",
    "Fanpy.Props.C121_default_succeeds",
    "Fanpy.Props.C121_copy",
    "Fanpy.Props.C121_copy_overlap",
    "Fanpy.Props.C121_extra_rows",
    "Fanpy.Props.C121_array"
   ],
   "note": "C121_default is the Hartree-Fock determinant, C121_default_succeeds when it can be made; C121_default_rows, C121_copy, C121_copy_overlap, C121_extra_rows and C121_array are the parameters in general, from another wavefunction and from an array."
  },
  {
   "property": "C122",
   "status": "proved",
   "theorems": [
    "Fanpy.Props.C122_higher",
    "Fanpy.Props.C122_sets_d",
    "Fanpy.Props.C122_sets_sd",
    "Fanpy.Props.C122_sets_errors",
    "Fanpy.Props.C122_outside",
    "Fanpy.Props.C122_sets_sd_disagrees",
    "Fanpy.Props.C122_unordered",
    "Fanpy.Props.C122_reference",
    "Fanpy.Props.C122_reference_disagrees"
   ],
   "note": "C122_higher: the classes with triples and quadruples; C122_sets_d, C122_sets_sd and C122_sets_errors: two sets of orbitals; C122_unordered: operators without effect; C122_reference: the reference is not used. C122_outside, C122_sets_sd_disagrees and C122_reference_disagrees are concrete cases in which the docstrings promise something else."
  },
  {
   "property": "C123",
   "status": "partial",
   "theorems": [
    "Fanpy.Props.C123_parsed",
    "Fanpy.Props.C123_commands",
    "Fanpy.Props.C123_stops",
    "Fanpy.Props.C123_fanci_partial",
    "Fanpy.Props.C123_fanpy_partial",
    "Fanpy.Props.C123_defaults_disagree",
    "Fanpy.Props.C123_files",
    "Fanpy.Props.C123_prev_dir_disagrees",
    "Fanpy.Props.C123_visited",
    "Fanpy.Props.C123_time",
    "Fanpy.Props.C123_accepted"
   ],
   "note": "C123_commands, C123_stops and C123_parsed: the commands and what they mean; C123_fanci_partial and C123_fanpy_partial: which of them make a script; C123_files: the files; C123_time and C123_visited: run_calcs. C123_defaults_disagree and C123_prev_dir_disagrees: the defaults make no script, and load_prev looks in a directory that is never made. Missing: argparse and json are modelled from their documentation (words that begin with a dash are refused, json is a function), the type custom, and the batch file."
  },
  {
   "property": "C124",
   "status": "proved",
   "theorems": [
    "Fanpy.Props.C124_steps",
    "Fanpy.Props.C124_lost",
    "Fanpy.Props.C124_own",
    "Fanpy.Props.C124_names",
    "Fanpy.Props.C124_update",
    "Fanpy.Props.C124_assign_disagrees",
    "Fanpy.Props.C124_assign_item",
    "Fanpy.Props.C124_iterate_disagrees",
    "Fanpy.Props.C124_copy_disagrees"
   ],
   "note": "For every pandas (a parameter of the model). C124_steps, C124_own, C124_names, C124_update and C124_assign_item: what is handed over and what is kept; C124_lost: what a table from pandas has lost; C124_assign_disagrees, C124_iterate_disagrees and C124_copy_disagrees: where a table is not like a pandas table, contrary to the docstrings."
  },
  {
   "property": "C125",
   "status": "partial",
   "theorems": [
    "Fanpy.Props.C125_lists",
    "Fanpy.Props.C125_wfn",
    "Fanpy.Props.C125_svd_disagrees",
    "Fanpy.Props.C125_errors",
    "Fanpy.Props.C125_cc_disagrees",
    "Fanpy.Props.C125_main_disagrees",
    "Fanpy.Props.C125_check"
   ],
   "note": "C125_check: what is accepted; C125_lists, C125_wfn and C125_errors: what the script does; C125_svd_disagrees, C125_cc_disagrees and C125_main_disagrees: where it does not do what it is for. Missing: the regular expressions that change the given scripts (taken as given: the wavefunction of a system is made with the numbers of electrons and orbitals of the script), and negative labels."
  },
  {
   "property": "C126",
   "status": "proved",
   "theorems": [
    "Fanpy.Props.C126_solver",
    "Fanpy.Props.C126_errors",
    "Fanpy.Props.C126_shared",
    "Fanpy.Props.C126_shared_disagrees",
    "Fanpy.Props.C126_skopt"
   ],
   "note": "C126_solver: what is passed on; C126_errors: which calls raise; C126_shared and C126_shared_disagrees: one dictionary of options for several calls; C126_skopt: the default box. Floats are rational numbers."
  },
  {
   "property": "C127",
   "status": "proved",
   "theorems": [
    "Fanpy.Props.C127_convert",
    "Fanpy.Props.C127_first_disagrees",
    "Fanpy.Props.C127_error",
    "Fanpy.Props.C127_error_word",
    "Fanpy.Props.C127_word_chars",
    "Fanpy.Props.C127_line_disagrees"
   ],
   "note": "C127_convert: all files of the given form; C127_first_disagrees and C127_line_disagrees: what is lost; C127_error: sections that raise. ASCII text."
  },
  {
   "property": "C128",
   "status": "proved",
   "theorems": [
    "Fanpy.Props.C128_text_exists",
    "Fanpy.Props.C128_strip",
    "Fanpy.Props.C128_hartreefock",
    "Fanpy.Props.C128_script",
    "Fanpy.Props.C128_xyz_disagrees",
    "Fanpy.Props.C128_method_disagrees",
    "Fanpy.Props.C128_convergence_disagrees"
   ],
   "note": "C128_hartreefock and C128_script for all texts (C128_text_exists: every text is of the form); C128_xyz_disagrees, C128_method_disagrees, C128_convergence_disagrees: where the code disagrees. ASCII text; PySCF is not modelled beyond the attributes that the script reads."
  },
  {
   "property": "C129",
   "status": "proved",
   "theorems": [
    "Fanpy.Props.C129_copy",
    "Fanpy.Props.C129_overlap",
    "Fanpy.Props.C129_sets_disagrees",
    "Fanpy.Props.C129_ap1rog_disagrees",
    "Fanpy.Props.C129_tables_disagrees"
   ],
   "note": "C129_copy for all wavefunctions of the constructors; C129_overlap: the same state afterwards; C129_sets_disagrees, C129_ap1rog_disagrees and C129_tables_disagrees: where the code disagrees. Exact arithmetic; add_noise and the cache are left out; wavefunctions of rank two have another method."
  },
  {
   "property": "C130",
   "status": "proved",
   "theorems": [
    "Fanpy.Props.C130_exists",
    "Fanpy.Props.C130_overlap",
    "Fanpy.Props.C130_ground",
    "Fanpy.Props.C130_default_disagrees",
    "Fanpy.Props.C130_ap1rog"
   ],
   "note": "C130_exists: when the default exists; C130_overlap and C130_ap1rog: all overlaps; C130_ground: the documented state; C130_default_disagrees: more geminals than pairs. Exact arithmetic."
  },
  {
   "property": "C131",
   "status": "proved",
   "theorems": [
    "Fanpy.Props.C131_script",
    "Fanpy.Props.C131_coords_disagrees",
    "Fanpy.Props.C131_memory",
    "Fanpy.Props.C131_negative",
    "Fanpy.Props.C131_written",
    "Fanpy.Props.C131_refused",
    "Fanpy.Props.C131_cwd_disagrees"
   ],
   "note": "C131_script: the text; C131_memory: the memory; C131_written and C131_refused: files and the current directory; C131_coords_disagrees, C131_negative and C131_cwd_disagrees: where the code disagrees. float of a text is an argument, without infinities; paths have no links and every directory may be written."
  },
  {
   "property": "C132",
   "status": "proved",
   "theorems": [
    "Fanpy.Props.C132_default",
    "Fanpy.Props.C132_compose",
    "Fanpy.Props.C132_inverse",
    "Fanpy.Props.C132_norm",
    "Fanpy.Props.C132_electrons"
   ],
   "note": "C132_default: no parameters; C132_compose and C132_inverse: angles add up; C132_norm: sum of squares; C132_electrons: numbers of electrons. Numbers are exact reals; the component returns a number for every determinant of the orbitals (C43_component_error has the case that it raises)."
  },
  {
   "property": "C133",
   "status": "proved",
   "theorems": [
    "Fanpy.Props.C133_wrapped",
    "Fanpy.Props.C133_first_line",
    "Fanpy.Props.C133_short",
    "Fanpy.Props.C133_long_disagrees",
    "Fanpy.Props.C133_literal_disagrees"
   ],
   "note": "C133_wrapped: words, lengths and indentation; C133_first_line: where the first line ends at the earliest; C133_short: calls that fit; C133_long_disagrees and C133_literal_disagrees: where the code disagrees. textwrap is modelled from the sources of the standard library; cutting words at hyphens before the wrapping is an argument, and tabs count as one space."
  },
  {
   "property": "C134",
   "status": "proved",
   "theorems": [
    "Fanpy.Props.C134_script",
    "Fanpy.Props.C134_run_calc",
    "Fanpy.Props.C134_nproj_disagrees",
    "Fanpy.Props.C134_refused",
    "Fanpy.Props.C134_embedding_disagrees"
   ],
   "note": "C134_script and C134_run_calc: the arguments of make_script; C134_refused: what ends the programs; C134_run_calc (load_chk), C134_nproj_disagrees and C134_embedding_disagrees: where the code disagrees. What is used of argparse is modelled; abbreviated options, --name=value and values with a dash are not."
  },
  {
   "property": "C135",
   "status": "proved",
   "theorems": [
    "Fanpy.Props.C135_list",
    "Fanpy.Props.C135_other",
    "Fanpy.Props.C135_errors",
    "Fanpy.Props.C135_history"
   ],
   "note": "C135_list and C135_other: what is accepted and stored; C135_errors: the errors; C135_history: sequences of assignments. What np.array does with lists, and the types of entries (booleans, numbers, others), are modelled."
  },
  {
   "property": "C136",
   "status": "proved",
   "theorems": [
    "Fanpy.Props.C136_name",
    "Fanpy.Props.C136_other_files",
    "Fanpy.Props.C136_success",
    "Fanpy.Props.C136_errors",
    "Fanpy.Props.C136_emptied_disagrees"
   ],
   "note": "C136_name: the name; C136_other_files: other files; C136_success: when the call returns and what is in the file; C136_errors: the errors; C136_emptied_disagrees: where the code disagrees. The functions of PySCF are arbitrary: they write a text and return or raise."
  },
  {
   "property": "C137",
   "status": "proved",
   "theorems": [
    "Fanpy.Props.C137_int",
    "Fanpy.Props.C137_float",
    "Fanpy.Props.C137_errors"
   ],
   "note": "C137_int: integers; C137_float: floats and the messages; C137_errors: what is refused. The loop of scipy.special.comb is modelled, as the text of scipy is not in the repository."
  },
  {
   "property": "C138",
   "status": "proved",
   "theorems": [
    "Fanpy.Props.C138_scipy",
    "Fanpy.Props.C138_skopt"
   ],
   "note": "C138_scipy and C138_skopt: what is run, returned and left behind. Optimizers are arbitrary programs, numbers are rational."
  },
  {
   "property": "C139",
   "status": "proved",
   "theorems": [
    "Fanpy.Props.C139_copy",
    "Fanpy.Props.C139_back",
    "Fanpy.Props.C139_indices",
    "Fanpy.Props.C139_errors",
    "Fanpy.Props.C139_overlap",
    "Fanpy.Props.C139_numbers"
   ],
   "note": "C139_copy, C139_back, C139_indices, C139_errors; C139_overlap: for StandardCC with ranks that include those of the other one, all overlaps with determinants with the right number of electrons are those of the other one. C139_numbers: the operators of BaseCC and StandardCC are different, which the other theorems assume. Noise and complex parameters are left out."
  }
 ]
}