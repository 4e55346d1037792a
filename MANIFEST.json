{
 "claims": [
  {
   "property": "C01",
   "status": "proved",
   "theorems": [
    "Verif.C01_indextable_bijection"
   ],
   "note": ""
  },
  {
   "property": "C02",
   "status": "proved",
   "theorems": [
    "Verif.C02_indextable_accepts",
    "Verif.C02_indextable_query_errors"
   ],
   "note": ""
  },
  {
   "property": "C03",
   "status": "proved",
   "theorems": [
    "Verif.C03_siteid_total_order",
    "Verif.C03_stateid_total_order",
    "Verif.C03_mixed_never_equal"
   ],
   "note": ""
  },
  {
   "property": "C04",
   "status": "proved",
   "theorems": [
    "Verif.C04_float_soundness",
    "Verif.C04_integers_never_identified",
    "Verif.C04_int_float_identified",
    "Verif.C04_large_values_not_identified",
    "Verif.C04_float_monotone",
    "Verif.C04_non_finite",
    "Verif.C04_site_soundness",
    "Verif.C04_site_monotone",
    "Verif.C04_rounding",
    "Verif.C04_products",
    "Verif.C04_precision_range"
   ],
   "note": "identification of an int and the equal float is proved for 10**p*|n| <= 2**53 and shown to fail beyond (witness theorem)"
  },
  {
   "property": "C05",
   "status": "proved",
   "theorems": [
    "Verif.C05_object_identity_fixed_at_creation",
    "Verif.C05_same_precision_compare",
    "Verif.C05_mixing_precisions_breaks_equality",
    "Verif.C05_zoom_of_history"
   ],
   "note": ""
  },
  {
   "property": "C06",
   "status": "proved",
   "theorems": [
    "Verif.C06_aoc_total_order",
    "Verif.C06_numberoperator_total_order"
   ],
   "note": ""
  },
  {
   "property": "C07",
   "status": "proved",
   "theorems": [
    "Verif.C07_dagger_involution",
    "Verif.C07_conjugate_same_state",
    "Verif.C07_derive",
    "Verif.C07_derive_number",
    "Verif.C07_derive_spin",
    "Verif.C07_needs_same_precision"
   ],
   "note": ""
  },
  {
   "property": "C08",
   "status": "proved",
   "theorems": [
    "Verif.C08_product_expression",
    "Verif.C08_bracketing_irrelevant"
   ],
   "note": ""
  },
  {
   "property": "C09",
   "status": "proved",
   "theorems": [
    "Verif.C09_term_dagger_involution",
    "Verif.C09_dagger_antimultiplicative"
   ],
   "note": ""
  },
  {
   "property": "C10",
   "status": "proved",
   "theorems": [
    "Verif.C10_normalize_sorts"
   ],
   "note": ""
  },
  {
   "property": "C100",
   "status": "proved",
   "theorems": [
    "Verif.Own.C100_value_semantics",
    "Verif.Own.C100_assignments_invisible"
   ],
   "note": "an in-place assignment replaces the contents of a whole array (any new contents), views are not modelled: none of these methods returns one; a bond is built from 1D arrays, a line from points, a polygon from arrays of points"
  },
  {
   "property": "C101",
   "status": "proved",
   "theorems": [
    "Verif.LDB.C101_coordination",
    "Verif.LDB.C101_generated",
    "Verif.LDB.C101_special"
   ],
   "note": "exact reals for coordinates; precision 5 rounds 1/sqrt(3) down, where C94 shows the crossing bonds are missed"
  },
  {
   "property": "C102",
   "status": "proved",
   "theorems": [
    "Verif.Sett.C102_setters",
    "Verif.Sett.C102_only_setters",
    "Verif.Sett.C102_in_force",
    "Verif.Sett.C102_reads_one",
    "Verif.Sett.C102_cached_distance",
    "Verif.Sett.C102_mixed_bonds",
    "Verif.Sett.C102_mixed_lattice"
   ],
   "note": "the mixing results are witnesses for the rule in the docstrings that the precision must be set before creating instances"
  },
  {
   "property": "C103",
   "status": "proved",
   "theorems": [
    "Verif.Rot.C103_euler",
    "Verif.Rot.C103_euler_range",
    "Verif.Rot.C103_general",
    "Verif.Rot.C103_general_cartesian",
    "Verif.Rot.C103_same_rotation"
   ],
   "note": "exact real arithmetic; the last clause for axes outside the threshold gap (C44)"
  },
  {
   "property": "C104",
   "status": "proved",
   "theorems": [
    "Verif.Show.C104_lattice_show",
    "Verif.Show.C104_lattice_savefig",
    "Verif.Show.C104_lattice_refused",
    "Verif.Show.C104_line",
    "Verif.Show.C104_polygon"
   ],
   "note": "the calls to matplotlib are recorded as values; savefig=True always raises NameError (C104_lattice_savefig, see Findings)"
  },
  {
   "property": "C105",
   "status": "proved",
   "theorems": [
    "Verif.LDB.C105_hexagon",
    "Verif.LDB.C105_square",
    "Verif.LDB.C105_database",
    "Verif.LDB.C105_classification",
    "Verif.LDB.C105_triangle",
    "Verif.LDB.C105_square_wrong",
    "Verif.LDB.C105_benzene_wrong"
   ],
   "note": "exact real arithmetic, tolerance 0; the statement names the points where the code is wrong"
  },
  {
   "property": "C106",
   "status": "proved",
   "theorems": [
    "Verif.Latt.C106_init",
    "Verif.Latt.C106_neighbor_distance",
    "Verif.Latt.C106_decompose",
    "Verif.Latt.C106_bonds",
    "Verif.Latt.C106_index"
   ],
   "note": "exact real arithmetic (rounding of distances included)"
  },
  {
   "property": "C107",
   "status": "proved",
   "theorems": [
    "Verif.LDB.C107_generated",
    "Verif.LDB.C107_special",
    "Verif.LDB.C107_spectrum_generated",
    "Verif.LDB.C107_spectrum_special",
    "Verif.LDB.C107_chain",
    "Verif.LDB.C107_square",
    "Verif.LDB.C107_cubic",
    "Verif.LDB.C107_triangle",
    "Verif.LDB.C107_energies_special"
   ],
   "note": "honeycomb lattices need the bond length to survive rounding (C94); the coordinates of the points must be distinguishable as floats, which C108 shows for all of them"
  },
  {
   "property": "C108",
   "status": "proved",
   "theorems": [
    "Verif.LDB.C108_generated",
    "Verif.LDB.C108_special"
   ],
   "note": "uses the error bound of C04"
  },
  {
   "property": "C109",
   "status": "proved",
   "theorems": [
    "Verif.LDB.C109_honeycomb",
    "Verif.LDB.C109_kagome",
    "Verif.LDB.C109_special"
   ],
   "note": "honeycomb lattices need the bond length to survive rounding (C94), as it does with the default precision; the points are distinguishable as floats by C108"
  },
  {
   "property": "C11",
   "status": "proved",
   "theorems": [
    "Verif.C11_normalize_raises_iff"
   ],
   "note": ""
  },
  {
   "property": "C110",
   "status": "proved",
   "theorems": [
    "Verif.C110_length",
    "Verif.C110_displace"
   ],
   "note": "np.linalg.norm is modelled as the rounded squares summed from left to right and the rounded square root"
  },
  {
   "property": "C111",
   "status": "proved",
   "theorems": [
    "Verif.C111_states",
    "Verif.C111_particle_terms",
    "Verif.C111_hopping_second",
    "Verif.C111_spin_terms",
    "Verif.C111_matrix_function",
    "Verif.C111_index_table",
    "Verif.C111_base_vectors",
    "Verif.C111_simple_space",
    "Verif.C111_bond",
    "Verif.C111_rotations",
    "Verif.C111_geometry",
    "Verif.C111_lattice_show",
    "Verif.C111_color_demo",
    "Verif.C111_latex"
   ],
   "note": "signatures read off /repo; the documented attributes of the results are what the statements mention"
  },
  {
   "property": "C112",
   "status": "proved",
   "theorems": [
    "Verif.C112_simple_space",
    "Verif.C112_space",
    "Verif.C112_bond",
    "Verif.C112_table"
   ],
   "note": "repr(float) is an abstract injective text (as in C77); numpy scalars print like Python numbers (numpy before 2.0); bools as particle numbers are not distinguished from ints."
  },
  {
   "property": "C113",
   "status": "proved",
   "theorems": [
    "Verif.Color.C113_color_demo"
   ],
   "note": "What is written to the stream, as one text."
  },
  {
   "property": "C114",
   "status": "proved",
   "theorems": [
    "Verif.LDB.C114_generated",
    "Verif.LDB.C114_special",
    "Verif.LDB.C114_spin_waves",
    "Verif.LDB.C114_spin_waves_special",
    "Verif.LDB.C114_field",
    "Verif.LDB.C114_symmetric_iff",
    "Verif.LDB.C114_self_neighbour"
   ],
   "note": "The loop over the bonds is that of the scripts, applied to any cluster (Model/DemoSpinCluster.heisenbergSetup_eq shows the scripts are the instance for the chain)."
  },
  {
   "property": "C115",
   "status": "proved",
   "theorems": [
    "Verif.LDB.C115_generated",
    "Verif.LDB.C115_special"
   ],
   "note": "The lines of the script are applied to any cluster (Model/DemoHubbardCluster.hubbardTerms_eq shows the script is the instance for the chain)."
  },
  {
   "property": "C116",
   "status": "proved",
   "theorems": [
    "Verif.LDB.C116_generated",
    "Verif.LDB.C116_special",
    "Verif.LDB.C116_frustrated"
   ],
   "note": "Same spectrum = same characteristic polynomial. Honeycomb clusters under the precision condition of C115."
  },
  {
   "property": "C117",
   "status": "proved",
   "theorems": [
    "Verif.C117_reordering",
    "Verif.C117_spectrum"
   ],
   "note": "The spin counterpart of C71; no signs occur."
  },
  {
   "property": "C118",
   "status": "proved",
   "theorems": [
    "Verif.LDB.C118_generated",
    "Verif.LDB.C118_special"
   ],
   "note": "Honeycomb clusters under the precision condition of C115."
  },
  {
   "property": "C119",
   "status": "proved",
   "theorems": [
    "Verif.C119_none",
    "Verif.C119_length",
    "Verif.C119_displace",
    "Verif.C119_displace_int",
    "Verif.C119_flip",
    "Verif.C119_azimuth"
   ],
   "note": "Azimuths in exact real arithmetic. A finite length above about 1.8e308 / 10**n is rounded to inf (example in Props/BondRound)."
  },
  {
   "property": "C12",
   "status": "proved",
   "theorems": [
    "Verif.C12_normalize_preserves_operator",
    "Verif.C12_normalize_preserves_matrix"
   ],
   "note": ""
  },
  {
   "property": "C120",
   "status": "proved",
   "theorems": [
    "Verif.LDB.C120_lower",
    "Verif.LDB.C120_weak",
    "Verif.LDB.C120_neel",
    "Verif.LDB.C120_special",
    "Verif.LDB.C120_two_points"
   ],
   "note": "Honeycomb: for precisions at which the rounding of 1/sqrt 3 is not below it (as in C94, C114). Exact real arithmetic; the program is that of C114 (`Model/DemoSpinCluster`)."
  },
  {
   "property": "C121",
   "status": "proved",
   "theorems": [
    "Verif.C121_number",
    "Verif.C121_str",
    "Verif.C121_unambiguous",
    "Verif.C121_equal_text",
    "Verif.C121_same_line",
    "Verif.C121_title",
    "Verif.C121_swap_differs",
    "Verif.C121_repr"
   ],
   "note": "Exact real arithmetic: the slope and the intercept are not rounded to doubles before they are printed, and there is no negative zero. C121_repr holds for every set of coordinates that `repr` tells apart (the doubles). C121_swap_differs is the stated exception."
  },
  {
   "property": "C122",
   "status": "proved",
   "theorems": [
    "Verif.LDB.C122_spins",
    "Verif.LDB.C122_spins_special",
    "Verif.LDB.C122_hopping",
    "Verif.LDB.C122_hopping_special",
    "Verif.LDB.C122_translations",
    "Verif.LDB.C122_quarter_turns"
   ],
   "note": "Honeycomb: for precisions at which the rounding of 1/sqrt 3 is not below it (as in C94). Exact real arithmetic; the programs are those of C107 and C114."
  },
  {
   "property": "C123",
   "status": "proved",
   "theorems": [
    "Verif.LDB.C123_chain",
    "Verif.LDB.C123_square",
    "Verif.LDB.C123_triangle",
    "Verif.LDB.C123_honeycomb",
    "Verif.LDB.C123_kagome",
    "Verif.LDB.C123_cubic"
   ],
   "note": "Exact real coordinates."
  },
  {
   "property": "C124",
   "status": "proved",
   "theorems": [
    "Verif.LDB.C124_chain",
    "Verif.LDB.C124_square",
    "Verif.LDB.C124_cubic",
    "Verif.LDB.C124_benzene"
   ],
   "note": "Benzene: for precisions at which the rounding of 1/sqrt 3 is not below it (as in C94). Exact real arithmetic; the program is that of C115."
  },
  {
   "property": "C125",
   "status": "proved",
   "theorems": [
    "Verif.Latt.C125_lines",
    "Verif.Latt.C125_faithful"
   ],
   "note": "numpy's array2string is an arbitrary function that puts a row on one line (true for up to three coordinates)."
  },
  {
   "property": "C126",
   "status": "proved",
   "theorems": [
    "Verif.LDB.C126_chain",
    "Verif.LDB.C126_square",
    "Verif.LDB.C126_triangle",
    "Verif.LDB.C126_cubic",
    "Verif.LDB.C126_honeycomb"
   ],
   "note": "Honeycomb: for precisions at which the rounding of 1/sqrt 3 is not below it (as in C94). Exact real arithmetic; the program is that of C115."
  },
  {
   "property": "C127",
   "status": "proved",
   "theorems": [
    "Verif.C127_shows_latex",
    "Verif.C127_defaults",
    "Verif.C127_history"
   ],
   "note": "Fonts are not modelled; which figures stay open after a display is a parameter (a backend without windows keeps all)."
  },
  {
   "property": "C128",
   "status": "proved",
   "theorems": [
    "Verif.LDB.C128_generated",
    "Verif.LDB.C128_special",
    "Verif.LDB.C128_mirror"
   ],
   "note": "Honeycomb: for precisions at which the rounding of 1/sqrt 3 is not below it (as in C94). Exact real arithmetic; the program is that of C115. An expectation value is <v|A|v>/<v|v>, which is what QuantumAverages returns (C38)."
  },
  {
   "property": "C129",
   "status": "proved",
   "theorems": [
    "Verif.Oct.C129_shape",
    "Verif.Oct.C129_hidden",
    "Verif.Oct.C129_elevation",
    "Verif.Oct.C129_script"
   ],
   "note": "Parallel projection (an observer far away); exact coordinates; colours other than gray and marker sizes are not modelled."
  },
  {
   "property": "C13",
   "status": "proved",
   "theorems": [
    "Verif.C13_check_compatibility"
   ],
   "note": ""
  },
  {
   "property": "C130",
   "status": "proved",
   "theorems": [
    "Verif.LDB.C130_chain",
    "Verif.LDB.C130_rows",
    "Verif.LDB.C130_cubic",
    "Verif.LDB.C130_zigzag"
   ],
   "note": "As C108/C115 (rounded coordinates); for the zigzag row the rounding of 1/sqrt(3) to prec digits is assumed not to be downwards, as in C94."
  },
  {
   "property": "C131",
   "status": "proved",
   "theorems": [
    "Verif.LDB.C131_generated",
    "Verif.LDB.C131_special"
   ],
   "note": "As C114/C120 (rounded coordinates); for honeycomb the rounding of 1/sqrt(3) to prec digits is assumed not to be downwards, as in C94."
  },
  {
   "property": "C132",
   "status": "proved",
   "theorems": [
    "Verif.LDB.C132_generated",
    "Verif.LDB.C132_special"
   ],
   "note": "As C131."
  },
  {
   "property": "C133",
   "status": "proved",
   "theorems": [
    "Verif.LDB.C133_generated",
    "Verif.LDB.C133_special"
   ],
   "note": "As C114. The honeycomb clusters need 1/sqrt(3) not rounded down at the precision of the lattice, as in C94."
  },
  {
   "property": "C14",
   "status": "proved",
   "theorems": [
    "Verif.C14_base_vectors_exact",
    "Verif.C14_repeated_states_break_it"
   ],
   "note": "exact membership for duplicate-free states; the hypothesis is needed (the code does not reject repeated states, witness theorem)"
  },
  {
   "property": "C15",
   "status": "proved",
   "theorems": [
    "Verif.C15_base_vectors_ascending"
   ],
   "note": ""
  },
  {
   "property": "C16",
   "status": "proved",
   "theorems": [
    "Verif.C16_dimension",
    "Verif.C16_no_specifier"
   ],
   "note": ""
  },
  {
   "property": "C17",
   "status": "proved",
   "theorems": [
    "Verif.C17_valid_iff_preprocess",
    "Verif.C17_standard_form",
    "Verif.C17_idempotent",
    "Verif.C17_hilbert_space_ok",
    "Verif.C17_value_error_iff"
   ],
   "note": "a particle number that is not comparable with int raises TypeError in both functions; the ValueError equivalence is stated for comparable particle numbers"
  },
  {
   "property": "C18",
   "status": "proved",
   "theorems": [
    "Verif.C18_class_and_function_agree",
    "Verif.C18_simple_agrees",
    "Verif.C18_order_irrelevant"
   ],
   "note": ""
  },
  {
   "property": "C19",
   "status": "proved",
   "theorems": [
    "Verif.C19_array_never_wraps",
    "Verif.C19_below_64_succeeds",
    "Verif.C19_matrix_function_indices"
   ],
   "note": ""
  },
  {
   "property": "C20",
   "status": "proved",
   "theorems": [
    "Verif.C20_matrix_elements"
   ],
   "note": ""
  },
  {
   "property": "C21",
   "status": "proved",
   "theorems": [
    "Verif.C21_anticommutation"
   ],
   "note": ""
  },
  {
   "property": "C22",
   "status": "proved",
   "theorems": [
    "Verif.C22_product_of_terms",
    "Verif.C22_product_full_basis",
    "Verif.C22_product_of_particle_terms"
   ],
   "note": ""
  },
  {
   "property": "C23",
   "status": "partial",
   "theorems": [
    "Verif.C23_hopping_kernel",
    "Verif.C23_diagonal_kernels_partial",
    "Verif.C23_compatible_terms_partial",
    "Verif.C23_exactly_when",
    "Verif.C23_diagonal_kernels_ignore_left_bases"
   ],
   "note": "The hopping kernel agrees for all bases. The number and Coulomb kernels agree with the general kernel on one common ascending basis; with a different left_bases the claim is false of the code (proved by a witness)."
  },
  {
   "property": "C24",
   "status": "proved",
   "theorems": [
    "Verif.C24_dagger_is_conjugate_transpose",
    "Verif.C24_term_plus_dagger_hermitian",
    "Verif.C24_diagonal_needs_common_basis"
   ],
   "note": ""
  },
  {
   "property": "C25",
   "status": "proved",
   "theorems": [
    "Verif.C25_keyerror_iff",
    "Verif.C25_keyerror_iff_hopping",
    "Verif.C25_conserving_terms_never_raise"
   ],
   "note": ""
  },
  {
   "property": "C26",
   "status": "proved",
   "theorems": [
    "Verif.C26_sparse_and_triplets"
   ],
   "note": ""
  },
  {
   "property": "C27",
   "status": "proved",
   "theorems": [
    "Verif.C27_last_coefficient_used",
    "Verif.C27_non_number_rejected",
    "Verif.C27_spin_last_coefficient_used"
   ],
   "note": ""
  },
  {
   "property": "C28",
   "status": "proved",
   "theorems": [
    "Verif.C28_number_operator_matrix",
    "Verif.C28_number_operators_sum"
   ],
   "note": ""
  },
  {
   "property": "C29",
   "status": "proved",
   "theorems": [
    "Verif.C29_single_spin_matrix"
   ],
   "note": ""
  },
  {
   "property": "C30",
   "status": "proved",
   "theorems": [
    "Verif.C30_su2_algebra"
   ],
   "note": ""
  },
  {
   "property": "C31",
   "status": "proved",
   "theorems": [
    "Verif.C31_interaction_matrix"
   ],
   "note": ""
  },
  {
   "property": "C32",
   "status": "proved",
   "theorems": [
    "Verif.C32_constructor_sorting",
    "Verif.C32_product_trees"
   ],
   "note": ""
  },
  {
   "property": "C33",
   "status": "proved",
   "theorems": [
    "Verif.C33_operator_dagger",
    "Verif.C33_interaction_dagger",
    "Verif.C33_interaction_dagger_involution"
   ],
   "note": ""
  },
  {
   "property": "C34",
   "status": "proved",
   "theorems": [
    "Verif.C34_schwinger_operator",
    "Verif.C34_schwinger_interaction",
    "Verif.C34_bases"
   ],
   "note": ""
  },
  {
   "property": "C35",
   "status": "proved",
   "theorems": [
    "Verif.C35_heisenberg",
    "Verif.C35_ising",
    "Verif.C35_two_spin"
   ],
   "note": ""
  },
  {
   "property": "C36",
   "status": "proved",
   "theorems": [
    "Verif.C36_cp_factory",
    "Verif.C36_hopping_factory",
    "Verif.C36_pairing_factory",
    "Verif.C36_coulomb_factory",
    "Verif.C36_hubbard_factory",
    "Verif.C36_creator_annihilator"
   ],
   "note": ""
  },
  {
   "property": "C37",
   "status": "proved",
   "theorems": [
    "Verif.C37_total_spin_matrices",
    "Verif.C37_angular_momentum"
   ],
   "note": ""
  },
  {
   "property": "C38",
   "status": "proved",
   "theorems": [
    "Verif.C38_averages",
    "Verif.C38_rescaling",
    "Verif.C38_quantum_averages"
   ],
   "note": "exact complex arithmetic; the zero ket (numpy nan) is excluded by hypothesis"
  },
  {
   "property": "C39",
   "status": "proved",
   "theorems": [
    "Verif.C39_equality",
    "Verif.C39_construction",
    "Verif.C39_flip",
    "Verif.C39_flip_keeps_length",
    "Verif.C39_opposite",
    "Verif.C39_endpoints",
    "Verif.C39_soundness"
   ],
   "note": ""
  },
  {
   "property": "C40",
   "status": "proved",
   "theorems": [
    "Verif.C40_construction",
    "Verif.C40_location",
    "Verif.C40_orientation",
    "Verif.C40_gap_depends_on_orientation"
   ],
   "note": "exact reals; lines whose dx, dy are zero or larger than tol; a witness theorem shows the restriction is needed"
  },
  {
   "property": "C41",
   "status": "proved",
   "theorems": [
    "Verif.C41_points_factory",
    "Verif.C41_points_factory_values",
    "Verif.C41_coordinate",
    "Verif.C41_gap_point_off_line"
   ],
   "note": "exact reals; points for |ratio| <= 1 always, for all ratios when dx, dy are zero or larger than tol; witness theorem for the excluded case"
  },
  {
   "property": "C42",
   "status": "partial",
   "theorems": [
    "Verif.C42_construction",
    "Verif.C42_primitives",
    "Verif.C42_exact_partial",
    "Verif.C42_every_point",
    "Verif.C42_no_vertical_edge",
    "Verif.C42_generic_points",
    "Verif.C42_vertical_edge_bug",
    "Verif.C42_exactly_when",
    "Verif.C42_tolerance"
   ],
   "note": "The code violates the property for points on the line of a vertical edge beyond that edge (C42_vertical_edge_bug: unit square, point (0,5) gives BOUNDARY). Proved for every other point, and C42_every_point gives the exact answer of the code for all points: outside points get BOUNDARY exactly when the first edge that does not have them strictly inside is vertical with the point on its line."
  },
  {
   "property": "C43",
   "status": "proved",
   "theorems": [
    "Verif.Rot.C43_orthogonal",
    "Verif.Rot.C43_general",
    "Verif.Rot.C43_threshold"
   ],
   "note": "Exact reals; numpy division by zero (threshold 0, axis along z) is modelled as a separate outcome."
  },
  {
   "property": "C44",
   "status": "proved",
   "theorems": [
    "Verif.Rot.C44_cartesian",
    "Verif.Rot.C44_spherical",
    "Verif.Rot.C44_axis_fixed",
    "Verif.Rot.C44_length_irrelevant",
    "Verif.Rot.C44_forms_agree",
    "Verif.Rot.C44_coordinate_axes",
    "Verif.Rot.C44_threshold_gap"
   ],
   "note": "exact reals; axes with xy projection exactly zero or at least the threshold; the witness theorem shows the axis is not fixed inside the gap"
  },
  {
   "property": "C45",
   "status": "proved",
   "theorems": [
    "Verif.Rot.C45_composition",
    "Verif.Rot.C45_general_composition",
    "Verif.Rot.C45_euler",
    "Verif.Rot.C45_constants",
    "Verif.Rot.C45_constants_111",
    "Verif.Rot.C45_permutations"
   ],
   "note": "exact reals"
  },
  {
   "property": "C46",
   "status": "proved",
   "theorems": [
    "Verif.Latt.C46_reciprocal_dual",
    "Verif.Latt.C46_accepted_iff"
   ],
   "note": "Exact reals."
  },
  {
   "property": "C47",
   "status": "proved",
   "theorems": [
    "Verif.Latt.C47_getIndex_getSite",
    "Verif.Latt.C47_getIndex_spec"
   ],
   "note": "Exact reals; for every nearest-point search."
  },
  {
   "property": "C48",
   "status": "proved",
   "theorems": [
    "Verif.Latt.C48_decompose_sound",
    "Verif.Latt.C48_decompose_rejects",
    "Verif.Latt.C48_primitives"
   ],
   "note": "Exact reals."
  },
  {
   "property": "C49",
   "status": "partial",
   "theorems": [
    "Verif.Latt.C49_finds_weaklyOrthogonal_partial",
    "Verif.Latt.C49_finds_chain_partial",
    "Verif.Latt.C49_finds_wideAngle_partial",
    "Verif.Latt.C49_finds_neighbours_partial",
    "Verif.Latt.C49_exactly_when",
    "Verif.Latt.C49_one_point_exactly_when",
    "Verif.Latt.C49_violated_oblique"
   ],
   "note": "The code violates the property for very oblique translation vectors (C49_violated_oblique: vectors (1,0),(2.5,0.01), site (0,0.02) gives RuntimeError).  C49_exactly_when is a necessary and sufficient condition for every lattice, point and translation, and for clusters of one point C49_one_point_exactly_when is one on the vectors alone.  Proved for weakly orthogonal bases in any dimension, one vector, two vectors at 60-120 degrees, and for neighbouring cells of every lattice."
  },
  {
   "property": "C50",
   "status": "proved",
   "theorems": [
    "Verif.Latt.C50_guess_scope_terminates",
    "Verif.Latt.C50_guess_scope_always_ends",
    "Verif.Latt.C50_half_mesh",
    "Verif.Latt.C50_full_mesh"
   ],
   "note": ""
  },
  {
   "property": "C51",
   "status": "proved",
   "theorems": [
    "Verif.Latt.C51_bonds_exact",
    "Verif.Latt.C51_onsite",
    "Verif.Latt.C51_bonds_fold",
    "Verif.Latt.C51_bonds_succeed"
   ],
   "note": "For every iteration order of the sets; within the searched box (C65 is about the box)."
  },
  {
   "property": "C52",
   "status": "partial",
   "theorems": [
    "Verif.Latt.C52_neighbor_distance_partial",
    "Verif.Latt.C52_single_point_fresh_partial",
    "Verif.Latt.C52_exactly_when",
    "Verif.Latt.C52_chain",
    "Verif.Latt.C52_violated",
    "Verif.Latt.C52_history_dependent"
   ],
   "note": "The code violates the property (C52_violated: points 0 and 1, period 1.5; C52_history_dependent: one site, vectors (1,0) and (0,10): the third distance is 3 on a new lattice, 10 after neighbor_distance(1)).  C52_exactly_when is a necessary and sufficient condition for it to hold, for every lattice and n; C52_chain: it holds for every n on chains of every size.  Also proved for all histories: answers are rounded distances of two different sites and not smaller than the n-th one; exact on the first call for one point per cell and vectors that are not too oblique."
  },
  {
   "property": "C53",
   "status": "proved",
   "theorems": [
    "Verif.LDB.C53_chain",
    "Verif.LDB.C53_square",
    "Verif.LDB.C53_triangle",
    "Verif.LDB.C53_honeycomb",
    "Verif.LDB.C53_kagome",
    "Verif.LDB.C53_cubic",
    "Verif.LDB.C53_refuses",
    "Verif.LDB.C53_precision_zero_refuses_honeycomb"
   ],
   "note": "Exact tiling of independently described infinite lattices, for all sizes; exact real coordinates; precision of at least one digit (with zero digits the honeycomb cell is refused, proved)."
  },
  {
   "property": "C54",
   "status": "proved",
   "theorems": [
    "Verif.LDB.C54_cross",
    "Verif.LDB.C54_z",
    "Verif.LDB.C54_s",
    "Verif.LDB.C54_star",
    "Verif.LDB.C54_benzene",
    "Verif.LDB.C54_diphenyl",
    "Verif.LDB.C54_gear",
    "Verif.LDB.C54_refuses"
   ],
   "note": "Under every alias; the parent lattice is shifted as stated in each theorem."
  },
  {
   "property": "C55",
   "status": "partial",
   "theorems": [
    "Verif.KP.C55_errors",
    "Verif.KP.C55_path",
    "Verif.KP.C55_counts",
    "Verif.KP.C55_exact",
    "Verif.KP.C55_float_counts_partial",
    "Verif.KP.C55_float_violation"
   ],
   "note": "Proved in exact arithmetic.  In double arithmetic the clause 'the shortest exactly min_num' is false (C55_float_violation: int(100*0.081/0.081) = 99); proved there: min_num - 1 at least, min_num at most on the shortest."
  },
  {
   "property": "C56",
   "status": "proved",
   "theorems": [
    "Verif.Lanczos.C56_lanczos_representation",
    "Verif.Lanczos.C56_primitives"
   ],
   "note": "Exact arithmetic; also the Lanczos relation M V = V T + R with R only in the last column, orthogonal to V, and bounded by the threshold after an early stop."
  },
  {
   "property": "C57",
   "status": "proved",
   "theorems": [
    "Verif.Lanczos.C57_raises_iff",
    "Verif.Lanczos.C57_threshold",
    "Verif.Lanczos.C57_dimension",
    "Verif.Lanczos.C57_start_vector",
    "Verif.Lanczos.C57_multi"
   ],
   "note": "Exact arithmetic."
  },
  {
   "property": "C58",
   "status": "proved",
   "theorems": [
    "Verif.GF.C58_lanczos_equals_exact"
   ],
   "note": "Equality on an invariant Krylov space (stated through spans of H^k v0), and the error bound t|A|B|/eta^2 otherwise."
  },
  {
   "property": "C59",
   "status": "proved",
   "theorems": [
    "Verif.GF.C59_exact_multiple",
    "Verif.GF.C59_lanczos_multiple",
    "Verif.GF.C59_rgf_single",
    "Verif.GF.C59_rgf_exact_multiple",
    "Verif.GF.C59_rgf_lanczos_multiple"
   ],
   "note": "For every content of the np.empty arrays."
  },
  {
   "property": "C60",
   "status": "proved",
   "theorems": [
    "Verif.GF.C60_exact",
    "Verif.GF.C60_lanczos"
   ],
   "note": "Also for the projected matrices; example shows eta = 0 can fail."
  },
  {
   "property": "C61",
   "status": "partial",
   "theorems": [
    "Verif.C61_invalid_arguments_rejected",
    "Verif.C61_permutation_partial",
    "Verif.C61_combination_partial",
    "Verif.C61_combination_repeat_partial",
    "Verif.C61_violations"
   ],
   "note": "The code divides factorials in double precision and violates the stated property (Combination(24,1)=23, proved in C61_violations). Proved instead for all valid n,k: exactness criteria, exactness for n<=22 (n+k-1<=22 with repetition), exception class, and that counts below 2^49 are never off by more than one."
  },
  {
   "property": "C62",
   "status": "proved",
   "theorems": [
    "Verif.RTE.C62_runtimeenv_restores",
    "Verif.RTE.C62_block_log_closed",
    "Verif.RTE.C62_block_redirects_all_output",
    "Verif.RTE.C62_threads_argument",
    "Verif.RTE.C62_hypotheses_needed"
   ],
   "note": "All nestings/crash points of user programs; assumes RunTimeEnv's own prints succeed (C62_hypotheses_needed shows it is necessary)."
  },
  {
   "property": "C63",
   "status": "proved",
   "theorems": [
    "Verif.Color.C63_coloring_spec",
    "Verif.Color.C63_prefix_depends_on_style_only",
    "Verif.Color.C63_case_insensitive",
    "Verif.Color.C63_short_names_equal_long_names",
    "Verif.Color.C63_hex_round_trip",
    "Verif.Color.C63_color_print",
    "Verif.Color.C63_signed_hex_accepted"
   ],
   "note": "str.lower and Unicode digit conversion are parameters with assumed ASCII behaviour."
  },
  {
   "property": "C64",
   "status": "proved",
   "theorems": [
    "Verif.C64_azimuth_2d",
    "Verif.C64_azimuth_3d",
    "Verif.C64_azimuth_units"
   ],
   "note": "exact real arithmetic"
  },
  {
   "property": "C65",
   "status": "partial",
   "theorems": [
    "Verif.Latt.C65_bonds_complete_partial",
    "Verif.Latt.C65_exactly_when",
    "Verif.Latt.C65_only_exactly_when",
    "Verif.Latt.C65_chain",
    "Verif.Latt.C65_only_chain",
    "Verif.Latt.C65_violated_rounding"
   ],
   "note": "C65_exactly_when (only=False) and C65_only_exactly_when (only=True) are necessary and sufficient conditions for every lattice, nth and history; C65_chain: always met on chains.  The code violates the property (C65_violated_rounding: square lattice of spacing sqrt 2, bonds(1) is empty because 1.41421 is rounded down to 1.4142).  Proved for clusters small compared with their cell and bonds not longer than the rounded distance."
  },
  {
   "property": "C66",
   "status": "proved",
   "theorems": [
    "Verif.LDB.C66_generated",
    "Verif.LDB.C66_special"
   ],
   "note": "The scope search always suffices on built-in lattices."
  },
  {
   "property": "C67",
   "status": "proved",
   "theorems": [
    "Verif.LDB.C67_hexagon",
    "Verif.LDB.C67_hexagon_120",
    "Verif.LDB.C67_square",
    "Verif.LDB.C67_database_2d",
    "Verif.LDB.C67_bs",
    "Verif.LDB.C67_chain",
    "Verif.LDB.C67_cubic"
   ],
   "note": "Both directions: listed points are such points and every such point is listed."
  },
  {
   "property": "C68",
   "status": "proved",
   "theorems": [
    "Verif.C68_submatrix",
    "Verif.C68_sector_eigenvectors"
   ],
   "note": "Terms passing check_compatibility; number and Coulomb terms with left basis equal to the right one (see C23)."
  },
  {
   "property": "C69",
   "status": "proved",
   "theorems": [
    "Verif.C69_sectors_partition"
   ],
   "note": "Groups without repeated states."
  },
  {
   "property": "C70",
   "status": "proved",
   "theorems": [
    "Verif.C70_one_particle_basis",
    "Verif.C70_one_particle_matrix"
   ],
   "note": ""
  },
  {
   "property": "C71",
   "status": "proved",
   "theorems": [
    "Verif.C71_reordering",
    "Verif.C71_spectrum"
   ],
   "note": "Terms passing check_compatibility (see C23)."
  },
  {
   "property": "C72",
   "status": "proved",
   "theorems": [
    "Verif.C72_selection_rule",
    "Verif.C72_number_commutator"
   ],
   "note": "Terms passing check_compatibility (see C23)."
  },
  {
   "property": "C73",
   "status": "proved",
   "theorems": [
    "Verif.C73_heisenberg_su2",
    "Verif.C73_sz_commutator",
    "Verif.C73_sz_selection",
    "Verif.C73_ising"
   ],
   "note": "Exact complex arithmetic."
  },
  {
   "property": "C74",
   "status": "proved",
   "theorems": [
    "Verif.Lanczos.C74_moments",
    "Verif.Lanczos.C74_overlaps",
    "Verif.Lanczos.C74_ritz_bounds",
    "Verif.Lanczos.C74_ground_estimate",
    "Verif.Lanczos.C74_nesting"
   ],
   "note": "Exact arithmetic, as C56."
  },
  {
   "property": "C75",
   "status": "proved",
   "theorems": [
    "Verif.GF.C75_lehmann",
    "Verif.GF.C75_eigenbasis_exists",
    "Verif.GF.C75_causality",
    "Verif.GF.C75_retarded_causality",
    "Verif.GF.C75_sum_rule",
    "Verif.GF.C75_lanczos_sum_rule",
    "Verif.GF.C75_high_frequency",
    "Verif.GF.C75_conjugate"
   ],
   "note": "Exact arithmetic, as C60."
  },
  {
   "property": "C76",
   "status": "proved",
   "theorems": [
    "Verif.C76_spinoperator_total_order",
    "Verif.C76_numberoperator_total_order",
    "Verif.C76_getIndex",
    "Verif.C76_state_site_index"
   ],
   "note": "Objects of different classes are modelled by one sum type with the class hierarchy of the code."
  },
  {
   "property": "C77",
   "status": "proved",
   "theorems": [
    "Verif.C77_repr_determines",
    "Verif.C77_constructors",
    "Verif.C77_str_determines"
   ],
   "note": "CPython repr(float) is a parameter required to be injective, made of number characters and different from int texts (fracText shows such a function exists); the text of a coefficient is a parameter. int/float coordinates only."
  },
  {
   "property": "C78",
   "status": "proved",
   "theorems": [
    "Verif.C78_is_math",
    "Verif.C78_operator_identified",
    "Verif.C78_term_identified",
    "Verif.C78_lookup",
    "Verif.C78_integer_sites",
    "Verif.C78_rounding",
    "Verif.C78_defaults",
    "Verif.C78_precision_violated"
   ],
   "note": "As C77. Finding: StateID.tolatex re-creates the site under the current precision, so after set_float_point_precision a lookup that used to succeed raises KeyError (C78_precision_violated)."
  },
  {
   "property": "C79",
   "status": "proved",
   "theorems": [
    "Verif.D2L.C79_sites",
    "Verif.D2L.C79_bonds",
    "Verif.D2L.C79_distance",
    "Verif.D2L.C79_errors"
   ],
   "note": "real arithmetic; matplotlib not modelled. The documentation calls num0, num1 the number of unit cells, 2*num0+1 by 2*num1+1 are drawn (part of C79_sites)"
  },
  {
   "property": "C80",
   "status": "partial",
   "theorems": [
    "Verif.D2L.C80_directory_violated",
    "Verif.D2L.C80_directory_partial",
    "Verif.D2L.C80_outside"
   ],
   "note": "violated: the path is path + name, so a directory without trailing slash is created but the figure is saved beside it; the theorem covers empty paths and paths ending with a slash"
  },
  {
   "property": "C81",
   "status": "proved",
   "theorems": [
    "Verif.BZ.C81_drawing",
    "Verif.BZ.C81_errors"
   ],
   "note": ""
  },
  {
   "property": "C82",
   "status": "partial",
   "theorems": [
    "Verif.BZ.C82_inside",
    "Verif.BZ.C82_zone_partial",
    "Verif.BZ.C82_zone_violated"
   ],
   "note": "The zone always lies inside the drawn lines; the region equals the zone if and only if |a0.a1| <= |a0|^2 and |a0.a1| <= |a1|^2. For more oblique vectors, e.g. (1,0) and (3,1), it is larger (violated, concrete witness)."
  },
  {
   "property": "C83",
   "status": "proved",
   "theorems": [
    "Verif.BZ.C83_points",
    "Verif.BZ.C83_lines"
   ],
   "note": ""
  },
  {
   "property": "C84",
   "status": "proved",
   "theorems": [
    "Verif.LDB.C84_chain_bonds"
   ],
   "note": ""
  },
  {
   "property": "C85",
   "status": "proved",
   "theorems": [
    "Verif.Demo.C85_hamiltonian",
    "Verif.Demo.C85_demo_bases"
   ],
   "note": ""
  },
  {
   "property": "C86",
   "status": "proved",
   "theorems": [
    "Verif.Demo.C86_exact_spectrum"
   ],
   "note": ""
  },
  {
   "property": "C87",
   "status": "proved",
   "theorems": [
    "Verif.Demo.C87_lanczos_spectrum",
    "Verif.Demo.C87_sectors_spectrum",
    "Verif.Demo.C87_spins_spectrum"
   ],
   "note": ""
  },
  {
   "property": "C88",
   "status": "proved",
   "theorems": [
    "Verif.Demo.C88_hamiltonian"
   ],
   "note": "for one site the sum differs (S^+ S^- on one site is not S.S); the scripts use ten"
  },
  {
   "property": "C89",
   "status": "proved",
   "theorems": [
    "Verif.Demo.C89_exact_spectrum",
    "Verif.Demo.C89_lanczos_spectrum",
    "Verif.Demo.C89_singlet_excitations"
   ],
   "note": ""
  },
  {
   "property": "C90",
   "status": "proved",
   "theorems": [
    "Verif.C90_site_constructor",
    "Verif.C90_state_constructor",
    "Verif.C90_aoc_constructor",
    "Verif.C90_spin_constructor",
    "Verif.C90_spin_relations",
    "Verif.C90_aoc_matrix"
   ],
   "note": ""
  },
  {
   "property": "C91",
   "status": "proved",
   "theorems": [
    "Verif.Demo.C91_hamiltonian"
   ],
   "note": ""
  },
  {
   "property": "C92",
   "status": "proved",
   "theorems": [
    "Verif.Demo.C92_cluster_perturbation"
   ],
   "note": "the dimension of the largest sector for n = 12 is 924^2, so for U != 0 the script's own krylov_space_dim 200 is covered only for small clusters; for U = 0 it is covered for all n < 200"
  },
  {
   "property": "C93",
   "status": "proved",
   "theorems": [
    "Verif.Demo.C93_cpt_exact_without_interaction",
    "Verif.Demo.C93_script_band"
   ],
   "note": ""
  },
  {
   "property": "C94",
   "status": "proved",
   "theorems": [
    "Verif.LDB.C94_nearest_distance",
    "Verif.LDB.C94_generated",
    "Verif.LDB.C94_special",
    "Verif.LDB.C94_rounded_down",
    "Verif.LDB.C94_precision"
   ],
   "note": "the proviso on rounding is exact for the honeycomb lattices: C94_rounded_down proves the failure in the other case"
  },
  {
   "property": "C95",
   "status": "proved",
   "theorems": [
    "Verif.LDB.C95_shells"
   ],
   "note": "nth = 1 is C94, without any bound on the sizes; C96 shows that some bound is needed for nth = 2"
  },
  {
   "property": "C96",
   "status": "proved",
   "theorems": [
    "Verif.LDB.C96_second_distance",
    "Verif.LDB.C96_second",
    "Verif.LDB.C96_lines",
    "Verif.LDB.C96_precision"
   ],
   "note": "an exact characterisation, including the clusters on which the code is wrong (finding in DESIGN.md)"
  },
  {
   "property": "C97",
   "status": "proved",
   "theorems": [
    "Verif.C97_spin_bounds",
    "Verif.C97_all_up"
   ],
   "note": "exact arithmetic"
  },
  {
   "property": "C98",
   "status": "proved",
   "theorems": [
    "Verif.C98_free_fermions"
   ],
   "note": "exact arithmetic; an end-to-end check of the fermionic signs"
  },
  {
   "property": "C99",
   "status": "proved",
   "theorems": [
    "Verif.C99_spin_symmetry",
    "Verif.C99_representable"
   ],
   "note": "exact arithmetic"
  }
 ]
}