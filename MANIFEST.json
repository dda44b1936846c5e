{
 "claims": [
  {
   "property": "C01",
   "status": "proved",
   "theorems": [
    "SFK.C01_index_bijection",
    "SFK.C01_index_bijection_2d"
   ],
   "note": ""
  },
  {
   "property": "C02",
   "status": "proved",
   "theorems": [
    "SFK.C02_index_no_wrap",
    "SFK.C02_grid_sphere_layout_agree",
    "SFK.C02_two_index_layout",
    "SFK.C02_sizes_no_wrap",
    "SFK.C02_wrap_needed"
   ],
   "note": ""
  },
  {
   "property": "C03",
   "status": "proved",
   "theorems": [
    "SFK.C03_get_row_R",
    "SFK.C03_set_row_R",
    "SFK.C03_get_set_row_R",
    "SFK.C03_set_get_row_R"
   ],
   "note": ""
  },
  {
   "property": "C04",
   "status": "proved",
   "theorems": [
    "SFK.C04_row_th",
    "SFK.C04_row_th_ph",
    "SFK.C04_shell_is_block",
    "SFK.C04_row_R_th",
    "SFK.C04_row_n",
    "SFK.C04_set_row_l",
    "SFK.C04_wrong_size_aborts"
   ],
   "note": ""
  },
  {
   "property": "C05",
   "status": "partial",
   "theorems": [
    "SFK.C05_set_row_ph_iff_partial",
    "SFK.C05_set_row_ph_short",
    "SFK.C05_set_row_ph_out_of_bounds",
    "SFK.C05_get_row_ph"
   ],
   "note": "False of the code when nlat<>nphi (grid.hpp:114 loops to nlat): proved iff nlat=nphi, with the two failure modes as theorems."
  },
  {
   "property": "C06",
   "status": "partial",
   "theorems": [
    "SFK.C06_get_row_R_ph_partial",
    "SFK.C06_get_row_R_ph_aborts",
    "SFK.C06_get_row_R_ph_demanded_size_overruns",
    "SFK.C06_set_row_R_ph"
   ],
   "note": "Correct in NDEBUG builds or when nlat=nphi; the size assertion (grid.hpp:170) uses nlat, which aborts correct calls and admits overrunning ones (both proved)."
  },
  {
   "property": "C07",
   "status": "proved",
   "theorems": [
    "SFK.C07_stored_coordinates",
    "SFK.C07_coordinate_values"
   ],
   "note": ""
  },
  {
   "property": "C08",
   "status": "proved",
   "theorems": [
    "SFK.C08_round_trip",
    "SFK.C08_ends"
   ],
   "note": ""
  },
  {
   "property": "C09",
   "status": "proved",
   "theorems": [
    "SFK.C09_jacobians"
   ],
   "note": ""
  },
  {
   "property": "C10",
   "status": "proved",
   "theorems": [
    "SFK.C10_points",
    "SFK.C10_uniform_grid",
    "SFK.C10_single_point_is_bad"
   ],
   "note": ""
  },
  {
   "property": "C11",
   "status": "proved",
   "theorems": [
    "SFK.C11_der_exact",
    "SFK.C11_degree_sharp"
   ],
   "note": ""
  },
  {
   "property": "C12",
   "status": "proved",
   "theorems": [
    "SFK.C12_der2_exact"
   ],
   "note": ""
  },
  {
   "property": "C13",
   "status": "proved",
   "theorems": [
    "SFK.C13_der_sixth_order",
    "SFK.C13_der2_sixth_order"
   ],
   "note": ""
  },
  {
   "property": "C14",
   "status": "proved",
   "theorems": [
    "SFK.C14_der_bounds",
    "SFK.C14_der2_bounds",
    "SFK.C14_filter_bounds",
    "SFK.C14_der_overwrites",
    "SFK.C14_wrong_size_aborts"
   ],
   "note": ""
  },
  {
   "property": "C15",
   "status": "proved",
   "theorems": [
    "SFK.C15_filter_keeps_ends",
    "SFK.C15_filter_fixes_polynomials",
    "SFK.C15_filter_linear"
   ],
   "note": ""
  },
  {
   "property": "C16",
   "status": "proved",
   "theorems": [
    "SFK.C16_filter_symbol",
    "SFK.C16_symbol_range",
    "SFK.C16_alternating_removed"
   ],
   "note": ""
  },
  {
   "property": "C17",
   "status": "partial",
   "theorems": [
    "SFK.C17_filter_not_TVD",
    "SFK.C17_filter_TV_bound_partial"
   ],
   "note": "False of the code: a step function gains total variation (C17_filter_not_TVD). Proved: total variation at most doubles for every input and size."
  },
  {
   "property": "C18",
   "status": "proved",
   "theorems": [
    "SFK.C18_points",
    "SFK.C18_single_point_is_bad"
   ],
   "note": ""
  },
  {
   "property": "C19",
   "status": "proved",
   "theorems": [
    "SFK.C19_coefficients",
    "SFK.C19_values",
    "SFK.C19_round_trip",
    "SFK.C19_argument_is_clobbered"
   ],
   "note": ""
  },
  {
   "property": "C20",
   "status": "partial",
   "theorems": [
    "SFK.C20_action",
    "SFK.C20_exact_partial",
    "SFK.C20_top_degrees_violated"
   ],
   "note": "False of the code for the two top degrees n-2 and n-1 (cheb.cpp:96-97 set the two top derivative coefficients to 0): negation proved for every n; exactness proved for every polynomial of degree <= n-3, every n."
  },
  {
   "property": "C21",
   "status": "proved",
   "theorems": [
    "SFK.C21_filter_damps",
    "SFK.C21_constants_unchanged"
   ],
   "note": ""
  },
  {
   "property": "C22",
   "status": "partial",
   "theorems": [
    "SFK.C22_uninitialised_read",
    "SFK.C22_wrappers",
    "SFK.C22_no_uninitialised_memory_partial",
    "SFK.C22_round_trip",
    "SFK.C22_round_trip_complex",
    "SFK.C22_gradient_uninitialised"
   ],
   "note": "Wrappers proved bitwise for every transform library meeting the buffer contract; round trip from the analytic SHTns contract (quadrature + DFT), an instance of which is constructed (exists_shtns). Independence of uninitialised memory holds for OrdersOk truncations ((nl-nm)(nl-nm+1)<=2nl+1); it is false beyond them: lower then copies coefficients of a new array that nothing wrote (C22_uninitialised_read, C22_gradient_uninitialised; e.g. nl=20, nm=14)."
  },
  {
   "property": "C23",
   "status": "partial",
   "theorems": [
    "SFK.C23_action",
    "SFK.C23_laplacian_partial",
    "SFK.C23_top_degree_violated",
    "SFK.C23_true_laplacian_partial"
   ],
   "note": "False of the code for l=lmax or m=mmax (loops use <, sphere.cpp): negation proved; the claim is proved for every field without top-degree/top-order content, both coefficientwise and as the true S2 Laplacian."
  },
  {
   "property": "C24",
   "status": "partial",
   "theorems": [
    "SFK.C24_action",
    "SFK.C24_partial_phi_partial",
    "SFK.C24_axisymmetric_partial",
    "SFK.C24_top_degree_violated",
    "SFK.C24_true_derivative_partial"
   ],
   "note": "Same skipped top modes; proved (coefficientwise and as the true d/dphi) for every field without them, negation proved otherwise."
  },
  {
   "property": "C25",
   "status": "proved",
   "theorems": [
    "SFK.C25_ladder",
    "SFK.C25_true_ladder_partial"
   ],
   "note": "Coefficient ladder proved for all l<lmax and nm>=nl-1 (smaller nm: C82); C25_true_ladder_partial additionally identifies it with the analytic operators for fields without top degree."
  },
  {
   "property": "C26",
   "status": "partial",
   "theorems": [
    "SFK.C26_garbage_term",
    "SFK.C26_gradient_partial",
    "SFK.C26_nonneg_partial",
    "SFK.C26_top_degree_violated"
   ],
   "note": "Proved for fields without top-degree content and, for nm<=nl-2, without degrees above nm; violated (proved) when the top degree is present."
  },
  {
   "property": "C27",
   "status": "partial",
   "theorems": [
    "SFK.C27_action",
    "SFK.C27_sum_partial",
    "SFK.C27_nonneg_quadratic",
    "SFK.C27_faithful_partial",
    "SFK.C27_top_degree_dropped",
    "SFK.C27_top_order_dropped"
   ],
   "note": "Degrees below the top only: the l=lmax entry and m=mmax terms are dropped (proved)."
  },
  {
   "property": "C28",
   "status": "proved",
   "theorems": [
    "SFK.C28_unit_coefficient",
    "SFK.C28_out_of_contract",
    "SFK.C28_samples"
   ],
   "note": ""
  },
  {
   "property": "C29",
   "status": "partial",
   "theorems": [
    "SFK.C29_action",
    "SFK.C29_only_damps",
    "SFK.C29_filter_partial",
    "SFK.C29_top_modes_undamped"
   ],
   "note": "Top degree/order modes are not damped at all (proved); the damping claim is proved for the rest."
  },
  {
   "property": "C30",
   "status": "partial",
   "theorems": [
    "SFK.C30_angular_partial",
    "SFK.C30_radial_filter_missing"
   ],
   "note": "False of the code: Grid::filter writes the radial line back before restoring its ends and never calls a radial filter. Proved: it is exactly the spherical filter on each shell; negation proved with the alternating radial mode."
  },
  {
   "property": "C31",
   "status": "proved",
   "theorems": [
    "SFK.C31_radial_operators",
    "SFK.C31_angular_operators",
    "SFK.C31_spectrum"
   ],
   "note": ""
  },
  {
   "property": "C32",
   "status": "proved",
   "theorems": [
    "SFK.C32_chain_rule"
   ],
   "note": "Degree <=6 (finite differences) and < nx-2 (Chebyshev; the code drops the top two coefficients, see C20)."
  },
  {
   "property": "C33",
   "status": "proved",
   "theorems": [
    "SFK.C33_shell_loops",
    "SFK.C33_line_loops",
    "SFK.C33_filter",
    "SFK.C33_spectrum",
    "SFK.C33_shift",
    "SFK.C33_set_level"
   ],
   "note": "Small-step interleaving semantics of individual loads/stores; every reachable state is race-free, fault-free, bounded, and every finished run has exactly the sequential model's vectors (bit for bit, no arithmetic law used). SHTns/FFTW calls on private buffers are assumed thread-safe. Every truncation; where the gradient reads uninitialised memory the sequential loop compared with is the one that sees the same memory."
  },
  {
   "property": "C34",
   "status": "proved",
   "theorems": [
    "SFK.C34_rhs_sections",
    "SFK.C34_rhs",
    "SFK.C34_density",
    "SFK.C34_filters",
    "SFK.C34_time_step"
   ],
   "note": "Same semantics with nested parallel loops inside sections; covers the whole time_step and set_rho."
  },
  {
   "property": "C35",
   "status": "proved",
   "theorems": [
    "SFK.C35_residual_norm",
    "SFK.C35_total_variation"
   ],
   "note": "In exact arithmetic (CR), for every distribution of iterations over threads and every order/grouping of the combination, including non-finite values."
  },
  {
   "property": "C36",
   "status": "proved",
   "theorems": [
    "SFK.C36_residual_norm"
   ],
   "note": ""
  },
  {
   "property": "C37",
   "status": "partial",
   "theorems": [
    "SFK.C37_value",
    "SFK.C37_total_variation_partial",
    "SFK.C37_blind_corner",
    "SFK.C37_blind_axisymmetric"
   ],
   "note": "False of the code: cells of the last plane in each direction are never visited, so a field that varies only there has zero total variation (proved on every grid), and with nphi=1 or nlat=1 every field has. All other clauses proved for every grid and field."
  },
  {
   "property": "C38",
   "status": "proved",
   "theorems": [
    "SFK.C38_coefficients"
   ],
   "note": "For parameters on which the code's 1e-16 switches do not round (NoRound), all points with L-R>1e-16, plus limits at R=L."
  },
  {
   "property": "C39",
   "status": "proved",
   "theorems": [
    "SFK.C39_equation_of_motion"
   ],
   "note": ""
  },
  {
   "property": "C40",
   "status": "proved",
   "theorems": [
    "SFK.C40_derivatives_consistent",
    "SFK.C40_pole_even_without_km1"
   ],
   "note": ""
  },
  {
   "property": "C41",
   "status": "proved",
   "theorems": [
    "SFK.C41_no_boundary_condition"
   ],
   "note": ""
  },
  {
   "property": "C42",
   "status": "partial",
   "theorems": [
    "SFK.C42_half_of_documented_partial"
   ],
   "note": "False of the code: both the coefficients and the sum carry a factor 1/2, so the kinetic part is exactly half the documented one (proved at every point, with equality iff the kinetic part vanishes)."
  },
  {
   "property": "C43",
   "status": "proved",
   "theorems": [
    "SFK.C43_nonnegative"
   ],
   "note": ""
  },
  {
   "property": "C44",
   "status": "proved",
   "theorems": [
    "SFK.C44_rk4_bitwise",
    "SFK.C44_rk4"
   ],
   "note": ""
  },
  {
   "property": "C45",
   "status": "proved",
   "theorems": [
    "SFK.C45_no_stale_data"
   ],
   "note": ""
  },
  {
   "property": "C46",
   "status": "proved",
   "theorems": [
    "SFK.C46_other_level"
   ],
   "note": ""
  },
  {
   "property": "C47",
   "status": "proved",
   "theorems": [
    "SFK.C47_construction",
    "SFK.C47_shift"
   ],
   "note": ""
  },
  {
   "property": "C48",
   "status": "proved",
   "theorems": [
    "SFK.C48_vacuum_stays",
    "SFK.C48_vacuum_density"
   ],
   "note": "Exact arithmetic, libraries meeting their documented contracts, truncations that read no uninitialised memory (OrdersOk), radial domain 0<Rmin<Rmax<=L; any number of steps, arbitrary scratch and uninitialised memory."
  },
  {
   "property": "C49",
   "status": "proved",
   "theorems": [
    "SFK.C49_superposition"
   ],
   "note": "Runs are assumed to stay finite (the model has one non-finite value; behaviour of FFTW/SHTns on non-finite data is not specified). Any N, arbitrary coefficients a,b, arbitrary scratch and uninitialised memory in each run; C74 shows finite runs exist for every state and N."
  },
  {
   "property": "C50",
   "status": "proved",
   "theorems": [
    "SFK.C50_reflection"
   ],
   "note": "Runs are assumed to stay finite (the model has one non-finite value; behaviour of FFTW/SHTns on non-finite data is not specified). All OrdersOk truncations."
  },
  {
   "property": "C51",
   "status": "partial",
   "theorems": [
    "SFK.C51_gradient_not_axisymmetric",
    "SFK.C51_axisymmetry_violated",
    "SFK.C51_rotation_partial",
    "SFK.C51_axisymmetry_partial"
   ],
   "note": "Runs are assumed to stay finite (the model has one non-finite value; behaviour of FFTW/SHTns on non-finite data is not specified). Proved for nm>=nl-1, or any OrdersOk truncation with a constant kinetic function; only the unrotated run is assumed finite. False otherwise, the template's nl=20, nm=18, nlat=nphi=40 included: an axisymmetric field gets an angular gradient and a time derivative that depend on the azimuth (C51_gradient_not_axisymmetric, C51_axisymmetry_violated)."
  },
  {
   "property": "C52",
   "status": "proved",
   "theorems": [
    "SFK.C52_profile_and_slope",
    "SFK.C52_empty_support"
   ],
   "note": "For supports of width >= 1e-14 (the code clamps smaller widths), plus the empty-support case."
  },
  {
   "property": "C53",
   "status": "proved",
   "theorems": [
    "SFK.C53_initial_amplitude"
   ],
   "note": "C53_initial_amplitude; the common scale factor of f and p is in C54_initial_values."
  },
  {
   "property": "C54",
   "status": "proved",
   "theorems": [
    "SFK.C54_initial_values"
   ],
   "note": ""
  },
  {
   "property": "C55",
   "status": "partial",
   "theorems": [
    "SFK.C55_initialised_partial",
    "SFK.C55_chebyshev_skips_horizon"
   ],
   "note": "Proved for finite differences; false for the Chebyshev build, whose last radial index is the horizon (proved: it keeps its old value, zero in main.cpp, for every pulse)."
  },
  {
   "property": "C56",
   "status": "proved",
   "theorems": [
    "SFK.C56_lookup",
    "SFK.C56_absent",
    "SFK.C56_other_lines",
    "SFK.C56_parameters"
   ],
   "note": "stod is a parameter of the model (any function)."
  },
  {
   "property": "C57",
   "status": "partial",
   "theorems": [
    "SFK.C57_missing_stops",
    "SFK.C57_exit_status_is_success",
    "SFK.C57_no_effect"
   ],
   "note": "False of the code as to the exit status (std::quick_exit(0)): the program stops before any effect, but reports success (C57_exit_status_is_success)."
  },
  {
   "property": "C58",
   "status": "proved",
   "theorems": [
    "SFK.C58_integer_text",
    "SFK.C58_sizes_exact",
    "SFK.C58_too_large",
    "SFK.C58_negative_size_wraps"
   ],
   "note": "Exact for every in-range integer; out-of-range text stops the program; negative sizes wrap to huge numbers (proved)."
  },
  {
   "property": "C59",
   "status": "proved",
   "theorems": [
    "SFK.C59_roundtrip",
    "SFK.C59_first_word"
   ],
   "note": ""
  },
  {
   "property": "C60",
   "status": "proved",
   "theorems": [
    "SFK.C60_spectrum_file",
    "SFK.C60_chebyshev_spectrum_file",
    "SFK.C60_plain_file",
    "SFK.C60_unwritable_skipped"
   ],
   "note": "For the spherical-harmonic spectrum, the Chebyshev-harmonic spectrum and the plain value table; a file that cannot be opened is skipped silently (proved)."
  },
  {
   "property": "C61",
   "status": "proved",
   "theorems": [
    "SFK.C61_log_value",
    "SFK.C61_monotone"
   ],
   "note": "log10 over the reals; the cut-off and monotonicity are proved for every value."
  },
  {
   "property": "C62",
   "status": "proved",
   "theorems": [
    "SFK.C62_distinct_files",
    "SFK.C62_one_block_per_file",
    "SFK.C62_rerun_appends"
   ],
   "note": "File names are modelled as strings; injectivity of the (field,index) naming, one block per file, re-run appends."
  },
  {
   "property": "C63",
   "status": "proved",
   "theorems": [
    "SFK.C63_save_schedule",
    "SFK.C63_printed_lines"
   ],
   "note": "For every nt and t_step_save>=1."
  },
  {
   "property": "C64",
   "status": "partial",
   "theorems": [
    "SFK.C64_printed_time_partial",
    "SFK.C64_last_step_not_taken",
    "SFK.C64_time_exact_partial"
   ],
   "note": "False of the code as to the number of steps: the loop is itm=1..nt-1, so nt-1 steps are taken (proved: C64_last_step_not_taken). The printed time is t = itm*dt, the time of the saved state (proved)."
  },
  {
   "property": "C65",
   "status": "proved",
   "theorems": [
    "SFK.C65_launcher_interval_positive",
    "SFK.C65_zero_interval_undefined"
   ],
   "note": "Both halves: launcher always writes >=1; t_step_save=0 with nt>=2 is undefined behaviour in the solver."
  },
  {
   "property": "C66",
   "status": "proved",
   "theorems": [
    "SFK.C66_valid_run_is_safe",
    "SFK.C66_valid_main_is_safe"
   ],
   "note": "Whole program, any number of steps, every truncation nm<=nl, any contents of uninitialised memory. Up to the destructors at exit, which are C92."
  },
  {
   "property": "C67",
   "status": "proved",
   "theorems": [
    "SFK.C67_number_of_saves"
   ],
   "note": "Bounds on the number of saves from the launcher-derived nt, t_step_save."
  },
  {
   "property": "C68",
   "status": "partial",
   "theorems": [
    "SFK.C68_reproducible_partial",
    "SFK.C68_reproducible_main_partial"
   ],
   "note": "Proved for every valid parameter file and every content of uninitialised memory; schedules are C33-C35. Missing: truncations with (nl-nm)(nl-nm+1)>2nl+1, for which it is false of the code, as the angular gradient then depends on uninitialised memory (C22_gradient_uninitialised)."
  },
  {
   "property": "C69",
   "status": "proved",
   "theorems": [
    "SFK.C69_history_exists",
    "SFK.C69_history_unique",
    "SFK.C69_loop_follows_history"
   ],
   "note": "Histories (for given contents of uninitialised memory at each step) exist, are unique and are what the loop follows; every truncation nm<=nl."
  },
  {
   "property": "C70",
   "status": "partial",
   "theorems": [
    "SFK.C70_documented_prefactor_partial",
    "SFK.C70_prefactor_differs"
   ],
   "note": "False of the code: proved equal when km1=k2=0, different otherwise (km1/(1+psi) and k2/2 in the solver)."
  },
  {
   "property": "C71",
   "status": "proved",
   "theorems": [
    "SFK.C71_crash_consistency"
   ],
   "note": "Crash at any point of the effect trace; each flushed row is taken to be atomic."
  },
  {
   "property": "C72",
   "status": "partial",
   "theorems": [
    "SFK.C72_coefficients_partial",
    "SFK.C72_negative_coefficient_lost"
   ],
   "note": "False of the code: write_n_psl takes the logarithm of the signed coefficient, so a negative coefficient of any size is shown as -16 (proved: C72_negative_coefficient_lost). Proved: which coefficients are computed and that they reproduce the amplitude."
  },
  {
   "property": "C73",
   "status": "proved",
   "theorems": [
    "SFK.C73_point_file"
   ],
   "note": "write_x_y_z over every array and all four bounds."
  },
  {
   "property": "C74",
   "status": "proved",
   "theorems": [
    "SFK.C74_small_free_fields_stay_finite"
   ],
   "note": "Also used as non-vacuity witness of C49-C51."
  },
  {
   "property": "C75",
   "status": "proved",
   "theorems": [
    "SFK.C75_finite_iff"
   ],
   "note": "Exact arithmetic; all OrdersOk truncations."
  },
  {
   "property": "C76",
   "status": "proved",
   "theorems": [
    "SFK.C76_fd",
    "SFK.C76_cheb",
    "SFK.C76_sphere",
    "SFK.C76_constructors",
    "SFK.C76_rows",
    "SFK.C76_grid",
    "SFK.C76_evolution"
   ],
   "note": ""
  },
  {
   "property": "C77",
   "status": "proved",
   "theorems": [
    "SFK.C77_background_is_kerr",
    "SFK.C77_wave_operator",
    "SFK.C77_printed_line_element_differs",
    "SFK.C77_covariant_equation"
   ],
   "note": "Also proved: the specification metric is Boyer-Lindquist Kerr after the ingoing coordinate change, and the line element printed in main.tex is not the inverse of the documented operator (a factor sin^2 theta is missing)."
  },
  {
   "property": "C78",
   "status": "partial",
   "theorems": [
    "SFK.C78_density_partial"
   ],
   "note": "False of the code: the mixed d_v d_r term of the documented formula has the wrong sign and the solver halves the kinetic part once more (C42); the exact difference and the exact condition for equality are proved."
  },
  {
   "property": "C79",
   "status": "proved",
   "theorems": [
    "SFK.C79_exact_on_resolved"
   ],
   "note": ""
  },
  {
   "property": "C80",
   "status": "proved",
   "theorems": [
    "SFK.C80_solution_exists",
    "SFK.C80_fourth_order"
   ],
   "note": ""
  },
  {
   "property": "C81",
   "status": "partial",
   "theorems": [
    "SFK.C81_time_step",
    "SFK.C81_number_of_steps",
    "SFK.C81_domain",
    "SFK.C81_courant",
    "SFK.C81_courant_exceeded",
    "SFK.C81_pulse",
    "SFK.C81_covers_time_partial"
   ],
   "note": "time step, number of steps, radial domain and pulse support are proved as stated. 'Ratio at most cfl' is proved under L+r_plus<=L^2 and refuted otherwise (C81_courant_exceeded). 'The run reaches evolve_time' is false: C81_covers_time_partial shows every printed time is at least one step short and the last within t_step_save+1 steps."
  },
  {
   "property": "C82",
   "status": "partial",
   "theorems": [
    "SFK.C82_ladder_partial",
    "SFK.C82_complete_degrees_partial",
    "SFK.C82_misaddressed",
    "SFK.C82_not_ladder"
   ],
   "note": "Proved for nm=nl, nm=nl-1, and for fields without degrees above nm when no uninitialised memory is read, under the packed storage LM_cplx of SHTns 3.x. False of the code for nm<=nl-2 (the template's nl=20, nm=18 included): the code always addresses l(l+1)+m, one place off in degree nm+1 (C82_misaddressed, C82_not_ladder). The packed layout is a library contract stated from the SHTns header, not from /repo."
  },
  {
   "property": "C83",
   "status": "partial",
   "theorems": [
    "SFK.C83_infinity_partial",
    "SFK.C83_solution_at_infinity",
    "SFK.C83_refinement_fails"
   ],
   "note": "False of the code: the angular filter is applied once per step whatever dt. Proved for free massless fields on the sphere at infinity, where both sides are explicit: the N-step state is the solution's coefficients times D^N (C83_infinity_partial; exact where the filter factor D is 1), the solution is c+Td (C83_solution_at_infinity), and for fixed T the damped coefficients tend to 0 relative to it (C83_refinement_fails). The one-step error is fourth order (C80). For spherically symmetric data around a hole without spin convergence holds, with fourth order (C96); for other data the limit is the projected equation of C97."
  },
  {
   "property": "C84",
   "status": "proved",
   "theorems": [
    "SFK.C84_consistency"
   ],
   "note": "finite-difference build, exact arithmetic (CR), real-analytic library contracts; points within 1e-16 of infinity excluded as in C77"
  },
  {
   "property": "C85",
   "status": "proved",
   "theorems": [
    "SFK.C85_recompiled_binary_used",
    "SFK.C85_existing_files_untouched",
    "SFK.C85_earlier_runs_kept",
    "SFK.C85_existing_directory_refused",
    "SFK.C85_relaunch_nests"
   ],
   "note": "recompile=False (make may do anything) and binary names without shell characters for the file theorems; recompile=True: C85_recompiled_binary_used; paths are compared as texts"
  },
  {
   "property": "C86",
   "status": "proved",
   "theorems": [
    "SFK.C86_end_to_end",
    "SFK.C86_tables"
   ],
   "note": "computer=\"home\", recompile=False; printing/reading of numbers round-trips on the numbers that occur; arithmetic between python ints done in floating point; the shell is modelled for the two commands given to it (chmod, [time] ./bin params.txt 2>&1 | tee out.txt)"
  },
  {
   "property": "C87",
   "status": "proved",
   "theorems": [
    "SFK.C87_failure_unnoticed",
    "SFK.C87_overspinning_writes_nothing"
   ],
   "note": "describes what the code does: the launcher itself reports neither"
  },
  {
   "property": "C88",
   "status": "partial",
   "theorems": [
    "SFK.C88_own_switches_partial",
    "SFK.C88_up_to_date",
    "SFK.C88_edits_rebuilt",
    "SFK.C88_first_build_decides",
    "SFK.C88_config_partial",
    "SFK.C88_config_stale",
    "SFK.C88_recompile_wrong",
    "SFK.C88_mixed_binary"
   ],
   "note": "the code violates the claim: holds for parts whose objects make removes (C88_own_switches_partial, C88_config_partial); C88_config_stale, C88_mixed_binary, C88_first_build_decides prove the failure where make keeps objects, C88_recompile_wrong with any make. GNU make 4.3 was observed to keep only the object listed twice. C88_up_to_date: whatever make keeps, every part is compiled after the last change of its source and all headers."
  },
  {
   "property": "C89",
   "status": "proved",
   "theorems": [
    "SFK.C89_best_approximation",
    "SFK.C89_spectral"
   ],
   "note": "exact real arithmetic; FFTW's contract assumed (as C20)"
  },
  {
   "property": "C90",
   "status": "proved",
   "theorems": [
    "SFK.C90_consistency"
   ],
   "note": "as C84, for USE_CHEB; p+10 continuous derivatives for the power p"
  },
  {
   "property": "C91",
   "status": "proved",
   "theorems": [
    "SFK.C91_fd_eighth_order",
    "SFK.C91_cheb_sixteenth_order",
    "SFK.C91_cheb_sharp"
   ],
   "note": "about FD::filter and Cheb::filter as called by a user of the classes; Grid::filter never calls them (discrepancy 4)"
  },
  {
   "property": "C92",
   "status": "partial",
   "theorems": [
    "SFK.C92_exact",
    "SFK.C92_safe_partial",
    "SFK.C92_fd",
    "SFK.C92_grid_destruction_ub",
    "SFK.C92_two_chebs_ub"
   ],
   "note": "the code violates the claim under FFTW's documented contract for fftw_cleanup: C92_exact gives the exact condition, C92_safe_partial and C92_fd the safe histories, C92_grid_destruction_ub and C92_two_chebs_ub the failures. shPlans (number of plans of a SHTns configuration) is a parameter, assumed non-zero where the failure is claimed."
  },
  {
   "property": "C93",
   "status": "proved",
   "theorems": [
    "SFK.C93_rounding_error_of_the_evolution",
    "SFK.C93_documented_libraries_have_matrices"
   ],
   "note": "Asymptotic in the format: constant C and accuracy eps0 exist but are not computed; libraries assumed linear up to rounding (C93_documented_libraries_have_matrices derives the exact part from the documentation for all OrdersOk truncations)."
  },
  {
   "property": "C94",
   "status": "proved",
   "theorems": [
    "SFK.C94_residual_norm_in_floating_point",
    "SFK.C94_residual_norm_in_index_order",
    "SFK.C94_total_variation_in_floating_point",
    "SFK.C94_binary_formats"
   ],
   "note": "Explicit constants; applies to binary64 (C94_binary_formats). The per-point terms are the computed ones (they do not depend on the schedule)."
  },
  {
   "property": "C95",
   "status": "proved",
   "theorems": [
    "SFK.C95_spherical_symmetry",
    "SFK.C95_filter_neutral"
   ],
   "note": "Sphere operators vanish on constants (needs nl>=1), coefficients without spin depend on the radius only."
  },
  {
   "property": "C96",
   "status": "proved",
   "theorems": [
    "SFK.C96_converges_fourth_order",
    "SFK.C96_solution_symmetric"
   ],
   "note": "Global error of RK4 for the analytic vector field (Lemmas/RKGlobal) on the subspace the filter leaves alone (C95). For other data convergence fails (C83)."
  },
  {
   "property": "C97",
   "status": "proved",
   "theorems": [
    "SFK.C97_filter_limit",
    "SFK.C97_limit_harmonics",
    "SFK.C97_refinement_limit",
    "SFK.C97_limit_solution_exists"
   ],
   "note": "Exact arithmetic (CR). The filter is a linear map with eigenvalues filtD on the harmonics (Lemmas/FilterLin), its powers converge geometrically; RK4 steps with such a map applied once per step follow the projected equation (Lemmas/Relax). With C83 and C96 this describes refinement in time completely: fourth order where the filter acts trivially, convergence to the projected equation otherwise. rho is extremely close to 1 for the degrees in use (1-rho is about 40/nl^16), so the limit is approached only after very many steps."
  },
  {
   "property": "C98",
   "status": "partial",
   "theorems": [
    "SFK.C98_test_program_partial",
    "SFK.C98_source_edits_tested",
    "SFK.C98_header_edits_missed",
    "SFK.C98_tests_leak_into_solver",
    "SFK.C98_layouts_mixed",
    "SFK.C98_solver_leaks_into_tests"
   ],
   "note": "the code violates the claim: C98_test_program_partial holds for objects that make removes; C98_header_edits_missed, C98_tests_leak_into_solver, C98_layouts_mixed, C98_solver_leaks_into_tests prove the failures where make keeps objects. That GNU make 4.3 keeps exactly the objects listed twice was observed with a stand-in compiler."
  },
  {
   "property": "C99",
   "status": "proved",
   "theorems": [
    "SFK.C99_job_runs_the_settings",
    "SFK.C99_relative_path_not_queued"
   ],
   "note": "absolute place without spaces (C99_job_runs_the_settings); C99_relative_path_not_queued: a relative one is silently not queued. Slurm starts the script in the directory sbatch was called in, with --cpus-per-task exported as SLURM_CPUS_PER_TASK; its own --output=out.txt, written at the same time as tee's out.txt, is not modelled, and the theorem says nothing about out.txt"
  },
  {
   "property": "C100",
   "status": "proved",
   "theorems": [
    "SFK.C100_window",
    "SFK.C100_outer",
    "SFK.C100_inner",
    "SFK.C100_density",
    "SFK.C100_front"
   ],
   "note": ""
  },
  {
   "property": "C101",
   "status": "partial",
   "theorems": [
    "SFK.C101_cheb_filter_verdict",
    "SFK.C101_cheb_filter_monotone",
    "SFK.C101_cheb_filter",
    "SFK.C101_fd_derivatives_verdict",
    "SFK.C101_fd_derivatives",
    "SFK.C101_fd_derivatives_exact_fails",
    "SFK.C101_sphere_filter_verdict",
    "SFK.C101_sphere_filter_identity",
    "SFK.C101_sphere_filter",
    "SFK.C101_sphere_filter_constant_noise",
    "SFK.C101_cheb_to_and_from",
    "SFK.C101_cheb_derivatives",
    "SFK.C101_cheb_derivatives_detects",
    "SFK.C101_fd_filter_monotone",
    "SFK.C101_fd_filter_constant_noise",
    "SFK.C101_sphereX_verdict",
    "SFK.C101_sphereX_zero",
    "SFK.C101_sphereX_garbage",
    "SFK.C101_make_Ylm",
    "SFK.C101_to_and_from",
    "SFK.C101_partial_phi",
    "SFK.C101_partial_phi_detects",
    "SFK.C101_laplace_beltrami",
    "SFK.C101_laplace_beltrami_detects",
    "SFK.C101_raise_detects",
    "SFK.C101_raise_only",
    "SFK.C101_raise_and_lower"
   ],
   "note": "The deterministic tests, including the convergence test of the finite differences, are proved to pass (exact arithmetic). Violated by: C101_raise_only (lower is never checked), C101_sphereX_verdict/_zero/_garbage (verdict depends on uninitialised memory; exact condition given), C101_fd_derivatives_exact_fails (an exact derivative would fail the convergence test), C101_fd_filter_monotone/_constant_noise C101_cheb_filter and C101_sphere_filter (verdicts depend on rand(): both verdicts occur). C101_cheb_filter_verdict and C101_sphere_filter_verdict give the exact condition."
  },
  {
   "property": "C102",
   "status": "partial",
   "theorems": [
    "SFK.C102_references",
    "SFK.C102_gradient_reference_wrong",
    "SFK.C102_gradient_reference_strict",
    "SFK.C102_norms",
    "SFK.C102_variations",
    "SFK.C102_completes",
    "SFK.C102_tvd_completes"
   ],
   "note": "The code violates the claim for the squared gradient (C102_gradient_reference_wrong, _strict). The rest is proved: C102_references (exact real calculus), C102_norms, C102_variations, C102_completes, C102_tvd_completes (any arithmetic: what the tests compare and that they pass exactly if the comparisons hold). Whether the verdict is `pass` is not claimed: it needs quantitative bounds on the resolution errors."
  },
  {
   "property": "C103",
   "status": "proved",
   "theorems": [
    "SFK.C103_rescaled_evolution",
    "SFK.C103_rescaled_density",
    "SFK.C103_rescaled_pulse",
    "SFK.C103_rescaled_run",
    "SFK.C103_thresholds_are_absolute"
   ],
   "note": "C103_rescaled_run (whole runs), C103_rescaled_evolution (arbitrary states), C103_rescaled_density, C103_rescaled_pulse; C103_thresholds_are_absolute shows that the condition on the absolute thresholds cannot be dropped."
  },
  {
   "property": "C104",
   "status": "partial",
   "theorems": [
    "SFK.C104_reflection_partial",
    "SFK.C104_symmetric_states_partial",
    "SFK.C104_antisymmetric_states_partial",
    "SFK.C104_density_partial",
    "SFK.C104_reflection_violated"
   ],
   "note": "Needs nm >= nl-1 or a constant kinetic function (the density: nm >= nl-1). Otherwise C104_reflection_violated proves the claim false of the code, e.g. for the template's nl=20, nm=18: raise/lower misplace coefficients and the reflected field gets a different velocity derivative."
  },
  {
   "property": "C105",
   "status": "proved",
   "theorems": [
    "SFK.C105_azimuthal_harmonics"
   ],
   "note": ""
  },
  {
   "property": "C106",
   "status": "proved",
   "theorems": [
    "SFK.C106_spherical_harmonics"
   ],
   "note": "A family of runs of any index type; a single run is the special case of one member."
  },
  {
   "property": "C107",
   "status": "partial",
   "theorems": [
    "SFK.C107_same_degree_partial",
    "SFK.C107_same_degree_violated"
   ],
   "note": "Proved with the factor exp(-40 (m/nl)^16) per step that the claim excludes. C107_same_degree_violated proves the claim false of the code for every l<nl, 1<=m<=l, m<nm and every sufficiently small time step: the filter damps in m as well as in l."
  },
  {
   "property": "C108",
   "status": "partial",
   "theorems": [
    "SFK.C108_text_partial",
    "SFK.C108_exact",
    "SFK.C108_nearest",
    "SFK.C108_monotone",
    "SFK.C108_digits_lost",
    "SFK.C108_seventeen",
    "SFK.C108_table"
   ],
   "note": "C108_text_partial: up to 5e-16 relative instead of exactly; C108_digits_lost proves that exactly is false of the code (setprecision(16)); C108_seventeen that 17 digits would repair it. The rest (C108_exact, C108_monotone, C108_table) is proved."
  },
  {
   "property": "C109",
   "status": "proved",
   "theorems": [
    "SFK.C109_one_degree",
    "SFK.C109_weak_pulses_stay_finite"
   ],
   "note": "exact arithmetic; as long as the run stays finite (C109_weak_pulses_stay_finite: it does for any number of steps for small amplitudes)"
  },
  {
   "property": "C110",
   "status": "proved",
   "theorems": [
    "SFK.C110_selection_rules"
   ],
   "note": "exact arithmetic; as long as the run stays finite; grid symmetric about the equator, as SHTns' Gauss and regular grids are"
  },
  {
   "property": "C111",
   "status": "partial",
   "theorems": [
    "SFK.C111_reversed_derivatives_partial",
    "SFK.C111_reversed_density_partial",
    "SFK.C111_reversed_violated",
    "SFK.C111_no_spin"
   ],
   "note": "holds for fields without content in the top degree and order (C111_reversed_derivatives_partial, nm>=nl-1 or constant kinetic function; C111_reversed_density_partial, nm>=nl-1) and, for the whole evolution, around a hole without spin with constant kinetic function (C111_no_spin); false with top-degree content around every spinning hole (C111_reversed_violated), because partial_phi leaves the top coefficients unchanged"
  },
  {
   "property": "C112",
   "status": "proved",
   "theorems": [
    "SFK.C112_overall_factor",
    "SFK.C112_density_factor"
   ],
   "note": ""
  },
  {
   "property": "C113",
   "status": "partial",
   "theorems": [
    "SFK.C113_unit_of_field_partial",
    "SFK.C113_density_partial",
    "SFK.C113_pole_is_absolute"
   ],
   "note": "holds as long as both runs stay finite (C113_unit_of_field_partial) and, for the density, where neither field has the value -1 (C113_density_partial); false otherwise (C113_pole_is_absolute): the code evaluates km1/(1+f) even when km1=0, so the field value -1, in whatever unit, is a pole"
  },
  {
   "property": "C114",
   "status": "partial",
   "theorems": [
    "SFK.C114_shift_partial",
    "SFK.C114_density_partial",
    "SFK.C114_pole_is_absolute"
   ],
   "note": "holds as long as both runs stay finite (C114_shift_partial) and, for the density, where neither field has the value -1 (C114_density_partial); false otherwise (C114_pole_is_absolute), for the same reason as C113"
  },
  {
   "property": "C115",
   "status": "partial",
   "theorems": [
    "SFK.C115_outermost_shell_is_infinity",
    "SFK.C115_outermost_inverse_radius_in_floating_point_partial",
    "SFK.C115_negative_radius_in_binary64"
   ],
   "note": "exact arithmetic: full (C115_outermost_shell_is_infinity, both radial methods). Floating point: in every format, for both radial methods, the inverse radius at the outermost shell is zero up to eps(4K/L+3), off the exact tie |R-L|=1e-16 and where R/(1-R/L) neither divides by zero nor overflows (C115_outermost_inverse_radius_in_floating_point_partial). That it is exactly infinity and never behind it is false of the code: in IEEE binary64 the radius can be negative (C115_negative_radius_in_binary64), since lower+dx*(n-1) need not round to the boundary and the absolute tolerance 1e-16 is below one unit in the last place of it"
  },
  {
   "property": "C116",
   "status": "partial",
   "theorems": [
    "SFK.C116_build_after_clean",
    "SFK.C116_clean_removes_what_was_built",
    "SFK.C116_results_kept_partial",
    "SFK.C116_clean_deletes_results"
   ],
   "note": "objects, binaries (with ordinary names: rm *.run does not see hidden ones), sources and the next build: full (C116_clean_removes_what_was_built, C116_build_after_clean); results are kept by every command but make clean and make clean_Output (C116_results_kept_partial); that cleaning up the build leaves results alone is false of the code: make clean runs clean_Output, which removes every directory in Output (C116_clean_deletes_results)"
  },
  {
   "property": "C117",
   "status": "partial",
   "theorems": [
    "SFK.C117_whole_number_of_steps",
    "SFK.C117_number_of_steps_in_floating_point_partial",
    "SFK.C117_one_step_short_in_binary64"
   ],
   "note": "exact arithmetic: full (C117_whole_number_of_steps); every floating-point format: the steps add up to evolve_time*mass up to less than one step and a bounded rounding error, and the number of steps is that of exact arithmetic up to one (C117_number_of_steps_in_floating_point_partial); that rounding never matters is false of the code: int() truncates, and in binary64 settings that ask for 30000 steps get 29999 and a save interval of 299 instead of 300 (C117_one_step_short_in_binary64)"
  },
  {
   "property": "C118",
   "status": "partial",
   "theorems": [
    "SFK.C118_line",
    "SFK.C118_times_in_order_partial",
    "SFK.C118_times_indistinguishable"
   ],
   "note": "the words and their values: full (C118_line); order of the times: full; strictly increasing for the first 100000 lines (C118_times_in_order_partial). That any two lines show different times is false of the code, which prints six digits: sensible settings whose log shows 1000 for the times 1000 and 1000.001 (C118_times_indistinguishable)"
  },
  {
   "property": "C119",
   "status": "proved",
   "theorems": [
    "SFK.C119_radial_points_in_floating_point"
   ],
   "note": "order under the hypothesis that twice the error bound is less than the least distance of two exact points ((L-lo)/(n-1), Chebyshev (L-lo)/(n-1)^2); the lower end is positive and smaller than the upper one, whole numbers up to n are exact, eps(n+L)<=1/16"
  },
  {
   "property": "C120",
   "status": "proved",
   "theorems": [
    "SFK.C120_record",
    "SFK.C120_log_determines_parameters",
    "SFK.C120_rerun_from_log",
    "SFK.C120_missing_is_named",
    "SFK.C120_malformed_is_shown"
   ],
   "note": "C120_record (the text), C120_log_determines_parameters, C120_rerun_from_log, C120_missing_is_named, C120_malformed_is_shown; std::stod is any partial function of the text"
  },
  {
   "property": "C121",
   "status": "partial",
   "theorems": [
    "SFK.C121_rotated_table",
    "SFK.C121_reversed_table",
    "SFK.C121_mirrored_table",
    "SFK.C121_opposite_table",
    "SFK.C121_rotated_run_partial",
    "SFK.C121_mirrored_run_partial",
    "SFK.C121_reversed_run",
    "SFK.C121_opposite_run",
    "SFK.C121_rotated_density_partial",
    "SFK.C121_mirrored_density_partial"
   ],
   "note": "the table of a finite field is invariant under all four: full (C121_*_table). The runs: full for reversals without spin and for changes of sign; rotated and mirrored runs need at most one order missing (nm>=nl-1) or a constant kinetic function, since otherwise the evolution itself does not commute with rotation and reflection (C51_axisymmetry_violated, C104_reflection_violated); densities (one state: rotated and mirrored) need nm>=nl-1. Exact arithmetic"
  },
  {
   "property": "C122",
   "status": "partial",
   "theorems": [
    "SFK.C122_even_states_partial",
    "SFK.C122_odd_states_partial",
    "SFK.C122_turned_states_partial",
    "SFK.C122_parity_table",
    "SFK.C122_turned_table",
    "SFK.C122_even_run_partial",
    "SFK.C122_odd_run_partial"
   ],
   "note": "the tables of fields of definite parity: full (C122_parity_table, C122_turned_table). States and runs need at most one order missing (nm>=nl-1) or a constant kinetic function, since otherwise the evolution itself does not commute with rotation and reflection (C51_axisymmetry_violated, C104_reflection_violated). Exact arithmetic"
  },
  {
   "property": "C123",
   "status": "proved",
   "theorems": [
    "SFK.C123_continuous_dependence",
    "SFK.C123_weak_fields_stay_finite"
   ],
   "note": "exact arithmetic; same libraries and grid sizes in both runs; no comparison with 1e-16 in the code is an exact tie in the first run (the code is discontinuous there: scalar_eom.cpp:67,77-81, grid.hpp:298). For weak fields as many azimuthal modes as polar ones"
  }
 ]
}