{
 "C05": {
  "status": "partial",
  "note": "False of the code when nlat<>nphi (grid.hpp:114 loops to nlat): proved iff nlat=nphi, with the two failure modes as theorems."
 },
 "C06": {
  "status": "partial",
  "note": "Correct in NDEBUG builds or when nlat=nphi; the size assertion (grid.hpp:170) uses nlat, which aborts correct calls and admits overrunning ones (both proved)."
 },
 "C17": {
  "status": "partial",
  "note": "False of the code: a step function gains total variation (C17_filter_not_TVD). Proved: total variation at most doubles for every input and size."
 },
 "C22": {
  "status": "partial",
  "note": "Wrappers proved bitwise for every transform library meeting the buffer contract; round trip from the analytic SHTns contract (quadrature + DFT), an instance of which is constructed (exists_shtns). Independence of uninitialised memory holds for OrdersOk truncations ((nl-nm)(nl-nm+1)<=2nl+1); it is false beyond them: lower then copies coefficients of a new array that nothing wrote (C22_uninitialised_read, C22_gradient_uninitialised; e.g. nl=20, nm=14)."
 },
 "C23": {
  "status": "partial",
  "note": "False of the code for l=lmax or m=mmax (loops use <, sphere.cpp): negation proved; the claim is proved for every field without top-degree/top-order content, both coefficientwise and as the true S2 Laplacian."
 },
 "C24": {
  "status": "partial",
  "note": "Same skipped top modes; proved (coefficientwise and as the true d/dphi) for every field without them, negation proved otherwise."
 },
 "C25": {
  "status": "proved",
  "note": "Coefficient ladder proved for all l<lmax and nm>=nl-1 (smaller nm: C82); C25_true_ladder_partial additionally identifies it with the analytic operators for fields without top degree."
 },
 "C26": {
  "status": "partial",
  "note": "Proved for fields without top-degree content and, for nm<=nl-2, without degrees above nm; violated (proved) when the top degree is present."
 },
 "C27": {
  "status": "partial",
  "note": "Degrees below the top only: the l=lmax entry and m=mmax terms are dropped (proved)."
 },
 "C29": {
  "status": "partial",
  "note": "Top degree/order modes are not damped at all (proved); the damping claim is proved for the rest."
 },
 "C20": {
  "status": "partial",
  "note": "False of the code for the two top degrees n-2 and n-1 (cheb.cpp:96-97 set the two top derivative coefficients to 0): negation proved for every n; exactness proved for every polynomial of degree <= n-3, every n."
 },
 "C30": {
  "status": "partial",
  "note": "False of the code: Grid::filter writes the radial line back before restoring its ends and never calls a radial filter. Proved: it is exactly the spherical filter on each shell; negation proved with the alternating radial mode."
 },
 "C32": {
  "status": "proved",
  "note": "Degree <=6 (finite differences) and < nx-2 (Chebyshev; the code drops the top two coefficients, see C20)."
 },
 "C42": {
  "status": "partial",
  "note": "False of the code: both the coefficients and the sum carry a factor 1/2, so the kinetic part is exactly half the documented one (proved at every point, with equality iff the kinetic part vanishes)."
 },
 "C70": {
  "status": "partial",
  "note": "False of the code: proved equal when km1=k2=0, different otherwise (km1/(1+psi) and k2/2 in the solver)."
 },
 "C38": {
  "status": "proved",
  "note": "For parameters on which the code's 1e-16 switches do not round (NoRound), all points with L-R>1e-16, plus limits at R=L."
 },
 "C37": {
  "status": "partial",
  "note": "False of the code: cells of the last plane in each direction are never visited, so a field that varies only there has zero total variation (proved on every grid), and with nphi=1 or nlat=1 every field has. All other clauses proved for every grid and field."
 },
 "C55": {
  "status": "partial",
  "note": "Proved for finite differences; false for the Chebyshev build, whose last radial index is the horizon (proved: it keeps its old value, zero in main.cpp, for every pulse)."
 },
 "C52": {
  "status": "proved",
  "note": "For supports of width >= 1e-14 (the code clamps smaller widths), plus the empty-support case."
 },
 "C53": {
  "status": "proved",
  "note": "C53_initial_amplitude; the common scale factor of f and p is in C54_initial_values."
 },
 "C57": {
  "status": "partial",
  "note": "False of the code as to the exit status (std::quick_exit(0)): the program stops before any effect, but reports success (C57_exit_status_is_success)."
 },
 "C58": {
  "status": "proved",
  "note": "Exact for every in-range integer; out-of-range text stops the program; negative sizes wrap to huge numbers (proved)."
 },
 "C56": {
  "status": "proved",
  "note": "stod is a parameter of the model (any function)."
 },
 "C60": {
  "status": "proved",
  "note": "For the spherical-harmonic spectrum, the Chebyshev-harmonic spectrum and the plain value table; a file that cannot be opened is skipped silently (proved)."
 },
 "C61": {
  "status": "proved",
  "note": "log10 over the reals; the cut-off and monotonicity are proved for every value."
 },
 "C62": {
  "status": "proved",
  "note": "File names are modelled as strings; injectivity of the (field,index) naming, one block per file, re-run appends."
 },
 "C63": {
  "status": "proved",
  "note": "For every nt and t_step_save>=1."
 },
 "C64": {
  "status": "partial",
  "note": "False of the code as to the number of steps: the loop is itm=1..nt-1, so nt-1 steps are taken (proved: C64_last_step_not_taken). The printed time is t = itm*dt, the time of the saved state (proved)."
 },
 "C65": {
  "status": "proved",
  "note": "Both halves: launcher always writes >=1; t_step_save=0 with nt>=2 is undefined behaviour in the solver."
 },
 "C66": {
  "status": "proved",
  "note": "Whole program, any number of steps, every truncation nm<=nl, any contents of uninitialised memory. Up to the destructors at exit, which are C92."
 },
 "C67": {
  "status": "proved",
  "note": "Bounds on the number of saves from the launcher-derived nt, t_step_save."
 },
 "C68": {
  "status": "partial",
  "note": "Proved for every valid parameter file and every content of uninitialised memory; schedules are C33-C35. Missing: truncations with (nl-nm)(nl-nm+1)>2nl+1, for which it is false of the code, as the angular gradient then depends on uninitialised memory (C22_gradient_uninitialised)."
 },
 "C69": {
  "status": "proved",
  "note": "Histories (for given contents of uninitialised memory at each step) exist, are unique and are what the loop follows; every truncation nm<=nl."
 },
 "C71": {
  "status": "proved",
  "note": "Crash at any point of the effect trace; each flushed row is taken to be atomic."
 },
 "C72": {
  "status": "partial",
  "note": "False of the code: write_n_psl takes the logarithm of the signed coefficient, so a negative coefficient of any size is shown as -16 (proved: C72_negative_coefficient_lost). Proved: which coefficients are computed and that they reproduce the amplitude."
 },
 "C73": {
  "status": "proved",
  "note": "write_x_y_z over every array and all four bounds."
 },
 "C33": {
  "status": "proved",
  "note": "Small-step interleaving semantics of individual loads/stores; every reachable state is race-free, fault-free, bounded, and every finished run has exactly the sequential model's vectors (bit for bit, no arithmetic law used). SHTns/FFTW calls on private buffers are assumed thread-safe. Every truncation; where the gradient reads uninitialised memory the sequential loop compared with is the one that sees the same memory."
 },
 "C34": {
  "status": "proved",
  "note": "Same semantics with nested parallel loops inside sections; covers the whole time_step and set_rho."
 },
 "C35": {
  "status": "proved",
  "note": "In exact arithmetic (CR), for every distribution of iterations over threads and every order/grouping of the combination, including non-finite values."
 },
 "C48": {
  "status": "proved",
  "note": "Exact arithmetic, libraries meeting their documented contracts, truncations that read no uninitialised memory (OrdersOk), radial domain 0<Rmin<Rmax<=L; any number of steps, arbitrary scratch and uninitialised memory."
 },
 "C49": {
  "status": "proved",
  "note": "Runs are assumed to stay finite (the model has one non-finite value; behaviour of FFTW/SHTns on non-finite data is not specified). Any N, arbitrary coefficients a,b, arbitrary scratch and uninitialised memory in each run; C74 shows finite runs exist for every state and N."
 },
 "C50": {
  "status": "proved",
  "note": "Runs are assumed to stay finite (the model has one non-finite value; behaviour of FFTW/SHTns on non-finite data is not specified). All OrdersOk truncations."
 },
 "C51": {
  "status": "partial",
  "note": "Runs are assumed to stay finite (the model has one non-finite value; behaviour of FFTW/SHTns on non-finite data is not specified). Proved for nm>=nl-1, or any OrdersOk truncation with a constant kinetic function; only the unrotated run is assumed finite. False otherwise, the template's nl=20, nm=18, nlat=nphi=40 included: an axisymmetric field gets an angular gradient and a time derivative that depend on the azimuth (C51_gradient_not_axisymmetric, C51_axisymmetry_violated)."
 },
 "C74": {
  "status": "proved",
  "note": "Also used as non-vacuity witness of C49-C51."
 },
 "C75": {
  "status": "proved",
  "note": "Exact arithmetic; all OrdersOk truncations."
 },
 "C78": {
  "status": "partial",
  "note": "False of the code: the mixed d_v d_r term of the documented formula has the wrong sign and the solver halves the kinetic part once more (C42); the exact difference and the exact condition for equality are proved."
 },
 "C77": {
  "status": "proved",
  "note": "Also proved: the specification metric is Boyer-Lindquist Kerr after the ingoing coordinate change, and the line element printed in main.tex is not the inverse of the documented operator (a factor sin^2 theta is missing)."
 },
 "C81": {
  "status": "partial",
  "note": "time step, number of steps, radial domain and pulse support are proved as stated. 'Ratio at most cfl' is proved under L+r_plus<=L^2 and refuted otherwise (C81_courant_exceeded). 'The run reaches evolve_time' is false: C81_covers_time_partial shows every printed time is at least one step short and the last within t_step_save+1 steps."
 },
 "C82": {
  "status": "partial",
  "note": "Proved for nm=nl, nm=nl-1, and for fields without degrees above nm when no uninitialised memory is read, under the packed storage LM_cplx of SHTns 3.x. False of the code for nm<=nl-2 (the template's nl=20, nm=18 included): the code always addresses l(l+1)+m, one place off in degree nm+1 (C82_misaddressed, C82_not_ladder). The packed layout is a library contract stated from the SHTns header, not from /repo."
 },
 "C83": {
  "status": "partial",
  "note": "False of the code: the angular filter is applied once per step whatever dt. Proved for free massless fields on the sphere at infinity, where both sides are explicit: the N-step state is the solution's coefficients times D^N (C83_infinity_partial; exact where the filter factor D is 1), the solution is c+Td (C83_solution_at_infinity), and for fixed T the damped coefficients tend to 0 relative to it (C83_refinement_fails). The one-step error is fourth order (C80). For spherically symmetric data around a hole without spin convergence holds, with fourth order (C96); for other data the limit is the projected equation of C97."
 },
 "C84": {
  "status": "proved",
  "note": "finite-difference build, exact arithmetic (CR), real-analytic library contracts; points within 1e-16 of infinity excluded as in C77"
 },
 "C85": {
  "status": "proved",
  "note": "recompile=False (make may do anything) and binary names without shell characters for the file theorems; recompile=True: C85_recompiled_binary_used; paths are compared as texts"
 },
 "C86": {
  "status": "proved",
  "note": "computer=\"home\", recompile=False; printing/reading of numbers round-trips on the numbers that occur; arithmetic between python ints done in floating point; the shell is modelled for the two commands given to it (chmod, [time] ./bin params.txt 2>&1 | tee out.txt)"
 },
 "C87": {
  "status": "proved",
  "note": "describes what the code does: the launcher itself reports neither"
 },
 "C88": {
  "status": "partial",
  "note": "the code violates the claim: holds for parts whose objects make removes (C88_own_switches_partial, C88_config_partial); C88_config_stale, C88_mixed_binary, C88_first_build_decides prove the failure where make keeps objects, C88_recompile_wrong with any make. GNU make 4.3 was observed to keep only the object listed twice. C88_up_to_date: whatever make keeps, every part is compiled after the last change of its source and all headers."
 },
 "C89": {
  "status": "proved",
  "note": "exact real arithmetic; FFTW's contract assumed (as C20)"
 },
 "C90": {
  "status": "proved",
  "note": "as C84, for USE_CHEB; p+10 continuous derivatives for the power p"
 },
 "C91": {
  "status": "proved",
  "note": "about FD::filter and Cheb::filter as called by a user of the classes; Grid::filter never calls them (discrepancy 4)"
 },
 "C92": {
  "status": "partial",
  "note": "the code violates the claim under FFTW's documented contract for fftw_cleanup: C92_exact gives the exact condition, C92_safe_partial and C92_fd the safe histories, C92_grid_destruction_ub and C92_two_chebs_ub the failures. shPlans (number of plans of a SHTns configuration) is a parameter, assumed non-zero where the failure is claimed."
 },
 "C93": {
  "status": "proved",
  "note": "Asymptotic in the format: constant C and accuracy eps0 exist but are not computed; libraries assumed linear up to rounding (C93_documented_libraries_have_matrices derives the exact part from the documentation for all OrdersOk truncations)."
 },
 "C94": {
  "status": "proved",
  "note": "Explicit constants; applies to binary64 (C94_binary_formats). The per-point terms are the computed ones (they do not depend on the schedule)."
 },
 "C95": {
  "status": "proved",
  "note": "Sphere operators vanish on constants (needs nl>=1), coefficients without spin depend on the radius only."
 },
 "C96": {
  "status": "proved",
  "note": "Global error of RK4 for the analytic vector field (Lemmas/RKGlobal) on the subspace the filter leaves alone (C95). For other data convergence fails (C83)."
 },
 "C97": {
  "status": "proved",
  "note": "Exact arithmetic (CR). The filter is a linear map with eigenvalues filtD on the harmonics (Lemmas/FilterLin), its powers converge geometrically; RK4 steps with such a map applied once per step follow the projected equation (Lemmas/Relax). With C83 and C96 this describes refinement in time completely: fourth order where the filter acts trivially, convergence to the projected equation otherwise. rho is extremely close to 1 for the degrees in use (1-rho is about 40/nl^16), so the limit is approached only after very many steps."
 },
 "C98": {
  "status": "partial",
  "note": "the code violates the claim: C98_test_program_partial holds for objects that make removes; C98_header_edits_missed, C98_tests_leak_into_solver, C98_layouts_mixed, C98_solver_leaks_into_tests prove the failures where make keeps objects. That GNU make 4.3 keeps exactly the objects listed twice was observed with a stand-in compiler."
 },
 "C99": {
  "status": "proved",
  "note": "absolute place without spaces (C99_job_runs_the_settings); C99_relative_path_not_queued: a relative one is silently not queued. Slurm starts the script in the directory sbatch was called in, with --cpus-per-task exported as SLURM_CPUS_PER_TASK; its own --output=out.txt, written at the same time as tee's out.txt, is not modelled, and the theorem says nothing about out.txt"
 },
 "C101": {
  "status": "partial",
  "note": "The deterministic tests, including the convergence test of the finite differences, are proved to pass (exact arithmetic). Violated by: C101_raise_only (lower is never checked), C101_sphereX_verdict/_zero/_garbage (verdict depends on uninitialised memory; exact condition given), C101_fd_derivatives_exact_fails (an exact derivative would fail the convergence test), C101_fd_filter_monotone/_constant_noise C101_cheb_filter and C101_sphere_filter (verdicts depend on rand(): both verdicts occur). C101_cheb_filter_verdict and C101_sphere_filter_verdict give the exact condition."
 },
 "C102": {
  "status": "partial",
  "note": "The code violates the claim for the squared gradient (C102_gradient_reference_wrong, _strict). The rest is proved: C102_references (exact real calculus), C102_norms, C102_variations, C102_completes, C102_tvd_completes (any arithmetic: what the tests compare and that they pass exactly if the comparisons hold). Whether the verdict is `pass` is not claimed: it needs quantitative bounds on the resolution errors."
 },
 "C103": {
  "status": "proved",
  "note": "C103_rescaled_run (whole runs), C103_rescaled_evolution (arbitrary states), C103_rescaled_density, C103_rescaled_pulse; C103_thresholds_are_absolute shows that the condition on the absolute thresholds cannot be dropped."
 },
 "C104": {
  "status": "partial",
  "note": "Needs nm >= nl-1 or a constant kinetic function (the density: nm >= nl-1). Otherwise C104_reflection_violated proves the claim false of the code, e.g. for the template's nl=20, nm=18: raise/lower misplace coefficients and the reflected field gets a different velocity derivative."
 },
 "C105": {
  "status": "proved",
  "note": ""
 },
 "C106": {
  "status": "proved",
  "note": "A family of runs of any index type; a single run is the special case of one member."
 },
 "C107": {
  "status": "partial",
  "note": "Proved with the factor exp(-40 (m/nl)^16) per step that the claim excludes. C107_same_degree_violated proves the claim false of the code for every l<nl, 1<=m<=l, m<nm and every sufficiently small time step: the filter damps in m as well as in l."
 },
 "C108": {
  "status": "partial",
  "note": "C108_text_partial: up to 5e-16 relative instead of exactly; C108_digits_lost proves that exactly is false of the code (setprecision(16)); C108_seventeen that 17 digits would repair it. The rest (C108_exact, C108_monotone, C108_table) is proved."
 },
 "C109": {
  "status": "proved",
  "note": "exact arithmetic; as long as the run stays finite (C109_weak_pulses_stay_finite: it does for any number of steps for small amplitudes)"
 },
 "C110": {
  "status": "proved",
  "note": "exact arithmetic; as long as the run stays finite; grid symmetric about the equator, as SHTns' Gauss and regular grids are"
 },
 "C111": {
  "status": "partial",
  "note": "holds for fields without content in the top degree and order (C111_reversed_derivatives_partial, nm>=nl-1 or constant kinetic function; C111_reversed_density_partial, nm>=nl-1) and, for the whole evolution, around a hole without spin with constant kinetic function (C111_no_spin); false with top-degree content around every spinning hole (C111_reversed_violated), because partial_phi leaves the top coefficients unchanged"
 },
 "C113": {
  "status": "partial",
  "note": "holds as long as both runs stay finite (C113_unit_of_field_partial) and, for the density, where neither field has the value -1 (C113_density_partial); false otherwise (C113_pole_is_absolute): the code evaluates km1/(1+f) even when km1=0, so the field value -1, in whatever unit, is a pole"
 },
 "C114": {
  "status": "partial",
  "note": "holds as long as both runs stay finite (C114_shift_partial) and, for the density, where neither field has the value -1 (C114_density_partial); false otherwise (C114_pole_is_absolute), for the same reason as C113"
 },
 "C115": {
  "status": "partial",
  "note": "exact arithmetic: full (C115_outermost_shell_is_infinity, both radial methods). Floating point: in every format, for both radial methods, the inverse radius at the outermost shell is zero up to eps(4K/L+3), off the exact tie |R-L|=1e-16 and where R/(1-R/L) neither divides by zero nor overflows (C115_outermost_inverse_radius_in_floating_point_partial). That it is exactly infinity and never behind it is false of the code: in IEEE binary64 the radius can be negative (C115_negative_radius_in_binary64), since lower+dx*(n-1) need not round to the boundary and the absolute tolerance 1e-16 is below one unit in the last place of it"
 },
 "C116": {
  "status": "partial",
  "note": "objects, binaries (with ordinary names: rm *.run does not see hidden ones), sources and the next build: full (C116_clean_removes_what_was_built, C116_build_after_clean); results are kept by every command but make clean and make clean_Output (C116_results_kept_partial); that cleaning up the build leaves results alone is false of the code: make clean runs clean_Output, which removes every directory in Output (C116_clean_deletes_results)"
 },
 "C117": {
  "status": "partial",
  "note": "exact arithmetic: full (C117_whole_number_of_steps); every floating-point format: the steps add up to evolve_time*mass up to less than one step and a bounded rounding error, and the number of steps is that of exact arithmetic up to one (C117_number_of_steps_in_floating_point_partial); that rounding never matters is false of the code: int() truncates, and in binary64 settings that ask for 30000 steps get 29999 and a save interval of 299 instead of 300 (C117_one_step_short_in_binary64)"
 },
 "C118": {
  "status": "partial",
  "note": "the words and their values: full (C118_line); order of the times: full; strictly increasing for the first 100000 lines (C118_times_in_order_partial). That any two lines show different times is false of the code, which prints six digits: sensible settings whose log shows 1000 for the times 1000 and 1000.001 (C118_times_indistinguishable)"
 },
 "C119": {
  "status": "proved",
  "note": "order under the hypothesis that twice the error bound is less than the least distance of two exact points ((L-lo)/(n-1), Chebyshev (L-lo)/(n-1)^2); the lower end is positive and smaller than the upper one, whole numbers up to n are exact, eps(n+L)<=1/16"
 },
 "C120": {
  "status": "proved",
  "note": "C120_record (the text), C120_log_determines_parameters, C120_rerun_from_log, C120_missing_is_named, C120_malformed_is_shown; std::stod is any partial function of the text"
 },
 "C121": {
  "status": "partial",
  "note": "the table of a finite field is invariant under all four: full (C121_*_table). The runs: full for reversals without spin and for changes of sign; rotated and mirrored runs need at most one order missing (nm>=nl-1) or a constant kinetic function, since otherwise the evolution itself does not commute with rotation and reflection (C51_axisymmetry_violated, C104_reflection_violated); densities (one state: rotated and mirrored) need nm>=nl-1. Exact arithmetic"
 },
 "C122": {
  "status": "partial",
  "note": "the tables of fields of definite parity: full (C122_parity_table, C122_turned_table). States and runs need at most one order missing (nm>=nl-1) or a constant kinetic function, since otherwise the evolution itself does not commute with rotation and reflection (C51_axisymmetry_violated, C104_reflection_violated). Exact arithmetic"
 },
 "C123": {
  "status": "proved",
  "note": "exact arithmetic; same libraries and grid sizes in both runs; no comparison with 1e-16 in the code is an exact tie in the first run (the code is discontinuous there: scalar_eom.cpp:67,77-81, grid.hpp:298). For weak fields as many azimuthal modes as polar ones"
 }
}