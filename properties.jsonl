{"id": "C01", "title": "Flat index is a bijection onto the storage", "statement": "For a grid of nx radial, nlat polar and nphi azimuthal points, the flat position returned for (ix,it,ip) is smaller than nx*nlat*nphi, two different triples never share a position, and every position is the position of some triple; in both build layouts (theta-fastest and phi-fastest). The same holds for the two-index positions (R,l), (R,theta), (R,phi), (theta,phi).", "quantifier": "all grid sizes, all index tuples in range, both values of the layout build flag", "why_tests_cant": "Tests use a handful of sizes, almost always nlat=nphi, for which a swapped stride is invisible.", "anchors": ["Source/grid.hpp: indx_R_th_ph, indx_th_ph, indx_r_th, indx_r_ph, indx_r_l", "Source/sphere.hpp: indx"]}
{"id": "C02", "title": "Index arithmetic never wraps, and grid and sphere agree on layout", "statement": "As long as nx*nlat*nphi fits in size_t, the 64-bit unsigned computation of a flat index gives the mathematical value. The grid position of (ix,it,ip) is ix times the shell size plus the sphere position of (it,ip), and the grid's (theta,phi) position equals the Sphere class's own position, so a shell handed to the angular transforms is laid out as they expect.", "quantifier": "all grid sizes with product below 2^64, all in-range indices, both layouts", "why_tests_cant": "Overflow only happens for grids too large to test; the layout agreement is between two independent copies of the formula selected by a macro.", "anchors": ["Source/grid.hpp: indx_R_th_ph, indx_th_ph", "Source/sphere.hpp: indx"]}
{"id": "C03", "title": "Radial line extraction and insertion are exact inverses", "statement": "get_row_R returns exactly the nx values on the chosen angular line; set_row_R stores exactly those nx values and leaves every other grid value unchanged; getting after setting returns what was set, and setting what was got changes nothing.", "quantifier": "all grid sizes, all angular indices in range, all array contents, both layouts", "why_tests_cant": "An off-by-one or stride error corrupts only some lines; tests never compare every untouched cell.", "anchors": ["Source/grid.hpp: get_row_R, set_row_R"]}
{"id": "C04", "title": "Shell, theta-line, (R,theta) and (R,l) extraction/insertion are exact inverses", "statement": "The corresponding get/set pairs read and write exactly the cells of the chosen line or slab, leave every other cell unchanged, and are mutually inverse.", "quantifier": "all grid sizes, all indices in range, all array contents, both layouts", "why_tests_cant": "Same as C03; these are the building blocks of every angular derivative.", "anchors": ["Source/grid.hpp: get_row_th, set_row_th, get_row_th_ph, set_row_th_ph, get_row_R_th, set_row_R_th, get_row_n, set_row_n, set_row_l"]}
{"id": "C05", "title": "Azimuthal line insertion writes the whole line and nothing else", "statement": "set_row_ph stores exactly the nphi values of the chosen azimuthal line, leaves every other grid value unchanged, and never accesses memory outside the two arrays.", "quantifier": "all grid sizes, including nlat different from nphi", "why_tests_cant": "The loop bound is wrong (nlat instead of nphi): with nlat=nphi every test passes.", "anchors": ["Source/grid.hpp: set_row_ph"]}
{"id": "C06", "title": "(R,phi) slab extraction works with a correctly sized output", "statement": "get_row_R_ph called with an output of nx*nphi entries returns the slab at the chosen theta and never writes out of bounds; the size it demands is the size it fills.", "quantifier": "all grid sizes, including nlat different from nphi, with assertions on or off", "why_tests_cant": "The size check uses nlat; with nlat=nphi it is invisible.", "anchors": ["Source/grid.hpp: get_row_R_ph, set_row_R_ph"]}
{"id": "C07", "title": "Stored coordinates belong to their grid point", "statement": "For each grid point the stored (R,theta,phi) triple is (radial point ix, polar node it, azimuthal node ip), the stored Cartesian triple is its spherical-to-Cartesian image with norm R, and the stored (R,l) pairs used as CSV row labels are (radial point ix, l).", "quantifier": "all grid sizes and points, both layouts, both radial discretisations", "why_tests_cant": "Every output row relies on it; a permuted label still looks plausible.", "anchors": ["Source/grid.cpp: Grid::Grid", "Source/grid.hpp: R_th_ph, x_y_z, R_l, n_l"]}
{"id": "C08", "title": "Compactification round-trip and horizon placement", "statement": "Converting a compactified radius back to r inverts the launcher's compactification for every r>=0 away from the infinity cut-off; with the launcher's Rmin, the inner end of the radial grid converts to exactly the outer horizon radius; the outer end (R=compactification length) converts to the documented large sentinel.", "quantifier": "all masses, spins with |a|<=m, compactification lengths and radii", "why_tests_cant": "Tests use one grid; the relation spans two programs (Python launcher and C++ solver).", "anchors": ["Source/grid.hpp: R_to_r", "sim_class.py: compactification, set_derived_params"]}
{"id": "C09", "title": "Radial Jacobians are the true derivatives of the compactification", "statement": "The factors used to convert R-derivatives into r-derivatives equal dR/dr and d2R/dr2 of R(r)=r/(1+r/L) at the physical radius of each grid point, and both vanish at infinity.", "quantifier": "all lengths L>0 and all r>=0 (grid points)", "why_tests_cant": "A numerical test sees only agreement to truncation error on one grid.", "anchors": ["Source/grid.cpp: Grid::Grid (_dR_over_dr, _d2R_over_dr2)"]}
{"id": "C10", "title": "Finite-difference points are the uniform grid from lower to upper", "statement": "Point 0 is lower, point n-1 is upper, consecutive points differ by (upper-lower)/(n-1), and points are strictly increasing.", "quantifier": "all n>=2 and all lower<upper", "why_tests_cant": "Holds for every n; tests use two.", "anchors": ["Source/finite_diff.cpp: FD::FD, FD::pt"]}
{"id": "C11", "title": "First derivative is exact on polynomials up to degree 6 at every point", "statement": "Sampling any polynomial of degree at most 6 on the grid and calling der returns the exact derivative of that polynomial at every grid point, the three one-sided stencils at each end included.", "quantifier": "all n>=7, all intervals, all polynomials of degree <=6, every grid point", "why_tests_cant": "A wrong coefficient in one boundary row shows up in tests only as a slightly larger mean error.", "anchors": ["Source/finite_diff.cpp: FD::der"]}
{"id": "C12", "title": "Second derivative is exact on polynomials up to degree 7 at every point", "statement": "Sampling any polynomial of degree at most 7 and calling der2 returns its exact second derivative at every grid point.", "quantifier": "all n>=8, all intervals, all polynomials of degree <=7, every grid point", "why_tests_cant": "Same as C11.", "anchors": ["Source/finite_diff.cpp: FD::der2"]}
{"id": "C13", "title": "Sixth-order accuracy for every smooth function", "statement": "There are fixed constants C1,C2, independent of the function, the interval and n, such that der of the samples of a function whose 7th derivative is bounded by M differs from its derivative by at most C1*M*dx^6 at every grid point, and der2 of a function whose 8th derivative is bounded by M differs by at most C2*M*dx^6.", "quantifier": "all sufficiently smooth functions, all intervals, all n, every grid point including the boundary rows", "why_tests_cant": "The unit test compares the mean error of x*sin(x) at two resolutions.", "anchors": ["Source/finite_diff.cpp: FD::der, FD::der2", "Documentation/main.tex: sixth order finite differences"]}
{"id": "C14", "title": "Finite-difference routines stay in bounds exactly from their minimum grid size on", "statement": "With correctly sized arrays der never accesses memory out of bounds when n>=7 and der2 when n>=8; below these sizes they do; the dissipation filter is in bounds for n>=4 (a no-op for 4<=n<=8).", "quantifier": "all n, all array contents, assertions on or off", "why_tests_cant": "The sizes that fail are never tested, and with unsigned wrap-around the loop bound becomes huge for n<3.", "anchors": ["Source/finite_diff.cpp: FD::der, FD::der2, FD::filter"]}
{"id": "C15", "title": "Dissipation filter leaves the four boundary points and low-degree polynomials untouched", "statement": "FD filter never changes the first and last four values, is linear, and returns samples of any polynomial of degree at most 7 unchanged.", "quantifier": "all n>=9, all inputs, all polynomials of degree <=7", "why_tests_cant": "Only a random-data total-variation comparison is tested.", "anchors": ["Source/finite_diff.cpp: FD::filter"]}
{"id": "C16", "title": "Dissipation filter never amplifies a Fourier mode and removes the grid-scale mode", "statement": "On every interior point a Fourier mode of any wavenumber is multiplied by 1-sin^8(k/2), which lies in [0,1], is 1 only for the constant mode, and is 0 for the alternating mode.", "quantifier": "all wavenumbers, all n, all interior points", "why_tests_cant": "A continuum of wavenumbers.", "anchors": ["Source/finite_diff.cpp: FD::filter"]}
{"id": "C17", "title": "Dissipation filter is total-variation diminishing", "statement": "Applying the FD filter never increases the discrete total variation of the data.", "quantifier": "all n and all inputs", "why_tests_cant": "The unit test tries one random vector and names the property in general.", "anchors": ["Source/finite_diff.cpp: FD::filter", "Test/test_finite_diff.cpp: filter_is_TVD"]}
{"id": "C18", "title": "Chebyshev points", "statement": "Point 0 is upper, point n-1 is lower, points strictly decrease, stay in [lower,upper] and are symmetric about the centre.", "quantifier": "all n>=2 and all lower<upper", "why_tests_cant": "All n.", "anchors": ["Source/cheb.cpp: Cheb::Cheb, Cheb::pt"]}
{"id": "C19", "title": "Chebyshev transform round-trip", "statement": "Transforming any n samples to Chebyshev coefficients and back returns the samples, and vice versa; the coefficients are those of the interpolating polynomial. The backward transform overwrites its coefficient argument, so it must not be reused.", "quantifier": "all n>=2 and all sample vectors (exact arithmetic)", "why_tests_cant": "The test uses n=32 and one function.", "anchors": ["Source/cheb.cpp: Cheb::to_ch, Cheb::to_po"]}
{"id": "C20", "title": "Chebyshev derivative is exact on every polynomial the grid resolves", "statement": "For samples of any polynomial of degree at most n-1, der returns its exact derivative at each point.", "quantifier": "all n>=2, all intervals, all polynomials of degree <=n-1", "why_tests_cant": "Tests use an analytic function whose top coefficients are below round-off; the code discards the top two coefficients.", "anchors": ["Source/cheb.cpp: Cheb::der"]}
{"id": "C21", "title": "Chebyshev low-pass filter only damps", "statement": "Each Chebyshev coefficient is multiplied by a factor in (0,1], non-increasing in the mode number, equal to 1 for the constant mode; constants are unchanged.", "quantifier": "all n>=2, all inputs", "why_tests_cant": "Needs all modes and all n.", "anchors": ["Source/cheb.cpp: Cheb::filter, Cheb::Cheb (_low_pass)"]}
{"id": "C22", "title": "Spherical transform wrappers: round trip, purity, no dependence on uninitialised memory", "statement": "The real and complex to_Ylm/to_Sph pairs return what the transform library computes on exactly the caller's data, are mutually inverse on representable fields, and no wrapper's result depends on the content of freshly allocated buffers; buffer indices stay in bounds.", "quantifier": "all sizes, all truncations nm<=nl, all inputs, all contents of uninitialised memory", "why_tests_cant": "Uninitialised-memory dependence is nondeterministic in tests.", "anchors": ["Source/sphere.cpp: to_Ylm, to_Sph"]}
{"id": "C23", "title": "Spherical Laplacian multiplies every resolved harmonic by -l(l+1)", "statement": "Applied to any field representable with the resolved harmonics (l<=nl, m<=nm), laplace_beltrami returns the field whose (l,m) coefficient is multiplied by -l(l+1).", "quantifier": "all nl, nm, grid sizes and all representable fields", "why_tests_cant": "The mode loops stop one short: the top l and top m are left unscaled; test fields have no content there.", "anchors": ["Source/sphere.cpp: laplace_beltrami, Sphere::Sphere (_lap)"]}
{"id": "C24", "title": "Azimuthal derivative multiplies every resolved harmonic by i*m", "statement": "Applied to any representable field, partial_phi returns the field whose (l,m) coefficient is multiplied by i*m; an axisymmetric field has zero derivative.", "quantifier": "all nl, nm, grid sizes and all representable fields", "why_tests_cant": "As C23.", "anchors": ["Source/sphere.cpp: partial_phi"]}
{"id": "C25", "title": "Raising and lowering operators are the angular-momentum ladder", "statement": "When all orders of all degrees below the top one are stored (nm>=nl-1): for every l below the top one, raise maps coefficients to sqrt((l-m+1)(l+m)) f_{l,m-1} with zero at m=-l, lower to sqrt((l+m+1)(l-m)) f_{l,m+1} with zero at m=l, always from the original (not already overwritten) coefficients, with the mixed signed/unsigned arithmetic giving the mathematical value. (Fewer orders: C82.)", "quantifier": "all l, m, all coefficient contents, all truncations nl-1<=nm<=nl", "why_tests_cant": "In-place update order and signed/unsigned mixing can fail for specific m only.", "anchors": ["Source/sphere.cpp: raise, lower"]}
{"id": "C26", "title": "Angular gradient square", "statement": "sphereX of a field equals (d_theta f)^2 + (d_phi f)^2/sin^2(theta), the squared angular gradient, and is therefore non-negative.", "quantifier": "all fields resolved by the grid, all nodes away from the poles", "why_tests_cant": "Identity in all fields and points.", "anchors": ["Source/sphere.cpp: sphereX", "Documentation/main.tex"]}
{"id": "C27", "title": "Angular power spectrum counts each harmonic once", "statement": "For a representable field, entry l of power_spectrum is the sum over all m from -l to l of |f_lm|^2, is non-negative, scales quadratically, and is zero for all l only if the field is zero.", "quantifier": "all fields, all l below nl, all nl, nm", "why_tests_cant": "The top m is dropped when l>=nm.", "anchors": ["Source/sphere.cpp: power_spectrum", "Documentation/main.tex: power spectrum"]}
{"id": "C28", "title": "Requested harmonic is what compute_ylm samples", "statement": "For 0<=m<=l<=nl, m<=nm, compute_ylm returns the samples of Y_l0 (m=0) or of twice the real part of Y_lm (m>0); other (l,m) are out of contract (the coefficient index leaves the array or hits another mode).", "quantifier": "all (l,m), all sizes", "why_tests_cant": "Three harmonics are tested.", "anchors": ["Source/sphere.cpp: compute_ylm"]}
{"id": "C29", "title": "Spherical low-pass filter only damps", "statement": "filter multiplies every resolved coefficient by exp(-40(l/nl)^16)exp(-40(m/nl)^16), a factor in (0,1], preserves the spherical mean, never increases any mode's power, and damps the highest resolved modes most.", "quantifier": "all fields, nl, nm", "why_tests_cant": "The loops stop one short, so the highest l and m are not damped at all; tests only compare total variation on one field.", "anchors": ["Source/sphere.cpp: filter, Sphere::Sphere (_low_pass)"]}
{"id": "C30", "title": "Grid filter filters both the angular and the radial direction, keeping radial end points", "statement": "Grid::filter applies the spherical filter on each shell, then the radial filter on each radial line keeping the two end values.", "quantifier": "all grids and all fields", "why_tests_cant": "The radial pass is missing the call: it copies each line back unchanged. A total-variation test cannot see it.", "anchors": ["Source/grid.cpp: Grid::filter", "Documentation/main.tex: low-pass filter / Kreiss-Oliger"]}
{"id": "C31", "title": "Grid derivative operators are local to their line or shell and overwrite the whole output", "statement": "Every output value of set_partial_R/r/2r at (ix,it,ip) is the 1-d radial operator applied to the line (it,ip), every output value of set_partial_phi/set_spherical_lap/set_sphereX/spectrum is the 2-d operator applied to shell ix; all output entries are overwritten and the input is unchanged.", "quantifier": "all grids, all fields, any previous content of the output array", "why_tests_cant": "Cross-talk or stale entries show up only for specific index patterns.", "anchors": ["Source/grid.cpp: set_partial_phi, set_spherical_lap, set_sphereX, set_partial_R, set_partial_r, set_partial2_r, set_angular_power_spectrum, set_n_l_coef"]}
{"id": "C32", "title": "Physical radial derivatives satisfy the chain rule", "statement": "On fields whose radial profile is a polynomial in R that the radial grid resolves (degree <=6 on the finite-difference grid, degree < nx-2 on the Chebyshev grid), set_partial_r and set_partial2_r return exactly the first and second derivative with respect to physical r at every grid point, and 0 at infinity.", "quantifier": "all such fields, all grids with nx>=8", "why_tests_cant": "Exactness at all points incl. boundaries.", "anchors": ["Source/grid.cpp: set_partial_r, set_partial2_r"]}
{"id": "C33", "title": "Parallel loops are schedule-independent", "statement": "For every parallel loop over shells, lines or points, every interleaving of the iterations' individual loads and stores yields bit-for-bit the array the sequential loop yields; no two iterations touch a common location that either writes.", "quantifier": "all numbers of threads, all schedules, all interleavings, all sizes, all values (no arithmetic laws used)", "why_tests_cant": "Races are invisible to most test runs.", "anchors": ["Source/grid.cpp: omp parallel for loops", "Source/field.cpp: shift", "Source/scalar_eom.cpp: set_level"]}
{"id": "C34", "title": "Parallel sections are schedule-independent", "statement": "The concurrent sections computing the derivative arrays (six in the right-hand side, three in the energy density, two in the filtering) produce the same arrays under every interleaving; the one section that consumes another array's result does so after producing it itself.", "quantifier": "all interleavings", "why_tests_cant": "As C33.", "anchors": ["Source/scalar_eom.cpp: set_k, set_rho, time_step"]}
{"id": "C35", "title": "Parallel reductions compute the sequential sum", "statement": "The residual norm and total variation do not depend on how iterations are split among threads or in which order partial sums are combined, in exact arithmetic.", "quantifier": "all partitions of the iterations and all combination orders", "why_tests_cant": "Schedules cannot be enumerated. Floating-point rounding makes this only approximately true at run time.", "anchors": ["Source/grid.cpp: norm_indep_res, total_variation"]}
{"id": "C36", "title": "Independent residual is a norm of p - df/dt", "statement": "norm_indep_res is non-negative, is 0 exactly when p equals the one-step difference quotient at every grid point, and is the root mean square of the pointwise residuals.", "quantifier": "all fields and dt<>0", "why_tests_cant": "All fields.", "anchors": ["Source/grid.cpp: norm_indep_res"]}
{"id": "C37", "title": "Total variation diagnostic", "statement": "total_variation is non-negative, zero on constant fields, unchanged by adding a constant, absolutely homogeneous, and positive for every non-constant field; never reads out of bounds.", "quantifier": "all fields and all grid sizes >=1", "why_tests_cant": "With a single azimuthal or polar point the loops are empty and the diagnostic is 0 for every field; the last slab in each direction is skipped.", "anchors": ["Source/grid.cpp: total_variation"]}
{"id": "C38", "title": "Background coefficients are the Kerr wave-operator coefficients", "statement": "At every grid point on or outside the horizon, each stored coefficient equals the documented Kerr coefficient (with Sigma=r^2+a^2cos^2, Delta=r^2-2Mr+a^2) divided by 1+2Mr/Sigma; all are finite; the normalisation 1/(1+2Mr/Sigma) is in (0,1]; at infinity they take their limits.", "quantifier": "all m>0, |a|<=m, all r>=r_plus incl. infinity, all theta", "why_tests_cant": "Includes extremal and zero spin branches selected by 1e-16 comparisons.", "anchors": ["Source/scalar_eom.cpp: Scalar_eom::Scalar_eom", "Documentation/main.tex: Box psi"]}
{"id": "C39", "title": "The right-hand side solves the documented equation of motion", "statement": "With the derivative arrays supplied by the grid, the computed time derivatives satisfy f_t=p and Box f + (k'/2k)(grad f)^2 - V'/k = 0 at every grid point where f is not the pole -1 and k(f) is non-zero.", "quantifier": "all field values, derivatives, parameters and exterior points", "why_tests_cant": "An algebraic identity in about twenty variables.", "anchors": ["Source/scalar_eom.cpp: set_k", "Documentation/main.tex: eq eom"]}
{"id": "C40", "title": "Kinetic and potential derivatives are consistent", "statement": "The k' and V' used in the evolution are the derivatives of the k and V used in the energy density, for all field values other than the pole f=-1 of k.", "quantifier": "all parameters and field values", "why_tests_cant": "The two pairs of formulas are written in different functions; tests cover neither.", "anchors": ["Source/scalar_eom.cpp: set_k, set_rho"]}
{"id": "C41", "title": "No boundary condition is needed at either end", "statement": "At the horizon end both radial characteristic speeds are non-positive (nothing propagates into the domain), and at the compactified infinity the radial speeds in the R coordinate vanish.", "quantifier": "all m>0, |a|<=m, theta", "why_tests_cant": "The code imposes no boundary condition; its well-posedness rests on this for every parameter.", "anchors": ["Source/scalar_eom.cpp: Scalar_eom::Scalar_eom, set_k", "Documentation/main.tex: characteristic speeds"]}
{"id": "C42", "title": "Energy density output is the documented energy density", "statement": "set_rho computes rho = k/2 [ ... ] + V with the bracket documented in Documentation/main.tex.", "quantifier": "all field values, derivatives, parameters, exterior points", "why_tests_cant": "No test; a constant factor is invisible in plots.", "anchors": ["Source/scalar_eom.cpp: set_rho", "Documentation/main.tex: Diagnostics"]}
{"id": "C43", "title": "Energy density is non-negative", "statement": "When k(f)>=0 and V(f)>=0 the computed energy density is >=0 at every exterior point for every field gradient.", "quantifier": "all gradients, all exterior points, all m, |a|<=m", "why_tests_cant": "A quadratic form inequality in the ergoregion too.", "anchors": ["Source/scalar_eom.cpp: set_rho"]}
{"id": "C44", "title": "Time step is classical RK4 applied to the filtered state", "statement": "After time_step the new level equals the classical four-stage Runge-Kutta step of the semi-discrete system applied to the filtered old level, for both fields.", "quantifier": "all states, all dt, all right-hand sides", "why_tests_cant": "Memory-saving reuse of one level and one slope array is easy to get subtly wrong.", "anchors": ["Source/scalar_eom.cpp: time_step, set_level"]}
{"id": "C45", "title": "Stale buffers never influence a step", "statement": "The result of time_step and of set_rho depends only on the current level of the two fields (and parameters), not on the previous contents of the new-level, stage, slope or scratch arrays.", "quantifier": "all states, all buffer contents (bit-for-bit)", "why_tests_cant": "Stale-state bugs need specific histories.", "anchors": ["Source/scalar_eom.cpp: time_step, set_k, set_rho, set_level"]}
{"id": "C46", "title": "Unknown stage number is rejected without side effects", "statement": "set_level with a level other than 1..5 changes no field value (it only prints an error).", "quantifier": "all integers outside 1..5, all states", "why_tests_cant": "All integers.", "anchors": ["Source/scalar_eom.cpp: set_level"]}
{"id": "C47", "title": "Field construction and shift", "statement": "A new Field holds init_val everywhere in all four arrays; shift copies the new level into the current level exactly, for every entry, and changes nothing else; shift is idempotent.", "quantifier": "all sizes and contents", "why_tests_cant": "All sizes.", "anchors": ["Source/field.cpp: Field::Field, Field::shift"]}
{"id": "C48", "title": "Vacuum stays vacuum", "statement": "If both fields are zero everywhere and k0+km1<>0, then they are zero after any number of time steps, and the potential-minimum energy density is 0.", "quantifier": "all grids, parameters and numbers of steps", "why_tests_cant": "Unbounded number of steps.", "anchors": ["Source/scalar_eom.cpp: time_step"]}
{"id": "C49", "title": "Free fields superpose", "statement": "With a constant kinetic prefactor and purely quadratic potential, evolving a linear combination of two states for any number of steps gives the same linear combination of the evolved states (exact arithmetic), as long as the evolution involved produces finite numbers.", "quantifier": "all states, coefficients, step counts, grids", "why_tests_cant": "Unbounded histories.", "anchors": ["Source/scalar_eom.cpp: time_step, set_k"]}
{"id": "C50", "title": "Reflection symmetry", "statement": "With km1=k1=0 and V3=0, evolving the sign-flipped state gives the sign-flipped evolution, for any number of steps, as long as the evolution involved produces finite numbers.", "quantifier": "all states, parameters of that form, step counts", "why_tests_cant": "Unbounded histories.", "anchors": ["Source/scalar_eom.cpp: time_step, set_k"]}
{"id": "C51", "title": "Rotating the data about the axis rotates the evolution", "statement": "Cyclically shifting the initial data by any number of azimuthal grid points and evolving equals evolving and then shifting; in particular axisymmetric data stay axisymmetric, as long as the evolution involved produces finite numbers.", "quantifier": "all states, shifts, step counts, grids, truncations nm<=nl, kinetic functions", "why_tests_cant": "Unbounded histories; layout dependent.", "anchors": ["Source/scalar_eom.cpp: time_step", "Source/sphere.cpp", "Source/grid.cpp"]}
{"id": "C52", "title": "Initial pulse profile, support and derivative", "statement": "Before angular modulation and rescaling the initial field is ((r-rl)/w)^4((ru-r)/w)^4 exp(-w/(r-rl))exp(-2w/(ru-r)) strictly between rl and ru and zero outside, and the slope used for the velocity is exactly its r-derivative, everywhere.", "quantifier": "all rl,ru with ru-rl>=1e-14 (smaller widths are clamped by the code) and all r; for ru<=rl the pulse is empty", "why_tests_cant": "A derivative identity for all r including the edges.", "anchors": ["Source/initial_data.cpp: compact_pulse"]}
{"id": "C53", "title": "Initial amplitude", "statement": "Starting from zero arrays, after compact_pulse the largest |f| over the grid is |amp| if the unscaled pulse exceeds 1e-16 somewhere, and f is at most 1e-16 everywhere otherwise; f and p are rescaled by the same factor.", "quantifier": "all grids and parameters", "why_tests_cant": "Depends on running maximum over all points.", "anchors": ["Source/initial_data.cpp: compact_pulse"]}
{"id": "C54", "title": "Initial direction keyword", "statement": "ingoing gives p=+d_r f, outgoing p=-d_r f, time_symmetric and any other keyword p=0 at each initialised point.", "quantifier": "all keywords (strings), all grids", "why_tests_cant": "All strings.", "anchors": ["Source/initial_data.cpp: compact_pulse"]}
{"id": "C55", "title": "Every point at finite radius is initialised", "statement": "compact_pulse sets every grid point with finite r; only the points at infinity are skipped.", "quantifier": "all grids, both radial discretisations", "why_tests_cant": "The skipped index is nx-1, which is infinity for finite differences but the horizon for the (descending) Chebyshev grid; tests never run compact_pulse.", "anchors": ["Source/initial_data.cpp: compact_pulse", "Source/cheb.cpp: Cheb::Cheb"]}
{"id": "C56", "title": "Parameter lookup returns the value of the first line with exactly that name", "statement": "Reading a parameter returns the first whitespace-delimited token after the name on the first line whose text before the first space equals the name; other lines, including ones whose name merely starts with it (rl vs rl_0), never influence the result.", "quantifier": "all file contents and names", "why_tests_cant": "All files.", "anchors": ["Source/params.cpp: Params::_read"]}
{"id": "C57", "title": "A missing parameter stops the program before any evolution", "statement": "If any required parameter is absent the process exits before computing or writing any output file, with a failure status a script can detect.", "quantifier": "all parameter files", "why_tests_cant": "Exit status on the error path is 0; no test.", "anchors": ["Source/params.cpp: Params::_read, Params::Params"]}
{"id": "C58", "title": "Integer parameters are read exactly", "statement": "A decimal integer in 0..2^31-1 is read as itself; text that is not a number or is out of range raises an error; a negative size becomes a huge unsigned value (2^64-k).", "quantifier": "all integers/strings", "why_tests_cant": "All integers.", "anchors": ["Source/params.cpp: Params::Params (std::stoi into size_t)"]}
{"id": "C59", "title": "Launcher to solver parameter round trip", "statement": "Every parameter the launcher writes with a non-empty value free of whitespace is read back by the solver as the text the launcher wrote.", "quantifier": "all parameter sets with distinct names without spaces/newlines", "why_tests_cant": "All parameter sets; spans two programs.", "anchors": ["sim_class.py: write_sim_params", "Source/params.cpp: _read"]}
{"id": "C60", "title": "CSV spectrum file format", "statement": "Each spectrum write appends a header line (when coordinates are requested) and then exactly nx*nl rows, row ix*nl+l carrying radius of point ix, l, and the value for shell ix and harmonic l.", "quantifier": "all grids, fields, save indices", "why_tests_cant": "All grids.", "anchors": ["Source/io.cpp: write_R_psl, write_n_psl, write"]}
{"id": "C61", "title": "CSV values are floored base-10 logarithms", "statement": "The value written is log10(power) when power>=1e-16 and -16 otherwise; it is never below -16 and is monotone in the power.", "quantifier": "all non-negative powers", "why_tests_cant": "A continuum of values.", "anchors": ["Source/io.cpp: write_R_psl, write_n_psl"]}
{"id": "C62", "title": "Distinct saves go to distinct files; re-running appends", "statement": "Within a run, each (field, save index) pair has its own file name, so each file receives exactly one block; running again into the same directory appends a second block instead of replacing the first.", "quantifier": "all save indices below 2^31, both output names, all directory contents", "why_tests_cant": "All indices and directory states.", "anchors": ["Source/io.cpp: write_R_psl (ios::app)", "Source/main.cpp: main"]}
{"id": "C63", "title": "Save schedule", "statement": "For nt>=1 and t_step_save>=1 the run produces save indices 0..floor((nt-1)/t_step_save) in order, save k>=1 holding the state after exactly k*t_step_save time steps.", "quantifier": "all nt, t_step_save", "why_tests_cant": "All histories.", "anchors": ["Source/main.cpp: main"]}
{"id": "C64", "title": "Evolved duration and printed time", "statement": "The run performs the number of time steps nt requested by the parameter file, and the time printed with save k is the simulated time of the saved state, dt times the number of steps taken.", "quantifier": "all nt", "why_tests_cant": "The loop runs from 1 to nt-1, i.e. nt-1 steps.", "anchors": ["Source/main.cpp: main"]}
{"id": "C65", "title": "Save interval zero is never executed", "statement": "The launcher never writes t_step_save=0; a hand-written file with t_step_save=0 and nt>=2 makes the solver divide by zero.", "quantifier": "all launcher settings; all parameter files", "why_tests_cant": "All settings.", "anchors": ["sim_class.py: set_derived_params", "Source/main.cpp: main"]}
{"id": "C66", "title": "A run with a valid parameter file never leaves its arrays", "statement": "For nx>=8 (finite differences), positive angular sizes, nm<=nl, l_ang<=nl, 0<=m_ang<=min(l_ang,nm) and t_step_save>=1, no array access in the whole run is out of bounds and no assertion fails, for any number of steps and whatever values are found in memory that was never written (C22).", "quantifier": "all valid parameter files, all field values arising, all contents of uninitialised memory, all run lengths", "why_tests_cant": "Unbounded runs and all sizes.", "anchors": ["Source/main.cpp: main and everything it calls"]}
{"id": "C67", "title": "Launcher-derived number of saves", "statement": "With num_saved_times>=1 and nt>=num_saved_times, the number of saves produced by the solver from the launcher's nt and t_step_save is at least num_saved_times and at most twice that.", "quantifier": "all nt and num_saved_times", "why_tests_cant": "Integer division interplay over two programs.", "anchors": ["sim_class.py: set_derived_params", "Source/main.cpp: main"]}
{"id": "C68", "title": "Runs are reproducible", "statement": "Two runs with the same parameter file produce the same sequence of outputs, whatever the uninitialised memory and the thread schedules (arithmetic of the reduction diagnostics aside).", "quantifier": "all parameter files, memory contents and schedules", "why_tests_cant": "Nondeterminism is rare in tests.", "anchors": ["Source/main.cpp: main"]}
{"id": "C69", "title": "Each step starts from the filtered result of the previous step", "statement": "In a run, the state at step k+1 is the time step applied to the state at step k, with nothing lost or duplicated between steps; the current level left by a step is the filtered start state (so the printed residual compares against filtered data).", "quantifier": "all run lengths", "why_tests_cant": "Unbounded histories.", "anchors": ["Source/main.cpp: main", "Source/field.cpp: shift", "Source/scalar_eom.cpp: time_step"]}
{"id": "C70", "title": "Kinetic prefactor is the one documented in the run script", "statement": "The kinetic prefactor the solver evolves is km1/psi + k0 + k1*psi + k2*psi^2, as documented beside the parameters in runscript_template.py.", "quantifier": "all km1,k0,k1,k2 and all field values", "why_tests_cant": "the two formulas agree on the default parameters (km1=k2=0); only a proof over all parameters separates them", "anchors": ["Source/scalar_eom.cpp:331 k", "runscript_template.py:38"]}
{"id": "C71", "title": "A crash leaves earlier saves complete and later files untouched", "statement": "If the program is stopped at any moment, there is a save number j such that the output files of every earlier save hold their complete tables, the files of later saves and all other files are as before the run, and the files of save j have received a prefix of their lines (the density's lines only after all of the field's).", "quantifier": "all points at which the program can be stopped (every prefix of its sequence of external effects), all parameters, all previous directory contents", "why_tests_cant": "Every crash point of every run.", "anchors": ["Source/main.cpp: main", "Source/io.cpp: write_R_psl"]}
{"id": "C72", "title": "Combined Chebyshev/harmonic spectrum files show the size of each coefficient", "statement": "In a Chebyshev build, the value written for degrees (n,l) is the base-10 logarithm (floored at -16) of the magnitude of the n-th Chebyshev coefficient of the amplitude of degree l.", "quantifier": "all fields, all n and l", "why_tests_cant": "The sign of a coefficient depends on the field; a test with a positive coefficient passes.", "anchors": ["Source/grid.cpp: set_n_l_coef", "Source/io.cpp: write_n_psl"]}
{"id": "C73", "title": "Point files list exactly the selected points", "statement": "write_x_y_z appends one row per grid point, in array order, for exactly those points whose absolute value lies strictly between the value bounds and whose distance from the origin lies strictly between the radius bounds; each row has the Cartesian coordinates of its point and the value.", "quantifier": "all grids, fields, bounds", "why_tests_cant": "All grids and selections.", "anchors": ["Source/io.cpp: write_x_y_z"]}
{"id": "C74", "title": "Small free fields never meet the pole", "statement": "With a constant non-zero kinetic prefactor and a purely quadratic potential, for every state and every number N of steps there is an amplitude below which the evolution of the rescaled state produces only finite numbers during N steps (the code divides by f+1 even when km1=0, so large fields can hit a 0/0).", "quantifier": "all states, step counts, grids, amplitudes below the threshold", "why_tests_cant": "Universally quantified over states, amplitudes and unbounded step counts.", "anchors": ["Source/scalar_eom.cpp: time_step, set_k"]}
{"id": "C75", "title": "Where the time derivative is finite", "statement": "On a finite state, the computed time derivative of the second field is finite at a grid point exactly when the field value there is neither -1 nor a zero of the kinetic prefactor; infinity and the horizon are not exceptions.", "quantifier": "all finite states, grid points, parameters with a black hole and a radial domain inside (0,L]", "why_tests_cant": "A statement about all real field values, including measure-zero exceptional sets.", "anchors": ["Source/scalar_eom.cpp: set_k, ctor"]}
{"id": "C76", "title": "Debug builds stop on arrays of the wrong size", "statement": "In a build with assertions, every operation that takes caller-supplied arrays (finite-difference and Chebyshev operators, spherical transforms and operators, grid row access, grid derivatives, constructors, the equations of motion) terminates the program by an assertion failure, before computing anything, when an array has not the size belonging to the object; it never silently uses such an array.", "quantifier": "all objects, all sizes, all arrays of any wrong size", "why_tests_cant": "All sizes and all argument positions.", "anchors": ["Source/finite_diff.cpp: der, der2, filter", "Source/cheb.cpp: to_ch, to_po, der, filter", "Source/sphere.cpp: all operations", "Source/grid.hpp: row access", "Source/grid.cpp: operations", "Source/scalar_eom.cpp: time_step, set_rho"]}
{"id": "C77", "title": "The evolved equation is the scalar field equation of the Kerr metric", "statement": "At every grid point at finite radius off the axis, a twice continuously differentiable spacetime function whose value and derivatives there are the ones in the solver's arrays satisfies the covariant equation box(psi)+k'/(2k)(grad psi)^2-V'/k=0 of the Kerr metric (ingoing coordinates, equivalent to Boyer-Lindquist) exactly when its second time derivative is the value the solver computes.", "quantifier": "all grids, parameters, fields, points at finite radius off the axis, C2 functions", "why_tests_cant": "A statement about all smooth functions and all parameters; derives the coefficients from the metric tensor.", "anchors": ["Source/scalar_eom.cpp: ctor, set_k", "Documentation/main.tex: equations of motion"]}
{"id": "C78", "title": "The written density is the energy density of the field", "statement": "The value set_rho writes is n^mu n^nu T_{mu nu} of the scalar field for the unit normal of the time slices in the Kerr metric.", "quantifier": "all grids, parameters, fields, points at finite radius off the axis", "why_tests_cant": "A statement about all smooth functions; the reference value comes from tensor algebra.", "anchors": ["Source/scalar_eom.cpp: set_rho", "Documentation/main.tex: energy density"]}
{"id": "C79", "title": "The space discretisation is exact on resolved solutions", "statement": "If a solution of the covariant scalar field equation on Kerr is, on the current time slice, a finite sum of spherical harmonics below the top degree with coefficients polynomial (degree at most six for finite differences, below nx-2 for the Chebyshev grid) in the compactified radius, then at every finite-radius grid point the time derivatives computed by the solver from the sampled arrays equal the first and second time derivatives of the solution.", "quantifier": "all grids, both radial schemes, all couplings and potentials, all resolved fields and all covariant solutions with that slice data, all grid points at finite radius, all contents of scratch memory", "why_tests_cant": "Combines radial, spherical and Kerr-coefficient pieces; a test compares one solution at one resolution up to a tolerance and cannot separate truncation error from a small wrong coefficient.", "anchors": ["Source/scalar_eom.cpp: set_k", "Source/grid.cpp: set_partial_r", "Source/grid.cpp: set_spherical_lap", "Source/grid.cpp: set_sphereX"]}
{"id": "C80", "title": "The time integration is fourth-order accurate", "statement": "For every grid state away from the singularities of the equation, one time step of size dt differs from the exact solution over the time dt of the ordinary differential equation whose right-hand side is what the solver computes, started from the filtered state, by at most a constant times dt^5; such a solution always exists.", "quantifier": "all grids, both radial schemes, all parameters with radii between the horizon side and infinity, all non-linear couplings and potentials, all finite non-singular states, all sufficiently small time steps, all contents of work arrays and uninitialised memory", "why_tests_cant": "An order of accuracy is a statement about the limit dt to 0 for every right-hand side; a convergence test measures one slope for one solution and accepts a wrong Runge-Kutta coefficient whose effect is below the spatial error.", "anchors": ["Source/scalar_eom.cpp: set_level, set_k, time_step"]}
{"id": "C81", "title": "The launcher's settings mean what they say", "statement": "From mass, spin, compactification length, evolve_time, cfl, grid sizes and pulse radii in units of the horizon radius, the launcher hands the solver: the positive time step 6/n^2 (limited to cfl/(nx-1) for finite differences); the largest number of steps that does not exceed evolve_time*mass; a radial interval that starts at the compactified outer horizon and ends at infinity; and a pulse that is positive exactly between rl_0 and ru_0 horizon radii. The ratio of time step to radial spacing is at most cfl. The run reaches evolve_time. (The last two hold only in part: the ratio is bounded by cfl only if L+r_plus<=L^2, and the last saved time is between 1 and t_step_save+1 steps short.)", "quantifier": "every sensible setting (any black hole, compactification length, time, cfl, sizes) and every run of the solver with the resulting parameters", "why_tests_cant": "it ranges over all real-valued physical parameters and all grid sizes; a test run checks one launch", "anchors": ["sim_class.py: set_derived_params", "sim_class.py: write_sim_params", "runscript_template.py", "Source/main.cpp: main"]}
{"id": "C82", "title": "Ladder operators with orders truncated below the degrees", "statement": "For every truncation nm<=nl the run script allows, raise and lower applied to a representable real field multiply and shift each (l,m) coefficient as the angular-momentum ladder operators do (below the top degree).", "quantifier": "all truncations nm<=nl, all real fields, all sphere sizes, all contents of uninitialised buffers", "why_tests_cant": "the effect sits in the highest degrees and depends on how the transform library packs truncated coefficients; a test with nm=nl, or with a low-degree field, passes", "anchors": ["Source/sphere.cpp: Sphere::raise, Sphere::lower", "Source/sphere.hpp", "runscript_template.py: nl=20, nm=18"]}
{"id": "C83", "title": "Refining the time step converges to the discretised equation", "statement": "On a fixed spatial grid, evolving the same data to the same time T with N steps of size T/N gives, as N grows, a state that tends to the solution at time T of the ordinary differential equation whose right-hand side set_k computes.", "quantifier": "all initial data, all final times, all numbers of steps, all contents of work arrays and uninitialised memory", "why_tests_cant": "a limit over unboundedly many step counts; a fixed-resolution run, or a convergence test that refines space and time together, cannot separate the damping per step from the truncation error", "anchors": ["Source/scalar_eom.cpp: Scalar_eom::time_step, set_k", "Source/grid.cpp: Grid::filter", "Source/sphere.cpp: Sphere::filter", "Source/main.cpp: evolution loop"]}
{"id": "C84", "title": "The space discretisation is consistent of sixth order on smooth fields", "statement": "With finite differences, giving the solver the grid values of a smooth field and of its time derivative, the second time derivative it computes differs from the one the covariant Kerr field equation dictates by at most C h^6 at every grid point at finite radius, h the radial spacing, with one constant C for all grids, layouts, build modes, work arrays and uninitialised memory.", "quantifier": "all physics parameters, all fields of finitely many harmonics below the top degree with C^8 radial profiles, all grids (all nx, nlat, nphi), all layouts, all contents of work arrays", "why_tests_cant": "a uniform bound over infinitely many resolutions and all smooth fields; a convergence test samples a few resolutions of one field", "anchors": ["Source/finite_diff.cpp: FD::der, FD::der2", "Source/grid.cpp: set_partial_r, set_partial2_r", "Source/scalar_eom.cpp: set_k, set_level_coefs", "Source/sphere.cpp: partial_phi, laplace_beltrami, sphereX"]}
{"id": "C85", "title": "A launch never touches the results of earlier runs", "statement": "Launching a run with sim_class.py, whatever the attributes of the Sim object and however the launch or the solver ends, leaves every file and directory that existed as it was; everything new is in a directory that did not exist before; so along any sequence of launches earlier results stay. If the run's directory already exists the launch raises and does nothing. (recompile=False; a binary name of letters, digits, '_', '-', '.'.) With recompile=True the binary that is copied and run is the one the two make commands leave in Bin.", "quantifier": "all objects, file systems, machines, sequences of launches, ways the solver may fail", "why_tests_cant": "all histories of launches and all failure points; a test launches a few objects in a few directories", "anchors": ["sim_class.py: make_output_dir, launch_run, write_sim_params, write_slurm_script", "Source/main.cpp", "Source/io.cpp"]}
{"id": "C86", "title": "From the run script to the tables", "statement": "If the attributes of the Sim object say what the settings say, the directory is new and the binary is built, launch_run on the local computer runs the solver with exactly the parameters derived from the settings, with OMP_NUM_THREADS and OMP_MAX_ACTIVE_LEVELS set to the requested numbers, params.txt reads back as these parameters, the directory holds the binary, out.txt and besides exactly the files the solver writes when started in an empty directory: file f_RPsl_k.csv holds the table of the field after k*t_step_save steps, for every k, and likewise rho.", "quantifier": "all settings, numbers of saves, grids, file systems with a fresh directory, printing and reading of numbers that round-trip on the numbers used", "why_tests_cant": "composes python attribute order, text formatting, parsing, path resolution and the whole evolution for every setting", "anchors": ["sim_class.py: launch_run, set_derived_params, write_sim_params", "Source/params.cpp: Params::Params", "Source/main.cpp: main", "Source/io.cpp: write"]}
{"id": "C87", "title": "What the launcher does not notice", "statement": "launch_run returns normally whenever the solver was started, however the solver ended. With |spin|>mass it does not raise either: the horizon radius becomes complex and is written to params.txt as such; but then the solver stops with an error while reading the parameters and writes no table.", "quantifier": "all objects with |spin|>mass, all file systems and machines on which the solver starts", "why_tests_cant": "holds for every overspinning setting and every failure of the solver", "anchors": ["sim_class.py: set_derived_params, launch_run", "Source/params.cpp: Params::Params, _read_param"]}
{"id": "C88", "title": "A binary is what its build command asked for", "statement": "Whatever was edited, built or cleaned before, `make` (with any variables and goal) links a binary all of whose parts are compiled with the switches of that command; config.py's default_cheb.run is a Chebyshev build and its default_fd.run a finite-difference build; every part was compiled after the last change of its source and of every header; recompile=True rebuilds the named binary as what its name says. (True with a make that removes the objects it made; with one that keeps them default_fd.run is the Chebyshev build; recompiling default_cheb.run gives a finite-difference build with any make.)", "quantifier": "all sequences of edits, builds and cleanings, all variables and goals, all make policies about intermediate files", "why_tests_cant": "depends on the whole history of the directory and on the version of make", "anchors": ["Source/Makefile: OBJ, %.run, %.o", "Makefile: %.run", "config.py", "sim_class.py: then_recompile"]}
{"id": "C89", "title": "Spectral accuracy of the Chebyshev derivative", "statement": "On a Chebyshev grid the first derivative of the samples of a smooth function, and the second obtained by differentiating twice, converge to the true derivatives faster than any power of the number of points, uniformly over the grid points; and for arbitrary samples they are as good as the best polynomial approximation of degree n-3 of the sampled function, up to the factor 4n^3/(up-lo) per differentiation.", "quantifier": "all intervals, all (sufficiently) smooth functions, all powers, all numbers of points, all transforms meeting FFTW's contract, all contents of the output array", "why_tests_cant": "a convergence statement: one constant for infinitely many resolutions and every function", "anchors": ["Source/cheb.cpp: Cheb::der, to_ch, to_re, pt"]}
{"id": "C90", "title": "Spectral consistency of the Chebyshev build", "statement": "For a solver built with USE_CHEB, the time derivative of the momentum computed from the values of a smooth band-limited field and of its time derivative differs from the second time derivative of the solution of the covariant field equation, at every grid point at finite radius, by at most C/(nx-1)^p, for every p, with C independent of the grid.", "quantifier": "all physics parameters, radial intervals, smooth data, powers p, grids, layouts, debug/release builds, memory contents, grid points", "why_tests_cant": "compares with exact solutions of the covariant equation at every resolution", "anchors": ["Source/scalar_eom.cpp: Scalar_eom::set_k", "Source/grid.cpp: set_partial_R, set_sphere_lap, set_partial_phi", "Source/cheb.cpp: Cheb::der"]}
{"id": "C91", "title": "Filters are high order", "statement": "The finite-difference dissipation filter changes the samples of a function with bounded eighth derivative by at most 107 max|f^(8)| h^8 at every grid point; the Chebyshev low pass filter changes the samples of a smooth function by at most K/n^16 with K independent of the number of points, and the order 16 is sharp already for f(x)=x.", "quantifier": "all intervals, smooth functions, numbers of points, grid points", "why_tests_cant": "asymptotic statement over all resolutions and functions", "anchors": ["Source/finite_diff.cpp: FD::filter", "Source/cheb.cpp: Cheb::filter"]}
{"id": "C92", "title": "Objects may be created, used and destroyed in any lifetime-respecting order", "statement": "A program may construct, use and destroy radial Chebyshev transforms, Spheres and Grids in any order that respects C++ object lifetimes without undefined behaviour of the FFTW library, and once everything is destroyed no FFTW plan is left.", "quantifier": "all histories of constructions, uses and destructions of any number of objects, both radial methods, any number of plans held by SHTns", "why_tests_cant": "ranges over all interleavings of object lifetimes; undefined behaviour need not show in a test", "anchors": ["Source/cheb.cpp: Cheb::Cheb, Cheb::~Cheb (fftw_cleanup)", "Source/sphere.cpp: Sphere::Sphere, Sphere::~Sphere", "Source/grid.cpp: Grid::Grid, Grid::~Grid", "Source/grid.hpp: members _sphere, _radial"]}
{"id": "C93", "title": "Rounding errors of an evolution are proportional to the machine accuracy", "statement": "An evolution computed in floating-point arithmetic (every operation, library transform, parameter and initial value correct up to rounding) takes every step the exact evolution takes, and every value of both fields stays finite and within a constant times the machine accuracy of the exact one; the constant depends on the run, not on the format.", "quantifier": "all parameters off the code's 1e-16 ties, grids, radial methods, builds, initial data with a finite exact evolution, numbers of steps, floating-point formats accurate and large enough, library implementations accurate up to rounding", "why_tests_cant": "ranges over all roundings of all operations in all formats; a test sees one rounding of one run and has no exact run to compare with", "anchors": ["Source/scalar_eom.cpp: Scalar_eom::set_k, time_step", "Source/grid.cpp: Grid", "Source/sphere.cpp: Sphere", "Source/finite_diff.cpp: FD", "Source/cheb.cpp: Cheb", "Source/main.cpp: main"]}
{"id": "C94", "title": "Reductions in floating point: every schedule gives the same diagnostics up to a known rounding error", "statement": "In floating-point arithmetic the residual norm and the total variation are finite and equal the root mean square (resp. the sum over the number of points) of the computed per-point terms, with relative error at most twice (number of additions + threads + 2) times the machine accuracy, for every distribution of the iterations over threads and every order and grouping in which the private sums are combined, and for the sequential loop; so two runs with different thread counts print residuals that agree to this accuracy.", "quantifier": "all grids, data, thread counts, distributions of iterations, combination orders, formats with sharp rounding (binary64 proved to be one)", "why_tests_cant": "the order of combination is left open by OpenMP and differs from run to run; a test sees one order", "anchors": ["Source/grid.cpp: Grid::norm_indep_res, Grid::total_variation"]}
{"id": "C95", "title": "Spherical symmetry is kept around a hole that does not rotate", "statement": "With spin 0, if field and time derivative do not depend on the angles at the start, they do not after any number of time steps, for as long as the evolution stays finite, and neither does the energy density the code computes from them; and the filter leaves a finite spherically symmetric array exactly as it is.", "quantifier": "all grids (both layouts, both radial schemes, nl>=1, nm<=nl), masses, potentials, kinetic prefactors, symmetric data, numbers of steps, uninitialised memory", "why_tests_cant": "angular noise of the transforms could feed into the evolution after any number of steps, for any data", "anchors": ["Source/scalar_eom.cpp: Scalar_eom::time_step, set_k, set_rho", "Source/sphere.cpp", "Source/grid.cpp: Grid::filter"]}
{"id": "C96", "title": "Spherically symmetric evolutions converge with fourth order in the time step", "statement": "With spin 0 and spherically symmetric data, if u solves on [0,T] the equation in time that set_k defines, then N time steps of size T/N from u(0) give, for all large N, after every number k<=N of steps, finite fields that differ from u(kT/N) by at most C/N^4.", "quantifier": "all grids, parameters, solutions, end times, N large, k<=N, uninitialised memory", "why_tests_cant": "a convergence test compares a few resolutions; the bound is for all of them and for all intermediate times", "anchors": ["Source/scalar_eom.cpp: Scalar_eom::time_step", "Source/main.cpp"]}
{"id": "C97", "title": "What refinement in time converges to", "statement": "Filtering a finite state again and again converges to one state, which keeps exactly the harmonics of degree 0, degree nl and order nm. Evolving any data to a fixed time T with N steps of size T/N gives, for all large N and every k<=N, finite fields that differ by at most C(rho^k+1/N), rho=exp(-40/nl^16)<1, from u(kT/N), where u starts from the repeatedly filtered data and its time derivative is the repeatedly filtered result of set_k.", "quantifier": "all grids with nm=nl, parameters, data with finite slopes, end times, N large, k<=N, uninitialised memory", "why_tests_cant": "a statement about the limit of infinitely many ever smaller steps, for all data", "anchors": ["Source/scalar_eom.cpp: Scalar_eom::time_step", "Source/grid.cpp: Grid::filter", "Source/sphere.cpp: Sphere::filter"]}
{"id": "C98", "title": "Running the tests and building the solver do not influence each other", "statement": "Whatever was edited, built, tested or cleaned before, `make test` compiles the tested sources (finite differences, Chebyshev, sphere, grid) with the test program's switches and after the last change of source and headers, and running the tests has no influence on solvers built later. (True with a make that removes the objects it made. With one that keeps objects: the test program misses edits of headers, a solver built after `make test` contains parts with the test program's switches - with make 4.3 a grid compiled for one memory layout and transforms compiled for the other -, and the tests may test objects with the solver's switches.)", "quantifier": "all sequences of edits, builds, test builds and cleanings, all variables and goals, all make policies about intermediate files", "why_tests_cant": "it is about how the test program itself is built, and about the history of the directory", "anchors": ["Test/Makefile: OBJ, %.run, %.o", "Makefile: test", "Source/Makefile: OBJ, %.o"]}
{"id": "C99", "title": "A cluster job runs the settings", "statement": "With `computer` other than home, launch_run does not run the solver but hands a job script to the queue; whenever the script runs in the run's directory, and whatever else has happened to other directories meanwhile, the solver runs with exactly the parameters derived from the settings, the requested number of threads and nested levels, the copied binary, and leaves in the directory exactly the files it writes when started in an empty directory. This needs an absolute place (out_stem) without spaces: with a relative out_stem launch_run returns normally although nothing was queued.", "quantifier": "all settings, places, file systems at launch and at the time the job runs", "why_tests_cant": "needs a cluster, and all later states of the file system; composes script text, shell interpretation, environment, parsing and evolution", "anchors": ["sim_class.py: launch_run, write_slurm_script, run_str", "Source/params.cpp: Params::Params", "Source/main.cpp: main"]}
{"id": "C100", "title": "Finite speed of influence", "statement": "With finite differences, what the state is on some shells influences the state N steps later only within 12N shells: two evolutions whose states agree on the shells a..b agree after N steps, bit for bit, on the shells a+12N..b-12N; the same holds up to the outer boundary (if 8 more shells are left) and up to the inner boundary (if 7 more are left), where the stencils are one-sided; the density at a shell depends on shells at most three away; and the front of a pulse that vanishes beyond shell a stays within shell a+12N. (Not claimed for Chebyshev builds, where every derivative couples all shells.)", "quantifier": "all states, grids, parameters, memory layouts, numbers of steps, contents of uninitialised memory and, except for the front, all arithmetics", "why_tests_cant": "a statement about all pairs of states and all times", "anchors": ["Source/scalar_eom.cpp: time_step, set_k", "Source/finite_diff.cpp: der, der2", "Source/grid.cpp: partial_r, partial2_r, filter"]}
{"id": "C101", "title": "The project's unit tests decide what they claim to decide", "statement": "The tests of the sphere and of the radial grids (Test/test_sphere.cpp, test_cheb.cpp, test_finite_diff.cpp) have a verdict that depends only on the code: with exact arithmetic and libraries that do what they document, make_Ylm, to_and_from, partial_phi, laplace_beltrami, raise_and_lower, the two Chebyshev tests (round trip, derivatives) and the convergence test of the finite differences pass, whatever uninitialised memory contains. (True of those tests. But raise_and_lower passes with any `lower` that returns, since its result is never looked at; the verdict of sphereX depends on uninitialised memory: the same library and code pass or fail depending on one number the code never wrote; the convergence test of the finite differences would fail a derivative that is exact; and the verdicts of the total-variation tests depend on rand(): that of the dissipation filter fails whenever the noise keeps the data monotone, e.g. when all random numbers are equal, that of the sphere's filter passes then, and that of the Chebyshev filter passes for some numbers between 0 and 0.1 and fails for others.)", "quantifier": "all contents of uninitialised memory, all libraries meeting their contracts, both layouts, debug and release, all random numbers, all replacements of `lower`", "why_tests_cant": "it is a statement about what the tests themselves can and cannot detect", "anchors": ["Test/test_sphere.cpp", "Test/test_cheb.cpp", "Test/test_finite_diff.cpp", "Source/sphere.cpp: raise, lower, sphereX"]}
{"id": "C102", "title": "The grid test compares with the truth", "statement": "The test of the grid (Test/test_grid.cpp) runs to a verdict in every build, and the numbers it compares are the mean absolute differences, over all points of the grid, between what the grid's operators return for a sampled function and the exact derivatives of that function: radial derivative at every radius including the ends of its support, azimuthal derivative, Laplacian and squared gradient on the sphere. (True of all but the squared gradient, whose reference has the radial factor to the first instead of the second power: it is too large wherever it is not zero, so that number does not measure the error of the code.)", "quantifier": "all radii, angles and supports; for the run: all builds, libraries meeting their contracts, arithmetics, uninitialised memory, random numbers", "why_tests_cant": "it is about the truth of the test's own reference values at all points", "anchors": ["Test/test_grid.cpp: get_norm_diff, get_total_variation", "Source/grid.cpp: set_partial_r, set_partial2_r, set_partial_phi, set_sphereX, set_spherical_lap, filter"]}
{"id": "C103", "title": "The unit of length is a convention", "statement": "Describing the same system in another unit of length (mass, spin, compactification length, radial interval, pulse radii and time step multiplied by s, potential coefficients divided by s^2) gives the same run: after every step the field is the same at every grid point, the velocity is divided by s, the energy density by s^2, the printed residual by s, and the printed total variation is the same. Required: no length that the code compares with an absolute number (1e-16 for the distance to extremality, the spin and the distance to infinity, 1e12 for the radius at infinity) changes side. (Without that condition it is false: a nearly extremal black hole is treated as extremal in one unit only.)", "quantifier": "all positive factors, parameters, both radial methods, all initial data, all numbers of steps, any uninitialised memory, as long as the first run stays finite (exact arithmetic)", "why_tests_cant": "relates two runs for all parameters and step counts", "anchors": ["Source/scalar_eom.cpp: Scalar_eom::Scalar_eom, time_step, set_rho", "Source/initial_data.cpp: compact_pulse", "Source/grid.cpp: R_to_r, norm_indep_res, total_variation", "Source/main.cpp"]}
{"id": "C104", "title": "Reflection about the equatorial plane", "statement": "Reflecting the initial field and velocity about the equator (theta -> pi - theta) reflects the whole evolution and the energy density; a state symmetric about the equator stays symmetric, and, for even kinetic function and potential, an antisymmetric state stays antisymmetric. (True when at most one azimuthal order is missing, nm >= nl-1, or the kinetic function is constant. False otherwise, e.g. for the template's nl=20, nm=18: the squared angular gradient is computed from misplaced coefficients.)", "quantifier": "all grids on equatorially symmetric polar nodes, parameters, radial methods, states, numbers of steps and uninitialised memory, as long as the run stays finite (exact arithmetic)", "why_tests_cant": "relates two runs for all states and step counts", "anchors": ["Source/scalar_eom.cpp: Scalar_eom::time_step, set_k, set_rho", "Source/sphere.cpp: sphereX, raise, lower, laplace_beltrami, filter", "Source/grid.cpp: sphereX, filter"]}
{"id": "C105", "title": "Azimuthal harmonics of a free field evolve independently", "statement": "For a free field (constant kinetic function, at most a mass term) on any black hole: if the initial field and velocity contain only the azimuthal harmonic m (at every radius and polar angle a combination of cos(m phi) and sin(m phi)), so do field and velocity after any number of steps.", "quantifier": "all m, grids, radial methods, spins, free parameters, initial profiles, numbers of steps, uninitialised memory, as long as the run stays finite (exact arithmetic)", "why_tests_cant": "must hold for every profile and number of steps", "anchors": ["Source/scalar_eom.cpp: Scalar_eom::time_step, set_k", "Source/sphere.cpp: partial_phi, laplace_beltrami, filter", "Source/grid.cpp"]}
{"id": "C106", "title": "Spherical harmonics of a free field around a non-rotating hole evolve independently", "statement": "For a free field around a hole without spin: initial data that at every radius are one real harmonic of degree l and order m stay that harmonic for ever (no other harmonic is excited), and the radial profiles at all later times do not depend on the phase, i.e. on the mixture of cos(m phi) and sin(m phi).", "quantifier": "all l <= nl, m <= min(l,nm), phases, radial profiles, grids, radial methods, numbers of steps, uninitialised memory, as long as the runs stay finite (exact arithmetic)", "why_tests_cant": "relates families of whole runs for all profiles", "anchors": ["Source/scalar_eom.cpp: Scalar_eom::time_step, set_k", "Source/sphere.cpp: laplace_beltrami, filter", "Source/grid.cpp"]}
{"id": "C107", "title": "Around a non-rotating hole all orders of one degree evolve alike", "statement": "For a free field around a hole without spin, runs that start from harmonics of the same degree l with the same radial profiles keep the same radial profiles, whatever the order m. (False: the angular filter, applied once per step, damps by exp(-40 (m/nl)^16) in addition to the damping in l, so it is not rotationally invariant; the profiles differ by exactly that factor per step.)", "quantifier": "all l < nl, m <= l, m < nm, phases, radial profiles, grids, radial methods, numbers of steps, uninitialised memory, as long as the runs stay finite (exact arithmetic)", "why_tests_cant": "relates families of whole runs for all profiles", "anchors": ["Source/sphere.cpp: Sphere::filter, constructor (low_pass_l, low_pass_m)", "Source/scalar_eom.cpp: Scalar_eom::time_step, set_k", "Source/grid.cpp: filter"]}
{"id": "C108", "title": "The tables can be read back", "statement": "Every finite number in an output file is a decimal number without comma or newline, so that the rows and columns of a table can be separated again; reading a spectrum table back gives the radius of each shell, the degree (exactly) and the logarithm of the power (exactly -16 for small powers); the order and sign of the numbers are kept and the numbers are the ones the program had. (The last is false: 16 significant digits are printed, which gives each number up to half a unit of the sixteenth digit, but different doubles such as 1 and 1+2^-52 are printed alike; 17 digits would be enough.)", "quantifier": "all real numbers, all doubles, all grids, shells, degrees, fields (exact arithmetic for the table)", "why_tests_cant": "printing and reading must agree for every number", "anchors": ["Source/io.cpp: Csv::write, write_R_psl, write_n_psl, write_x_y_z (std::setprecision(16))"]}
{"id": "C109", "title": "A run around a non-rotating hole shows only the degree it started with", "statement": "A run from the built-in initial data (a pulse times one spherical harmonic of degree l and order m) of a free field (constant kinetic function, no cubic or quartic potential term) around a hole without spin keeps the shape of the harmonic at every step: the field is the harmonic times a radial profile, and the spectrum table shows -16 for every degree but l, and for degree l the logarithm of the power of that profile. For every number of steps there is an amplitude below which the run stays finite for as many steps.", "quantifier": "all grids, pulses, harmonics the grid resolves, steps, shells, degrees (exact arithmetic)", "why_tests_cant": "it must hold at every step of every run", "anchors": ["Source/main.cpp: main, write_fields", "Source/initial_data.cpp: compact_pulse", "Source/io.cpp: Csv::write_R_psl", "Source/scalar_eom.cpp", "Source/sphere.cpp: power_spectrum"]}
{"id": "C110", "title": "Selection rules around a spinning hole", "statement": "A run from the built-in initial data with harmonic (l,m) of a free field around any hole, spinning or not, on a grid symmetric about the equator, keeps the order m (on each circle of latitude the field is a combination of cos(m phi) and sin(m phi)) and the parity: the spectrum table shows -16 for every degree below m and every degree that differs from l by an odd number, at every step.", "quantifier": "all grids symmetric about the equator, pulses, resolved harmonics, spins, steps, shells, degrees (exact arithmetic)", "why_tests_cant": "it must hold at every step of every run", "anchors": ["Source/main.cpp: main, write_fields", "Source/initial_data.cpp: compact_pulse", "Source/scalar_eom.cpp", "Source/sphere.cpp"]}
{"id": "C111", "title": "Reversing the spin is reversing the azimuth", "statement": "Around a hole with spin -a a field and a velocity with the azimuth reversed (phi -> -phi) have the second time derivatives, and the energy density, that the unreversed ones have around the hole with spin a, with the azimuth reversed. In particular around a hole without spin the evolution commutes with the reversal of the azimuth.", "quantifier": "all grids, spins, fields and velocities, library buffers (exact arithmetic)", "why_tests_cant": "it relates two runs with different parameters, for every field", "anchors": ["Source/scalar_eom.cpp: Scalar_eom::set_k, Scalar_eom::set_rho, Scalar_eom::Scalar_eom", "Source/sphere.cpp: partial_phi, sphereX", "Source/grid.cpp"]}
{"id": "C112", "title": "Only ratios of the Lagrangian's coefficients matter", "statement": "Multiplying all coefficients of the kinetic function (km1, k0, k1, k2) and of the potential (V2, V3, V4) by one number that is not zero does not change the evolution of any state, and multiplies the energy density by this number.", "quantifier": "all set-ups, factors, states (also such that run into the pole), numbers of steps, library buffers (exact arithmetic)", "why_tests_cant": "it relates two runs with different parameters, for every state and number of steps", "anchors": ["Source/scalar_eom.cpp: Scalar_eom::set_k, Scalar_eom::set_rho, Scalar_eom::time_step", "Source/main.cpp: main"]}
{"id": "C113", "title": "The unit of the field is a convention", "statement": "For a Lagrangian without pole term (km1=0), multiplying the initial field and velocity by c and converting the coefficients (k1/c, k2/c^2, V3/c, V4/c^2) multiplies the field and the velocity after every step by c and the energy density by c^2.", "quantifier": "all set-ups, factors, states, numbers of steps, library buffers (exact arithmetic)", "why_tests_cant": "it relates two runs with different parameters, for every state and number of steps", "anchors": ["Source/scalar_eom.cpp: Scalar_eom::set_k, Scalar_eom::set_rho, Scalar_eom::time_step", "Source/main.cpp: main"]}
{"id": "C114", "title": "A massless free field may be shifted by a constant", "statement": "For a field with constant kinetic function and no potential, adding a constant to the initial field adds this constant to the field after every step and changes neither the velocity nor the energy density.", "quantifier": "all set-ups, constants, states, numbers of steps, library buffers (exact arithmetic)", "why_tests_cant": "it relates two runs from different initial data, for every state and number of steps", "anchors": ["Source/scalar_eom.cpp: Scalar_eom::set_k, Scalar_eom::set_rho, Scalar_eom::time_step", "Source/main.cpp: main", "Source/sphere.cpp: filter, sphereX, laplace_beltrami", "Source/grid.cpp: set_partial_r, set_partial2_r"]}
{"id": "C115", "title": "The outermost shell is infinity", "statement": "On a grid whose outer boundary is the compactification length (what the launcher asks for), the outermost shell is infinity: its compactified radius is the compactification length and the equations of motion use the inverse radius zero there, and no shell gets a negative radius; with rounding errors the inverse radius is zero up to a small multiple of the machine accuracy.", "quantifier": "all grids, radial methods, compactification lengths, inner radii (exact arithmetic); all floating-point formats and roundings", "why_tests_cant": "ranges over all grids and all roundings; whether the last point hits the boundary depends on every digit of the parameters and on the number of points", "anchors": ["Source/finite_diff.cpp: FD::FD, FD::pt", "Source/cheb.cpp: Cheb::Cheb", "Source/grid.hpp: Grid::R_to_r", "Source/scalar_eom.cpp: Scalar_eom::Scalar_eom (inv_r)", "sim_class.py: Sim.set_derived_params (Rmax)"]}
{"id": "C116", "title": "Cleaning removes what was built and nothing else", "statement": "make clean removes all objects and binaries and changes no source; the first build after it (or after make clean_Source) has exactly the switches it asks for and the current sources, whatever was built before; cleaning up the build leaves the results of runs alone.", "quantifier": "all histories of edits, builds, test builds, runs and cleanings, all versions of make, all variables and goals", "why_tests_cant": "ranges over all histories of commands; a test sees one history with one version of make", "anchors": ["Makefile: clean, clean_Bin, clean_Output, clean_Source", "Source/Makefile: clean", "Bin/Makefile: clean", "Output/Makefile: clean"]}
{"id": "C117", "title": "The run has the number of steps asked for", "statement": "A run that is asked to last N time steps takes N steps, and if it is to be saved n times and N is a multiple of n, the save interval is N/n; rounding in the launcher does not change this.", "quantifier": "all sensible settings; all floating-point formats", "why_tests_cant": "ranges over all settings and over all rounding behaviours; a quotient that is a whole number in exact arithmetic rounds below it for a few settings only", "anchors": ["sim_class.py: set_derived_params", "runscript_template.py"]}
{"id": "C118", "title": "The log can be read back and its times tell the lines apart", "statement": "Every line of diagnostics in the log has five blank-separated words: the time, Grid, 0, the residual and the total variation, which read back as the numbers they were up to the printing precision; the times shown never decrease along the log and differ between any two lines.", "quantifier": "all finite doubles; all admissible parameters, all runs, all lines", "why_tests_cant": "ranges over all numbers printed (columns run together for the wrong width only on long numbers) and over all pairs of lines of all runs", "anchors": ["Source/main.cpp: main (std::cout lines 41-50, 75-84)", "sim_class.py: launch_run (tee to out.txt)"]}
{"id": "C119", "title": "Radial points survive rounding", "statement": "In floating point the stored radius of every shell is the intended radial point up to a known multiple of the machine accuracy, and the shells stay in strict order, so no two of them coincide.", "quantifier": "all floating-point formats, both radial methods, all grid sizes, intervals and shells", "why_tests_cant": "ranges over all grid sizes and rounding behaviours", "anchors": ["Source/finite_diff.cpp: FD, pt", "Source/cheb.cpp: Cheb, pt", "Source/grid.cpp: Grid"]}
{"id": "C120", "title": "The log records the parameters of the run and names the one at fault", "statement": "When the parameters are read, the log has one line per parameter with its name and the value text of the file; logs that agree come from runs with the same parameters, and the lines written back as a file give the same parameters. When a parameter is missing the last line of the log names a parameter the file has no line about; when a number is malformed the last line shows its name and the offending text.", "quantifier": "all parameter files (any bytes, lines in any order, duplicates, foreign lines)", "why_tests_cant": "ranges over all file contents and all ways in which reading can stop", "anchors": ["Source/params.cpp: Params::Params, Params::_read", "sim_class.py: launch_run (tee to out.txt)"]}
{"id": "C121", "title": "The tables do not depend on how the data is oriented", "statement": "Rotating the data about the axis, reflecting it about the equatorial plane, reversing the azimuth (around a hole that does not rotate) or changing its sign (for even Lagrangians) leaves every spectrum table of the run, of the field, of its time derivative and of its energy density, exactly as it is.", "quantifier": "all finite fields, all grids, all rotations by grid points, all numbers of steps", "why_tests_cant": "ranges over all initial data, orientations and run lengths", "anchors": ["Source/main.cpp: main", "Source/grid.cpp: Grid::set_angular_power_spectrum", "Source/sphere.cpp: Sphere::power_spectrum", "Source/io.cpp: Csv::write"]}
{"id": "C122", "title": "A run keeps the parity of its data", "statement": "On a grid symmetric about the equator with an even number of azimuthal points: data of even parity stays even for any Lagrangian and any spin; with an even kinetic function and an even potential data of odd parity stays odd, and data that a rotation turns into its opposite stays so. Hence the spectrum tables of the field and of its time derivative in a run from the built-in initial data with a harmonic of even degree show -16 in every row of odd degree; for even Lagrangians the tables of a run from a harmonic of odd degree show -16 in every row of even degree, and of a run from one of order m (2m dividing the number of azimuthal points) -16 in every row of a degree below m.", "quantifier": "all Lagrangians (all even ones), spins, grids, pulse parameters and numbers of steps, for as long as the run stays finite", "why_tests_cant": "ranges over all initial data, couplings and run lengths", "anchors": ["Source/main.cpp: main", "Source/scalar_eom.cpp: Scalar_eom::time_step", "Source/initial_data.cpp: compact_pulse", "Source/sphere.cpp: Sphere::power_spectrum", "Source/io.cpp: Csv::write"]}
{"id": "C123", "title": "Runs depend continuously on the initial data and the parameters", "statement": "For every run whose first N steps stay finite there are a constant C and a size eps0 such that every run whose initial data and parameters (time step, hole, compactification, couplings) differ from its by at most eps <= eps0 stays finite for N steps and differs from it by at most C eps at every grid point at every step. In particular weak fields, whatever the Lagrangian and the spin of the hole, stay finite and weak.", "quantifier": "all Lagrangians, holes, grids, initial data, perturbations of both, and numbers of steps", "why_tests_cant": "ranges over all runs, all perturbations and all run lengths", "anchors": ["Source/main.cpp: main", "Source/scalar_eom.cpp: Scalar_eom::time_step, set_k, set_level", "Source/grid.cpp: Grid::Grid"]}
