# Formal model of scalar-field-kerr in Lean 4: design and trusted base

## 1. Approach

The C++ code is modelled function by function as executable Lean definitions (`lean/Verif/Model`), each with a comment citing the
file and lines it models and any simplification.

* **`Exec`** = `Except Err`: undefined behaviour (out-of-range vector access, `% 0`, a library call with buffers of the wrong size),
  failed `assert` (when `NDEBUG` is off), C++ exceptions and `quick_exit` are distinct outcomes, never assumed away.
* **Vectors** are `List α`; every `v[i]` is a bounds-checked `rd`/`wr` that yields `ub` out of range.
* **`size_t`** is `Nat` with explicit wrap modulo 2^64 (`uadd`, `usub`, `umul`).
* **Uninitialised memory** (`fftw_malloc`) is an arbitrary oracle `Junk`; every theorem holds for all of it.
* **Scalars**: the model is generic over a *lawless* class `Scalar α` (add, mul, div, pow, exp, ...; no laws).
  Theorems about bookkeeping (indexing, data flow of RK4, stale buffers, schedules, determinism, files) are proved for every
  `Scalar α`, so they hold for IEEE doubles bit for bit.  Theorems about mathematics are proved at `CR`, the *checked reals*:
  `fin x` or `bad`; division by zero, root of a negative, log of a non-positive number give `bad`.  A theorem concluding `fin x`
  therefore also proves that no division by zero or NaN occurs (in exact arithmetic).
* **External libraries** (FFTW, SHTns, number formatting, `stod`) are parameters; the contracts a theorem uses are explicit
  hypotheses (`Shtns.Api`, `Shtns.RoundTrip`, `Shtns.Math`, `Shtns.PackedRT`, `Env.Sized`, `Env.Exact`, ...), each with a proved
  concrete instance for all admissible sizes.
* **OpenMP**: each thread is a tree of atomic loads / local computations / stores; an execution is any interleaving of the
  iterations or sections of a region (regions may nest).  Race-free C++ programs have only sequentially consistent
  executions, and race freedom is what is proved.
* **Main program**: `main` is a program emitting events (file opened, line appended, diagnostics line printed, exit code);
  crash points are prefixes of the event list.

Properties are stated in `Verif/Props/*.lean` against small specifications in `Verif/Spec/*.lean`, which do not refer to the
proof helpers of `Verif/Lemmas`.  A property the code violates is kept at full strength in `properties.jsonl`; the theorem for the
part that holds has the suffix `_partial`, and the violation is itself a theorem.

## 2. Properties, what is modelled, how it is proved

| id | modelled | proof |
|----|----------|-------|
| C01,C02 | index functions with 64-bit wrap, both layouts | arithmetic (div/mod), bijection |
| C03,C04 | all get/set row functions as bounds-checked loops | loop lemma for injective scatter |
| C05,C06 | same; both are false of the code | exact condition + failure modes |
| C07 | Grid constructor | loops to closed form |
| C08,C09 | R_to_r, Jacobian arrays, launcher compactification | real algebra, `HasDerivAt` |
| C10-C12 | FD constructor, der, der2 | stencil moments; linearity in polynomial coefficients |
| C13 | same | Taylor remainder + exactness, explicit constants |
| C14 | same, below the minimum sizes too | evaluation to `ub` / to `ok` |
| C15,C16 | FD filter | algebra; complex exponentials |
| C17 | FD filter | false: a step function gains variation for every size; factor-2 bound |
| C18-C21 | Cheb over the documented REDFT00 sum | cosine sums; Chebyshev polynomials from Mathlib |
| C22-C29 | Sphere over an abstract transform library with contract | loop closed forms; spherical-harmonic identities proved from Legendre polynomials |
| C30-C32 | Grid operators | composition of C03/C04 with 1-d/2-d operators |
| C33,C34 | OpenMP regions of grid.cpp, field.cpp, scalar_eom.cpp | disjoint footprints commute; all interleavings equal the sequential result |
| C35 | reductions over arbitrary splits | permutation invariance of finite sums |
| C36,C37 | diagnostics | sums of squares / square roots |
| C38-C43 | Scalar_eom constructor, set_k, set_rho | field_simp/ring/nlinarith over the checked reals |
| C44-C47 | set_level, time_step, Field | data-flow refinement to textbook RK4 |
| C48-C51 | iterated time steps | induction on the number of steps over a linear/odd/rotation class of operators; C51 is false for `nm<=nl-2`: explicit axisymmetric field, packed storage |
| C52-C55 | compact_pulse | closed form of the loops; `HasDerivAt`; maximum |
| C56-C59 | params.cpp on text, write_sim_params | list-of-characters reasoning |
| C60-C62, C71-C73 | io.cpp on an abstract file system, main | closed form of the loops; injectivity of names; prefixes of the event list |
| C63-C65,C67,C69 | main loop, launcher arithmetic | induction on the loop counter |
| C66,C68 | whole main | composition of all in-bounds lemmas; independence from junk memory |
| C70 | kinetic prefactor against the run-script comment | algebra; difference proved |
| C74,C75 | steps near the pole f=-1; finiteness of set_k | exact condition |
| C76 | all entry points with arrays of the wrong size | evaluation to `abort` |
| C77,C78 | covariant metric, inverse, determinant, normal of Kerr in the code's coordinates; equation and density | the wave operator derived from the metric by differentiation, compared with the coefficients |
| C79 | set_k on resolved fields | exactness of each operator composed |
| C80 | time_step as a function of dt | RK4 order conditions via analytic functions (Taylor coefficients of numerical and exact solution); existence by Picard-Lindelöf |
| C81 | launcher arithmetic end to end | real algebra, floor |
| C82 | raise/lower with packed complex storage | index arithmetic |
| C83 | N steps of size T/N at infinity for free massless fields, against the exact solution of the discretised equation | coefficients and Jacobians at infinity, induction on steps, filter factor to the power N |
| C84 | set_k on arrays holding sums of harmonics with C⁸ radial coefficients, every finite-difference grid | stencil truncation errors (C13) through the Jacobians, exact angular operators (C79), compactness of radii and angles, the equation is affine in `∂_v²ψ` |
| C85 | `launch_run` on an object (ordered attributes), a file system (files, directories) and a machine | every write is in the new directory, induction on the launches |
| C86 | the same composed with `Main.main` on the file it wrote | printed attributes read back (C58, C59), path resolution, C62 for the solver's files |
| C87 | the same with a complex horizon radius | `Rmin` is read before anything is written |
| C88 | the makefiles' rules on a directory of sources, objects (with the switches they were compiled with) and binaries; make's policy about intermediate files is a parameter | invariants along any sequence of edits, makes, cleanings |
| C89 | `Cheb::der` on the samples of a function | Fourier coefficients of `f(cos θ)` decay (integration by parts), Chebyshev truncation + antiderivatives approximate `f,f',f''` together; Markov-type bound of the operator |
| C90 | `set_k` of a `USE_CHEB` build on the samples of a band-limited field | C89 on every radial line, the same consistency core as C84 |
| C91 | `FD::filter`, `Cheb::filter` on the samples of a function | Taylor with the moments of the stencil; coefficient decay and `1-e^{-y} ≤ y` |
| C92 | constructors and destructors of `Cheb`, `Sphere`, `Grid` and FFTW's table of plans | invariant over histories: a plan is valid iff its object exists and no clean-up has hit it |
| C93 | the evolution with every operation rounded (`Model/FP`: the standard model of floating-point arithmetic; libraries accurate up to rounding) | families of runs in finer and finer formats: `O(eps)` propagates through every operation, comparison and library call (`Lemmas/FP*`), then a filter argument turns this into one bound for all formats |
| C94 | the two OpenMP reductions in rounded arithmetic (`Model/OmpLoops`, `Model/FP`) | relative-error calculus: a sum formed by `m` rounded additions of nonnegative numbers in any tree is off by at most `((1+eps)^m-1)(S+tau)` (`Lemmas/FPSum`), induction on the combination tree; then division and root |
| C95 | `Model/Sphere`, `Model/Grid`, `Model/ScalarEom` on angle-independent arrays (`Spec/Spherical`) | constants are the (0,0) harmonic, on which filter, Laplacian, azimuthal derivative and gradient square are known (C23-C29); coefficients with spin 0 are functions of the radius; induction over the steps with `Sym` |
| C96 | the same, with the semi-discrete equation as an analytic vector field (C80) | global error of RK4: Taylor remainders of step and solution bounded uniformly on a neighbourhood of the solution (compactness), discrete Gronwall (`Lemmas/RKGlobal`); the filter is the identity along the way (C95) |
| C97 | `Grid::filter` as a linear map on finite states; the semi-discrete vector field of C80; `evolve` | decomposition into harmonics (`Lemmas/FilterLin`: the filter is diagonal, powers converge geometrically); damped RK4 steps as a relaxation problem: unrolled recursion, initial layer of finitely many steps, discrete Gronwall with decaying source (`Lemmas/Relax`) |
| C98 | the same with Test/Makefile: both makefiles use the objects in Source | invariants along any sequence of edits, makes, test builds, cleanings |
| C99 | `submit`: the script's text, `runJob`: the shell's reading of it (directives, exports, `time`, the pipeline) | symbolic execution of the script's lines, then as C86 |
| C100 | existing grid and evolution model; the six-point (interior) and one-sided stencils' reach | agreement of two states on a set of shells is propagated through every stage; induction over steps with the set shrinking by 3 per stage |
| C101 | the test programs as functions of library, uninitialised memory and random numbers, returning the verdict of their EXPECTs | the tests' functions are finite sums of harmonics (`Lemmas/TestField`), then C19-C28, C89; with too few orders the exact extra term of the gradient (`C26_garbage_term`); unisolvence of the nodes for the failing memory contents; a monotone line's total variation is its end-point difference, which the filter keeps; the convergence test of the finite differences by rational certificates (`Lemmas/FDTest`, Taylor polynomials of sine and cosine, `decide` over ℚ in the kernel): it passes, and it fails for an exact derivative; the sphere and Chebyshev filter tests as comparisons of two variations of explicit fields (for the latter a cubic between tan and 1.1 tan, plus or minus a small multiple of T_31) |
| C102 | test_grid.cpp function by function; the sampled function as a real function (Spec/TestGrid.lean) | calculus: flatness of the bump at its ends, trigonometric identities for gradient and Laplacian; symbolic execution of constructor and operators |
| C103 | two complete set-ups related by `Phys.rescale` (Spec/Units.lean) | every coefficient and operator has a dimension (Lemmas/Rescale.lean); a two-run induction over the Runge-Kutta stages and the steps (Lemmas/Twin.lean); uniqueness of the normalisation for the pulse |
| C104 | existing model on equatorially symmetric nodes and weights (`EquatorSym`, Spec/Mirror.lean) | parity of the associated Legendre functions; every operator commutes with the reflection (Lemmas/Mirror.lean), then C49's induction; negation from two harmonics of opposite parity |
| C105 | existing model; single azimuthal harmonics characterised by a three-term recurrence around each circle (Spec/Modes.lean, Lemmas/Modes.lean) | rotations (C51) by one point to either side and superposition (C49): the recurrence is preserved |
| C106 | existing model; arrays that are a radial profile times one real harmonic (Spec/Modes.lean) | every operator maps such an array to one of the same kind, with a profile that does not depend on the phase (Lemmas/ModesL.lean); induction over the steps |
| C107 | same, harmonics of one degree | same induction with the filter's factor; negation: a solution of the semi-discrete equation exists and one short step stays close to it (C80), so the velocity is not zero after it and the factor shows |
| C108 | `%.*g` printing of real numbers (Model/Printf.lean) and a reader of decimal numbers and CSV rows (Spec/Decimal.lean) | rounding to `p` digits: error, monotonicity, exactness on `p`-digit numbers; the reader returns the rounded number; spacing of doubles for 17 digits and a collision for 16 |
| C109 | the run of C01-C54 from `compact_pulse` to the tables (History, Derived), spin 0 | initial data are one harmonic (C54), the evolution keeps it (C106), the exact spectrum of one harmonic, the logarithm with its floor; small amplitudes by C74 |
| C110 | same, any spin, symmetric nodes | order by C105, parity by C104, coefficients of other orders and parities vanish |
| C111 | `set_k`, `set_rho`, the constructor's coefficients, at spins `a` and `-a` | the coefficients of the mixed derivatives are odd in `a` and the others even (`coefOf_spin`); reversal conjugates the coefficients of the analysis, so the longitude derivative changes sign and the other operators commute; for top-degree content an explicit counterexample; without spin the evolution by `Sym` |
| C112 | `set_k`, `set_rho`, `time_step` with two parameter records on one grid | `k'/k` and `V'/k` do not change when `k` and `V` get a factor, also where they are not finite; so the right-hand sides are the same function, and the evolutions by induction; `k` and `V` of the density get the factor |
| C113 | the same | relational step lemma for two objects (`Pair`): fields and velocities related by the factor `c`, linear operators commute with it, `sphereX` gives `c²`, `k'/k` gives `1/c`, `V'/k` gives `c`; pole: C75 at `f=-1/c` |
| C114 | the same | `Pair` with fields related by the constant: the radial derivatives (C32), the angular ones and the Laplacian of a constant vanish and the filter keeps it; `sphereX` through the packed coefficients (`RaiseX`); pole: C48 and C75 at `f=-1` |
| C115 | grid points, `R_to_r` and `inv_r`, in exact arithmetic and in any `Format` | exact: C07's coordinates at the last (Chebyshev: first) index; floating point: error propagation through the seven roundings with explicit constants; binary64: each of the operations on a grid of 8 points is evaluated by bracketing (`rnd64`) |
| C116 | C88's model with the three clean targets, `make clean` and the result directories in Output | invariants along any sequence of commands, as for C88 |
| C117 | C81's launcher in exact arithmetic, in any floating-point format and in IEEE binary64 | floor of the quotient; error bounds for the product and the quotient; the negation by evaluating every rounding of one setting |
| C118 | the text of the lines of diagnostics (`setw`, `%g` with six digits) and their times in a run | width bound for printed numbers, words of a line; rounding error and monotonicity of the printed time; the negation by a run saved 2000000 times |
| C119 | the stored radii in any floating-point format, both radial methods | error propagation through every operation of FD::pt and Cheb::pt; lower bound for the distance of exact points |
| C120 | what the construction of the parameters prints (`Model/Echo.lean`) | the constructor, results forgotten, is a scan of the list of parameters in reading order; induction on that list |
| C121 | tables of two runs whose data are rotated, reversed, mirrored or opposite | the analysis multiplies coefficients by a phase, conjugates them, or changes their sign; the power does not change; with C50, C51, C104, C111 for the evolution |
| C122 | parity and rotation by half a period, of states and of the tables of runs from the built-in initial data | the map to the antipodal grid point is a reflection after a rotation, with which the evolution commutes (C50, C104), and so do changes of sign (C51); the analysis of an even (odd) field vanishes in odd (even) degrees |
| C123 | two exact runs of the same program with data and parameters within eps of each other | exact arithmetic is a floating-point format of any accuracy (its operations err by 0), so the error bound of C93 applies with eps the distance of the two runs; the maximum of its constants over the steps; vacuum (C48) as the first run |

All properties could be expressed in the model; none is `not_applicable`.

## 3. What is modelled

| code | model |
|------|-------|
| Source/grid.hpp (index functions, get/set rows, accessors used) | Model/GridIndex.lean, Model/Grid.lean |
| Source/grid.cpp | Model/Grid.lean (sequential), Model/OmpLoops.lean (parallel) |
| Source/finite_diff.{hpp,cpp} | Model/FD.lean |
| Source/cheb.{hpp,cpp} | Model/Cheb.lean |
| Source/sphere.{hpp,cpp} | Model/Sphere.lean |
| Source/field.{hpp,cpp} | Model/Field.lean (+ OmpLoops) |
| Source/scalar_eom.{hpp,cpp} | Model/ScalarEom.lean (+ OmpLoops) |
| Source/initial_data.cpp | Model/InitialData.lean |
| Source/params.{hpp,cpp} | Model/ParamRec.lean, Model/Params.lean |
| Source/io.cpp, Source/main.cpp | Model/IO.lean, Model/Main.lean |
| `out<<std::setprecision(16)<<x` (io.cpp) | Model/Printf.lean |
| lines of diagnostics on `std::cout` (main.cpp:41-50, 75-84) | Model/Log.lean |
| what `Params` prints (params.cpp:13-54, 81, 86) | Model/Echo.lean |
| sim_class.py: set_derived_params, compactification, write_sim_params | Model/Launcher.lean, Model/Params.lean |
| sim_class.py: launch_run, make_output_dir, write_slurm_script, then_recompile, set_derived_params on the object; the shell commands and the job script as the shell reads them | Model/LaunchRun.lean |
| Makefile, Source/Makefile, Test/Makefile, Bin/Makefile, Output/Makefile, config.py | Model/Build.lean |
| `double`, libm (C93, C94) | Model/FP.lean |
| Test/test_sphere.cpp, test_cheb.cpp, test_finite_diff.cpp (every TEST) | Model/Tests.lean |
| Test/test_grid.cpp | Model/TestGrid.lean |
| constructors/destructors of Cheb, Sphere, Grid and the plans of FFTW | Model/Lifetime.lean |

`#if USE_CHEB`, `#if SHTNS_CONTIGUOUS_LONGITUDES` and `NDEBUG` are the flags `useCheb`, `contig`, `ndebug` of the environment; every theorem
covers all builds unless it says otherwise.

## 4. What is not modelled

* IEEE rounding, outside C93, C94, C115, C117 and C119 (exact or lawless arithmetic instead; the inf/NaN recovery of complex multiplication neither).  C93 is
  asymptotic: its accuracy `ε0` is not explicit, and the code's thresholds `1e-16` stay fixed while `eps` goes to 0, so it does not say that
  `eps = 2^-53` is accurate enough; the operations are rounded one by one (the Makefile has neither `-ffast-math` nor `-march`, so no
  contraction on x86-64); infinities and NaNs of the format are not described.
* Failure of memory allocation, signals, running out of disk, performance, copying of objects.
* The internals of FFTW and SHTns (contracts, below), of `std::stod`, of Python's formatting of numbers, and, outside C108 and C118, of the C++ library's (parameters).
* Standard output other than the diagnostics lines and what the parameters print (the remaining banners, timing); a diagnostics line is a record of three numbers (its text: C118).  Each flushed
  file row is one atomic event.
* `unit_manager.*` (not in the Makefile's object list and not compilable), `_read_array` (never called), gtest itself, Slurm's scheduling and its own output file (the job
  script itself is interpreted, in the directory `sbatch` was called in), shell features beyond those the two scripts use (binary names with
  special characters are excluded),
  compiler and linker (C88, C98 model which switches each object of a binary was compiled with).

## 5. Trusted base

* Lean 4.33.0's kernel; Mathlib as installed.
* Axioms: only `propext`, `Classical.choice`, `Quot.sound`.  `AXIOMS.txt` lists, for every theorem of `MANIFEST.json`, the output
  of `#print axioms` (generated outside the project: a file importing `Verif` with one `#print axioms` line per theorem).
* The transcription of the C++/Python text into `Verif/Model` (by reading; every definition cites its lines).
* Library contracts, as hypotheses of the theorems that use them:
  - FFTW: `fftw_execute` on a `REDFT00` plan computes the documented sum, leaves its input unchanged, plan creation may
    fail (then the code's check applies); the new-array execution on other threads' buffers has the required alignment; `fftw_cleanup` makes every
    existing plan undefined (manual, "Using Plans"); a SHTns configuration makes its FFTW plans in `shtns_set_grid` and destroys them in
    `shtns_destroy` (C92 only).
  - SHTns: sizes (`nlm`, `nspat = nlat*nphi`, buffers); the transforms read only their input and overwrite their output, may
    destroy their input; synthesis evaluates the series with orthonormal harmonics (Condon-Shortley phase) at Gauss-type nodes
    strictly inside (-1,1); analysis is a quadrature exact on the resolved harmonics (`nlat>lmax`, `nphi>2 mmax`); the
    transforms are thread-safe.  For C104 only: nodes and weights are symmetric about the equator, as in SHTns's Gauss and regular grids
    (`EquatorSym`, realised by `exists_env_mir`).  Complex coefficients are stored as SHTns 3.x's `LM_cplx` says: degree after
    degree, `min(l,mmax)` orders on either side of 0, `(mmax+1)^2+(lmax-mmax)(2mmax+1)` in all (`Shtns.pidx`, `Shtns.ncp`).  Theorems that
    speak of the values of the angular gradient or of the evolution equations assume `OrdersOk` ((nl-nm)(nl-nm+1) ≤ 2nl+1), i.e. that `lower` finds
    `nl^2` stored coefficients; without it the code reads uninitialised memory (C22_uninitialised_read).  Theorems about safety, schedules, saves,
    files, crashes, launches (C33-C37, C53-C55, C60-C67, C69, C71-C73, C76, C86, ...) hold for every truncation: their histories (`History`, `Derived`)
    take the contents of the uninitialised memory at each step as an argument.
  - libm (C93 only): `pow`, `exp`, `log`, `cos`, `sin`, `acos` are correct up to `eps(1+|result|)`.
  - Python: float formatting round-trips through `std::stod`; `int(nt/float(num))` is the integer quotient (exact for nt<2^53).
* OpenMP: data-race-free programs are sequentially consistent; loop iterations and sections are executed exactly once each; private
  and reduction variables behave as specified; each element access is one atomic event.

## 6. Where the code does not do what it says (all proved)

1. grid.hpp:114 `set_row_ph` loops to `nlat` (C05). 2. grid.hpp:170 `get_row_R_ph` asserts the wrong size (C06).
3. The spherical operators skip the top degree and top order (C23-C29). 4. `Grid::filter` never filters radially (C30).
5. The Chebyshev derivative drops its two top coefficients (C20). 6. In a Chebyshev build the horizon point is never given initial data (C55).
7. `set_rho` applies the factor 1/2 twice (C42); the documented density has the wrong sign in its mixed term (C78).
8. The main loop takes `nt-1` steps (C64), so the run ends short of `evolve_time` (C81); `t_step_save=0` divides by zero (C65).
9. A missing parameter exits with status 0 (C57); negative sizes wrap (C58); re-running appends to the CSV files (C62).
10. The kinetic prefactor differs from the one in the run script (C70). 11. The total-variation diagnostic has blind cells (C37).
12. `write_n_psl` takes the logarithm of signed coefficients (C72). 13. The dissipation filter is not total-variation diminishing (C17).
14. `cfl` is not a bound of the Courant number for small compactification length (C81).
15. `raise`/`lower` misaddress coefficients for `nm<=nl-2`, as in the template (C82).
16. The angular filter acts once per step whatever `dt`, so on a fixed grid a smaller time step does not converge to the discretised
    equation (C83).
17. `launch_run` ignores how the solver ended and accepts |spin|>mass; a second launch of the same object nests the directory below
    `Output` under the full path of the first (C85, C87).
18. Objects do not depend on the switches: where make keeps them, config.py's `default_fd.run` is the Chebyshev build, and builds after an edit mix
    switches; `recompile=True` makes `default_cheb.run` a finite-difference build and leaves a binary `clean_objdefault_cheb.run` (C88).
19. `Cheb::~Cheb` calls `fftw_cleanup`, after which FFTW's manual forbids executing or destroying any other plan; a Grid built with `USE_CHEB` destroys
    its radial part first and then the SHTns configuration, so its destruction (at the end of `main`) is outside FFTW's contract (C92).
20. `make test` and the solver share objects in Source: with make 4.3, a `make` after `make test` links a grid compiled for one memory layout with
    transforms compiled for the other; Test/Makefile has no header prerequisites (C98).
21. On a cluster a relative `out_stem` makes `sbatch` look for the script below the run's own directory: nothing is queued and `launch_run` returns
    normally (C99).
22. With fewer orders than `OrdersOk` asks for (e.g. `nl=20`, `nm=14`), `lower` copies from a new array coefficients that the transform never wrote:
    the result, and the squared gradient in every time derivative, depend on uninitialised memory (C22, C68).
23. For `nm<=nl-2`, the template's `nl=20`, `nm=18` included, axisymmetric fields get angular gradients that depend on the azimuth, and with a
    non-constant kinetic function so does their time derivative: the evolution does not preserve axisymmetry (C51), nor symmetry about the equator (C104).
24. The unit test raise_and_lower never looks at the result of `lower`; the verdict of the unit test sphereX depends on uninitialised memory (its sizes
    are of the kind of item 22); the unit test of the dissipation filter's total variation depends on `rand()`; the convergence test of the
    finite differences passes but would fail if `der` were exact (0 < 0) (C101).
25. The grid test's reference for the squared gradient has `rval` where it should have `rval^2` (C102).
26. The angular filter damps the coefficient (l,m) by `exp(-40 (l/nl)^16) exp(-40 (m/nl)^16)`: around a non-rotating hole the orders of one degree
   do not evolve alike (C107).
27. The files have 16 significant digits: different doubles are written alike (C108).
28. Reversing the spin is not reversing the azimuth for fields with content in the top degree, axisymmetric ones included (C111).
29. Without pole term (`km1=0`) neither the unit of the field nor, for a massless free field, its zero is a convention: the value -1 remains a pole (C113, C114; same cause as the entry on C40).
30. `R_to_r` (grid.hpp:298) and `inv_r` (scalar_eom.cpp:69) recognise infinity by the absolute tolerance 1e-16, which is below one unit in the last place of every compactification length greater than 1; `lower+dx*(n-1)` does not always round to the boundary, and then the outermost shell gets a finite or negative radius of size 1e17 (C115). The effect on the evolution is of the size of the rounding errors.
31. `make clean` in the main directory removes every result directory in Output, not only objects and binaries (C116).
32. `int(evolve_time*mass/dt)` truncates: with `cfl=0.25`, `nx=76`, mass 1 and `evolve_time=100` the launcher writes 29999 steps, not 30000, and a save interval of 299, not 300 (C117).
33. The log prints times with six digits, so that in a run with more than 100000 saves consecutive lines may show the same time (C118).

## 7. Testing the theorems

`seeded/LOG.jsonl` records mutants of the model: edit, claim broken, declarations that stopped compiling, theorems tightened.
`tools/gen_manifest.py` regenerates `MANIFEST.json` from the theorem names and `tools/status.json`.
