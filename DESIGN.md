# Formal model of fluidsim in Lean 4 — design

The model is a shallow embedding: every Python function that is modelled becomes a
small total Lean function that mirrors it branch by branch. Python exceptions are
values (`Except`/`Option`), in-place NumPy buffers are explicit state, histories
(steps, signals, restarts, processes) are lists of events folded over a state.

Layout (`lean/Verif/<Topic>/`):

* `Model.lean` — definitions, each with a comment citing file and lines of `/repo`;
* `Spec.lean` (or a `Spec` section) — the independent specification;
* `Props.lean` — the property theorems (named `C<nn>_...`), each with a non-vacuity
  `example` beside it; helper lemmas are in `Lemmas.lean` or marked private.

When unchanged code violates a property, the file has (a) a theorem with a concrete
witness that the full statement is false of the model, and (b) a `_partial` theorem
with the strongest true version. Both are listed in `MANIFEST.json`.

## Trusted base

* **Kernel.** Lean 4.33.0's kernel accepts every theorem; Mathlib (/app/mathlib4-4.33.0) is used as a
  library and is checked by the same kernel. No axiom is added, there is no `sorry`, `admit`,
  `native_decide`, `bv_decide`, `implemented_by` or `unsafe`. `decide +kernel` (evaluation by the kernel
  itself) is used for closed numerical facts of witnesses and examples.
* **Axioms.** `AXIOMS.txt` (written by `tools/axioms.py`) lists, for every theorem of `MANIFEST.json`, the
  axioms it depends on. They are always a subset of `propext`, `Classical.choice`, `Quot.sound`.
* **Correspondence.** The relation between the Python text and the Lean definitions is established by
  reading. Each definition cites the file and the lines it models and says where it simplifies.
* **Numbers.** Floating-point numbers are idealised: `ℝ`, `ℂ`, `ℚ` or an arbitrary (ordered) field. Exception:
  C89 models the binary64 rounding for the clock, the end of the run, the periodic outputs, the sums and the tests of the truncations.
  Rounding, overflow and NaN are not modelled, except where a definition says so (NaN in the comparison
  of `check_energy_conservation`, for example).
* **Operating system and MPI.** File systems are maps from paths to contents; `mkdir` is atomic and fails
  on an existing path; a crash happens between two effects of a process (for the HDF5 files: between two
  calls of h5py, a dataset being resized and written in two effects). Collective operations
  (`allreduce`, `allgather`, `bcast`) are functions of the values of all ranks.

### Contracts of code that is not in the repository

| package | what is assumed |
|---|---|
| fluidfft | `fft`/`ifft` are the finite Fourier transform (the forward one divided by the number of points) and its inverse; `K2`, `K4`, `K8`, `K2_not0` are the arrays of their names (`K2_not0` is `1e-14` at the zero mode); `vecfft_from_rotfft`, `rotfft_from_vecfft`, `vecfft_from_divfft`, `divfft_from_vecfft`, `gradfft_from_fft`, `vector_product`, `div_vb_fft_from_vb`, `project_perpk3d` are the per-mode formulas written in the models; `sum_wavenumbers` is a weighted sum, the weight of a stored mode being the number of modes it stands for |
| fluiddyn | `ParamContainer` is a tree of attributes and children; `fftw_grid_size(n)` is at least `n` |
| numpy | `np.round` rounds half to even; `np.histogram` counts values in bins; `np.roots` returns the roots in an unspecified order and fewer than two values iff the leading coefficient is zero; Python's slices, negative indices and broadcasting |
| scipy | `sparse.diags` and `coo_matrix` build the documented matrices; `spsolve` returns a solution of the system |
| random numbers | an arbitrary function from a seed to a stream |

### What is modelled

One directory per topic; the files of `/repo` they cite are listed by `tools/coverage.py`.

| topic | code |
|---|---|
| TimeLoop, Cfl, Cadence | main loop, stop conditions, signals, CFL, periods of the outputs |
| Schemes, PhasePool, Tendencies, Dissip | time schemes with their buffers, exact linear coefficients, phase-shift pairs, in-place tendencies, dissipation |
| Fourier, Energy, Strat, Sw1l, Burgers, Smagorinsky | truncations, aliasing, tendencies of the pseudo-spectral solvers, normal modes, turbulence model |
| Models0d, FiniteDiff | 0d models, finite differences, Crank-Nicolson |
| StateInit, VarCache, Params, Preproc, Extend | states and their initialisation, cache of the variables, parameters, preprocessing, class extensions |
| Series, PhysFiles, RunDirs, Restart | files of the outputs, names and selection of the files of the fields, directories, lock, restart script |
| Modes, Coarse, Reduce, Vectors | index maps, change of resolution, lookup of wavenumbers, coarse arrays, reductions over processes, projections and Laplacians |
| Forcing, Motion, ForcedRegion | normalisations, proportional and time-correlated forcings, moving objects, forced modes |
| Increm | increments, time signals |

### What is not modelled

Plotting and movies, printing formats, XML and HDF5 encodings, the transonic transpiler and the compiled
FFT libraries, the internals of `ParamContainer`, benchmarks and profiling commands, the sphere solvers
(except the initialisation of their states), the old solvers of `old/`, the scripts in `doc/`. Floating
point is idealised everywhere except in C89.

## Plan per property

| id | modelled | proof |
|----|----------|-------|
| C01 | `main_loop`, `one_time_step`, `is_simul_completed` as a fuelled/relational loop over an arbitrary increment oracle | induction on steps; termination from a positive lower bound (Archimedes) |
| C02 | same loop with oracle for clock and signals | induction; trace statement |
| C03 | `_compute_time_increment_CLF_*`, `max_abs`, MPI max | ordered-field reasoning on the actual branch structure; finding: wave bound overwritten |
| C04 | the four schemes with explicit buffers | equality with the classical scheme in transformed variable |
| C05 | same with N = 0, iterated over a list of increments | induction over the list, `exp` additivity |
| C06 | `ExactLinearCoefs` as a state machine | invariant over call histories |
| C07 | truncation masks, wavenumber arithmetic modulo n | integer arithmetic + product of trigonometric polynomials on the grid; finding: 1D mask keeps the boundary mode when 3 divides n |
| C08 | phase-shift average | root-of-unity arithmetic per triad |
| C09 | phase-shift pool with aliased buffers | invariant; finding: order never alternates |
| C10, C11 | keyword dispatch of each state class | case analysis over arbitrary key sets; findings |
| C12 | cache state machine | invariant; finding: stale after writes in the same iteration |
| C13, C14 | parameter trees | structural induction on trees |
| C15 | difference and floor cadence tests folded over step times | induction on time sequences |
| C16 | append-only files with restarts | invariant over histories; finding for time_signals |
| C17 | file naming | digit/width arithmetic; findings |
| C18 | selection by time | argmin specification |
| C19 | interpolation weights | algebra; finding on extrapolation |
| C20 | process interleavings over a file system with atomic mkdir | invariant over all interleavings |
| C21 | move with suffix search | invariants, finiteness of names |
| C22 | lock protocol over interleavings | finding (counter-traces) + partial |
| C23 | restart option logic | case analysis; finding |
| C24 | mode copy maps | integer index arithmetic; finding (3D downscaling) |
| C25 | index maps | integer arithmetic, all sizes, all orders |
| C26 | coarse/fine put and take | index arithmetic |
| C27 | wavenumber lookup over blocks | argmin + block arithmetic |
| C28, C29 | projections per wavenumber over ℂ | linear algebra identities |
| C30 | Laplacians | algebra |
| C31, C32 | normalisations over arbitrary finite mode sets; the Kolmogorov flow whose array is normalised in place at each call | quadratic equation / square-root identities on sums; induction over the calls |
| C33 | compute-once | invariant over call sequences |
| C34 | time-correlated forcing as a machine with seeds | continuity at switches, restart simulation relation |
| C35 | piecewise motion | calculus (derivative, periodicity, bounds) |
| C36 | mode masks; figure of the region (ModelPlot) | equivalence with documented inequalities |
| C37, C38, C41 | tendencies over finite Fourier sums | Parseval + triad symmetries |
| C39, C40 | per-mode linear algebra over ℂ | field arithmetic; findings |
| C42 | 0d models | algebra, derivative along solutions; finding |
| C43 | periodic finite differences as functions on `ZMod n` | sums over the cycle, algebra |
| C44 | damping frequency | order arguments |
| C45 | normalisation, viscosities and forcing rate set by the preprocessing, re-initialisation of the clock | algebra of real powers, change of units; findings |
| C46 | sums over blocks | list/finset sums |
| C47 | class objects with mutable lists | heap model; finding |
| C48 | de-duplication loops | induction; finding for time_signals |
| C49 | time text parser | character-level model |
| C50 | retry loop | induction |
| C51 | discrete derivative antisymmetric | algebra; finding (1/2 split is not conservative) |
| C52 | stress tensor algebra | sums of squares; finding (factor 2) |
| C53 | `tendencies_nonlin` with explicit memory (state and destination arrays may be the same) | symbolic execution of the writes; findings |
| C54 | sw1l.modified tendencies on a grid | Parseval, skew-symmetry of the advection by a divergence-free velocity |
| C55 | sw1l.onlywaves tendencies with the global state | algebra; findings |
| C56 | sw1l and sw1l.exactlin | equality of the two right-hand sides through the normal-mode transform |
| C57 | tendencies of ns2d(.strat/.bouss), ns3d(.strat), sw1l, burgers1d, plate2d against the equations written with exact convolutions | the DFT of a product is the exact convolution on the resolved modes when nothing aliases; finding: the cubic term of plate2d with the 2/3 rule |
| C58 | mode by mode terms of the spectral budgets of ns2d, ns2d.strat, ns3d, ns3d.strat; `cumsum_inv`, `compute_fluxes_mean`; bins as weights | derivative of the energy of a mode along a history with the tendencies of the solver (`HasDerivAt`); curl of the exact advection; the Coriolis force does no work; findings: hypo-dissipation, rotation, one-sided assertion |
| C59 | `_save_one_time` of the spatial means of ns2d, ns2d.strat, ns3d, ns3d.strat, plate2d, sw1l and sw1l.modified as sums over the kept modes | Parseval on the grid; effect of a constant forcing during one step computed exactly; derivative along histories with the tendencies of the solver (C37, C38, C40, C41); orthogonality of the rotational and divergent parts (C29); findings: PA2 of ns2d.strat, PK2 and kurtosis of sw1l, the force of sw1l.onlywaves (`get_FxFyFetafft`, ModelForce, linear maps between the variables) |
| C60 | text of the records as lists of characters, `str.split`, `readlines`, `startswith`, `_get_nb_points_from_lines`, `load` of the five solvers with exceptions as values; the last 1000 bytes for time_last_saved; JSON lines; the slice of compute_time_means | words and lines of concatenated texts by induction; the lines of each kind of a file made of complete and incomplete records; findings: interruption, restart with other options, loop without end, 1000 bytes, means after a restart |
| C61 | the three files as lists of records, `nb_saved_times`, `has_to_save_kzkh`, `_init_files` and `_online_save` as lists of writings with a kill point, exceptions as values; names of the datasets; slices and means; energies of a mode and spectra through an abstract linear binning; cross-correlations of pairs of variables | invariants over sessions and over all histories with kills; exact set of the (kz, kh) records; Cauchy-Schwarz for the length scales and the cross-correlations; findings: cadence after restart, period enabled at restart, kill at creation, keys not loaded |
| C62 | files of the probes as lists of records, the search functions, `load_time_series` of both classes with exceptions as values, Python indices for the cells; discrete Fourier transform, cached `domega`, folding, sums over modes, (kz, kh) bins, names of the files, single precision times; toroidal and poloidal parts, cuts and lines of the figures, the saved spectra as a cache keyed by the interval; the directory of the files of temporal spectra as a map from names to spectra, `plot_spectra`, `save_spectra`, `load_spectra` as steps on it (ModelTPlot) | invariants over files and processes (`Filled`), sorted lists; orthogonality of the exponentials; sums over bins; findings: filter on file names, axis orders, stale loop variable, cached normalisation, Nyquist frequency, units of kx, glob of names, float32 times, figure at constant frequency, default tmin, stale cache |
| C63 | `step`, `get_solid_field`, `y_coors`, the forces at a point and the computation in the spectral space of ns2d; Taylor-Green fields; `KolmogorovFlow.__init__` with exceptions as values and the field on a grid; masks, `scipy.interpolate.interp1d` on the periodic samples, number of signals in the file | nearest periodic image; bounds of tanh; orthogonality of the Fourier modes; derivatives for the divergence; convex combinations; findings by concrete witnesses |
| C64 | the noise of ns2d, ns3d, plate2d and of the base class from the drawn arrays (transforms of C07, half spectrum of the real transform, filter, normalisation by the maximum over the grid); the other types; the checks of `from_file`, with exceptions as values | the filter is `1/(1+exp(4π(K/k0-1)))`; the velocity of the state is proportional to the drawn one because the projection commutes with the conjugation and the transform is exact on the kept modes; homogeneity of the maximum; findings by concrete witnesses |
| C65 | the list of files with creation, additions and kills; the loading functions on files with times, axes and datasets; the selection, ordering and transparencies of the figures; the energies per mode of ns2d, ns2d.strat, plate2d, sw1l and their spectra for any binning with the contract of C61 | induction over the history; `argmin` of C18 for increasing times; sums over modes exchanged with sums over bins; shallow water: a mode is determined by vorticity, divergence and displacement, which identifies the states rebuilt by the program with the geostrophic, divergent and ageostrophic parts of the specification |
| C66 | the text of each message, the file as the concatenation over restarts, load, _load_times as a state machine over the lines, the estimation of the remaining duration, the two functions of util on the last 1000 or 3000 characters | round trip by induction over the messages: the beginnings of the lines of a solver are pairwise incomparable (computed), so that choosing the lines by their beginnings gives the infos; round trip of str(timedelta) for all n; a cut text has for lines prefixes of the lines |
| C67 | the bins of np.histogram (enlarged range for a constant field, last interval closed), pdf_normalized over the processes, the record of the increments, np.interp and load_pdf_from_file, u_norme and the structure functions of sw1l in one process; the values of the curves of plot, plot_pdf and plot_Kolmo; the figure of the densities (`ProbaDensityFunc.plot`, ModelFig) | floor arithmetic for the bins, counting over a permutation of the concatenated arrays (C46), mean value bound on powers, interpolation at its own nodes, explicit families of records for the violations |
| C68 | the arguments tmin and tmax, the name of the file of the cache, the calls as transitions on (files of the simulation, files of the cache), json and float texts as parameters with a contract, the dataframe, the isotropy of the dissipation, the records of a range | injectivity of the names, invariant of the cache by induction over the history, stability of the closest index when later times are appended, witnesses for the violations |
| C69 | the linear frequencies of ad1d.pseudo_spect and waves2d on top of the model of the time schemes, the converter over the reals | C05 (exact integration of the linear terms) and complex exponentials; an abstract pair (squared Laplacian, bracket) for the plate equations; explicit solutions for the violations |
| C70 | arrays as shapes and functions of indices, texts of equations as lists of characters, eval as a parameter, the listing of files and the interpolation of C18/C19 | case analysis on the equations, argmin specification of C18, induction over the files for the average |
| C71 | times as elements of an ordered field with floor, np.arange and np.median as functions on lists, the player as a state machine with its events | explicit description of the list of frames, invariant by induction over the events, induction over the ticks |
| C72 | create_params as a function from the arguments to the parameters or an exception, over the real numbers, round(x, 3) as a function with a contract | extraction of the facts of an accepted call, then algebra, arcsin and real powers |
| C73 | The coefficients of the second degree equation over the stored modes with weights, the state made from a, (q, a) or eta, and the registry of classes | the inner product of the quadratic energy with a force made from a (resp. q) depends on the state only through its own a (resp. q); orthogonality of the two parts; roots of the polynomial |
| C74 | Normal modes, groups of products (dictionary grouping with its KeyError), transfers of the three budget classes and selection of the records of plot, over the truncated Fourier calculus of C57/C58 | algebra of the mode matrix (sqrt and powers), Parseval, Leibniz on the grid, polarisation of the transfers, derivative of the energy along any history with the tendencies of the solver, concrete flow for the violated balance |
| C75 | The loops over the frequencies with their index of the fourth frequency, the reductions over the processes, the state machine of _online_save (samples, windows, running mean, records, restart), the frequencies, the normalisations and the places of the plots | conjugation and periodicity of the discrete Fourier transform, induction over the iterations with the number of samples as ghost variable, invariant over histories with restarts (powers of two and multiples of 128), Cauchy-Schwarz, concrete signals of four values for the findings |
| C76 | Parsing of keys and equations on lists of characters, elements as arrays [iz, iy, ix], the loop of the cuts with its index, get_edges_2d, minimum and maximum, approximate positions and nearest points of the arrows, the callback of the cursor, the weights of the interpolation | induction over the elements, argmin specification, tensor-product grids, uniqueness of the nearest point of a Cartesian grid, sorted scans with break, concrete elements for the findings |
| C77 | The branches of compute of each state as rules (names of the arguments, function of the state and of their values, second variable saved), the two dictionaries of saved arrays, get_var as a memoising evaluation with fuel, sequences of readings | the memoised evaluation agrees with the evaluation without dictionary for ranked and coherent rules, by induction over the readings; then each branch against the documented function |
| C78 | Files as name, attributes of the operator (optional for y and z), datasets and time; the xmf file as a list of grids; the two try blocks in their order, UnboundLocalError as a value | induction over the sorted list; rounding to 9 decimals by floor; concrete files for the findings |
| C79 | Real fields on a grid, half spectra with the shape of the arrays, forward and backward real transforms by their definitions, the loop on the variables with the array of the output spectrum reused | discrete orthogonality, C24 for the positions of the modes, Hermitian symmetry for the modes which are not stored, independence of the previous values of the reused array; concrete Nyquist mode for the finding |
| C80 | Arrays of the processes as partial functions of the points, gather and scatter by their contracts, files as attributes and arrays, the loop on the axes with its KeyError falling back on the old check, blocks of parallel HDF5 written in any order | round trip by computation, induction over the axes and over the order of the writings |
| C81 | The cells of the grid with the fields of one save, the reductions of C46, the columns and header as lists, the file as limits and lines, the pressure per mode with the lamb vector of C57 | means and fluxes from C46, algebra per mode, Parseval for the whole domain, induction over the history |
| C82 | The time loop of C01, the schemes of C04 with their buffers and coefficient cache, the hysteresis of C03, files as (time, iteration, physical fields), launch and restart with arbitrary uninitialised memory | what determines the future of a run is a core (time, iteration, increment, spectral and physical state); simulation relation between the runs, induction on the steps; Fourier inversion for Hermitian truncated states |
| C83 | The steps of C04-C06 iterated, with any sequence of increments, from arbitrary buffers and coefficients | local errors in the frame of the linear term (Taylor formulas by the mean value inequality; for RK4 an expansion around the middle of the step), stability on a ball around the solution, accumulation of the errors (discrete Gronwall); exact errors for x' = 1, y' = x^p for the sharpness; with a force computed once per step (SpecForced, PropsForced): difference with Euler's method of order 2, local error for tendencies Lipschitz in time |
| C84 | The grid and the box, the arguments, the shapes, the names and the pattern of the files, the table of the times, the table of the profile (Verif/Bench) | Field arithmetic with the case analysis of the code, powers for the shapes, prefixes of names, minimum of lists, induction on the dictionary of long functions; findings by witnesses and by equivalences |
| C85 | A directory as files with their records, what each part of the code appends, replaces or creates, the parameters of the three loading functions, the schedule of the outputs (Verif/Loading) | Induction on the writings and on the time steps: the files are extended, the others are kept; the records of an output by filtering the writings; findings by witnesses |
| C86 | Programs of the processes with collective operations, messages and accesses to the files; interleaving semantics with the least synchronisation allowed by MPI (Verif/Procs) | Commutation of the moves of different processes (diamond), so that one schedule which completes gives completion of all; rules of composition for the operations and the loops; invariants of the files; findings by the state which cannot change and by explicit executions |
| C87 | The tendencies, frequencies and masks of the models of the solvers given to the model of the time schemes; time step of ns3d with its projection (Verif/EndToEnd) | Energy estimates (C37, C38, C40) exclude a blow-up, so that the polynomial equations have a global solution (Verif/Convergence/Existence); C83 gives the orders; C57 gives the documented equations; the invariant subspaces (real fields, projected velocities) make the projection of ns3d the identity; forces which depend on the time (SpecTime, PropsTime): the time is added to the variables; ns2d.bouss, burgers1d, sw1l, sw1l.modified, sw1l.exactlin (ModelMore, SpecMore, PropsMore): the energy of sw1l is not a bound, the solution exists for a short time and the simulations converge to it as long as it exists; sw1l.exactlin through C56; plate2d (ModelPlate, SpecPlate, PropsPlate): the energy of C41 and the square of the mean position exclude a blow-up |
| C88 | get_dimless_numbers_versus_time of ns3d and ns3d.strat on one record, nan as none; froude_number and ratio_omegas of ns2d.strat (Verif/DimNumbers) | composition with the model of the saved means (C59); algebraic identities; invariance under the scaling of all the dimensional quantities |
| C89 | binary64 rounding on the rationals (nearest, ties to even, subnormal numbers; no overflow), CPython's float //, the clock, the loop, the two tests of the outputs, sums as binary trees, the tests of the truncations (Verif/Floats) | the rounding is proved to be the nearest float, hence monotone and exact on floats; error bounds by induction over the steps or the tree; the literal 2.0/3 times a float is never rounded above two thirds of it (integer arithmetic on the significand); concrete runs evaluated by the kernel for the findings |
| C90 | the tendencies, the step (scheme, truncation, projection) and the runs of ns2d.with_uxuy on the fields of the modes kept (Verif/Uxuy) | the schemes commute with the map from a vorticity to its velocity (each entry is a multiple of an entry); induction over the steps; product rule for exact products; C38, C57 and C87 for the vorticity |
| C91 | the constructors of the 2D and 3D operators, their masks, and the runs with these masks (Verif/Oper) | case analysis of the constructors; the last operation of a step is the truncation, so the masked entries are zero; orthogonality of the Fourier modes along one direction; C38 for the conservation |
| C92 | compute_spectra and time_spectrum: size of the windows, loop over the windows, folding of the negative frequencies, mean over the signals of a shell, cached transform (Verif/TimeSignals) | floor of the logarithm; induction over the loop; Parseval (C62); triangle inequality with the non-negative Hann window (C75) |
| C93 | positions and indices of the probes, values saved by each process, save_data_as_phys_fields (Verif/Probes) | the positions are multiples of the grid spacing; induction over the cells written, the files, the processes and the times |
| C94 | tendencies of sphere.ns2d and sphere.sw1l, conversions between the spectral and physical states of sphere.sw1l, f_radial (Verif/Sphere) | scalar fields are polynomials in three variables restricted to the sphere, the derivatives along the rotations are derivations, the mean value is a linear form invariant under them (built explicitly from the moments of monomials); antisymmetry of the Jacobian, Euler's identity for the eigenvalues -l(l+1), commutation of the rotations with the Laplacian; induction over the steps of the runs |
| C95 | runs of ns2d, ns2d.strat, ns3d, ns3d.strat, sw1l, sw1l.modified, plate2d with any scheme (Verif/Symmetry) | a general theorem (run_map): a linear map between fields which commutes with the tendencies, projections, dissipations and forces commutes with the runs (induction over the steps, the coefficient caches and the stale contents of the work arrays); then each tendency is written with exact convolutions and commutes with the phases |
| C96 | runs of ns2d, ns2d.strat, ns3d, ns3d.strat (Verif/Symmetry) | the general theorem run_map applied to the embedding of the modes of a plane: convolutions of fields of a plane, curl of the advection, projections of vectors of a plane |
| C97 | names as lists of characters: SimReprMakerCore and its users (Verif/RunName) | decimal notation read back, induction over the pieces of the name |
| C98 | the runs of Verif/Symmetry (also sw1l, sw1l.modified and plate2d) with symmetries of the box as signed permutations of the axes (SpecMirror) | the exact tendencies without aliasing commute with the symmetry, then run_map (induction over the steps) |
| C99 | Verif/Build: entry points, paths, description with the dictionary kept, class attributes, steps of __init__ | lookup in the table, invariant of the dictionary over the extenders, invariant of the class attributes over the calls, induction over the classes |
| C100 | Verif/BudgetCurves: np.gradient, the curves as arrays of abscissae and ordinates | mean value theorem between two records; the formula of NumPy as a weighted mean of two slopes |
| C101 | Verif/Invariants: means and energies along the runs of Verif/EndToEnd and Verif/RunScaling | subspaces stable under the steps; the mean is a linear form which the tendencies do not change; energies of the exact solution and convergence |
| C102 | Verif/SpecFigs: the indices, averages, thresholds and curves of the methods plot* of the outputs spectra, over files given as lists of records (for ns3d.strat as datasets with their names, with params.projection) | lists of records, closest index (C18), sums over intervals, powers of reals for the dissipative wavenumbers |
| C103 | `HorizMeans`: `hmean`, `fluct`, `stress`, `compute` on arrays over `Fin nx × Fin ny × Fin nz`; the file as lists of profiles; `load` with `argmin`; `plot` as lists of curves | sums over levels, orthogonality of the complex exponentials, the convolution theorem of `Fourier` for the budget; lists for the averages in time |
| C104 | no new code: the simulations of `EndToEnd` (C87) for the solvers with a mean velocity | the fields multiplied by the phases exp(-i k.U t) plus the mean velocity solve the truncated equations; then existence, uniqueness and convergence of C87 |
| C105 | `postInit`, `initWith`, `oneStep`, `loop`, `endOfSimul`, `preprocess`: the calls made for the outputs around the time loop, with arbitrary output objects, solver and forcing object | the two simulations are related by 'will have the same increment and force'; hysteresis and forcing are idempotent; induction on the steps |
| C106 | no new code: the simulations of C87 (`simulation`, `simulation3d`, the tendencies of the solvers), started a second time from the last state with the signs changed | the reversed solution solves the equations of the second run (identities of the tendencies with the unit of time -1); the second run is near it because the simulations are stable with respect to the initial error (C83_rounding_errors) |
| C107 | no new code: the runs of C95 (`runNs2d`, `runNs3d`, ...) and of the CFL condition (`Follows`) | the copies of a field have the modes m k only; the exact products, the derivatives, the projections and the damping of such fields are copies of those of the small box, then induction over the steps (`runFreq_map`) |
| C108 | The runs of C95 (`run`), without force; the tendencies of C37-C41 and C57 | sets of fields stable for the operations of a step and without tendency; induction on the steps with the coefficients of C06; antisymmetry of the pairs of modes for ns2d, pointwise on the grid |
| C109 | The curves of `plot` (ns2d, sw1l), `plot_fluxes` (ns3d, ns3d.strat) and `compute_fluxes_mean` (ns2d.strat) as functions of the file and of the arguments, with nan as `none` and the exceptions as values (Verif/BudgetFigs). | The inverse cumulative sums are sums over the larger wavenumbers; the slices of the files are ranges of records; the stationary balances per shell are summed up to the shell i. |
| C110 | The runs of Verif/Symmetry and Verif/Uxuy, with `RealArrays` (real values at the points of the grid, modes kept) as specification (Verif/Reality). | Induction over the steps: the arrays with conjugate coefficients at opposite modes are a real subspace, stable by the tendencies, the projections, the truncation, the exponentials of the damping and the phase shifts; each scheme combines its arrays with real coefficients only. |
| C111 | Composition of the models of the projection, of the normalisations and of the time correlation (Verif/Forcing), of the forced region (Verif/ForcedRegion) and of the copy in the full array (Verif/Coarse): Verif/RealForce. | The coarse arrays with conjugate values and without Nyquist modes are kept by the projection, real factors and the combination of the two fields (induction over the times); the copy at the same wavenumbers (C26) keeps the relation; induction over the computations of the force. |
| C112 | the runs of C95 as functions of a parameter: the model of the time steps (C04, C06), the tendencies (C57) and the projections; the choice of the time step (C03) | smoothness of each operation of the schemes, of the exponentials of the linear terms (through the cache of coefficients), of the tendencies (polynomials of the coefficients) and of the projections; induction over the steps; for beta, N, f and c2 the tendencies are affine functions of these parameters (of N² for N); for the CFL condition a shear flow whose exact solution is known (C108) |

## Findings

`FINDINGS.md` (generated by `tools/mkfindings.py`) lists the statements that are false of the code, each
with its theorem. Two observations have no theorem: `ns3d.strat` and `ns3d.bouss` override
`tendencies_nonlin` and silently ignore the turbulence model that ns3d applies; `np.random.randint(0, nb - 1)`
in the particular-mode normalisation excludes the last forced mode (its upper bound is exclusive).

## Tests of the theorems against wrong programs

`seeded/LOG.jsonl` records the edits made to a scratch copy of the model, the claim each one breaks, and the
theorems and lemmas that fail. Edits marked "finding: fixed program" are the opposite test: repairing the
code must make the violation theorem fail.
