# Formal model of RayFlare in Lean 4: design

The code under study is `/repo` (package `rayflare`, pinned commit). The model lives in
`lean/Verif/`, the property list in `properties.jsonl`, the claim table in `MANIFEST.json`, the log
of deliberately broken models in `seeded/LOG.jsonl`.

## 1. Layout

| directory | contents |
|---|---|
| `lean/Verif/Np.lean` | models of the NumPy primitives the code calls (`digitize`, `linspace`, `arange`, `trapz`, `argmin`, `flip`, `cumsum`, Python negative indexing, `np.divide(where=)`), |
| `lean/Verif/Model/*.lean` | model of the code, function by function; every definition cites file and lines |
| `lean/Verif/Spec/*.lean` | small specifications, written without using the model |
| `lean/Verif/Lemmas/*.lean` | helper lemmas |
| `lean/Verif/Props/*.lean` | the property theorems (one namespace `Rayflare`), each followed by an `example` whose hypotheses are met by a concrete non-trivial case |

Theorem names start with the property id: `C15_energy_balance`. Theorems that prove only part of a
property end in `_partial`; theorems that refute the full property with a witness contain `_fails`.

## 2. Modelling conventions (part of the trusted base)

* **Numbers.** Floating point numbers are modelled as exact real numbers (`ℝ`), or as elements of
  an arbitrary linearly ordered field where no transcendental function is involved. Rounding, overflow, NaN and
  infinities are not modelled, except that NaN results the code itself tests for (`isnan`,
  `theta is None`) are modelled as explicit options.
* **Arrays.** One-dimensional arrays are lists or functions on `Fin n`; matrices are functions of two
  indices. Vectorised code over wavelengths is modelled per wavelength except where wavelengths
  interact (the loop-exit test of `matrix_multiplication`).
* **Uninitialised memory.** `np.divide(a, b, where=...)` without `out=` and `np.empty` are modelled by an explicit
  arbitrary parameter (`junk`), over which theorems quantify.
* **Exceptions** are values (`Except`/`Option`).
* **External code** (NumPy, SciPy's Delaunay triangulation, xarray, sparse, solcore's TMM solver, S4, inkstone, joblib) is not verified. Where a property depends
  on what such a call returns, the call's result is a parameter of the model and the assumption made about it is a
  hypothesis of the theorem.
* **Randomness** is an arbitrary outcome stream; probability statements use Lebesgue measure on
  [0,1).
* **File system**: a finite map from path to content; a save is one atomic step (a separate model with torn writes is
  used where that matters).

## 3. Trusted base

Lean 4.33.0's kernel; the axioms `propext`, `Classical.choice`, `Quot.sound` (checked by
`#print axioms` on every property theorem); Mathlib's definitions of the mathematical objects occurring in
statements (ℝ, sin, exp, floor, Lebesgue measure ...); and the faithfulness of the model, i.e. the conventions
above and the simplifications written in the comments of `Model/*.lean`. No axioms are added, no
`sorry`, no `native_decide`/`bv_decide`.

## 4. Plan per property

| id | modelled | proof idea |
|---|---|---|
| C01 | `make_angle_vector` as lists (linspace, arcsin, concatenate, flip, midpoints, append loop) | closed form of the lists; monotonicity of arcsin |
| C02 | same | block sizes palindromic, prefix sums, midpoint < π/2 iff i < n |
| C03 | `overall_bin`, `digitize(right=True)`, `argmin` | counting in a strictly increasing list; block decomposition of a flatMap |
| C04 | same | witness: ring r>0, φ=0 gives row start(r)-1; partial: φ>0 |
| C05 | `fold_phi` with Python `//` and `%` as floor operations | uniqueness of representative in [0,s) |
| C06 | same | range theorem; witness φ=-π/2... with s not dividing 2π |
| C07 | `theta_summary`, `weighted_mean` on a matrix with ring labels | exchange of finite sums |
| C08 | `theta_summary_A` | witness; exact factor (ring size) |
| C09 | `make_v0` | counting lemma for `digitize(right=False)` |
| C10 | phi handling of `matrix_multiplication` lines 335-350 + `make_v0` | witness φ_in = phi_sym and φ_in < 0; partial for φ_in ≥ 0, ≠ phi_sym |
| C11 | binning of incidence in `RT_wl` and in `make_v0` | equal off edges; witness on edge |
| C12 | `out_to_in_matrix` incl. 2π special case | index computation using C02/C03/C05 |
| C13 | same | witness phi_sym=2π/5, ring with one bin |
| C14 | `make_D` | exp monotonicity |
| C15 | both loops of `matrix_multiplication`, one bulk | induction over passes |
| C16 | same plus exit test over all wavelengths | C15 + exit condition |
| C17 | same | geometric decay |
| C18 | same | witness: lossless 1-bin system, power constant |
| C19 | both loops | simulation relation |
| C20 | `bulk_profile_calc`, flips, accumulation | linearity of trapz, reversal on uniform grid |
| C21 | same | witness with two different memory contents |
| C22 | `load_redistribution_matrices` row slicing | list append/take/drop |
| C23 | `lambertian_matrix` | sums over blocks |
| C24, C25 | `mirror_matrix` | as C12; witness for 2π |
| C26 | `get_matrices_or_paths` over a file-system map | case analysis |
| C27, C28, C31, C32 | `process_structure` as a program of reads/saves on the file map; `calculate_RAT` loads; crash = prefix of saves | invariants by induction over the interface list |
| C29, C30 | path construction on strings | suffix cancellation |
| C33 | `get_savepath` over a set of directories | case analysis |
| C34 | `get_wavelength` over finite maps | case analysis + induction over calls |
| C35-C39 | `single_ray_stack` as a transition system driven by arbitrary surface outcomes | invariants by induction over steps |
| C37 | `rt_structure.calculate`/`parallel_inner` aggregation | sums over rays |
| C40 | `traverse`, `depth_indices` | linearity of trapz |
| C41 | `calc_R` over ℂ with numpy's principal arcsin/cos | quadrant argument |
| C42 | `decide_RT_Fresnel` vector algebra over ℝ³ | inner product computations |
| C43 | choice logic | Lebesgue measure of intervals |
| C44 | `decide_RT_TMM` absorbed branch | sum of normalised list |
| C45 | `check_intersect` | Cramer's rule; argmin |
| C46, C47 | `exit_side`, wrap-around lines | ordered field arithmetic, floor |
| C48, C49 | counting/normalising part of `RT_wl` | sums over ray list; witness with junk |
| C50 | ray counts and tiling of `RT`/`rt_structure` | ceil/div/mod arithmetic |
| C51 | `TMM.make_matrix_wl` binning | C02/C03 + arcsin ranges |
| C52, C53 | reversal logic of `lookup_table.py`/`tmm.py` with explicit views | list reversal algebra |
| C54 | rescaling in `tmm_structure.calculate` | field arithmetic |
| C55, C56 | accumulation loops of `RCWA_wl` | induction over orders; witness |
| C57 | `rcwa_absorption_per_layer`, `rcwa_rt` | telescoping sum |
| C58 | `process_pol` over strings | case analysis; empty-string witness |
| C59 | `group_diffraction_orders` | fibre sums |
| C60 | reciprocal vectors | field arithmetic |
| C61, C62 | `RTSurface` shift/refresh state | algebra; witness |
| C63 | `heights_texture` flattening | div/mod arithmetic; witness 2×3 |
| C64-C66 | texture constructors | vector algebra, list membership |
| C67 | `make_absorption_function` matrix branch | list filtering/scattering; witness |
| C68 | `Interface.__init__` | case analysis |
| C69 | `lambertian_matrix` | compare first two rings; Jordan inequality |
| C70 | result dictionary of `matrix_multiplication` as in `Model/MatMul` | loop-entry test; witness: front surface that transmits nothing |
| C71 | profile accumulation for interfaces in `matrix_multiplication` | linearity of the sum over bins and of trapz |
| C72 | path strings of lookup tables and of stored results | suffix analysis on character lists; witness name |
| C73, C74 | file map of C27 with histories of runs (finished or killed) | invariant over histories; witness histories |
| C75 | the same, with runs killed while a file is being written (`CutOff`) | a cut-off file that is opened blocks its step for ever (invariant over killed runs); otherwise the invariant of C31 is kept |
| C76, C77, C78, C79 | `single_interface_check`, `single_cell_check` as transition systems over arbitrary draws (`Model/Intersect`) | loop invariants by induction over the draws; witness mesh for C78 |
| C80 | `single_ray_interface` loop | case analysis of the first pass |
| C81 | side loop of `make_TMM_lookuptable` | case analysis; witness `sides=[-1,1]` |
| C82, C83, C84 | incoherent branch of `tmm_structure.calculate` | algebra; junk memory as parameter; witnesses |
| C85, C86, C87 | `RCWA_wl` binning, normalisation, reversed stack | arctan identities; witnesses |
| C88, C89, C90 | `rcwa_structure` object as a state machine over arbitrary call histories, results as references into a heap | invariant by induction over histories; witness histories |
| C91, C92, C93, C94 | polygon drawing, `process_pol`, material numbering, field requests | list algebra; quadratic form in the amplitudes for C92; witnesses |
| C95, C96, C97 | `xyz_texture`, `refresh`, `hemisphere_surface` | vector algebra; witnesses |
| C98, C99 | `make_absorption_function` | list algebra; witnesses |
| C100 | interface loop of `process_structure` | induction over the interface list |
| C101, C102, C103 | start of `single_ray_stack`, randomisation, `rt_structure.__init__` | trigonometry, floor arithmetic, induction over the textures |
| C104, C105 | azimuth conventions of RT, TMM and RCWA | fold lemmas of C05, arctan identities; witnesses |
| C106 | `get_order_directions` | finite products; field arithmetic, arcsin |
| C107, C108 | `calculate_interface_profiles`, `make_profiles_wl` | sums, trapz on the joined axis; witnesses |
| C109, C110 | depth axis of `tmm_structure.calculate`; profiles of `TMM` from both sides | list algebra on `arange`; witness on a layer boundary |
| C111, C112 | `make_lookuptable_rt_structure`, `make_tmm_args`, table lookup in `decide_RT_TMM` | injectivity of the names, induction over the textures, argmin; witnesses |
| C113 | `RTSurface.find_area` | Euclidean geometry; witness |
| C114, C124 | `matrix_multiplication` with any number of bulk layers (both loops, returned variables) | simulation by the single-bulk models of C15, C20 and C121; witnesses |
| C115, C116 | depth axes and profiles of `RCWA` from both sides, `rcwa_position_resolved` | list algebra on `arange`, mean value theorem; witnesses |
| C118 | distribution of local angles in `RT_wl` | counting as in C48; witness |
| C119 | refraction in `decide_RT_TMM` and `decide_RT_Fresnel` | algebra of Snell's law; witness with an absorbing medium |
| C120 | `joblib.Parallel`: batches of tasks, copied objects, any order of completion | induction over the batches and the order; witnesses with Inkstone polygons and height distributions |
| C121 | profiles in the surfaces: `matrix_multiplication` with stored profiles, list of profiles, reader | invariant of the loop; witness with profiles in the rear surface only |
| C122 | `hyperhemisphere`: points, hull (parameter), removal of the flat face, orientation | spiral and rim lie on the sphere; circumcentre of an acute facet as a positive combination of its corners; witnesses at the rim, for shallow lenses and for the whole sphere |
| C123 | what `RT`, `TMM`, `RCWA`, `lambertian_matrix`, `mirror_matrix` store, and `matrix_multiplication` | columns by C23, C24, C48 with C50, C51, C55; then C16 and C17 |
| C125 | `determine_only_incidence`, the launch of `RT` with `only_incidence_angle`, `matrix_multiplication` | the launch vector and the rays are in the same column, so only that column matters (the rest is replaced by perfect reflection); then C16, C17, C49; witnesses |
| C126 | `single_ray_interface`, `single_interface_check`, both decisions, and the counting of `RT_wl` | invariant of the loop (unit direction, side), then C48, C123; the hemisphere of a ray follows from its final medium |
| C127 | loop of `single_interface_check` on an infinite supply of draws | two consecutive steps from cell to cell take at least the time to cross a cell, so the height passes every bound |
| C128 | the same, with the two decisions | each reflection raises the vertical component of the direction away from the surface; so the direction converges, the limit is parallel to every facet met infinitely often, and reflections keep the distance to it |
| C129 | the same, with the decision made by comparing a random number with thresholds; specification of "all branches" in Spec/Branching | induction over the iterations with Fubini's theorem for the product of uniform measures; matrix entries from C48. The positions at which rays start, and the surfaces if they are refreshed, are arbitrary but fixed; the random numbers are real numbers uniform on [0, 1] |
| C130 | `single_ray_stack` with the geometry (Model/TraceStack): the loop over the surfaces, the media on both sides, randomisation, the shift by whole periods, `single_interface_check` or `single_cell_check`, and the bookkeeping of C35-C38. A position divided by a zero vertical component is NaN (`none`). The counts of interactions and the azimuths recorded are not modelled | invariant over the surfaces met: the run with geometry refines the transition system of C35-C38 with the outcomes that actually occur; the direction in which the ray moves agrees with the recorded one. Horizontal directions are excluded by hypothesis, except in `C130_level`, which says what happens to them |
| C131 | the same, with the decisions made by comparing a random number with thresholds; specification of "all branches" in Spec/StackBranching | induction over the surfaces met with Fubini's theorem; the outcome at a surface takes finitely many values on measurable sets. The positions at which rays start or re-enter and the surfaces if they are refreshed are arbitrary but fixed; the random numbers are real numbers uniform on [0, 1]; a Fresnel reflectance above one acts as one; a ray that has not ended within the given numbers of surfaces and iterations counts as not having started |
| C132 | the branch of `single_interface_check` for a ray that meets no facet | invariant over the iterations: while no facet was met, the number of misses is the number of iterations; undefined coordinates are the same as having missed a surface without facets |
| C133 | the loop of `matrix_multiplication` (one bulk layer) against the fixed-point equations of the power flows | the part of the steady flow not yet accounted for is carried along the passes (linearity); its total is the power still travelling; existence by summing the passes; `C133_lower_threshold` (Props/Mixture): with a lower `I_thresh` nothing returned becomes smaller |
| C134 | two instances of the loop of `matrix_multiplication` agreeing at one wavelength | corollary of C135 in both directions; `C134_not_exact` shows that exact equality fails |
| C135 | two instances of the loop with different bulk layers | all matrices are non-negative, so every pass is monotone in the attenuation; energy balance for the bulk absorption; the limit for the exact solution |
| C136 | histories of runs for several structures in one folder (`Model/Files`) | with the same labels every file is already there, so nothing is computed (`_fails`); otherwise the invariant of C31 over all interfaces used in the folder |
| C137 | any number of processes, each an ordered list of calculations with pending saves, interleaved arbitrarily (`Model/Concurrent`) | invariant over the interleavings (every file present is right, every calculation passed has its files present or pending); simulation of each process by a run of its own; a concrete schedule for `_fails` |
| C138 | the model of C129 and C131 with several rays traced with independent random numbers | every quantity recorded per ray lies between 0 and 1 (energy invariant of C130 along the run, so for the intensities no ray may become exactly level); independence of the coordinates of a product measure; Hoeffding's inequality from Mathlib. The same restrictions on what is random as for C129 and C131 |
| C139 | the assembled system of C15 with stored matrices that keep the polar angle on reflection and have one polar angle on transmission (`Spec/Planar.lean`); those of TMM (C51) and of ideal mirrors (C24) are shown to be such matrices | in every pass the light is confined to one ring, so only its total matters: induction over the passes gives the partial sums of a geometric series; the tail is at most the power still travelling, which is at most I_thresh on exit. The angle inside the bulk layer is the centre of the ring Snell's law leads to, as in the code |
| C140 | `rcwa_absorption_per_layer_order`, and `calculate` with the options used for the calculation and those used for the basis set; the solver is a parameter (basis set, flux per layer, flux per layer and order) | the differences of fluxes per order add up to the difference of the fluxes; counterexamples: other lattice truncation at calculation, a layer emitting light. `_fails` and `_partial` |
| C141 | the dictionaries of S4 options at construction (completed with defaults) and at calculation (not completed) as partial functions of the option names | case analysis. `_fails` and `_partial` |
| C142 | `initialise_S` and `initialise_S_inkstone` as translations of shapes into calls of the libraries; what the calls draw is specified in `Spec/RcwaShapes.lean` from the documentation (trusted) | set equality for every kind of shape; for polygons the only assumption is that the inside moves with the vertices (proved for convex polygons). `_fails` for polygons with an angle |
| C143 | `necessary_materials`, `edit_geom_list`, and the look-up of the material by name when a shape is drawn | induction over the sequence of changes. `_fails` for new materials and lists |
| C144 | `assemble`, `Sys.step`, `lambertStored`, `tmmColumn`; the formula is `Spec/Diffuse.lean` | an explicit steady state (the rear matrix has equal columns, so one number, the light leaving the reflector, determines everything) and C133. Partial: with the program's shares of the rings; `C144_fails`: with Lambert's shares the reflectance is wrong by more than `I_thresh` on every grid with two rings |
| C145 | `calculate`, `parallelInner`, `collect` (Model/RTCalculate.lean): launching, recording and averaging of the rays, for any tracer; unset memory is a parameter | the arrays after each ray are known in closed form (induction over rays and repetitions); the totals follow with the ray invariants of C129-C131 |
| C146 | `calcCoords`, `calcLimits`, `CalcArgs.xs`, `CalcArgs.ys`; distributions are Mathlib measures, the random numbers any pair uniform on the unit square | change of variables and Fubini. Partial: `C146_fails`: there are `nx*ny` points in every window that can never be drawn together |
| C147 | the same and `linspace`; averages over rectangles are integrals | sample points lie one in each of `nx` by `ny` equal cells, so the error is bounded by the variation along lines (Lemmas/RTScan.lean). Partial: `C147_fails`: a strip along the edge of the cell is never hit with the default limits |
| C148 | coordinate `z` of the profile datasets of `TMM` and `RCWA` beside the stored values | `zip` of coordinates and values; violated for every stack from the rear (first value) |
| C149 | `rough_planar_surface` with its arguments: number of points, height of the roughness, heights | heights lie in [0, noise height]; explicit random numbers for the violations, with the empty-circle criterion for facets |
| C150 | the whole chain of C139 (grid, TMM matrices, launch vector, format changes, loop) with the number of polar bins going to infinity | rings become uniformly narrow (uniform continuity of arcsin), the bin centres converge to the true angles, the slab formulas are continuous; combined with C139; the ideal mirror (`C150_mirror`): its stored matrices are those `TMM` stores for a surface that reflects everything |
| C151 | `single_ray_stack` with everything it calls (`Model/TraceStack`, `Model/RayStack`, `Model/Fresnel`), for three media and two flat surfaces in any triangulation; the formulas are `Spec/Planar`, the geometry is `Spec/FlatTrace` | geometry: a ray on its way to a flat surface meets it with probability one at the angle it travels at, and leaves it at once; the state of the ray is then its direction and intensity, and a potential (expected record from here on) is conserved up to what is given up; C131 turns the mean over branches into the integral over the random numbers. The number of surfaces: geometric bound |
| C152 | `RT` and `single_ray_interface` with everything they call (`Model/TraceSurface`, `Model/RTMatrix`), for a flat surface in any triangulation and given launch directions; `TMM`'s matrix columns (`Model/TMM`) | one meeting with a flat surface (C151) gives the mean and the possible outcomes of a ray; C129 (the mean matrix is the mean over launched rays of the total weight of branches per bin) and the azimuth of a refracted ray being that of the incident one give each entry; each direction off the edges lies in exactly one bin, so hemisphere totals follow and are compared with C51; C48 gives that no index error occurs |
| C153 | `single_ray_interface` with everything it calls (`Model/TraceSurface`, `Model/Intersect`), counting in `RT` (`Model/RTMatrix`); regular pyramids (`Model/Surface`) | a quarter turn as a map on points, directions, facets, loop states and results (`Spec/Turn`); the facet met, the local angle, the decision, the side of the cell through which a ray leaves and the shifts by whole periods commute with it; induction over the iterations; the azimuth changes by a multiple of `phi_symmetry`, so the counted entries are the same; stacks: induction over the meetings (`Props/Mirror`) |
| C154 | `decide_RT_Fresnel`, `calc_R` as called by `single_interface_check` (`Model/Fresnel`, `Model/Intersect`) | reflection and refraction backwards (vector algebra, C43: the reflectance is the textbook one, which is symmetric); induction over the facets of a path; change of variables by Snell's law in the integral over all angles.  The offset of 1e-9 after each facet is left out: it moves the point where the next facet is met, not the directions at given facets |
| C155 | `single_interface_check` with `check_intersect` on a periodic surface (`Model/Intersect`), `regular_pyramids` (`Model/Surface`) | a texture is the graph of a periodic Lipschitz function (`Spec/Gentle`); points accepted by the intersection test with its tolerance 1e-10 lie close to the graph, so a ray leaving more steeply than the graph, started 1e-9 away from the facet, passes no further facet, in its own cell or the next, if the facets are small or the ray arrives away from the edges (`Resolved`: then a second meeting would lie in the plane of the first); Fresnel reflectance from C43; steep textures by an invariant of the loop; pyramids as min of distances to the nearest integers |
| C156 | `single_ray_stack` with `single_interface_check` (`Model/TraceStack`), `R0` of `rt_structure.calculate` (`Model/RayStack`) | one meeting with the front surface from C155, as a function of the first random number alone; a ray that has passed through a layer never counts for `R0` (invariant of the loop), so what lies below does not matter; integral over the random numbers as in C131 |
| C157 | `single_ray_stack` with `single_interface_check` (`Model/TraceStack`), `rt_structure.calculate` (`Model/RayStack`) with any number of flat surfaces | specification `Spec/FlatLayers`: linear equations for the fractions of light that count; one iteration of the loop at surface `j` splits into upwards in medium `j`, downwards in medium `j + 1` and absorbed; upper and lower bounds by induction on the number of surfaces; existence of a solution by monotone iteration; uniqueness and convergence because light is absorbed in the layers or gets out within `2 m` surfaces with a probability bounded below |
| C158 | `traverse`, `single_ray_stack` (`Model/TraceStack`), `rt_structure.calculate` (`Model/RayStack`) | specification `Spec/Thresh`: the same calculation with another threshold, contributions of one ray; two runs with the same random numbers are in the same state until the ray is given up with the higher threshold; from there the run with the lower one only redistributes the remaining intensity (conservation of light along a ray, monotonicity of what has been absorbed); mean values by the branching identity of C119 |
| C159 | `rt_structure.calculate` as in C151, `calculate_RAT` with `TMM` surfaces as in C150 | specification `Spec/Agree`: solver results of a bare surface; both methods approach the textbook slab at the true angles (C150, C151); the slabs are the same because Fresnel's reflectance is the same from both sides, and the solver results are continuous away from the critical angle; with coatings the tables hold the solver results at angles within δ, and the slab formulas are continuous in the three angles |
| C160 | `single_ray_stack`, `single_interface_check`, `single_cell_check`, `decide_RT_Fresnel` | specification `Spec/Matched`: Lambert–Beer along a straight path, height maps one below the other; reflectance 0 and unchanged direction at a facet (Snell with equal indices), invariant "direction and side" over any number of facets; a steep ray meets one facet per surface (C155), so the ray passes surface after surface: induction over the surfaces with the state after each |
| C161 | `rt_structure.calculate`, `single_ray_stack`, `decide_RT_Fresnel` | specification `Spec/Turned`: the stack of flat surfaces turned over; the balances of light (C157) of the two stacks for the transmitted light are combined to an expression that is the same at every height (like a Wronskian), equal to T of the one at the top and of the other at the bottom; with C157 for the means of ray tracing |
| C162 | `rt_structure.calculate`, `single_ray_stack`, `decide_RT_Fresnel`, `calc_R`, `traverse` | specification `Spec/Split`: an additional surface that lets all light through, numbers of quantities shifted; the balance of the split stack, restricted to the old surfaces, solves the equations of the old one, whose solution is unique; no reflection between equal media (C160); with C157 for the means of ray tracing |
| C163 | `get_fields`, `get_fourier_epsilon`, `get_fields_z_integral` | model of `meshgrid`, `flatten`, the loops and `reshape` (`Model/RcwaMaps`); invariant of the loop (entries up to the point reached are filled), Euclidean division of the flat index; rounding of lattice coordinates for the default area; the solver is a parameter |
| C164 | `get_fields`, `get_fields_z_integral` | the expression returned against the documented one; counterexample: circular polarisation |
| C165 | `rt_structure.calculate`, `single_ray_stack`, `decide_RT_Fresnel`, `traverse` | specification `Spec/Thicker`: attenuation factors of two stacks compared; the balance of light (C157) is the limit of monotone iterations, so less light is passed on everywhere; the thickened layer by the sum of all parts (C157) |
| C166, C167, C168 | `options.py`, `get_wavelength`, the first lines of all user functions and all places where options are read | model (`Model/Options`): a set of options is a map of names to values with a flag for attribute access; for each function the list of places where it reads options (by entry, by attribute, only if present); the theorems hold for every selection of these places. `_fails`: `make_absorption_function` with a dictionary; `wavelength` overwritten; `project_name` without default, `avoid_edges` never read. Trusted: the lists were compiled by reading the code |
| C169 | `Sys.step`, `makeV0Row`, the loop of `matrix_multiplication` | linearity of one pass, so the flows of the mixture after any number of passes are the mixture of the flows; the passes not made in one case and made in the other carry less than `I_thresh`; `phi_in='all'` puts equal shares into the bins of the ring (`Spec/Mixture`) |
| C170 | `mkSurface`, `Surface.shift`, `Surface.refresh`, `xyzTexture`, `wrapRay`, `sicRun` | `Spec/Cell`: the rectangle over which points extend; minimum and maximum of lists. Partial: textures starting at the origin. `C170_offset_fails`: a flat square at 5 ≤ x, y ≤ 6 sends back every ray from straight above after 101 misses |
| C171 | the selections `.loc[dict(wl=...)]` of `TMM` and `.sel(method="nearest")` of `decide_RT_TMM` (pandas: error for an unordered axis, ties to the larger label), the pass loops | simulation of the two loops wavelength by wavelength; the lookups by uniqueness of positions; unordered or repeated wavelengths raise (`C171_tables_fails`, `C171_repeated_fails`) |
| C172 | the whole chain of the matrix method for planar structures (as for C150) | both calculations converge to the textbook slab (`C150_converges`), and the formula for the slab turned over is the same |
| C173 | `single_ray_interface`, `single_ray_stack` with everything they call (`Model/TraceSurface`, `Model/TraceStack`, `Model/Intersect`) | exchange of x and y as a map on points, directions, facets (corners listed the other way round), loop states and results (`Spec/Mirror`); every step commutes with it; stacks by induction over the meetings, with one lemma for turns and mirror images |
| C174 | `single_ray_interface` with everything it calls; `Spec/Scale` repeats the loop with the three fixed lengths of the code as parameters (`C174_code`: with 1e-9, 0.01, 1e-8 it is the model) | scaling as a map on points, facets, cells and results; commutes with every step (`C174_scale_partial`, no condition on the ray). Violated (`C174_fails`): a black ridge of size 1/200, whose cell is smaller than the height of the new start, sends back a ray that is absorbed at size 1 |
| C175 | `calc_R` with `pol = 'u'`, `single_ray_stack` for flat surfaces (the slab of C151, the one surface of C157), `calculate_RAT` with the matrices of `TMM` (C150) | for each of the three values of `pol` the averages over the random numbers converge to the slab of the textbook with the reflectance of that polarisation; then algebra on `(1-R)/(1+R)`. Violated (`C175_fails`): the three slabs are not the mean of each other at oblique incidence; proved for one surface and for normal incidence, and the exact difference for a transparent plate (`C175_deficit_partial`, `C175_matrix_partial`) |
| C176 | `single_ray_stack` with `randomize` (Model/TraceStack), both interaction loops, `traverse`, `rt_structure.__init__` | everything at a surface commutes with moving surface and ray vertically (`check_intersect`, `exit_side`, the new start, the shift by periods, the random start); the attenuation depends on thickness times coefficient only; induction over the surfaces met. The first surface is met at the same height; after it the position is drawn anew, so the distance between surfaces does not enter |
| C177, C178 | `make_absorption_function` for `rt_structure` (the whole loop over surfaces and bulk layers), `interp1d` | loop invariant (depth of the surface, index into the profile); strictly increasing positions by induction; witnesses for thin layers and for depths below the last sample |
| C179 | the absorbing medium that `OptiStack` (Solcore, not modelled) adds for `no_back_reflection` as one more entry in the answer of the solver; `tmm_structure.calculate` for the four kinds of calculation | the slice `[1:-1]` keeps the added medium; violated, what is reported instead is proved |
| C180 | arrays of wavelengths as memory the user can change in place, `np.all(a == b)` with broadcasting and with the exception of NumPy 1.25 as a flag, `update_oc` and `calculate` | invariant over histories: the array referred to holds the wavelengths of the stored constants; violated by another number of wavelengths and by in-place changes |
| C181 | `single_interface_check` after a facet, `exit_side`, `check_intersect`; the periodic continuation is specified with cells `(m, n)`, without the code's translations | invariant of the loop between two facets (`OnWay`: the position is a point of the ray seen from its cell, and no facet is met before it); the translation without moving on is undone by the modulo; violated for rays moving away from the surface, with a V-groove as witness. Not covered: rays exactly over a corner, vertical rays, and points nearer than 2e-10 of a period to the border of a cell |
| C182 | as C181; the larger cell is the list of all shifted facets (`tiled`, specification) | both descriptions find the first facet (C181), and the first facets of the two descriptions are the same because a small cell is a large cell and a cell in it; violated with the ray of `C181_fails` |
| C183 | `wrapRay` (the shift by whole periods), `check_intersect`, the guess for the reference height `zcov`; the continued surface as in C181 | before the reference height nothing can be met, after it the ray stays in its cell up to the facet found, so an earlier facet would be in the same cell (C45, C47); steep light: the continued surface as the graph of a function with bounded slope (`Spec/Steep.lean`, for pyramids the distance to the nearest grid line), which a steeper line meets once; violated for reference heights at the other end of the texture, with families of rays on a V-groove and on upright pyramids |
| C184 | the tests on `pol` in `calc_R`, the lookup by label, `tmm_structure.calculate`, `TMM` and `process_pol`, for strings and pairs; the solver is a parameter that knows 's' and 'p' | cases, with the substrings of 'sp' determined; violated by strings taken as unpolarised light |
| C185 | `rtMatrix` of C48; `shareOf`, `totalOf` (specification) say which part of a ray each layer absorbs | the accumulated absorption is the sum of total times share over the rays of the column; bounds by induction over the rays; violated because each absorbed ray is weighted with the total absorption at its angle; right if that total is the same for all absorbed rays (`C185_equal_partial`) or if all of them are divided among the layers in the same proportion, for instance because only one layer absorbs (`C185_same_share_partial`); otherwise the error is bounded by the spread of the totals (`C185_within_partial`) and by the spread of the shares (`C185_shares_partial`) |
| C186 | `matrixProfile`: `unique_thetas`, the local angles of C118 and `make_profiles_wl` of C108 put together; the table is a parameter for both sides | ring by ring is ray by ray (induction over the rays); violated because `side=1` of the table is used for all rays |
| C187 | `lambertStored` of C23; the specification has the cone, the mean path and the integrals for Lambertian light | the weight of a ring is the difference of the sines of its edges times δ/sin δ (sum-to-product formula), with 1 ≤ δ/sin δ ≤ 1/cos δ; violated because the weight lacks the solid-angle factor |
| C188 | the assembled system of C144 with `lambertStored`; the specification has the absorptance of the slab with integrals over Lambertian light, and its limit of weak absorption (dominated convergence) | the sum over round trips of C144, bounded with 1 - e^-u ≤ u; the normalisation of the shares cancels; violated, by the factor of C187 squared over the path |
| C189 | the assembled system with `tmmColumn` matrices at the front and `lambertStored` at the rear, for every number of bins; the specification has the light-trapping formula with a mean over the polar angle as a parameter | C144 for each grid; the shares of the rings give Riemann sums for the weight cos θ dθ, and the formula is continuous in its means; violated: for a decreasing function that mean is strictly larger than the Lambertian one |
| C190 | `Flows.flux`, `Flows.density` (Spec/BeerLambert) on the steady flows of C133; `stepProf`, `bulkProfileCalc` | The density is minus the derivative of the flux (`C190_density`). Per pass the trapezoidal check of `bulk_profile_calc` differs from A_bulk by at most s K A, so the rescaled exponentials are within 2 s K² A of the density, reversed ones within 3 s K² A; the sum over passes leaves out what is still travelling, at most K·I_thresh (`C190_bound`, `C190_converges`). For flat surfaces the densities of the passes form a geometric series (`C190_planar`); the textbook density is continuous in the angles, uniformly in the depth, which gives the limit of fine grids (`C190_fine`). |
| C191 | `surfaceGap`, `CloseSurfaces` (Spec/Stability); `Sys.init`, `step`, `stepProf`, both loops | Invariant: the L1 distance of the light under way plus that of everything recorded grows per pass by at most 2 η times the light under way, since a surface with columns summing to one and the attenuation do not increase the distance (`C191_passes`). With absorption the light under way is bounded by a geometric series (`C191_stable`), and the limit of many passes gives the exact solutions (`C191_exact`). `C191_needs_absorption` gives a transparent cavity for which arbitrarily close matrices lead to opposite results. |
| C192 | `NoisyEntries`, `ResultsWithin` (Spec/Noise); `assemble`, both loops, `rtMatrix`, `single_ray_stack` with random numbers | Union bound over the entries of the three surfaces, then C191 (`C192_noise`); a bound of Hoeffding type for the entries gives the number of rays (`C192_enough`). `C192_traced` puts this together with the law of the traced rays (the stored entries are means of independent draws whose expectation is the sum over the branches) and with the end-to-end theorems, for surfaces without a coating or with a coating of one layer; `C192_any_coating` (and `C192_any_coating_all` for all wavelengths at once) is for coatings of any number of layers, with the absorption of all layers of a surface taken together (the loop commutes with adding up the layers); the mean of the stored absorption of the separate layers is a different question (C185). The example shows a coated planar surface with any number of rays for which every hypothesis holds. |
| C193 | `SameOpticalThickness`, `SameRecords`, `inUnits` (Spec/OpticalThickness); both loops, `bulkProfileCalc`, `arange` | Induction over the passes: the attenuation matrix depends on the product only, and profiles are not fed back (`C193_same_results`); in the profile the factors cancel except for one (`C193_units`, `C193_depths`). The matrix-method counterpart of C176. |
| C194 | `CloseSurfaces` (Spec/Stability); `Sys.step`, `stepProf`, `makeD`, both loops | As C191, with the additional error of the attenuation: since x exp(-x) <= 1/e, a relative error rho of the optical thickness changes the transmitted fraction by at most 3 rho / 8 in every direction (`att_close`); each of the two passages of a pass adds twice that (`gap_bulk2`). `C194_stable` and `C194_exact` contain C191 as the case rho = 0. |
| C195 | `SameButLayers`, `SameButLayerRecords` (Spec/SplitLayers) on `RatInput` and the recorded lists; `assemble`, both loops, `interfaceProf` | Adding up the layers (`mergeSys`, `mergeState`) commutes with the first interaction and with every pass, and leaves the condition of the loop unchanged, so two calculations with the same sums go through the same merged states (`C195_layers`); the interface profiles use only the sum over layers (`C195_interface_profile`). |
| C196 | `AbsorbsMore`, `MoreParasitic` (Spec/Parasitic); `Sys.init`, `step`, `stepProf`, `makeD`, both loops | Induction over the passes: less light under way and less of every record (`LessLight`), because all matrices are non-negative and the light lost in the bulk is a non-negative combination of the light that enters it. The loop with less light ends first, and what the other one records afterwards is not negative (`C196_parasitic`, `C196_ends`). |
| C117 | `make_absorption_function` for planar stacks, `set_widths` | depth axis of C109; witnesses |

## 5. What is modelled and what is not

| source file | modelled | not modelled |
|---|---|---|
| `angles.py` | `make_angle_vector`, `fold_phi`, `overall_bin`, `theta_summary`, `theta_summary_A`, `weighted_mean` | plotting helpers |
| `matrix_formalism/multiply_matrices.py` | `calculate_RAT` (loading), `matrix_multiplication` with one bulk layer (both loops, launch, exit test, result dictionary) and with several, `make_v0`, `out_to_in_matrix`, `make_D`, `dot_wl*`, `bulk_profile_calc`, row slicing | sparse storage format; xarray labels |
| `matrix_formalism/process_structure.py` | `process_structure` as a program over a file map, surroundings of each interface, `determine_only_incidence` | solver internals |
| `matrix_formalism/ideal_cases.py` | `lambertian_matrix`, `mirror_matrix` | |
| `utilities.py` | `get_savepath`, `get_wavelength`, `get_matrices_or_paths`, `make_absorption_function` (all branches) | `scipy.interpolate.interp1d` itself (modelled as linear interpolation with an error outside the samples) |
| `ray_tracing/rt.py` | `RT` (ray counts, tiling), `RT_wl` (binning, normalisation), `rt_structure` (construction, starts, aggregation), `parallel_inner` (aggregation), `single_ray_stack`, `single_ray_interface`, `single_interface_check`, `single_cell_check`, `check_intersect`, `exit_side`, `traverse`, `calc_R`, `decide_RT_Fresnel`, `decide_RT_TMM`, `RTSurface` (normals, shift, refresh, `find_area`), `make_lookuptable_rt_structure`, `make_tmm_args`, profiles in interface layers | Delaunay triangulation (the facet list is a parameter), random number generator (arbitrary draws) |
| `transfer_matrix_method/` | binning of `TMM`, `make_TMM_lookuptable` (sides, reversal, file), `tmm_structure.calculate` (rescaling, incoherent coefficients, depth axis) | the TMM solver (solcore) |
| `rigorous_coupled_wave_analysis/rcwa.py` | binning of `RCWA_wl`, geometry reversal, power bookkeeping, `process_pol`, `rcwa_structure` state, field requests, profiles from both sides, `rcwa_position_resolved`, reciprocal vectors | S4 and Inkstone (results are parameters) |
| `analytic/diffraction.py` | `get_order_directions`, grouping of orders | |
| `structure.py` | `Interface.__init__`, `Structure` (order of layers) | `Interface.materials` (for layers given as raw lists it keeps only part of the data; nothing else reads it) |
| `textures/` | `xyz_texture`, `heights_texture`, `planar_surface`, `regular_pyramids`, `V_grooves`, `rough_pyramids`, `rough_planar_surface`, `hemisphere_surface`, `hyperhemisphere` (hull as parameter) | the triangulation by scipy (facets are parameters) |

Modelling notes.

* Exact reals versus floats: several witnesses sit on bin edges. For the ones below the float computation was checked
  by hand (IEEE doubles): `mirror_matrix` with `phi_sym = 2*pi` folds the middle bin exactly to 0.0 for rings of 1, 3, 5, 7, 13 bins (C25);
  `out_to_in_matrix` with `phi_sym = 2*pi/m` folds it exactly to 0.0 for m = 5, 7, while for m = 3, 9 rounding rescues the code (C13, whose
  concrete witness is five-fold symmetry).
* A `_fails` theorem refers to the unchanged code: it is a finding, and the matching `_partial` theorem delimits what
  does hold.

## 6. Axioms each theorem depends on

Output of `#print axioms`, grouped. All theorems are in namespace `Rayflare`.

* **propext** (6 theorems): `C53_lookup`, `C53_tmm_fails`, `C53_tmm_partial`, `C167_unchanged_partial`, `C168_used_partial`, `C168_unused_fails`

* **Quot.sound, propext** (12 theorems): `C52_tmm`, `C81_sides_fails`, `C87_geometry_partial`, `C93_material_partial`, `C120_schedules_partial`, `C143_list_fails`, `C166_dictionary_partial`, `C166_dictionary_fails`, `C167_only_wavelength`, `C167_unchanged_fails`, `C168_defaults_partial`, `C168_defaults_fails`

* **Classical.choice, Quot.sound, propext** (595 theorems): `C01_polar_edges`, `C01_azimuth_edges`, `C01_rows`, `C02_hemispheres`, `C03_unique_bin`, `C03_centre_round_trip`, `C04_own_ring_partial`, `C04_fails`, `C05_fold`, `C05_fold_rotation`, `C05_fold_idempotent`, `C06_fold_general_partial`, `C06_exactly_partial`, `C06_fails`, `C07_theta_summary_front`, `C07_theta_summary_rear`, `C07_normalised`, `C07_normalised_rear`, `C08_summary_A_partial`, `C08_fails`, `C09_launch_single`, `C09_launch_all`, `C10_launch_any_azimuth_partial`, `C10_fails_at_symmetry_edge`, `C10_fails_negative`, `C11_same_bin_partial`, `C11_normal_incidence_partial`, `C11_fails_on_edges`, `C11_exactly_partial`, `C11_fails_on_azimuth_edges`, `C12_format_change`, `C12_round_trip`, `C12_format_change_full`, `C13_even_rings_partial`, `C13_fails`, `C14_attenuation`, `C14_pass`, `C14_grid_angles`, `C15_assembled`, `C15_energy_balance`, `C15_nonneg`, `C16_end_to_end`, `C16_total`, `C17_end_to_end`, `C17_terminates`, `C17_terminates_exists`, `C17_absorbing_bulk`, `C18_lossless_never_ends_fails`, `C18_fails`, `C18_ends_iff_partial`, `C19_branches_agree`, `C20_one_pass`, `C20_profile_integral`, `C21_deterministic_partial`, `C21_one_sample_fails`, `C22_assembled`, `C22_blocks`, `C22_conserves`, `C22_fractions`, `C23_lambertian`, `C24_mirror`, `C25_mirror_even_rings_partial`, `C25_fails`, `C26_reuse`, `C26_recompute`, `C26_iff`, `C27_complete_not_recomputed`, `C27_rerun_changes_nothing`, `C27_rerun_computes_nothing`, `C28_all_loads_succeed_partial`, `C28_ideal_not_last_fails`, `C28_profile_method_fails`, `C28_exactly_partial`, `C29_paths_distinct_partial`, `C29_exactly_partial`, `C29_absolute_name_fails`, `C29_own_matrices`, `C30_same_name_fails`, `C30_distinct_names_partial`, `C31_crash_repaired`, `C31_identical`, `C32_crash_overwriting_fails`, `C32_overwrite_repairs_partial`, `C33_path`, `C33_again`, `C33_succeeds`, `C33_nested_project_raises`, `C34_single_call`, `C34_history`, `C35_indices`, `C35_moves`, `C36_energy`, `C36_beer_lambert`, `C37_totals`, `C37_signs`, `C37_classification`, `C38_terminates`, `C39_fails`, `C39_almost_surely_partial`, `C40_ray_profile`, `C40_profile`, `C40_one_layer`, `C41_range`, `C41_unpolarised`, `C41_normal`, `C41_reciprocal`, `C41_brewster`, `C41_textbook`, `C42_fresnel`, `C42_tmm`, `C43_fresnel`, `C43_reflectance`, `C43_tmm`, `C44_interface_absorption`, `C45_sound_nearest`, `C45_complete`, `C46_exit`, `C47_wrap`, `C48_columns`, `C48_entries`, `C49_unused_bins_fails`, `C49_used_bin_partial`, `C49_all_bins_used_partial`, `C50_number`, `C50_even`, `C50_populated`, `C51_entries`, `C51_energy`, `C52_labels`, `C53_coherency_list`, `C54_incoherent_pol`, `C54_incoherent_u`, `C54_coherent`, `C55_front`, `C56_rear_partial`, `C56_rear_fails`, `C57_energy`, `C58_pol_partial`, `C58_pol_fails`, `C59_magnitude`, `C59_group`, `C60_reciprocal`, `C60_unique`, `C61_shift_partial`, `C61_shift_fails`, `C62_refresh_partial`, `C62_refresh_fails`, `C63_heightmap_partial`, `C63_heightmap_fails`, `C63_not_square_fails`, `C64_facet_angle`, `C64_mesh`, `C65_grooves_partial`, `C65_grooves_fails`, `C66_rough_plane`, `C66_rough_pyramid`, `C66_grid_corners`, `C67_tmm`, `C67_rt_partial`, `C67_rt_fails`, `C67_rt_order_fails`, `C68_interface`, `C68_method`, `C69_lambert_law_partial`, `C69_fails`, `C70_variables_partial`, `C70_no_pass_fails`, `C70_fails`, `C71_interface_profile`, `C72_path_clash`, `C72_only_clash_partial`, `C72_lookup_table_overwritten_fails`, `C73_stale_profile_fails`, `C73_same_request_partial`, `C74_table_without_profile_fails`, `C74_history_fails`, `C74_fresh_table_partial`, `C75_torn_file_fails`, `C75_torn_RT_repaired_partial`, `C75_overwrite_repairs_partial`, `C76_label`, `C77_angle_assigned`, `C77_in_cell`, `C77_unit`, `C78_nonperiodic_label_fails`, `C78_label_partial`, `C79_direction_index`, `C79_giving_up`, `C80_one_interaction`, `C81_default_partial`, `C82_transparent_fails`, `C82_independent_partial`, `C83_reaching_fails`, `C83_reaching_u_fails`, `C83_reaching_partial`, `C83_reaching_pol_partial`, `C84_mean_fails`, `C84_equal_partial`, `C85_polar`, `C85_azimuth_partial`, `C85_azimuth_fails`, `C85_bins_partial`, `C86_no_reflection_fails`, `C86_reflection_partial`, `C87_geometry_fails`, `C87_absorption_order`, `C88_calculate_partial`, `C88_calculate_fails`, `C89_profile_partial`, `C89_profile_fails`, `C90_results_partial`, `C90_results_fails`, `C91_polygon_partial`, `C91_polygon_fails`, `C92_unpolarised_partial`, `C92_unpolarised_fails`, `C93_material_fails`, `C94_depth_partial`, `C94_epsilon`, `C94_depth_fails`, `C95_rear_partial`, `C95_rear_fails`, `C96_rear_partial`, `C96_rear_fails`, `C97_hemisphere_partial`, `C97_hemisphere_fails`, `C98_bulk_depths_partial`, `C98_bulk_depths_fails`, `C98_error_bound_partial`, `C99_function_partial`, `C99_function_fails`, `C100_surroundings`, `C101_direction`, `C101_above_first_surface`, `C101_inside_layer_partial`, `C101_from_below_fails`, `C102_coverage_height`, `C102_aims_into_cell`, `C102_starts_clear`, `C103_build`, `C103_position_partial`, `C103_too_many`, `C103_integer_coordinates_fails`, `C104_rt_tmm_partial`, `C104_rcwa_even_partial`, `C104_rcwa_odd_fails`, `C105_meaning_partial`, `C105_rt_rcwa_fails`, `C106_orders`, `C106_grating`, `C106_zeroth`, `C107_integral_partial`, `C107_one_grazing_ray_fails`, `C108_weighted_partial`, `C108_incoherent_fails`, `C108_outside_table_fails`, `C109_positions`, `C109_complete`, `C109_default`, `C109_media`, `C110_inside_partial`, `C110_boundary_fails`, `C111_names`, `C111_tables_partial`, `C111_stale_fails`, `C112_angle`, `C112_wavelength_partial`, `C112_wavelength_fails`, `C113_area_partial`, `C113_area_fails`, `C114_bulks_partial`, `C114_total_partial`, `C114_opaque_front_fails`, `C114_profiles_partial`, `C114_branches_partial`, `C114_profile_totals_partial`, `C115_shifted_partial`, `C115_shift_fails`, `C115_layer_fails`, `C115_order_fails`, `C116_density`, `C117_all_layers_partial`, `C117_set_widths_fails`, `C117_order_fails`, `C117_subset_fails`, `C118_local_partial`, `C118_normal_fails`, `C119_refraction_partial`, `C119_refraction_fails`, `C120_surfaces`, `C120_surfaces_fails`, `C120_polygons`, `C120_polygons_batch`, `C120_polygons_fails`, `C121_front_partial`, `C121_rear_partial`, `C121_both_partial`, `C121_rear_only_fails`, `C122_points`, `C122_outward_partial`, `C122_inward_partial`, `C122_facets`, `C122_open`, `C122_shallow_fails`, `C122_sphere_fails`, `C122_rim_fails`, `C123_stored`, `C123_energy`, `C123_ends`, `C124_returned_partial`, `C124_returned_profiles_partial`, `C124_returned_fails`, `C125_energy_partial`, `C125_ends_partial`, `C125_memory_partial`, `C125_edge_fails`, `C125_all_fails`, `C125_others`, `C126_ray`, `C126_media`, `C126_columns`, `C126_hemispheres`, `C126_calculated`, `C127_wander`, `C127_returns`, `C128_not_trapped`, `C129_fresnel`, `C129_transparent`, `C129_tmm`, `C129_probability`, `C129_matrix`, `C129_matrix_bare`, `C130_no_error`, `C130_totals`, `C130_classification`, `C130_media`, `C130_slipping`, `C130_ends`, `C130_position`, `C130_level`, `C131_unbiased`, `C131_probability`, `C131_RAT`, `C132_restart`, `C132_giving_up`, `C132_undefined`, `C133_lower_threshold`, `C133_accuracy`, `C133_limit`, `C133_total`, `C133_exists_iff`, `C133_exists_iff_ends`, `C134_other_wavelengths`, `C134_not_exact`, `C135_returned`, `C135_exact`, `C136_changed_structure_fails`, `C136_shared_folder_partial`, `C137_none_raises`, `C137_files_right`, `C137_same_as_alone_partial`, `C137_different_interfaces_partial`, `C137_every_schedule_ends`, `C137_random_fails`, `C138_frequency`, `C138_RAT`, `C138_enough`, `C138_matrix`, `C138_matrix_bare`, `C139_passes`, `C139_textbook`, `C139_tmm`, `C139_mirror`, `C139_tmm_slab`, `C140_sum_partial`, `C140_labels_partial`, `C140_raises`, `C140_labels_fails`, `C140_sum_fails`, `C141_used_partial`, `C141_used_fails`, `C141_method_fails`, `C141_fields`, `C142_s4`, `C142_inkstone_partial`, `C142_inkstone_fails`, `C143_material_partial`, `C143_new_fails`, `C144_trapping_partial`, `C144_tmm_partial`, `C144_fails`, `C145_reports`, `C145_order`, `C145_all_rays`, `C145_totals`, `C145_profile`, `C145_units`, `C146_inside`, `C146_fails`, `C146_columns`, `C146_rays`, `C146_unbiased_partial`, `C147_scan`, `C147_margin`, `C147_cell_partial`, `C147_fails`, `C147_expected`, `C148_front_partial`, `C148_rear_partial`, `C148_last_sample`, `C148_tmm_fails`, `C148_rcwa_partial`, `C148_rcwa_fails`, `C149_points`, `C149_few`, `C149_inclination_partial`, `C149_regular_fails`, `C149_random_fails`, `C150_converges`, `C150_mirror`, `C151_slab`, `C151_late`, `C151_converges`, `C151_transparent`, `C152_coated`, `C152_runs`, `C152_bare`, `C152_planar`, `C153_stack`, `C153_turn`, `C153_matrix`, `C153_symmetric`, `C153_half_turn`, `C153_half_turn_counted`, `C153_pyramids`, `C154_facet`, `C154_path`, `C154_diffuse`, `C155_once`, `C155_gentle`, `C155_reflectance`, `C155_steep`, `C155_pyramids`, `C155_steep_pyramids`, `C156_ray`, `C156_pyramids`, `C157_balance`, `C157_unique`, `C157_total`, `C157_two`, `C157_stack`, `C157_late`, `C157_converges`, `C157_transparent`, `C158_ray`, `C158_results`, `C158_mean`, `C159_agree`, `C159_coated`, `C159_same_slab`, `C159_bare`, `C160_straight`, `C160_straight_cell`, `C160_steep`, `C160_ray`, `C160_matched`, `C160_normal`, `C161_balance`, `C161_lossless`, `C161_bare`, `C161_turned`, `C161_transparent`, `C162_balance`, `C162_split`, `C163_entries`, `C163_points`, `C163_area`, `C163_wavelength`, `C163_fields`, `C163_permittivity`, `C164_magnitude_partial`, `C164_magnitude_fails`, `C165_balance`, `C165_layer`, `C165_thicker`, `C169_mixture`, `C169_all_azimuths`, `C170_size`, `C170_history`, `C170_both_sides`, `C170_planar`, `C170_pyramids`, `C170_grooves_partial`, `C170_heights_partial`, `C170_rough`, `C170_over_texture_partial`, `C170_offset_fails`, `C171_tmm_partial`, `C171_repeated_fails`, `C171_tables_partial`, `C171_tables_fails`, `C171_matrix_method`, `C171_matrix_method_profiles`, `C171_unique`, `C172_reciprocal`, `C172_lossless`, `C173_mirror`, `C173_pyramids`, `C173_stack`, `C174_code`, `C174_scale_partial`, `C174_fails`, `C175_normal_partial`, `C175_deficit_partial`, `C175_fails`, `C175_surface_partial`, `C175_matrix_partial`, `C176_ray`, `C176_results`, `C176_built`, `C177_increasing`, `C177_function_partial`, `C177_thin_fails`, `C177_plain`, `C177_any_width_partial`, `C178_samples`, `C178_between`, `C178_defined_partial`, `C178_bottom_fails`, `C178_planar_bottom_fails`, `C178_matrix_bottom_fails`, `C179_reported_partial`, `C179_unpolarised_partial`, `C179_off_partial`, `C179_fails`, `C179_example`, `C180_own_partial`, `C180_same_number_partial`, `C180_raises_iff_partial`, `C180_history_raises_iff_partial`, `C180_number_fails`, `C180_in_place_fails`, `C181_next_partial`, `C181_fails`, `C182_next_partial`, `C182_fails`, `C183_first_partial`, `C183_pyramids_partial`, `C183_fails`, `C183_steep_partial`, `C183_pyramids_steep_partial`, `C183_pyramids_fails`, `C184_documented_partial`, `C184_refused_partial`, `C184_fails`, `C185_weighted_partial`, `C185_within_partial`, `C185_equal_partial`, `C185_fails`, `C185_shares_partial`, `C185_same_share_partial`, `C186_same_side_partial`, `C186_other_side_fails`, `C187_cone_partial`, `C187_path_partial`, `C187_cone_fails`, `C187_path_fails`, `C188_enhancement_partial`, `C188_fails`, `C189_converges_partial`, `C189_fails`, `C190_density`, `C190_bound`, `C190_converges`, `C190_fine`, `C190_planar`, `C191_passes`, `C191_stable`, `C191_exact`, `C191_needs_absorption`, `C192_noise`, `C192_enough`, `C192_any_coating`, `C192_any_coating_all`, `C192_traced`, `C192_all_wavelengths`, `C193_same_results`, `C193_depths`, `C193_units`, `C194_stable`, `C194_exact`, `C195_layers`, `C195_interface_profile`, `C196_parasitic`, `C196_ends`
