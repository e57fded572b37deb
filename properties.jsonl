{"id": "C01", "title": "Angular grid is well formed", "statement": "make_angle_vector(n, phi_sym, c_azimuth, spacing) returns 2n+1 strictly increasing polar edges running from 0 to pi and symmetric about pi/2 (edge[2n-i] = pi - edge[i]); polar bin i is cut into ceil(c_azimuth*min(i+1, 2n-i)) >= 1 equal azimuth bins running from 0 to phi_sym; and angle_vector lists, in order, one row (i, polar midpoint, azimuth midpoint) for each bin.", "quantifier": "all n >= 1, all phi_sym > 0, all c_azimuth > 0, both spacings ('sin', 'linear')", "why_tests_cant": "A test fixes a few (n, phi_sym, c_azimuth); the whole matrix formalism indexes through this grid for any user choice.", "anchors": ["rayflare/angles.py:make_angle_vector"]}
{"id": "C02", "title": "Half of the angular grid is the incidence hemisphere", "statement": "angle_vector has an even number of rows; its first half is exactly the rows with polar angle below pi/2 and its second half exactly those above pi/2; the second half is the first half reversed as far as polar angle is concerned: row half+j has polar angle pi minus that of row half-1-j. (This is what lets calculate_RAT split every matrix at len/2 into reflection and transmission blocks and lets rear-incidence code reverse the list of incidence angles.)", "quantifier": "all n >= 1, phi_sym > 0, c_azimuth > 0, both spacings", "why_tests_cant": "The split index int(len/2) is used in every solver; one bad combination of rounding in ceil(c*ind) would silently mix R and T.", "anchors": ["rayflare/angles.py:make_angle_vector", "rayflare/matrix_formalism/multiply_matrices.py:matrix_multiplication", "rayflare/transfer_matrix_method/tmm.py:TMM"]}
{"id": "C03", "title": "Every direction falls in exactly one angular bin", "statement": "For a direction with 0 < theta <= pi and 0 < phi <= phi_sym, the bin number computed by overall_bin (digitize with right=True) is the unique row k of angle_vector whose polar interval (lo,hi] contains theta and whose azimuth interval (lo,hi] contains phi; in particular 0 <= k < len(angle_vector) and the rows are hit by their own midpoints (re-binning the centre of bin k returns k).", "quantifier": "all grids and all directions in the stated ranges", "why_tests_cant": "The direction is a continuous quantity: no finite set of directions shows there is no gap or overlap.", "anchors": ["rayflare/angles.py:overall_bin", "rayflare/angles.py:make_angle_vector", "rayflare/ray_tracing/rt.py:RT_wl", "rayflare/transfer_matrix_method/tmm.py:make_matrix_wl"]}
{"id": "C04", "title": "Azimuth exactly zero is filed in the right polar bin", "statement": "A direction whose folded azimuth is exactly 0 (a value fold_phi does return) is filed in an azimuth bin of its own polar ring. (Violated: digitize(right=True) gives -1, so overall_bin returns the last row of the previous polar ring, or row -1, i.e. the last row, for the first ring.)", "quantifier": "all grids, all polar angles, azimuth 0", "why_tests_cant": "The failure sits on a measure-zero boundary that random or midpoint tests never hit, but fold_phi produces it systematically for symmetric inputs.", "anchors": ["rayflare/angles.py:overall_bin", "rayflare/angles.py:fold_phi"]}
{"id": "C05", "title": "fold_phi is reduction modulo the symmetry angle", "statement": "If phi_sym divides a full turn (phi_sym = 2*pi/m), fold_phi(phi, phi_sym) lies in [0, phi_sym), differs from phi by an integer multiple of phi_sym, is the only such number, is unchanged by rotating phi by any multiple of phi_sym, and is idempotent.", "quantifier": "all real phi (including negative), all integers m >= 1", "why_tests_cant": "Holds for a continuum of angles and every symmetry order; involves floor division with the sign conventions of Python.", "anchors": ["rayflare/angles.py:fold_phi", "rayflare/rigorous_coupled_wave_analysis/rcwa.py:fold_phi"]}
{"id": "C06", "title": "fold_phi for a symmetry angle that does not divide a full turn", "statement": "fold_phi(phi, phi_sym) differs from phi by an integer multiple of phi_sym for every positive phi_sym. (Violated when phi_sym does not divide 2*pi: the function first adds a multiple of 2*pi; only the range [0, phi_sym) is guaranteed.)", "quantifier": "all real phi, all phi_sym > 0", "why_tests_cant": "Tests use phi_sym = pi/2 or 2*pi/m where the problem cannot show; out_to_in_matrix itself calls it with 2*pi - 0.0001.", "anchors": ["rayflare/angles.py:fold_phi", "rayflare/matrix_formalism/multiply_matrices.py:out_to_in_matrix"]}
{"id": "C07", "title": "Theta summaries preserve power", "statement": "theta_summary averages over the incidence azimuth bins and sums over the outgoing azimuth bins: for each incidence ring the column total of the summary equals the mean over that ring's columns of the column totals of the full matrix, so a matrix whose columns sum to one has a summary whose columns sum to one.", "quantifier": "all matrices, all groupings of rows and columns into rings", "why_tests_cant": "Must hold for any matrix and any ring sizes.", "anchors": ["rayflare/angles.py:theta_summary", "rayflare/angles.py:weighted_mean"]}
{"id": "C08", "title": "Absorption summary is normalised like the R/T summary", "statement": "theta_summary_A is on the same footing as theta_summary, i.e. the two column totals add up to the mean over the ring of the totals of the underlying columns. (Violated for every ring with more than one azimuth bin and non-zero absorption: theta_summary_A sums over the incidence bins instead of averaging.)", "quantifier": "all absorption matrices and ring sizes", "why_tests_cant": "The disagreement is a factor equal to the ring size; a test on a ring of one bin cannot see it.", "anchors": ["rayflare/angles.py:theta_summary_A", "rayflare/angles.py:theta_summary"]}
{"id": "C09", "title": "Launched power is one and in the right bin", "statement": "make_v0 puts total power exactly 1, at every wavelength, into the bin whose half-open polar interval [lo,hi) contains theta_in and azimuth interval [lo,hi) contains phi_in (or spread equally over the azimuth bins of that ring for phi_in = 'all'), and zero elsewhere.", "quantifier": "all grids, all theta_in in [0, pi/2), all phi_in in [0, phi_sym) or 'all', any number of wavelengths", "why_tests_cant": "The incidence direction is continuous and boundaries between bins are where mistakes appear.", "anchors": ["rayflare/matrix_formalism/multiply_matrices.py:make_v0"]}
{"id": "C10", "title": "Any incidence azimuth is launched in its own polar ring", "statement": "For every real phi_in the power launched by calculate_RAT lies in the polar ring containing theta_in. (Violated for phi_in == phi_symmetry, which is not folded because the comparison is strict and lands in the next ring, and for negative phi_in, which is never folded.)", "quantifier": "all grids, all theta_in in [0, pi/2), all real phi_in", "why_tests_cant": "Exact boundary value of a continuous input.", "anchors": ["rayflare/matrix_formalism/multiply_matrices.py:matrix_multiplication", "rayflare/matrix_formalism/multiply_matrices.py:make_v0"]}
{"id": "C11", "title": "Launch bin agrees with the bin the interface matrix was computed for", "statement": "With only_incidence_angle=True the front matrix is populated only in the column of the bin that RT assigns to (theta_in, phi_in); calculate_RAT launches its power in that same column. (Violated on interior bin edges, because RT bins with right-closed and make_v0 with left-closed intervals. Proved when theta_in and phi_in are not on a bin edge.)", "quantifier": "all grids, all incidence directions", "why_tests_cant": "Depends on the coincidence of a real input with a bin edge.", "anchors": ["rayflare/matrix_formalism/multiply_matrices.py:make_v0", "rayflare/ray_tracing/rt.py:RT_wl", "rayflare/ray_tracing/rt.py:RT"]}
{"id": "C12", "title": "Changing between outgoing and incoming ray formats preserves power", "statement": "For each outgoing bin of one hemisphere the conversion matrices of out_to_in_matrix contain exactly one 1, in the column's mirror ring (theta -> pi - theta) of the other hemisphere; hence they preserve the total of any vector and map non-negative vectors to non-negative vectors. When phi_sym divides pi the azimuth bin is kept and going there and back is the identity.", "quantifier": "all grids and all phi_sym = 2*pi/m with m even, and phi_sym = 2*pi (the special-cased value); all vectors", "why_tests_cant": "Must hold for every grid; a single zero column makes energy vanish on every pass.", "anchors": ["rayflare/matrix_formalism/multiply_matrices.py:out_to_in_matrix", "rayflare/matrix_formalism/multiply_matrices.py:dot_wl_u2d"]}
{"id": "C13", "title": "Ray format conversion for odd rotational symmetry", "statement": "The conversion preserves power for every phi_sym = 2*pi/m. (Violated for odd m >= 3, e.g. five-fold symmetry: in any ring with an odd number of azimuth bins the middle bin folds to azimuth exactly 0, is given bin -1, and for the outermost rings the column of the extracted block is zero.)", "quantifier": "all symmetry orders m", "why_tests_cant": "Only appears at odd symmetry orders combined with odd ring sizes.", "anchors": ["rayflare/matrix_formalism/multiply_matrices.py:out_to_in_matrix", "rayflare/angles.py:overall_bin"]}
{"id": "C14", "title": "Bulk attenuation never amplifies", "statement": "Every diagonal factor of make_D is exp(-alpha*d/|cos theta|), lies in (0,1], equals 1 when alpha or d is 0, decreases with alpha, d and obliqueness, and is multiplicative in the thickness; so a bulk pass maps non-negative vectors to non-negative vectors with no larger total.", "quantifier": "all alpha >= 0, d >= 0, all bin angles (never pi/2), all power vectors", "why_tests_cant": "Inequality over continuous parameters.", "anchors": ["rayflare/matrix_formalism/multiply_matrices.py:make_D"]}
{"id": "C15", "title": "Energy balance of the matrix multiplication after any number of passes", "statement": "If at every incidence bin the loaded matrices satisfy sum(R)+sum(T)+sum(A)=1 (front and rear) then after any number of passes of the bulk the accumulated R + T + A_bulk + A_interface (front and rear) plus the power still travelling equals the launched power exactly, and all terms are non-negative if the matrices are.", "quantifier": "all grids, matrices, absorption coefficients, thicknesses, incidence vectors and any number of loop iterations", "why_tests_cant": "An invariant over an unbounded loop.", "anchors": ["rayflare/matrix_formalism/multiply_matrices.py:matrix_multiplication", "rayflare/matrix_formalism/multiply_matrices.py:append_per_pass_info"]}
{"id": "C16", "title": "Returned R + A + T is one up to I_thresh", "statement": "Whenever calculate_RAT returns after at least one pass, at every wavelength 1 - I_thresh <= R + T + A_bulk + A_interface <= 1, whatever the number of passes taken and although the loop runs until the slowest wavelength is finished.", "quantifier": "all inputs as above for which the loop ends, all wavelengths simultaneously", "why_tests_cant": "Relation between loop exit condition and result for every input.", "anchors": ["rayflare/matrix_formalism/multiply_matrices.py:matrix_multiplication"]}
{"id": "C17", "title": "The pass loop terminates for a lossy round trip", "statement": "If one round trip (down, reflect at the back, up, reflect at the front) returns at most a fraction rho < 1 of the power at every wavelength then the loop of calculate_RAT ends after finitely many passes, for every positive I_thresh, with an explicit bound; bulk absorption bounded below is one way to guarantee it.", "quantifier": "all inputs with such a rho, all I_thresh > 0", "why_tests_cant": "Termination cannot be tested.", "anchors": ["rayflare/matrix_formalism/multiply_matrices.py:matrix_multiplication"]}
{"id": "C18", "title": "The pass loop terminates on every physically valid input", "statement": "calculate_RAT returns for every set of energy-conserving matrices. (Violated: for a lossless bulk between interfaces that reflect everything internally the travelling power never drops below I_thresh and the loop never ends. Proved: the loop ends for every threshold if and only if every angular bin that light gets into loses some light sooner or later.)", "quantifier": "all energy-conserving inputs", "why_tests_cant": "Non-termination is not observable by a finite test.", "anchors": ["rayflare/matrix_formalism/multiply_matrices.py:matrix_multiplication"]}
{"id": "C19", "title": "Asking for profiles does not change R, A, T", "statement": "The code path taken when profiles are requested and the one taken when they are not return the same R, T, A_bulk, per-pass reflection/transmission/interface absorption and the same number of passes.", "quantifier": "all inputs whose format conversion preserves power, any number of passes", "why_tests_cant": "Equivalence of two separately written loops over unbounded iterations.", "anchors": ["rayflare/matrix_formalism/multiply_matrices.py:matrix_multiplication"]}
{"id": "C20", "title": "The bulk absorption profile integrates to the bulk absorption", "statement": "The trapezoidal integral over depth of the returned bulk profile equals A_bulk at every wavelength, whatever numpy leaves in the unset entries of np.divide(where=...), provided the bulk is sampled at two or more depths.", "quantifier": "all inputs, any number of passes, all contents of uninitialised memory", "why_tests_cant": "Quantifies over uninitialised memory and unbounded passes.", "anchors": ["rayflare/matrix_formalism/multiply_matrices.py:bulk_profile_calc", "rayflare/matrix_formalism/multiply_matrices.py:matrix_multiplication"]}
{"id": "C21", "title": "The bulk profile is determined by the inputs even with one depth sample", "statement": "The bulk profile never depends on uninitialised memory. (Violated when depth_spacing_bulk >= thickness: the single-sample integral is 0 so the rescaling factor is an unset array entry.)", "quantifier": "all inputs, all contents of uninitialised memory", "why_tests_cant": "Uninitialised memory is usually zero in a test run.", "anchors": ["rayflare/matrix_formalism/multiply_matrices.py:bulk_profile_calc"]}
{"id": "C22", "title": "R and T blocks are cut at the right rows", "statement": "For front incidence the reflected part is the rows below pi/2 and the transmitted part those above, for rear incidence the reverse; together the blocks contain every row once, so the sum of R and T of a column is the column sum of the stored matrix.", "quantifier": "all matrix sizes, both sides, 2-D and 3-D stored matrices", "why_tests_cant": "Index arithmetic for every grid size.", "anchors": ["rayflare/matrix_formalism/multiply_matrices.py:load_redistribution_matrices"]}
{"id": "C23", "title": "Lambertian reflector", "statement": "Every column of lambertian_matrix is the same, non-negative, sums to exactly 1 in reflection and 0 in transmission with zero absorption; ring i receives a share proportional to cos(theta_i)*dtheta_i, equally spread over its azimuth bins.", "quantifier": "all grids", "why_tests_cant": "Normalisation for every grid.", "anchors": ["rayflare/matrix_formalism/ideal_cases.py:lambertian_matrix"]}
{"id": "C24", "title": "Perfect mirror", "statement": "Each column of mirror_matrix contains exactly one 1, in the reflected hemisphere and the same polar ring as the incidence bin, and the zero absorption matrix; when phi_sym divides pi it is the identity (specular reflection in the folded azimuth).", "quantifier": "all grids with phi_sym = 2*pi/m, m even", "why_tests_cant": "Index arithmetic for every grid size.", "anchors": ["rayflare/matrix_formalism/ideal_cases.py:mirror_matrix"]}
{"id": "C25", "title": "Perfect mirror without azimuthal symmetry", "statement": "mirror_matrix reflects everything for phi_sym = 2*pi too. (Violated: unlike out_to_in_matrix it does not special-case 2*pi; in a ring with an odd number of azimuth bins the middle bin folds to azimuth 0 and is filed in another ring, for the first ring in the last, i.e. transmitted, row.)", "quantifier": "all grids with phi_sym = 2*pi", "why_tests_cant": "Boundary coincidence.", "anchors": ["rayflare/matrix_formalism/ideal_cases.py:mirror_matrix"]}
{"id": "C26", "title": "Cached matrices are reused exactly when complete", "statement": "get_matrices_or_paths returns loaded matrices iff overwrite is False, both the RT and A files exist and, when profile layers are requested, the profile file exists too; otherwise it returns the paths to (re)compute and touches nothing.", "quantifier": "all file-system states and arguments", "why_tests_cant": "Decision over all combinations of files.", "anchors": ["rayflare/utilities.py:get_matrices_or_paths"]}
{"id": "C27", "title": "process_structure is idempotent and re-runs reuse results", "statement": "Running process_structure a second time with overwrite=False leaves every stored matrix unchanged and performs no new calculation for interfaces whose files are complete; consequently calculate_RAT gives the same result after any number of re-runs.", "quantifier": "all structures, all initial file-system states, any number of re-runs", "why_tests_cant": "History of runs is unbounded.", "anchors": ["rayflare/matrix_formalism/process_structure.py:process_structure", "rayflare/utilities.py:get_matrices_or_paths"]}
{"id": "C28", "title": "Everything calculate_RAT loads has been stored by process_structure", "statement": "After process_structure finishes, every RT, A and profile file that calculate_RAT will open for that structure exists. (Violated for a Mirror/Lambertian interface that is not last, and for profile layers on RT_Fresnel, Mirror or Lambertian interfaces. Proved for structures in which ideal interfaces occur only last and profiles are requested only from TMM, RT_TMM and RCWA interfaces.)", "quantifier": "all structures, all initial file-system states", "why_tests_cant": "Producer/consumer agreement over all structures.", "anchors": ["rayflare/matrix_formalism/process_structure.py:process_structure", "rayflare/matrix_formalism/multiply_matrices.py:load_redistribution_matrices", "rayflare/ray_tracing/rt.py:RT", "rayflare/transfer_matrix_method/tmm.py:TMM", "rayflare/rigorous_coupled_wave_analysis/rcwa.py:RCWA"]}
{"id": "C29", "title": "Distinct interfaces never share a file", "statement": "Two stored-matrix paths are equal only if interface name, side and kind (RT, A, profile) are all equal, so differently named interfaces never overwrite each other; each interface then gets the matrices computed for it. (Violated for names that are absolute paths: os.path.join then drops the project folder. Proved for all other names.)", "quantifier": "all interface names (arbitrary strings)", "why_tests_cant": "Strings are unbounded and concatenated without a separator.", "anchors": ["rayflare/utilities.py:get_matrices_or_paths", "rayflare/matrix_formalism/multiply_matrices.py:load_redistribution_matrices"]}
{"id": "C30", "title": "Interfaces with the same name", "statement": "calculate_RAT uses for each interface the matrices computed for that interface. (Violated if two interfaces of a structure carry the same name: the second silently reuses the first one's files. Proved for distinct names, over all histories of completed and killed runs.)", "quantifier": "all structures", "why_tests_cant": "Needs a history of file operations.", "anchors": ["rayflare/matrix_formalism/process_structure.py:process_structure", "rayflare/utilities.py:get_matrices_or_paths"]}
{"id": "C31", "title": "A crash between file saves is repaired by re-running", "statement": "Starting from a directory without results for the structure, if process_structure is killed between any two file saves and later re-run with overwrite=False, the stored files end up identical to those of an uninterrupted run.", "quantifier": "all structures with distinct names, all crash points between saves", "why_tests_cant": "Crash points range over every step of every run.", "anchors": ["rayflare/matrix_formalism/process_structure.py:process_structure", "rayflare/utilities.py:get_matrices_or_paths", "rayflare/ray_tracing/rt.py:RT", "rayflare/transfer_matrix_method/tmm.py:TMM"]}
{"id": "C32", "title": "A crash while overwriting is repaired by re-running", "statement": "The same holds when old results are being replaced with overwrite=True. (Violated: killed after saving the new RT file and before the new A file, the mixed new/old pair is accepted by every later run with overwrite=False.)", "quantifier": "all crash points of an overwriting run", "why_tests_cant": "Crash points.", "anchors": ["rayflare/matrix_formalism/process_structure.py:process_structure", "rayflare/utilities.py:get_matrices_or_paths"]}
{"id": "C33", "title": "Result folder", "statement": "get_savepath returns save location joined with project name and that folder exists afterwards; calling it again returns the same path and creates nothing; it succeeds whenever the parent of the save location exists and the project folder lies directly in the save location; it raises for a project folder whose parent does not exist.", "quantifier": "all directory states and arguments", "why_tests_cant": "All file-system states.", "anchors": ["rayflare/utilities.py:get_savepath"]}
{"id": "C34", "title": "wavelengths overrides wavelength", "statement": "After get_wavelength, options.wavelength equals options.wavelengths if that key is present and is unchanged otherwise; no other option changes; repeating the call after any further edits to other keys preserves this.", "quantifier": "all option dictionaries, any number of calls", "why_tests_cant": "All dictionaries and call histories.", "anchors": ["rayflare/utilities.py:get_wavelength"]}
{"id": "C35", "title": "A ray never addresses a layer or surface that does not exist", "statement": "While a ray is traced through a stack of surfaces, the surface it is sent to is always the one bounding its current medium in its direction of travel, with an index in range, and the medium index stays in range, for any sequence of reflect/transmit/absorb outcomes.", "quantifier": "all stacks, all valid starting media and directions, all outcome sequences of any length", "why_tests_cant": "Unbounded random histories.", "anchors": ["rayflare/ray_tracing/rt.py:single_ray_stack"]}
{"id": "C36", "title": "Each ray's energy is accounted for", "statement": "At any time the ray's intensity plus what it has left in the bulk layers plus what was absorbed in an interface equals the initial intensity 1; the intensity never increases and nothing deposited is negative.", "quantifier": "all stacks, absorption coefficients, outcome sequences and angles, any number of steps", "why_tests_cant": "Unbounded random histories.", "anchors": ["rayflare/ray_tracing/rt.py:single_ray_stack", "rayflare/ray_tracing/rt.py:traverse"]}
{"id": "C37", "title": "rt_structure results add up", "statement": "For rt_structure.calculate at every wavelength R + T + sum of bulk absorption + sum of interface absorption lies in [1 - I_thresh, 1], R0 <= R, and all are non-negative; the shortfall is exactly the mean residual intensity of rays stopped in the bulk.", "quantifier": "all ray outcomes, numbers of rays, numbers of layers", "why_tests_cant": "Holds for every random sequence.", "anchors": ["rayflare/ray_tracing/rt.py:rt_structure.calculate", "rayflare/ray_tracing/rt.py:parallel_inner"]}
{"id": "C38", "title": "Ray tracing terminates in absorbing media", "statement": "If every bulk layer has alpha*width >= delta > 0, each ray is finished after at most ceil(ln(1/I_thresh)/delta)+1 passes, whatever the random outcomes.", "quantifier": "all outcome sequences", "why_tests_cant": "Termination.", "anchors": ["rayflare/ray_tracing/rt.py:single_ray_stack", "rayflare/ray_tracing/rt.py:traverse"]}
{"id": "C39", "title": "Ray tracing terminates in transparent media", "statement": "Every ray terminates. (Violated: with no absorption there are outcome sequences - a ray trapped by reflection - for which the loop never ends. Proved: with a positive lower bound on the probability of leaving each surface the probability of still being under way goes to zero geometrically.)", "quantifier": "all outcome sequences", "why_tests_cant": "Termination.", "anchors": ["rayflare/ray_tracing/rt.py:single_ray_stack"]}
{"id": "C40", "title": "The ray-tracing absorption profile integrates to the absorbed fraction", "statement": "For every layer sampled at two or more depths, the trapezoidal integral over that layer of the accumulated depth profile equals the absorption per layer, for every ray history; a depth sample belongs to exactly one layer.", "quantifier": "all histories, layers, depth grids", "why_tests_cant": "Unbounded histories.", "anchors": ["rayflare/ray_tracing/rt.py:traverse", "rayflare/ray_tracing/rt.py:single_ray_stack", "rayflare/ray_tracing/rt.py:rt_structure.calculate"]}
{"id": "C41", "title": "Fresnel reflectance is a probability and has the right limits", "statement": "calc_R returns a number in [0,1] for real positive refractive index of the incidence medium and any refractive index n+ik with n>0, k>=0 of the other, and any angle below 90 degrees; the unpolarised value is the mean of s and p; at normal incidence both equal |n1-n2|^2/|n1+n2|^2; for real indices it is the same from both sides at Snell-related angles.", "quantifier": "all refractive indices and angles", "why_tests_cant": "Continuous domain, complex arithmetic with branch choices.", "anchors": ["rayflare/ray_tracing/rt.py:calc_R"]}
{"id": "C42", "title": "Reflection and refraction at a facet obey the laws of optics", "statement": "decide_RT_Fresnel returns for a unit incoming direction a unit outgoing direction; on reflection the tangential component is kept and the normal component reversed; on transmission Snell's law holds, the direction stays in the plane of incidence and on the far side of the facet; total internal reflection always reflects.", "quantifier": "all unit directions, facet normals, index ratios and random numbers in [0,1)", "why_tests_cant": "Continuous domain.", "anchors": ["rayflare/ray_tracing/rt.py:decide_RT_Fresnel"]}
{"id": "C43", "title": "Monte-Carlo choices have the right probabilities", "statement": "For a uniformly distributed random number, reflection, transmission and absorption are chosen with probabilities exactly R, T and 1-R-T (Fresnel: R and 1-R), and exactly one of them is chosen.", "quantifier": "all R,T >= 0 with R+T <= 1", "why_tests_cant": "A probability statement; sampling only estimates it.", "anchors": ["rayflare/ray_tracing/rt.py:decide_RT_Fresnel", "rayflare/ray_tracing/rt.py:decide_RT_TMM"]}
{"id": "C44", "title": "Absorption in interface layers is fully distributed", "statement": "When a ray is absorbed in an interface its intensity is distributed over the interface layers in proportion to the tabulated per-layer absorption and the shares add up to the intensity.", "quantifier": "all tables with positive total absorption, all intensities", "why_tests_cant": "Continuous domain.", "anchors": ["rayflare/ray_tracing/rt.py:decide_RT_TMM", "rayflare/ray_tracing/rt.py:single_ray_stack"]}
{"id": "C45", "title": "Ray-surface intersection is sound, complete and nearest", "statement": "check_intersect returns a point that lies on the ray at positive parameter and in the triangle it names (up to the 1e-10 barycentric tolerance); it returns False only if no triangle is hit in front of the origin; no other hit triangle is nearer.", "quantifier": "all triangulated surfaces of any size, all rays", "why_tests_cant": "Continuous geometry, unbounded meshes.", "anchors": ["rayflare/ray_tracing/rt.py:check_intersect"]}
{"id": "C46", "title": "Leaving and re-entering the unit cell", "statement": "For a point inside the unit cell with a non-zero horizontal direction, exit_side returns a positive parameter at which the ray is on the boundary of the cell, having stayed inside until then, and translating by the returned side's lattice vector puts the ray on the opposite boundary, still in the cell.", "quantifier": "all points of the cell, directions and cell sizes", "why_tests_cant": "Continuous geometry.", "anchors": ["rayflare/ray_tracing/rt.py:exit_side", "rayflare/ray_tracing/rt.py:single_interface_check"]}
{"id": "C47", "title": "Periodic wrapping of a ray", "statement": "Before testing a periodic surface the ray is shifted by whole periods only and then crosses the surface's reference height at 0 <= x < Lx, 0 <= y < Ly.", "quantifier": "all positions and non-horizontal directions", "why_tests_cant": "Continuous geometry.", "anchors": ["rayflare/ray_tracing/rt.py:single_ray_stack", "rayflare/ray_tracing/rt.py:single_ray_interface"]}
{"id": "C48", "title": "Columns of a ray-traced redistribution matrix are normalised", "statement": "For each incidence bin that received at least one ray, the outgoing fractions plus the per-layer absorbed fractions sum to one; each ray is counted once.", "quantifier": "all collections of rays and outcomes, any number of bins and layers", "why_tests_cant": "Any multiset of random outcomes.", "anchors": ["rayflare/ray_tracing/rt.py:RT_wl"]}
{"id": "C49", "title": "Columns of a ray-traced matrix never contain uninitialised memory", "statement": "Entries for incidence bins without rays are zero. (Violated: np.divide(..., where=n_rays != 0) without out= leaves them unset.)", "quantifier": "all collections of rays, all memory contents", "why_tests_cant": "Memory contents.", "anchors": ["rayflare/ray_tracing/rt.py:RT_wl"]}
{"id": "C50", "title": "Enough rays populate every incidence bin", "statement": "If n_rays/(nx*ny) is at least the number of incidence bins, RT launches rays in every incidence bin, evenly up to one repetition; at least n_rays rays are traced and fewer than nx*ny more.", "quantifier": "all n_rays, nx, ny, grids", "why_tests_cant": "Ceil/tile arithmetic for all sizes.", "anchors": ["rayflare/ray_tracing/rt.py:RT", "rayflare/ray_tracing/rt.py:rt_structure.calculate"]}
{"id": "C51", "title": "Columns of a TMM redistribution matrix conserve energy", "statement": "For each incidence bin the matrix produced by TMM has R in the bin of specular reflection (same ring, incidence hemisphere) and T in a bin of the other hemisphere, so the column total plus absorption equals R+T+sum(A) of the transfer-matrix solution (up to at most 1e-8 of transmission beyond the critical angle; angles of incidence exactly at the critical angle excepted).", "quantifier": "all grids, sides, real index ratios and solver results", "why_tests_cant": "Binning of a continuous refraction angle.", "anchors": ["rayflare/transfer_matrix_method/tmm.py:TMM"]}
{"id": "C52", "title": "Rear-incidence lookup tables are labelled in front order", "statement": "In make_TMM_lookuptable the absorption and profile coefficients stored for side -1 under layer j are those of the physical layer j, for both polarisations, although the stack is reversed for the calculation.", "quantifier": "all stacks, prof_layers subsets, both polarisations", "why_tests_cant": "Array aliasing (np.flip returns a view that is written again in the next loop).", "anchors": ["rayflare/transfer_matrix_method/lookup_table.py:make_TMM_lookuptable"]}
{"id": "C53", "title": "Coherency labels follow their layers when the stack is reversed", "statement": "Whenever a stack is reversed for rear incidence each layer keeps its coherent/incoherent label. (Violated in TMM, which reverses the layers but not the coherency list. Proved for make_TMM_lookuptable.)", "quantifier": "all stacks and coherency lists", "why_tests_cant": "Any list.", "anchors": ["rayflare/transfer_matrix_method/tmm.py:TMM", "rayflare/transfer_matrix_method/lookup_table.py:make_TMM_lookuptable", "rayflare/transfer_matrix_method/tmm.py:build_coh_list"]}
{"id": "C54", "title": "Absorption per layer adds up in tmm_structure", "statement": "For incoherent stacks the per-layer absorption returned by tmm_structure.calculate sums to 1 - R - T (per polarisation and for unpolarised light) whenever the solver's per-layer absorption is not identically zero; the unpolarised result is the mean of s and p.", "quantifier": "all solver results", "why_tests_cant": "Continuous domain.", "anchors": ["rayflare/transfer_matrix_method/tmm.py:tmm_structure.calculate"]}
{"id": "C55", "title": "Diffraction orders are binned without loss (front)", "statement": "For front incidence each column of the RCWA redistribution matrix totals R plus the sum of the transmitted order powers, however many orders share a bin.", "quantifier": "all numbers of orders, bin assignments, order powers with non-zero reflected sum", "why_tests_cant": "Any multiset of orders.", "anchors": ["rayflare/rigorous_coupled_wave_analysis/rcwa.py:RCWA_wl", "rayflare/rigorous_coupled_wave_analysis/rcwa.py:RCWA_wl_inkstone"]}
{"id": "C56", "title": "Diffraction orders are binned without loss (rear)", "statement": "The same for rear incidence. (Violated: the accumulation reads column i1 but writes column in_bin[i1], so orders sharing a bin are lost or power of another column is added.)", "quantifier": "as above, rear incidence", "why_tests_cant": "Needs two orders in one bin and a non-identity column map.", "anchors": ["rayflare/rigorous_coupled_wave_analysis/rcwa.py:RCWA_wl", "rayflare/rigorous_coupled_wave_analysis/rcwa.py:RCWA_wl_inkstone"]}
{"id": "C57", "title": "RCWA absorption telescopes", "statement": "If the solver's net downward power flux is continuous at the front and non-increasing with depth, the per-layer absorptions are non-negative and R + T + sum of absorptions = 1.", "quantifier": "all flux profiles and numbers of layers", "why_tests_cant": "Any flux profile.", "anchors": ["rayflare/rigorous_coupled_wave_analysis/rcwa.py:rcwa_absorption_per_layer", "rayflare/rigorous_coupled_wave_analysis/rcwa.py:rcwa_rt"]}
{"id": "C58", "title": "Polarisation argument", "statement": "process_pol maps 's','p','u' to amplitude pairs of unit power, passes 2-element polarisations through and rejects everything else. (Violated: the empty string is accepted as (0,0) and any two-character string is passed through. Proved for all other arguments.)", "quantifier": "all strings and pairs", "why_tests_cant": "All strings.", "anchors": ["rayflare/rigorous_coupled_wave_analysis/rcwa.py:process_pol"]}
{"id": "C59", "title": "Grouping diffraction orders conserves power", "statement": "group_diffraction_orders returns for each distinct (rounded) length of the in-plane wavevector, k.a_i = 2 pi m_i, the sum of the powers of the orders having it; totals are preserved and the multiplicities add up to the number of orders.", "quantifier": "all order lists and powers", "why_tests_cant": "Any list.", "anchors": ["rayflare/analytic/diffraction.py:group_diffraction_orders"]}
{"id": "C60", "title": "Reciprocal lattice", "statement": "The reciprocal vectors used for diffraction satisfy a_i . b_j = 2 pi delta_ij for every non-degenerate unit cell.", "quantifier": "all lattice vectors with non-zero cell area", "why_tests_cant": "Continuous domain.", "anchors": ["rayflare/rigorous_coupled_wave_analysis/rcwa.py:get_reciprocal_lattice", "rayflare/analytic/diffraction.py:group_diffraction_orders"]}
{"id": "C61", "title": "Moving a surface does not change its shape", "statement": "RTSurface.shift changes all heights (and the reference heights) by the same amount and leaves facet normals unchanged. (Violated for surfaces whose coordinates are all Python integers, such as planar_surface(size=1): NumPy then truncates the shifted heights but moves the reference height. Proved for floating point coordinates, over exact reals.)", "quantifier": "all triangulated surfaces and shifts", "why_tests_cant": "Any mesh.", "anchors": ["rayflare/ray_tracing/rt.py:RTSurface.shift"]}
{"id": "C62", "title": "Randomised heights keep the surface in place", "statement": "RTSurface.refresh rescales the texture about its reference height: points at the reference height stay there and the feature gets the drawn height. (Violated for every surface below the first one of a stack, because shift leaves the stored original points unshifted. Proved for surfaces that have not been shifted.)", "quantifier": "all meshes, heights and shifts", "why_tests_cant": "Any mesh and any history of shift/refresh.", "anchors": ["rayflare/ray_tracing/rt.py:RTSurface.refresh", "rayflare/ray_tracing/rt.py:RTSurface.shift"]}
{"id": "C63", "title": "Height map placement", "statement": "heights_texture puts the height z_points[i,j] at one fixed grid point (x_?, y_?) depending only on (i,j) in the obvious way. (Violated for non-square maps, whose heights are scrambled. Proved for square maps, with the transposed placement (x_j, y_i).)", "quantifier": "all height maps", "why_tests_cant": "All shapes.", "anchors": ["rayflare/textures/define_textures.py:heights_texture"]}
{"id": "C64", "title": "Regular pyramids have the requested elevation angle", "statement": "Each of the four facets of regular_pyramids(elevation_angle, upright, size) makes exactly that angle with the horizontal, the height is tan(angle)*size/2, and the rear surface is the mirror image z -> -z of the front one.", "quantifier": "all angles in (0, 90) degrees, sizes, upright or not", "why_tests_cant": "Continuous domain.", "anchors": ["rayflare/textures/standard_rt_textures.py:regular_pyramids"]}
{"id": "C65", "title": "V-grooves fill their unit cell", "statement": "The mesh of V_grooves(elevation_angle, width, direction) spans width x width. (Violated for every width other than 1: the end of the ridge is hard-coded at 1. Proved for width = 1.)", "quantifier": "all widths", "why_tests_cant": "Default width hides it.", "anchors": ["rayflare/textures/standard_rt_textures.py:V_grooves"]}
{"id": "C66", "title": "Rough textures can be tiled periodically", "statement": "For every random noise the boundary points of rough_planar_surface / rough_pyramids have height zero, so neighbouring unit cells join without gaps.", "quantifier": "all noise realisations and grid sizes", "why_tests_cant": "Random input.", "anchors": ["rayflare/textures/standard_rt_textures.py:rough_planar_surface", "rayflare/textures/standard_rt_textures.py:rough_pyramids"]}
{"id": "C67", "title": "Stored profiles are put back in the right layer", "statement": "make_absorption_function returns, at each depth sample, 1e9 times the stored profile value of that depth if its layer was requested, and 0 otherwise. (Violated for ray-traced interfaces, sampled layer by layer, when a layer width is not a multiple of the depth spacing or the layers are not requested in increasing order. Proved for those otherwise, and for profiles sampled on the global depth grid as by TMM and RCWA, for any order of the requested layers.)", "quantifier": "all layer widths, spacings, requested layers", "why_tests_cant": "Grid arithmetic for all widths.", "anchors": ["rayflare/utilities.py:make_absorption_function", "rayflare/transfer_matrix_method/tmm.py:TMM", "rayflare/ray_tracing/rt.py:make_profiles_wl"]}
{"id": "C68", "title": "Interface construction", "statement": "An Interface is created exactly for the recognised methods; its widths and materials lists correspond one to one with its layers, in order.", "quantifier": "all argument combinations", "why_tests_cant": "All lists.", "anchors": ["rayflare/structure.py:Interface"]}
{"id": "C69", "title": "Lambertian reflector obeys Lambert's cosine law", "statement": "The share of the light that lambertian_matrix sends between two polar angles a < b is sin(b)^2 - sin(a)^2, as for a surface whose radiance does not depend on direction. (Violated for every grid with two or more polar rings: the weights are cos(theta)*dtheta without the solid-angle factor sin(theta), so light is over-concentrated near the normal.)", "quantifier": "all grids", "why_tests_cant": "A property of the whole distribution for every grid; tests only check that columns sum to one.", "anchors": ["rayflare/matrix_formalism/ideal_cases.py:lambertian_matrix"]}
{"id": "C70", "title": "calculate_RAT always returns R, A and T", "statement": "The dataset returned by calculate_RAT contains R, A_bulk and T (and A_interface when profiles are requested). (Violated when the front surface transmits no more than I_thresh at every wavelength: no pass is made and only R is returned, although the front surface may absorb.)", "quantifier": "all energy-conserving inputs", "why_tests_cant": "Depends on the transmitted power at every wavelength.", "anchors": ["rayflare/matrix_formalism/multiply_matrices.py:matrix_multiplication"]}
{"id": "C71", "title": "Interface absorption profiles match the interface absorption", "statement": "In each pass the depth profile added for an interface is the stored profile of each incidence bin weighted with the power arriving in that bin, for every power distribution; if the stored profiles integrate to the stored absorption, the added profile integrates to the power absorbed in that interface in that pass.", "quantifier": "all stored matrices whose stored integral is the total absorption, all power distributions", "why_tests_cant": "Quantifies over all matrices and power vectors, including bins without absorption (0/0).", "anchors": ["rayflare/matrix_formalism/multiply_matrices.py:matrix_multiplication"]}
{"id": "C72", "title": "Lookup tables and stored matrices never share a file", "statement": "The lookup table of an RT_TMM interface is never overwritten by another interface's stored results. (Violated when the table's interface name is another interface's name followed by 'frontprofmat' or 'rearprofmat'; those are the only clashes.)", "quantifier": "all interface names", "why_tests_cant": "File names are concatenations of arbitrary strings.", "anchors": ["rayflare/transfer_matrix_method/lookup_table.py:make_TMM_lookuptable", "rayflare/utilities.py:get_matrices_or_paths"]}
{"id": "C73", "title": "A reused profile belongs to the reused matrices", "statement": "When process_structure reuses stored results including a profile file, the profile was computed together with the RT and A matrices it is used with. (Violated: an overwriting run without prof_layers leaves an older profile file, which a later run with prof_layers accepts. Proved for histories in which the request does not change.)", "quantifier": "all histories of runs", "why_tests_cant": "Needs a history of runs with different options.", "anchors": ["rayflare/utilities.py:get_matrices_or_paths", "rayflare/matrix_formalism/process_structure.py:process_structure"]}
{"id": "C74", "title": "Profile layers can be requested later", "statement": "After results were stored without profile layers, running process_structure again with prof_layers and overwrite=False completes. (Violated for RT_TMM interfaces: the lookup table without profile coefficients is kept and the calculation raises.)", "quantifier": "all histories of runs", "why_tests_cant": "Needs a history of runs with different options.", "anchors": ["rayflare/transfer_matrix_method/lookup_table.py:make_TMM_lookuptable", "rayflare/ray_tracing/rt.py:RT"]}
{"id": "C75", "title": "A file cut off by a crash is repaired", "statement": "If process_structure is killed while a file is being written, re-running with overwrite=False completes with correct results. (Violated: a cut-off A, profile or lookup-table file, or a cut-off RT file beside an existing A file, makes every later run with overwrite=False raise, however often it is tried; a cut-off RT file without an A file is repaired; with overwrite=True every state of the disk is repaired.)", "quantifier": "all crash points inside a save", "why_tests_cant": "Crash points.", "anchors": ["rayflare/utilities.py:get_matrices_or_paths"]}
{"id": "C76", "title": "Reflected and transmitted rays are told apart correctly at a periodic surface", "statement": "When a ray arrives at a periodic surface from its own side and is not absorbed, the surface interaction reports transmission exactly if the ray ends in the other medium and reflection exactly if it ends in the medium it came from, and it then moves away from the surface. The only exceptions are rays that end exactly horizontal and rays that have slipped past the whole surface (beyond its highest or lowest point on the wrong side).", "quantifier": "all surfaces, rays, refractive indices, random numbers and numbers of internal bounces", "why_tests_cant": "Depends on the random path; quantifies over all sequences of bounces.", "anchors": ["rayflare/ray_tracing/rt.py:single_interface_check"]}
{"id": "C77", "title": "A surface interaction returns a complete, usable ray", "statement": "Whenever the interaction with a periodic surface reports reflection or transmission, at least one facet was met, the local incidence angle is assigned, the position is inside the unit cell, and with Fresnel decisions the direction is a unit vector and no absorption is reported.", "quantifier": "all surfaces without degenerate triangles, rays, random numbers and numbers of bounces", "why_tests_cant": "All random paths.", "anchors": ["rayflare/ray_tracing/rt.py:single_interface_check", "rayflare/ray_tracing/rt.py:decide_RT_Fresnel"]}
{"id": "C78", "title": "Reflected and transmitted rays are told apart correctly at a non-periodic surface", "statement": "For a surface that is not periodic a ray is reported as transmitted exactly if it ends in the other medium. (Violated: a ray from above reflected by a facet steeper than 45 degrees and leaving downwards next to the mesh is reported as transmitted although it never entered the other medium. Proved when the ray leaves upwards in the upper or downwards in the lower medium.)", "quantifier": "all surfaces, rays and random numbers", "why_tests_cant": "Needs a ray that leaves the mesh sideways.", "anchors": ["rayflare/ray_tracing/rt.py:single_cell_check"]}
{"id": "C79", "title": "The bookkeeping of a stack follows the actual ray", "statement": "If the direction index of a ray in a stack agrees with its direction vector before a surface interaction, it does so afterwards, and the polar angle reported for the ray is at most 90 degrees exactly if the ray travels upwards; also when the surface was missed a hundred times and the ray is sent back. (Exactly horizontal directions excepted.)", "quantifier": "all surfaces, rays, random numbers", "why_tests_cant": "All random paths.", "anchors": ["rayflare/ray_tracing/rt.py:single_interface_check", "rayflare/ray_tracing/rt.py:single_ray_stack"]}
{"id": "C80", "title": "Tracing a ray for a redistribution matrix always ends, at the first texture", "statement": "When RT traces a ray, it ends after exactly one interaction with the first texture of the interface: without an index error, whatever the outcome there, and whatever further textures the interface has; the reported medium is the second one exactly for a transmitted ray.", "quantifier": "all numbers of textures, all outcomes and all outcomes of interactions that would follow", "why_tests_cant": "All random paths.", "anchors": ["rayflare/ray_tracing/rt.py:single_ray_interface"]}
{"id": "C81", "title": "The order in which the sides are listed does not matter for a lookup table", "statement": "make_TMM_lookuptable stores for each requested side the result for light from that side. (Violated: the reversed stack is used for the second entry of sides, whatever it is, so sides=[-1, 1] stores front-incidence results, in reversed layer order, as side -1 and vice versa. Proved for the default order.)", "quantifier": "all stacks, polarisations and solver results", "why_tests_cant": "Only the default order is ever tested; quantifies over all solver results.", "anchors": ["rayflare/transfer_matrix_method/lookup_table.py:make_TMM_lookuptable"]}
{"id": "C82", "title": "Absorption per layer of an incoherent transparent stack is zero", "statement": "If the solver reports no absorption in any layer, tmm_structure.calculate returns zero absorption for every layer. (Violated for unpolarised light: np.divide(..., where=...) without out= returns uninitialised memory.)", "quantifier": "all stacks, all memory contents", "why_tests_cant": "Memory contents.", "anchors": ["rayflare/transfer_matrix_method/tmm.py:tmm_structure.calculate"]}
{"id": "C83", "title": "Depth profile of an incoherent layer starts from the light that reaches it", "statement": "The coefficient stored for an incoherent layer is its absorption coefficient times the fraction of the light that reaches it, i.e. that is neither reflected nor absorbed in the layers before it; for unpolarised light the mean of s and p. (Violated for s or p: the light left after the layer is used and reflection is ignored; violated for unpolarised light: the s value is used for both. Proved: for unpolarised light the value is that of s; for one polarisation it is too large by the reflected light minus the absorption of the layer, so it is right only if these happen to be equal.)", "quantifier": "all solver results, stacks and layers", "why_tests_cant": "All stacks.", "anchors": ["rayflare/transfer_matrix_method/tmm.py:tmm_structure.calculate"]}
{"id": "C84", "title": "Unpolarised profile coefficients are the mean of s and p", "statement": "In a partly incoherent stack the profile coefficients of a coherent layer for unpolarised light are the mean of those for s and p. (Violated: the s solution is used twice.)", "quantifier": "all solver results", "why_tests_cant": "All stacks.", "anchors": ["rayflare/transfer_matrix_method/tmm.py:tmm_structure.calculate"]}
{"id": "C85", "title": "Diffraction orders are binned at their own direction", "statement": "Every propagating diffraction order of an RCWA redistribution matrix is counted in the angular bin that contains its own polar angle and its own azimuth (folded into the symmetry range). (Violated when phi_symmetry does not divide 180 degrees: arctan(fr_x/fr_y) gives an order and the opposite one the same azimuth. Proved for the polar angle always, and for the azimuth if phi_symmetry is 360 degrees divided by an even number.)", "quantifier": "all wavelengths, incidence directions, lattices, orders, symmetry ranges and bins", "why_tests_cant": "All directions.", "anchors": ["rayflare/rigorous_coupled_wave_analysis/rcwa.py:RCWA_wl", "rayflare/rigorous_coupled_wave_analysis/rcwa.py:RCWA_wl_inkstone"]}
{"id": "C86", "title": "RCWA redistribution matrices contain only numbers", "statement": "Every entry of the redistribution matrix calculated by RCWA is a number. (Violated: if no propagating reflected order carries power of at least 1e-16, e.g. an index-matched interface, reflected powers are normalised by 0/0 and the whole column is NaN. Proved if some reflected order does.)", "quantifier": "all solver results, incidence directions and bins", "why_tests_cant": "All solver results.", "anchors": ["rayflare/rigorous_coupled_wave_analysis/rcwa.py:RCWA_wl"]}
{"id": "C87", "title": "For rear incidence each layer keeps its own shapes", "statement": "When RCWA calculates matrices for light from the rear, each layer of the reversed stack is drawn with the shapes given for that layer, and the absorption per layer is stored in the order of the layers of the structure. (Violated: layers and widths are reversed, the list of shapes is not. Proved for front incidence and for stacks whose list of shapes is symmetric.)", "quantifier": "all stacks and shapes", "why_tests_cant": "All stacks; S4 results are not inspected by tests.", "anchors": ["rayflare/rigorous_coupled_wave_analysis/rcwa.py:RCWA"]}
{"id": "C88", "title": "calculate uses the structure as it is now", "statement": "After any sequence of calls to calculate, calculate_profile, set_widths, set_size and edit_geom_list, rcwa_structure.calculate returns the result for the widths, unit cell and shapes last set and the options given. (Violated: a change of wavelengths after set_widths silently restores the widths given at construction. Proved for all histories without such a change.)", "quantifier": "all sequences of method calls, all structures and solver results", "why_tests_cant": "Histories of unbounded length.", "anchors": ["rayflare/rigorous_coupled_wave_analysis/rcwa.py:rcwa_structure.calculate", "rayflare/rigorous_coupled_wave_analysis/rcwa.py:rcwa_structure.update_oc", "rayflare/rigorous_coupled_wave_analysis/rcwa.py:rcwa_structure.set_widths"]}
{"id": "C89", "title": "Profile and R, T, A returned together belong together", "statement": "The dictionary returned by rcwa_structure.calculate_profile holds R, T, A and the absorption profile of the same structure for the same options. (Violated: when angle, polarisation, widths or shapes change but not the wavelengths, R, T and A of the earlier calculation are returned with the new profile. Proved if nothing was calculated before, if the wavelengths changed, or directly after calculate with the same options.)", "quantifier": "all sequences of method calls", "why_tests_cant": "Histories of unbounded length.", "anchors": ["rayflare/rigorous_coupled_wave_analysis/rcwa.py:rcwa_structure.calculate_profile"]}
{"id": "C90", "title": "Results once returned do not change", "statement": "A dictionary returned by rcwa_structure.calculate or calculate_profile is not changed by later calls. (Violated: calculate_profile adds to or overwrites the dictionary returned earlier. Proved for R, T, A always and for everything if no profile is asked for.)", "quantifier": "all sequences of method calls", "why_tests_cant": "Aliasing over histories of unbounded length.", "anchors": ["rayflare/rigorous_coupled_wave_analysis/rcwa.py:rcwa_structure.calculate", "rayflare/rigorous_coupled_wave_analysis/rcwa.py:rcwa_structure.calculate_profile"]}
{"id": "C91", "title": "A polygon stays where it was put", "statement": "With Inkstone, a polygon is drawn at the same place, its vertices relative to its centre, at every wavelength and in every calculation. (Violated for vertices given as a list: the list is shifted in place, so the polygon moves by its centre from one wavelength to the next. Proved for tuples and for polygons centred at the origin.)", "quantifier": "all polygons, numbers of wavelengths and calculations", "why_tests_cant": "Numbers of calls without bound.", "anchors": ["rayflare/rigorous_coupled_wave_analysis/rcwa.py:initialise_S_inkstone"]}
{"id": "C92", "title": "Unpolarised light is the mean of s and p", "statement": "R and T calculated by RCWA for pol='u' are the means of those for 's' and 'p'. (Violated: 'u' is a single wave polarised at 45 degrees. Proved when no power flux mixes s and p.)", "quantifier": "all solver results", "why_tests_cant": "All structures.", "anchors": ["rayflare/rigorous_coupled_wave_analysis/rcwa.py:process_pol", "rayflare/rigorous_coupled_wave_analysis/rcwa.py:RCWA_structure_wl", "rayflare/rigorous_coupled_wave_analysis/rcwa.py:RCWA_structure_wl_inkstone"]}
{"id": "C93", "title": "Every shape is drawn with its own material", "statement": "In an RCWA calculation every shape has the permittivity of the material given for it. (Violated for different materials with the same text representation. Proved otherwise, for any order of the set of materials.)", "quantifier": "all sets of materials, in any order of the set", "why_tests_cant": "Set order is arbitrary.", "anchors": ["rayflare/rigorous_coupled_wave_analysis/rcwa.py:necessary_materials", "rayflare/rigorous_coupled_wave_analysis/rcwa.py:initialise_S", "rayflare/rigorous_coupled_wave_analysis/rcwa.py:initialise_S_inkstone"]}
{"id": "C94", "title": "Fields are evaluated in the layer asked for", "statement": "get_fields, get_fields_unit_cell, get_fields_z_integral and get_fourier_epsilon evaluate at the requested depth in the requested layer. (Violated: get_fields_z_integral uses the layer above; get_fields_unit_cell for the incidence medium uses the first layer, and get_fields raises an exception. Proved otherwise.)", "quantifier": "all stacks, layers and depths", "why_tests_cant": "All stacks.", "anchors": ["rayflare/rigorous_coupled_wave_analysis/rcwa.py:rcwa_structure.get_fields", "rayflare/rigorous_coupled_wave_analysis/rcwa.py:rcwa_structure.get_fields_unit_cell", "rayflare/rigorous_coupled_wave_analysis/rcwa.py:rcwa_structure.get_fields_z_integral", "rayflare/rigorous_coupled_wave_analysis/rcwa.py:rcwa_structure.get_fourier_epsilon"]}
{"id": "C95", "title": "The rear surface is the front surface turned over", "statement": "xyz_texture (and everything built on it) returns a rear surface that is the mirror image z -> -z of the front one, including its reference height. (Violated for every coverage_height other than 0: the rear surface gets the same, not the opposite, reference height.)", "quantifier": "all meshes and coverage heights", "why_tests_cant": "Any mesh.", "anchors": ["rayflare/textures/define_textures.py:xyz_texture", "rayflare/ray_tracing/rt.py:RTSurface.__init__"]}
{"id": "C96", "title": "Front and rear of randomised pyramids stay the same surface", "statement": "After every refresh the rear surface of regular_pyramids(height_distribution=...) is still the mirror image of the front one. (Violated: the rear surface is built without the height distribution and keeps its first height.)", "quantifier": "all heights drawn, any number of refreshes", "why_tests_cant": "History of random draws.", "anchors": ["rayflare/textures/standard_rt_textures.py:regular_pyramids", "rayflare/ray_tracing/rt.py:RTSurface.refresh"]}
{"id": "C97", "title": "Hemisphere texture", "statement": "All points of hemisphere_surface, pointing up or down, lie on the spherical (or stretched) cap or belong to the plane around it (up to the height of its roughness), and are inside the unit cell, with height 0 on its edges. (The last part is violated, without any error, for a cap that does not fit into the unit cell.)", "quantifier": "all sizes, radii, offsets, stretches and grids", "why_tests_cant": "Continuous domain.", "anchors": ["rayflare/textures/standard_rt_textures.py:hemisphere_surface"]}
{"id": "C98", "title": "Depths of ray-traced bulk profiles", "statement": "make_absorption_function labels every sample of a bulk layer of an rt_structure with TMM interfaces with its own depth. (Violated for layers that do not start at a multiple of the depth spacing: the first sample is always labelled as if it were at the top of the layer. Proved for all widths: the values are those of the true depths and the labels are too small by less than one spacing.)", "quantifier": "all layer widths, spacings and profiles", "why_tests_cant": "Grid arithmetic for all widths.", "anchors": ["rayflare/utilities.py:make_absorption_function"]}
{"id": "C99", "title": "Absorption function for the matrix method", "statement": "make_absorption_function can be used for every result of calculate_RAT with profiles: it returns depths from the front surface in metres and the absorption there, front interface, bulk and rear interface in this order. (Violated for options.bulk_profile=False: always an exception. Proved with a bulk profile.)", "quantifier": "all structures of two interfaces and a bulk layer, all profiles", "why_tests_cant": "All structures.", "anchors": ["rayflare/utilities.py:make_absorption_function"]}
{"id": "C100", "title": "Every interface is calculated between its own neighbours", "statement": "process_structure calculates each interface with the medium directly above it as incidence medium and the medium directly below it as substrate, for light from the front, and from the rear unless it is the last; only the first interface, from the front, can be restricted to the angle of incidence.", "quantifier": "structures of any number of interfaces separated by bulk layers", "why_tests_cant": "Any number of layers.", "anchors": ["rayflare/matrix_formalism/process_structure.py:process_structure"]}
{"id": "C101", "title": "Rays start where and in the direction asked for", "statement": "Every ray of rt_structure.calculate starts above the first surface (or, when started inside a layer, strictly between the two surfaces of this layer) at the lateral position asked for and travels in the direction given by the polar and azimuthal angle of incidence. (Violated for rays started upwards from the transmission medium: they start 1e-8 above the last surface, on the wrong side of it. Proved for the incidence medium and the inner layers.)", "quantifier": "all stacks, positions, angles and starting layers", "why_tests_cant": "Continuous domain, any number of layers.", "anchors": ["rayflare/ray_tracing/rt.py:single_ray_stack", "rayflare/ray_tracing/rt.py:parallel_inner", "rayflare/ray_tracing/rt.py:rt_structure.calculate"]}
{"id": "C102", "title": "Randomised rays are aimed into the unit cell from outside the surface", "statement": "When the surface position is randomised for each surface, the ray is restarted outside the surface at a point from which it reaches a point of the unit cell, whatever random numbers are drawn and whatever the direction.", "quantifier": "all unit cells, directions and random numbers", "why_tests_cant": "Random draws.", "anchors": ["rayflare/ray_tracing/rt.py:single_ray_stack", "rayflare/ray_tracing/rt.py:single_ray_interface"]}
{"id": "C103", "title": "Building a ray-tracing structure copies and places the textures", "statement": "rt_structure(...) works on copies: the textures passed in are not changed, the same texture can be used for several interfaces, and in the structure surface i lies below the incidence medium by the sum of the widths of the layers above it. (Violated for a texture given with integer coordinates, which moves by whole units only. Proved otherwise; too many textures raise an exception.)", "quantifier": "all lists of textures, with repetitions, and all widths", "why_tests_cant": "Aliasing for all lists.", "anchors": ["rayflare/ray_tracing/rt.py:rt_structure.__init__", "rayflare/ray_tracing/rt.py:RTSurface.zcov"]}
{"id": "C104", "title": "Specular reflection has the same azimuth in every method", "statement": "Light reflected specularly by a planar interface is filed under the same azimuth bin by ray tracing, TMM and RCWA. (Violated by RCWA for phi_symmetry = 2*pi/odd: filed under the incident azimuth instead of the opposite one. Proved for ray tracing against TMM, and for RCWA for 2*pi/even.)", "quantifier": "all angles of incidence and phi_symmetry = 2*pi/m", "why_tests_cant": "Continuous domain.", "anchors": ["rayflare/ray_tracing/rt.py:RT_wl", "rayflare/transfer_matrix_method/tmm.py:make_matrix_wl", "rayflare/rigorous_coupled_wave_analysis/rcwa.py:RCWA_wl", "rayflare/angles.py:fold_phi"]}
{"id": "C105", "title": "An azimuth means the same direction in ray tracing and RCWA", "statement": "A row of angle_vector stands for the same direction in space for an interface calculated by ray tracing and for one calculated by RCWA. (Violated: ray tracing measures azimuths from the x axis, RCWA diffraction orders are filed with azimuths measured from the y axis. Proved for directions on the diagonal.)", "quantifier": "all directions", "why_tests_cant": "Continuous domain.", "anchors": ["rayflare/ray_tracing/rt.py:RT_wl", "rayflare/rigorous_coupled_wave_analysis/rcwa.py:RCWA_wl", "rayflare/rigorous_coupled_wave_analysis/rcwa.py:RCWA"]}
{"id": "C106", "title": "get_order_directions", "statement": "get_order_directions lists each pair of diffraction orders with |i|, |j| <= max_order exactly once; the polar angles reported for reflection and transmission satisfy the two-dimensional grating equation with the refractive index of the medium, orders that do not propagate are reported at 90 degrees and only they are, and the zeroth order is specular reflection and Snell refraction.", "quantifier": "all lattices, indices, wavelengths, angles and maximal orders", "why_tests_cant": "Continuous domain.", "anchors": ["rayflare/analytic/diffraction.py:get_order_directions"]}
{"id": "C107", "title": "Profiles in interface layers integrate to the absorption in these layers", "statement": "The absorption profile that rt_structure.calculate returns for the interface layers in options.prof_layers is nowhere negative and integrates to the light absorbed in these layers. (Violated: one absorbed ray at an angle not covered by the lookup table, which ends 1e-3 rad before 90 degrees, makes the profile of the whole side zero. Proved when all angles are covered.)", "quantifier": "all tables, numbers of layers and sets of absorbed rays", "why_tests_cant": "Results of random ray tracing.", "anchors": ["rayflare/ray_tracing/rt.py:calculate_interface_profiles", "rayflare/ray_tracing/rt.py:parallel_inner", "rayflare/transfer_matrix_method/lookup_table.py:make_TMM_lookuptable"]}
{"id": "C108", "title": "Profiles for the matrix method are weighted means of the tabulated profiles", "statement": "For a ray-traced interface with layers the profile filed for each direction of incidence is the mean of the tabulated profiles, weighted with the absorption at each local angle of incidence, counted from the front for both sides. (Violated: identically zero if all layers are requested and all are incoherent, and identically zero if any local angle of the grid, with light or without, lies outside the table. Proved otherwise.)", "quantifier": "all tables, grids and distributions of local angles", "why_tests_cant": "Any distribution of local angles.", "anchors": ["rayflare/ray_tracing/rt.py:make_profiles_wl"]}
{"id": "C109", "title": "Sample positions of tmm_structure profiles", "statement": "With options.depth_spacing = d, tmm_structure.calculate(profile=True, layers=L) samples the profile layer by layer in the order of L, in each layer at exactly the multiples of d (counted from the top of the stack) that lie in the layer; without L at every multiple of d in the stack, each once, in increasing order. The incidence medium has no samples and asking for the transmission medium raises an exception.", "quantifier": "all stacks, spacings and lists of layers", "why_tests_cant": "Any number of layers and any widths.", "anchors": ["rayflare/transfer_matrix_method/tmm.py:tmm_structure.calculate", "rayflare/transfer_matrix_method/tmm.py:tmm_structure.set_widths"]}
{"id": "C110", "title": "Profiles stored by TMM belong to the layer and depth they are stored for", "statement": "The value TMM stores for an interface at depth z is the absorption density at depth z of the stack, in the layer that contains z, for light from the front and for light from the rear. (Violated on layer boundaries: whichever layer the solver assigns a boundary to, for one of the two directions the value comes from the neighbouring layer. Proved at all depths strictly inside a layer.)", "quantifier": "all stacks, depths and either boundary convention of the solver", "why_tests_cant": "Any stack.", "anchors": ["rayflare/transfer_matrix_method/tmm.py:make_matrix_wl", "rayflare/transfer_matrix_method/tmm.py:TMM"]}
{"id": "C111", "title": "Ray tracing finds the right lookup table for each interface", "statement": "In an rt_structure with coated textures each interface uses the table calculated for its own coating between the media directly above and below it, and different interfaces never share a table. (Violated with overwrite=False: a second structure using textures with the same names in the same project silently uses the tables of the first, whatever its materials and layers. Proved with overwrite=True or when no table of that name exists.)", "quantifier": "all lists of textures, layers and materials and all earlier contents of the project folder", "why_tests_cant": "All structures and histories of the project folder.", "anchors": ["rayflare/ray_tracing/rt.py:make_lookuptable_rt_structure", "rayflare/ray_tracing/rt.py:make_tmm_args", "rayflare/ray_tracing/rt.py:rt_structure.__init__", "rayflare/transfer_matrix_method/lookup_table.py:make_TMM_lookuptable"]}
{"id": "C112", "title": "The table entry used by the ray tracer is the one for the angle and wavelength of the ray", "statement": "When a ray meets a coated surface the reflection probability used is the tabulated one for the nearest tabulated angle, within half the angular spacing (or the 1e-3 rad by which the table ends before 90 degrees), and for the wavelength of the ray. (Violated: for a wavelength that is not in the table the nearest tabulated one is used without any error, however far away. Proved for tabulated wavelengths.)", "quantifier": "all angles, tables and wavelengths", "why_tests_cant": "Continuous domain.", "anchors": ["rayflare/ray_tracing/rt.py:decide_RT_TMM", "rayflare/transfer_matrix_method/lookup_table.py:make_TMM_lookuptable"]}
{"id": "C113", "title": "Surface area of a texture", "statement": "RTSurface.find_area sets area to the total area of the facets of the surface divided by the area of the unit cell. (Violated: the cosine in each facet is not divided by the lengths of the edges, so a flat unit square has area 0 and larger facets give NaN. Proved if every facet has a right angle, or two edges of length 1, at its second corner.)", "quantifier": "all triangulated surfaces", "why_tests_cant": "All geometries.", "anchors": ["rayflare/ray_tracing/rt.py:RTSurface.find_area"]}
{"id": "C114", "title": "Structures with several bulk layers", "statement": "For a structure with several bulk layers calculate_RAT follows the light from one bulk layer into the next: nothing is transmitted into a bulk layer that no light reaches, and reflection, absorption and transmission add up to the incident power. (Violated: each bulk layer is calculated on its own, with the full incident light on the interface above it. A stack whose front surface absorbs 98 % of the light is reported to transmit all light, and all results add up to the number of bulk layers times the incident power. Proved: the results for each bulk index, with or without profiles, are those of the structure of this bulk layer and its two interfaces alone, and the profiles integrate to the absorption; for a single bulk layer this is the full property.)", "quantifier": "structures of any number of bulk layers and interfaces", "why_tests_cant": "Any number of bulk layers.", "anchors": ["rayflare/matrix_formalism/multiply_matrices.py:matrix_multiplication", "rayflare/matrix_formalism/multiply_matrices.py:calculate_RAT"]}
{"id": "C115", "title": "Profiles stored by RCWA belong to the layer and depth they are stored for", "statement": "The value RCWA stores for an interface at depth z is the absorption density at depth z of the stack, in the layer that contains z, for light from the front and for light from the rear. (Violated for light from the rear: with layer widths that are multiples of the spacing every value is the one at z plus the spacing; with other widths values come from the wrong layer, and with prof_layers not in increasing order the layers are exchanged. Proved: the exact shift for widths that are multiples of the spacing.)", "quantifier": "all stacks, spacings and lists of layers", "why_tests_cant": "Any stack.", "anchors": ["rayflare/rigorous_coupled_wave_analysis/rcwa.py:RCWA", "rayflare/rigorous_coupled_wave_analysis/rcwa.py:RCWA_wl"]}
{"id": "C116", "title": "Position-resolved absorption of RCWA is an absorption density", "statement": "The position-resolved absorption that the RCWA functions compute is at every depth the absorbed power per nm at a point within 1e-9 nm of this depth, divided by the incident power; it is not negative and it is zero where nothing is absorbed.", "quantifier": "all power flows and depths", "why_tests_cant": "Continuous domain.", "anchors": ["rayflare/rigorous_coupled_wave_analysis/rcwa.py:rcwa_position_resolved"]}
{"id": "C117", "title": "Absorption function of a tmm_structure or rcwa_structure", "statement": "For a tmm_structure or rcwa_structure, make_absorption_function returns the function whose value at each depth of the stack is the absorption per metre that calculate_profile found there, for any requested layers and after set_widths. (Violated: after set_widths the depths are those of the old widths, so that an exception is raised unless the numbers of samples agree; profiles of only some layers raise an exception, and layers requested in another order are silently put at the wrong depths. Proved for all layers and unchanged widths.)", "quantifier": "all stacks, spacings, profiles and histories of set_widths", "why_tests_cant": "Any stack and any history.", "anchors": ["rayflare/utilities.py:make_absorption_function", "rayflare/transfer_matrix_method/tmm.py:tmm_structure.set_widths", "rayflare/rigorous_coupled_wave_analysis/rcwa.py:rcwa_structure.set_widths"]}
{"id": "C118", "title": "Distribution of local angles of incidence", "statement": "For a ray-traced interface with absorbing layers and each incidence bin with at least one absorbed ray, the stored distribution of local angles is non-negative, adds up to one, and gives for each range of polar angles the fraction of the absorbed rays which met the layers at such an angle. (Violated: rays absorbed at exactly normal local incidence are filed as grazing. Proved for all other rays.)", "quantifier": "all collections of rays and outcomes, any number of bins", "why_tests_cant": "Any multiset of random outcomes.", "anchors": ["rayflare/ray_tracing/rt.py:RT_wl"]}
{"id": "C119", "title": "A coating does not change how a facet refracts", "statement": "A ray transmitted by a coated facet (RT_TMM) leaves in the same direction as one transmitted by the same facet without coating (RT_Fresnel), given by Snell's law. (Violated if a medium absorbs: decide_RT_TMM uses the complex ratio of the refractive indices, decide_RT_Fresnel that of the real parts. Proved for transparent media.)", "quantifier": "all directions, facets, indices and random numbers", "why_tests_cant": "Continuous domain.", "anchors": ["rayflare/ray_tracing/rt.py:decide_RT_TMM", "rayflare/ray_tracing/rt.py:decide_RT_Fresnel"]}
{"id": "C120", "title": "Parallel and serial calculations agree", "statement": "A calculation returns, for the same random numbers, the same results in the order of the wavelengths whether or not options.parallel is set, for any number of workers, any division of the wavelengths into batches and any order in which they are finished. (Violated: Inkstone polygons whose vertices are given as a list are moved again at every wavelength of a batch, and surfaces with a height distribution keep the height drawn last, so that in both cases results depend on the batches. Proved for tasks whose results do not depend on changes made by earlier ones, in particular for surfaces without height distribution and polygons given as tuples.)", "quantifier": "all lists of tasks, batches and orders of completion", "why_tests_cant": "Every schedule.", "anchors": ["rayflare/ray_tracing/rt.py:RT", "rayflare/ray_tracing/rt.py:rt_structure.calculate", "rayflare/rigorous_coupled_wave_analysis/rcwa.py:RCWA", "rayflare/rigorous_coupled_wave_analysis/rcwa.py:rcwa_structure.calculate"]}
{"id": "C121", "title": "Absorption profiles in the surfaces", "statement": "The absorption profile that calculate_RAT returns for a surface is non-negative and integrates to the light absorbed in those layers of the surface for which a profile was requested (all light absorbed in the surface if it was requested for all layers), and the list of profiles has one entry per surface, in the order in which make_absorption_function reads it. (Violated: surfaces without prof_layers are left out of the list, so with profiles in the rear surface only the first entry is the one of the rear surface and make_absorption_function raises IndexError. Proved: the integral for each surface with profiles, and the order if both surfaces have profiles.)", "quantifier": "all structures with stored profiles, numbers of passes and options", "why_tests_cant": "Any number of passes.", "anchors": ["rayflare/matrix_formalism/multiply_matrices.py:matrix_multiplication", "rayflare/matrix_formalism/multiply_matrices.py:calculate_RAT", "rayflare/utilities.py:make_absorption_function"]}
{"id": "C122", "title": "Hyperhemisphere lenses", "statement": "For any number of points, radius and height of the centre, hyperhemisphere returns a triangulation of the part of the sphere above z = 0, open at the bottom, with normals out of the sphere for the front surface, and its mirror image with normals into the sphere for the rear surface. (Violated: facets with two corners on the rim and the third close above the edge between them are turned inwards; if the centre is lowered by more than 0.9 radius all acute facets are removed; with h = radius the bottom of the sphere is missing up to a height of 0.1 radius. Proved: all points are on the sphere and above z = 0, facets and indices agree, no facet with area in z = 0 remains, and acute facets whose corners are all above or all below the centre (or, near its height, on one side of the plane y = 0) are oriented correctly.)", "quantifier": "all numbers of points, radii and heights, any hull", "why_tests_cant": "Continuous domain.", "anchors": ["rayflare/textures/standard_rt_textures.py:hyperhemisphere"]}
{"id": "C123", "title": "Energy is conserved from the calculation of the surfaces to R, A and T", "statement": "For a structure whose surfaces were calculated by any combination of ray tracing (with at least nx * ny rays per incidence bin), transfer matrices, a Lambertian scatterer, a mirror or (lit from the front) RCWA, and for any symmetry angle 2 pi / m with m even or 1, calculate_RAT returns non-negative R, T, bulk and interface absorption whose sum is between 1 - I_thresh and 1 at every wavelength, and it returns if the bulk absorbs.", "quantifier": "all structures, options, outcomes of the rays, contents of uninitialised memory and energy-conserving solvers", "why_tests_cant": "Any number of bins, rays, layers and passes.", "anchors": ["rayflare/matrix_formalism/multiply_matrices.py:calculate_RAT", "rayflare/matrix_formalism/process_structure.py:process_structure", "rayflare/ray_tracing/rt.py:RT", "rayflare/transfer_matrix_method/tmm.py:TMM", "rayflare/rigorous_coupled_wave_analysis/rcwa.py:RCWA"]}
{"id": "C124", "title": "Results returned for several bulk layers", "statement": "For a structure with several bulk layers calculate_RAT returns R, A_bulk and T (and A_interface if profiles are requested), even if no light gets into some of the bulk layers. (Violated: if an interface lets less than I_thresh of the incident light through, calculate_RAT returns only R if this interface is on top of the last bulk layer, and raises an exception if it is on top of another one. Proved: all results are returned if and only if every interface above a bulk layer transmits more than I_thresh at some wavelength.)", "quantifier": "all structures, numbers of bulk layers, matrices and thresholds", "why_tests_cant": "Any number of bulk layers and passes.", "anchors": ["rayflare/matrix_formalism/multiply_matrices.py:matrix_multiplication"]}
{"id": "C125", "title": "Tracing only the incident direction", "statement": "With only_incidence_angle=True (the default), where the front of the first surface is ray-traced for the requested direction only and everything else as usual, calculate_RAT returns for every theta_in and phi_in results that conserve energy (as without this option) and do not depend on what uninitialised memory contained, and it returns if the bulk absorbs. (Violated: for theta_in on an edge between two rings of bins the reported reflectance is uninitialised memory and can be any number, and with phi_in='all' the ray tracing raises an exception. Proved for every direction strictly inside a bin and for normal incidence.)", "quantifier": "all structures, directions, outcomes of the rays and contents of uninitialised memory", "why_tests_cant": "Any number of bins, rays and passes, any memory contents.", "anchors": ["rayflare/matrix_formalism/process_structure.py:process_structure", "rayflare/ray_tracing/rt.py:RT", "rayflare/matrix_formalism/multiply_matrices.py:calculate_RAT"]}
{"id": "C126", "title": "Ray-traced surfaces: from the geometry to the matrices", "statement": "Whatever the triangles of a periodic surface, the refractive indices, the random numbers and the Fresnel equations or (energy-conserving) lookup table are: the angles reported for each ray that is traced to the end are those of the direction in which it leaves; in the matrices made from the rays, each column of an incidence bin that received rays is non-negative and adds up to one; and, unless rays leave exactly along an edge of the grid, exactly horizontally or by slipping past the whole surface, the rows of the hemisphere the light came from add up to the fraction of rays that end in the medium they came from, those of the other hemisphere to the fraction that end in the other medium and the absorption to the fraction that is absorbed.", "quantifier": "all surfaces, media, lookup tables, collections of rays and random numbers", "why_tests_cant": "Continuous domain, any number of rays and bounces.", "anchors": ["rayflare/ray_tracing/rt.py:RT_wl", "rayflare/ray_tracing/rt.py:single_ray_interface", "rayflare/ray_tracing/rt.py:single_interface_check", "rayflare/ray_tracing/rt.py:decide_RT_TMM", "rayflare/ray_tracing/rt.py:decide_RT_Fresnel"]}
{"id": "C127", "title": "A ray does not travel for ever between two meetings with a periodic surface", "statement": "For every periodic surface (including one whose heights are drawn afresh on the way, within bounds) and every starting position and direction, the interaction of a ray with the surface returns after finitely many iterations unless the ray meets facets of the surface infinitely often; moving from unit cell to unit cell and restarting after a miss always come to an end.", "quantifier": "all surfaces, unit cells, positions, directions and sequences of random numbers", "why_tests_cant": "Unbounded number of iterations and unit cells; the loop has no counter.", "anchors": ["rayflare/ray_tracing/rt.py:single_interface_check", "rayflare/ray_tracing/rt.py:exit_side"]}
{"id": "C128", "title": "A ray is not reflected for ever on one side of a surface", "statement": "For every surface whose facets have finitely many orientations, none vertical or overhanging (every height map), and any two media or energy-conserving lookup table: a ray which meets facets only from the side it is on is not reflected without end on one side, even under total reflection; its interaction with the surface returns after finitely many iterations unless it crosses the surface infinitely often.", "quantifier": "all height maps, media, positions, directions and sequences of random numbers", "why_tests_cant": "Infinite sequences of reflections cannot be tested.", "anchors": ["rayflare/ray_tracing/rt.py:single_interface_check", "rayflare/ray_tracing/rt.py:decide_RT_Fresnel", "rayflare/ray_tracing/rt.py:decide_RT_TMM"]}
{"id": "C129", "title": "Ray tracing with random numbers is unbiased", "statement": "Whatever is computed from the outcome of a ray's interaction with a textured surface, its mean over independent uniform random numbers is the value obtained by following every branch of the ray (reflected, transmitted, absorbed) weighted with its Fresnel or tabulated probability. In particular the mean of each entry of a ray-traced redistribution matrix, for any number of rays, is the mean over the rays launched in that incidence bin of the total weight of the branches that leave into the outgoing bin.", "quantifier": "all surfaces, media, lookup tables, rays, numbers of iterations and quantities computed from the outcome", "why_tests_cant": "A statement about a probability distribution: finitely many runs cannot establish a mean.", "anchors": ["rayflare/ray_tracing/rt.py:single_interface_check", "rayflare/ray_tracing/rt.py:decide_RT_Fresnel", "rayflare/ray_tracing/rt.py:decide_RT_TMM", "rayflare/ray_tracing/rt.py:RT"]}
{"id": "C130", "title": "Ray tracing of a stack, from the geometry to R, A and T", "statement": "Rays traced through a stack of textured surfaces of any shape, with Fresnel reflection or energy-conserving lookup tables, periodically repeated or not, with or without random positions: no index error occurs; R + T + absorption in the layers and interfaces lies between 1 - I_thresh and 1 with all fractions non-negative; a ray counts as reflected (transmitted) exactly if it ended going up in the first (down in the last) medium; at each surface the ray is traced with the indices of the media next to it, and is afterwards recorded in the medium it is in (unless it slips past the surface); and in absorbing stacks every ray ends.", "quantifier": "all stacks, textures, media, lookup tables, angles, positions and sequences of random numbers below one for which no ray becomes exactly horizontal", "why_tests_cant": "Ranges over all geometries and all sequences of random numbers.", "anchors": ["rayflare/ray_tracing/rt.py:single_ray_stack", "rayflare/ray_tracing/rt.py:single_interface_check", "rayflare/ray_tracing/rt.py:single_cell_check", "rayflare/ray_tracing/rt.py:rt_structure.calculate"]}
{"id": "C131", "title": "Ray tracing of a stack with random numbers is unbiased", "statement": "Whatever is computed from the final state of a ray traced through a stack of textured surfaces, its mean over independent uniform random numbers is the value obtained by following every branch of the ray at every surface, weighted with its Fresnel or tabulated probability. In particular the means of R, T and of the absorption in each layer, for any number of rays, are the averages over the launched rays of the totals over all the branches.", "quantifier": "all stacks, textures, media, lookup tables, launch points, numbers of iterations and quantities computed from the final state", "why_tests_cant": "A statement about a probability distribution: finitely many runs cannot establish a mean.", "anchors": ["rayflare/ray_tracing/rt.py:single_ray_stack", "rayflare/ray_tracing/rt.py:single_interface_check", "rayflare/ray_tracing/rt.py:single_cell_check", "rayflare/ray_tracing/rt.py:decide_RT_Fresnel", "rayflare/ray_tracing/rt.py:decide_RT_TMM", "rayflare/ray_tracing/rt.py:rt_structure.calculate"]}
{"id": "C132", "title": "A ray that misses the surface is sent to it again from its own side", "statement": "As long as a ray has met no facet of a periodic surface it keeps its direction and medium; after each miss it is started anew over the unit cell, above the whole surface if it goes down and below it if it goes up. It is sent back without an interaction only after 101 misses in succession. A ray that comes with undefined coordinates (after travelling horizontally) is likewise started anew on the side it comes from, and sent back only after a hundred misses.", "quantifier": "all surfaces, rays and random numbers", "why_tests_cant": "Misses happen for particular rays and surfaces only.", "anchors": ["rayflare/ray_tracing/rt.py:single_interface_check"]}
{"id": "C133", "title": "R, A and T are within I_thresh of the exact solution", "statement": "Let the exact solution be the steady state: power flows in the bulk layer that stay the same when light is constantly let in, attenuated, reflected at both surfaces and let out. Whenever the matrix multiplication returns, each returned quantity (reflected and transmitted power per direction and in total, absorption per layer of both surfaces and in the bulk layer, at every wavelength) is at most its exact value, and all the errors together are at most I_thresh. With more and more passes the results tend to the exact ones, which are unique; and an exact solution exists exactly if the loop ends for every positive I_thresh.", "quantifier": "all energy-conserving redistribution matrices, absorption coefficients, thicknesses, incidence vectors, thresholds and numbers of passes", "why_tests_cant": "The exact solution is the limit of infinitely many passes; a test can only compare two truncations.", "anchors": ["rayflare/matrix_formalism/multiply_matrices.py:matrix_multiplication", "rayflare/matrix_formalism/multiply_matrices.py:calculate_RAT"]}
{"id": "C134", "title": "The results at one wavelength depend on the other wavelengths by at most I_thresh", "statement": "Two calculations with the matrix method that have the same surfaces, incident light and bulk layer at one wavelength return for it the same reflection and transmission (per direction and in total), bulk absorption and absorption per layer of the surfaces up to the larger I_thresh of the two, whatever other wavelengths are calculated along with it. (They are not exactly equal: the slowest wavelength determines how many passes are made for all.)", "quantifier": "all energy-conserving redistribution matrices, lists of wavelengths, positions in the lists and thresholds", "why_tests_cant": "Ranges over all other wavelengths a calculation might contain.", "anchors": ["rayflare/matrix_formalism/multiply_matrices.py:matrix_multiplication", "rayflare/matrix_formalism/multiply_matrices.py:calculate_RAT"]}
{"id": "C135", "title": "A thicker or more absorbing bulk layer lets out less light", "statement": "With the same surfaces and incident light, a bulk layer with a larger product of absorption coefficient and thickness gives no more reflection and transmission (into each direction and in total) and no more absorption in each layer of the surfaces, and no less absorption in the bulk layer, up to I_thresh; for the exact solution without tolerance.", "quantifier": "all energy-conserving redistribution matrices, absorption coefficients, thicknesses, thresholds and wavelengths", "why_tests_cant": "An ordering between any two calculations, over a continuum of parameters and unboundedly many passes.", "anchors": ["rayflare/matrix_formalism/multiply_matrices.py:matrix_multiplication", "rayflare/matrix_formalism/multiply_matrices.py:make_D"]}
{"id": "C136", "title": "Results in a project folder belong to the structure they are used for", "statement": "What process_structure leaves in the project folder for a structure was computed for that structure. (Violated: if a structure is changed without changing the names of its interfaces, or the options are changed, the results of the old one are silently reused unless overwrite is set. It holds for any number of structures sharing the folder and any history of completed runs, overwriting or not, and runs killed between two saves, as long as the same name always stands for the same interface; a run then also never raises.)", "quantifier": "all structures, histories of runs and crash points", "why_tests_cant": "Ranges over all histories of a folder.", "anchors": ["rayflare/matrix_formalism/process_structure.py:process_structure", "rayflare/utilities.py:get_matrices_or_paths", "rayflare/transfer_matrix_method/lookup_table.py:make_TMM_lookuptable"]}
{"id": "C137", "title": "Several programs can work in one project folder at the same time", "statement": "If several processes run process_structure in the same folder at the same time, under every interleaving of their looks at the disk and file saves no process raises, all come to an end, and when a process has returned, every stored file of its structure is there and was computed for the interface in question; processes without common interfaces work as if each were alone, and for calculations without random numbers also processes with common interfaces find what they would have found alone. (Violated for ray tracing of a common interface: R/T and absorption matrices of two different calculations can end up side by side.)", "quantifier": "all numbers of processes, structures, overwrite settings and schedules, for a folder without earlier results (any folder for processes without common interfaces), with saving one file taken as one action", "why_tests_cant": "Ranges over all schedules.", "anchors": ["rayflare/matrix_formalism/process_structure.py:process_structure", "rayflare/utilities.py:get_matrices_or_paths", "rayflare/transfer_matrix_method/lookup_table.py:make_TMM_lookuptable", "rayflare/ray_tracing/rt.py:RT"]}
{"id": "C138", "title": "The statistical error of ray tracing decreases with the number of rays", "statement": "For rays traced with independent uniform random numbers, the probability that the reflected or transmitted fraction, the fraction absorbed in a layer or in a layer of an interface, or the fraction of rays that end in any given way, differs by epsilon or more from the value obtained by following all the branches of the rays is at most 2 exp(-2 N epsilon^2), where N is the number of rays; for an entry of a redistribution matrix N is the number of rays launched in its incidence bin. So log(2/delta)/(2 epsilon^2) rays are enough for an error below epsilon with probability 1 - delta, whatever the structure.", "quantifier": "all stacks and textures, media, lookup tables, launch points, numbers of rays and iterations, error bounds", "why_tests_cant": "A bound on a probability, over a continuum of random numbers and unboundedly many rays.", "anchors": ["rayflare/ray_tracing/rt.py:rt_structure.calculate", "rayflare/ray_tracing/rt.py:RT", "rayflare/ray_tracing/rt.py:parallel_inner", "rayflare/ray_tracing/rt.py:single_ray_stack", "rayflare/ray_tracing/rt.py:single_interface_check"]}
{"id": "C139", "title": "Planar structures give the textbook formulas for an incoherent slab", "statement": "For a bulk layer between two planar surfaces (stacks of thin layers calculated by TMM, or an ideal mirror), the matrix method returns, up to I_thresh, R = R0 + T0 D^2 R1 Tb/(1-q), T = T0 D T1/(1-q), bulk absorption T0 (1-D)(1+D R1)/(1-q) and the corresponding absorption in each layer of both surfaces, with q = D^2 R1 Rb, D the attenuation on one slanted passage, and R, T, A of the surfaces as the transfer-matrix solver reports them for the centre of the ring of directions outside and of the one into which Snell's law refracts that light. After exactly k passes the results are the first k terms of these series.", "quantifier": "all planar layer stacks, refractive indices, absorption coefficients, thicknesses, angular grids with an even number of symmetry sectors or none, angles of incidence below 90 degrees, thresholds and numbers of passes", "why_tests_cant": "The formulas sum infinitely many passes and hold for a continuum of parameters and all grid sizes.", "anchors": ["rayflare/matrix_formalism/multiply_matrices.py:matrix_multiplication", "rayflare/matrix_formalism/multiply_matrices.py:make_D", "rayflare/matrix_formalism/multiply_matrices.py:make_v0", "rayflare/transfer_matrix_method/tmm.py:TMM", "rayflare/matrix_formalism/ideal_cases.py:mirror_matrix"]}
{"id": "C140", "title": "Absorption per diffraction order", "statement": "With A_per_order, rcwa_structure.calculate returns for each layer one absorption per order of the returned basis set, in the order of that basis set, and their sum is the absorption in the layer. (Violated: the returned basis set is made with the S4_options given to calculate, the absorptions with those given when the structure was made; the absorption per layer is cut off at zero, that per order is not; with Inkstone, or unless all S4_options are given, calculate fails. Proved for the same complete S4_options and layers that do not emit light.)", "quantifier": "all solvers whose fluxes per order add up, all numbers of layers and orders, all options at construction and at calculation", "why_tests_cant": "a test uses one set of options for everything and does not see which of them is used where", "anchors": ["rayflare/rigorous_coupled_wave_analysis/rcwa.py:rcwa_absorption_per_layer_order", "rayflare/rigorous_coupled_wave_analysis/rcwa.py:rcwa_structure.calculate", "rayflare/rigorous_coupled_wave_analysis/rcwa.py:rcwa_structure.make_S", "rayflare/rigorous_coupled_wave_analysis/rcwa.py:RCWA_structure_wl", "rayflare/rigorous_coupled_wave_analysis/rcwa.py:RCWA_structure_wl_inkstone"]}
{"id": "C141", "title": "Options of the RCWA solver", "statement": "A calculation with rcwa_structure uses the RCWA_method and S4_options given to it, and the defaults for options not given. (Violated: calculate uses the S4_options given when the structure was made; a structure made for Inkstone cannot be calculated with S4; the functions returning fields use the S4_options given to them but fail if any is missing. Proved if the options are the same as when the structure was made.)", "quantifier": "all dictionaries of solver options, complete or not, at construction and at calculation, all solvers", "why_tests_cant": "the options are passed along by reference through several functions; a test with default options everywhere cannot distinguish them", "anchors": ["rayflare/rigorous_coupled_wave_analysis/rcwa.py:rcwa_structure.__init__", "rayflare/rigorous_coupled_wave_analysis/rcwa.py:rcwa_structure.calculate", "rayflare/rigorous_coupled_wave_analysis/rcwa.py:rcwa_structure.make_S", "rayflare/rigorous_coupled_wave_analysis/rcwa.py:initialise_S"]}
{"id": "C142", "title": "Shapes are drawn where and as they are described", "statement": "Circles, ellipses, rectangles and polygons are drawn, by S4 and by Inkstone, as the regions described by their centre, angle and dimensions. (Violated: Inkstone ignores the angle of polygons. Proved for S4 and for all other shapes.)", "quantifier": "all shapes of all kinds with any centre, angle, half-widths and vertices", "why_tests_cant": "the argument conventions of the two libraries differ; tests use circles centred at the origin with angle 0", "anchors": ["rayflare/rigorous_coupled_wave_analysis/rcwa.py:initialise_S", "rayflare/rigorous_coupled_wave_analysis/rcwa.py:initialise_S_inkstone"]}
{"id": "C143", "title": "Changing the material of a shape", "statement": "After any sequence of calls of edit_geom_list, each shape is drawn with the material last given for it. (Violated: a material that no shape had when the structure was made, and materials given as lists, raise an exception. Proved for materials which occur at construction and have different names.)", "quantifier": "all structures, all sequences of changes, any order of the set of materials", "why_tests_cant": "a history of changes of arbitrary length; the set of materials is in arbitrary order", "anchors": ["rayflare/rigorous_coupled_wave_analysis/rcwa.py:rcwa_structure.edit_geom_list", "rayflare/rigorous_coupled_wave_analysis/rcwa.py:necessary_materials", "rayflare/rigorous_coupled_wave_analysis/rcwa.py:initialise_S", "rayflare/rigorous_coupled_wave_analysis/rcwa.py:rcwa_structure.update_oc"]}
{"id": "C144", "title": "A diffuse reflector at the rear gives the light-trapping formula", "statement": "For a bulk layer with a planar front surface and a Lambertian rear surface the matrix method returns, up to I_thresh, R = R0 + T0 D <p Tb>/(1-q), bulk absorption T0 (1-D) + T0 D <(1-p)(1+p Rb)>/(1-q) and the corresponding absorption in the layers of the front surface, with q = <p^2 Rb>, where D is the attenuation on the first slanted passage, p, Rb and Tb are attenuation, reflection and transmission of the front surface from inside at the angles of the rings, total reflection included, and <> is the average over the rings with the shares of Lambert's law; nothing is transmitted or absorbed at the rear. (Violated: the shares of the program are cos(theta) dtheta normalised instead of sin^2(theta2) - sin^2(theta1). Proved with the program's shares.)", "quantifier": "all planar layer stacks at the front, refractive indices, absorption coefficients, thicknesses, angular grids with an even number of symmetry sectors or none, angles of incidence below 90 degrees and thresholds", "why_tests_cant": "The formula sums infinitely many passes over all directions and holds for a continuum of parameters and all grid sizes.", "anchors": ["rayflare/matrix_formalism/multiply_matrices.py:matrix_multiplication", "rayflare/matrix_formalism/multiply_matrices.py:make_D", "rayflare/matrix_formalism/multiply_matrices.py:make_v0", "rayflare/transfer_matrix_method/tmm.py:TMM", "rayflare/matrix_formalism/ideal_cases.py:lambertian_matrix"]}
{"id": "C145", "title": "What rt_structure.calculate returns is what its rays give", "statement": "R, T and R0 are the intensities per launched ray that leave upwards, downwards, and upwards without a pass through any layer; A_per_layer, profile and A_per_interface are what the rays lost in each bulk layer, at each depth and in each interface layer, per launched ray and in the stated units; thetas, phis, n_passes and n_interactions have one entry per ray in the order of launching; n_rays is rounded up to a multiple of nx*ny; if the call returns, every ray was traced to its end; R, T and all absorption together are between 1 - I_thresh and 1, and the integral of the profile over a layer is the absorption in it up to the step of the depth grid; uninitialised memory of the masked comparisons plays no role.", "quantifier": "all structures with or without lookup tables, all numbers of wavelengths, points, rays, layers and interfaces, all outcomes of the rays", "why_tests_cant": "the bookkeeping must be right for every number of rays and every mixture of outcomes, including wavelengths at which no ray, or every ray, ends in an interface", "anchors": ["rayflare/ray_tracing/rt.py:rt_structure.calculate", "rayflare/ray_tracing/rt.py:parallel_inner", "rayflare/ray_tracing/rt.py:single_ray_stack"]}
{"id": "C146", "title": "Random positions of rays", "statement": "With random_ray_position, rays are launched at nx*ny points distributed randomly and independently over the launching window, so that averages over the points are unbiased. (Violated: nx values of x and ny values of y are drawn and combined, so the points form a grid, rays in a column share one x, and the same points are used for all repetitions and wavelengths. Proved: every point is in the window, the average over the points is unbiased; a quantity depending on x only is sampled nx times however many rays there are.)", "quantifier": "all windows, numbers of points and rays, all random numbers, all bounded measurable quantities", "why_tests_cant": "a statement about distributions and about which sets of points can occur at all", "anchors": ["rayflare/ray_tracing/rt.py:rt_structure.calculate", "rayflare/ray_tracing/rt.py:parallel_inner"]}
{"id": "C147", "title": "Regular scan of the unit cell", "statement": "Without random_ray_position, the average of a quantity over the launched rays tends to its average over the unit cell as nx and ny increase. (Violated with the default limits: the outermost hundredth of the cell at each edge is never hit, so a strip of one hundredth of the cell is missed with any number of points and rays. Proved: the average over the points differs from that over the launching window by at most Vx/nx + Vy/ny, where Vx and Vy bound the variation along lines, and from that over the unit cell by at most 0.04 more for quantities between 0 and 1; the expected R returned is the average over the points of the expected R per point.)", "quantifier": "all windows and unit cells, numbers of points and rays, all measurable quantities of bounded variation along lines, continuous or not", "why_tests_cant": "convergence for all numbers of points and all quantities; a test with a fixed number of points sees only one value", "anchors": ["rayflare/ray_tracing/rt.py:rt_structure.calculate", "rayflare/ray_tracing/rt.py:parallel_inner"]}
{"id": "C148", "title": "Depth coordinates of stored profiles", "statement": "In the absorption profile that TMM or RCWA returns and stores for an interface, the coordinate z of a value is the depth at which it was calculated, measured from the front or from the side the light comes from. (Violated for light from the rear: values are flipped and coordinates are not, so that with two or more samples the first value is neither the one at depth z from the rear nor the one at depth z from the front. Proved for light from the front; for light from the rear values and coordinates are in opposite order.)", "quantifier": "all stacks, spacings, lists of layers, absorption densities and conventions of the solver about boundaries", "why_tests_cant": "stacks and spacings are arbitrary; a profile of a single symmetric layer looks the same in both orders", "anchors": ["rayflare/transfer_matrix_method/tmm.py:TMM", "rayflare/rigorous_coupled_wave_analysis/rcwa.py:RCWA"]}
{"id": "C149", "title": "Roughness and number of points of rough planar surfaces", "statement": "rough_planar_surface(size, noise_angle, n_points) gives n_points points, rounded up to a square number on a regular grid (an exception for fewer than two points on a regular grid, or fewer than four at random positions), and no facet is inclined by more than noise_angle. (Violated: on a regular grid facets can be inclined by up to arctan(sqrt(2)*tan(noise_angle)), for random positions by any angle below 90 degrees. Proved: the number of points, and the bound arctan(sqrt(2)*tan(noise_angle)) on a regular grid.)", "quantifier": "all sizes, angles, numbers of points and random numbers", "why_tests_cant": "Random numbers; continuous domain.", "anchors": ["rayflare/textures/standard_rt_textures.py:rough_planar_surface"]}
{"id": "C150", "title": "Refining the angular grid makes planar structures converge to the textbook result", "statement": "For a bulk layer between two planar layer stacks treated with TMM, light at a polar angle theta_in that is refracted into the bulk layer: for every tolerance there is a number of polar bins such that for every larger number of bins, and I_thresh at most half the tolerance, the reflectance, transmittance, bulk absorption and absorption per layer from calculate_RAT differ from the textbook incoherent slab formulas, evaluated at the true theta_in and the angle inside given by Snell's law, by less than the tolerance; for both spacings of the polar bins, every azimuth resolution, symmetry, azimuth of the light, and with or without profiles. (The thin-film solver's results are assumed to depend continuously on the angle at those two angles, with no transmission beyond the critical angle, and the rear surface not exactly at the critical angle.) The same holds with an ideal mirror instead of the rear layer stack (even symmetry): the limit is then the textbook slab on a perfect reflector, with nothing transmitted.", "quantifier": "all incidence angles, refractive indices, absorptions, solver results and tolerances; all grids with enough polar bins; all loop lengths", "why_tests_cant": "Convergence is a limit statement: a test runs a few bin numbers for a few structures and cannot show the error stays below the tolerance for all finer grids.", "anchors": ["rayflare/matrix_formalism/multiply_matrices.py:calculate_RAT", "rayflare/transfer_matrix_method/tmm.py:TMM", "rayflare/angles.py:make_angle_vector"]}
{"id": "C151", "title": "Ray tracing of planar structures gives the textbook result", "statement": "For a bulk layer between two flat surfaces, with Fresnel equations or integrated TMM lookup tables, periodic boundaries and light from above at a polar angle theta_in: the reflectance, transmittance, bulk absorption and absorption per layer of the coatings that rt_structure.calculate reports are, on average over the random numbers, those of the textbook incoherent slab formulas. They are never larger, and less by at most I_thresh plus the probability that a ray is not finished after the number of surfaces it is followed through; that probability decreases exponentially, and is zero once what is left after so many passes is below I_thresh. This holds for every position and azimuth the rays start from, with or without randomize_surface.", "quantifier": "all angles of incidence that are refracted into the layer, refractive indices, absorption coefficients, widths, tables that conserve energy, polarisations, triangulations of the flat surfaces, launch positions, numbers of rays and of surfaces", "why_tests_cant": "Random numbers and a continuous domain; a test compares noisy results for a few structures with a tolerance larger than the effect of most mistakes.", "anchors": ["rayflare/ray_tracing/rt.py:rt_structure.calculate", "rayflare/ray_tracing/rt.py:single_ray_stack", "rayflare/ray_tracing/rt.py:single_interface_check", "rayflare/ray_tracing/rt.py:decide_RT_Fresnel", "rayflare/ray_tracing/rt.py:decide_RT_TMM", "rayflare/ray_tracing/rt.py:traverse"]}
{"id": "C152", "title": "Redistribution matrix of a flat surface from ray tracing", "statement": "For a flat surface, with or without an integrated TMM lookup table, the redistribution matrix that RT calculates is on average over the random numbers the one of a planar layer: each ray launched in an incidence bin puts the reflectance at its own angle (Fresnel's, or that of the table) in the bin of specular reflection, the transmittance in the bin of the refracted beam, and the rest is absorbed. So the totals of each column in each hemisphere agree with those of the planar method (TMM) up to the variation of R and T over the launched angles of the bin; with an even number of symmetry sectors also the entry for reflection. Every ray ends and no index error occurs.", "quantifier": "all polar and azimuthal grids, both sides of incidence, launch positions, numbers of rays, triangulations of the flat surface, refractive indices, polarisations and tables that conserve energy; incidence angles and azimuths off the edges of the grid", "why_tests_cant": "Random numbers and a continuous domain; a test compares noisy matrices of a few structures and cannot tell a small systematic error from noise.", "anchors": ["rayflare/ray_tracing/rt.py:RT", "rayflare/ray_tracing/rt.py:single_ray_interface", "rayflare/ray_tracing/rt.py:decide_RT_Fresnel", "rayflare/ray_tracing/rt.py:decide_RT_TMM", "rayflare/transfer_matrix_method/tmm.py:TMM"]}
{"id": "C153", "title": "Turning the surface and the light turns the result; phi_symmetry", "statement": "If a textured surface is turned by 90 degrees about the vertical (any listing of its facets), and the light with it (azimuth larger by 90 degrees, launch positions and the random positions of relaunched rays turned), then for the same random numbers at the facets each ray does the same thing turned by 90 degrees: it leaves or is absorbed after as many interactions, at the same local angles, in the turned direction. With phi_symmetry = pi/2 it is counted in the same entries of the redistribution and absorption matrices. So on a surface unchanged by the turn, such as regular_pyramids of any size and height, light from the other three quadrants gives the same matrices and need not be traced. Likewise for a turn of 180 degrees, rectangular cells and phi_symmetry = pi. In rt_structure a whole structure (unit cells of the same size at all surfaces) turned with the light gives for each ray the same end, intensity, absorption in the layers, number of passes and polar angle, hence the same R, A and T. (For rays that do not pass within the tolerance of 1e-10 of an edge of a facet or exactly through an edge or corner of the unit cell.)", "quantifier": "all periodic triangulated surfaces, cell sizes, incidence directions, launch positions, refractive indices, polarisations, lookup tables and sequences of random numbers; all angular grids", "why_tests_cant": "A statement about all rays and surfaces; a test compares noisy results for a few azimuths of one texture.", "anchors": ["rayflare/ray_tracing/rt.py:single_ray_interface", "rayflare/ray_tracing/rt.py:single_interface_check", "rayflare/ray_tracing/rt.py:check_intersect", "rayflare/ray_tracing/rt.py:exit_side", "rayflare/ray_tracing/rt.py:RT", "rayflare/angles.py:fold_phi"]}
{"id": "C154", "title": "Light paths can be reversed", "statement": "For facets between transparent media, without coating: a ray sent back along the way another ray left a facet, with the same random number, is reflected or refracted back to where that ray came from. So a path over any number of facets and its reverse are followed with the same random numbers, and have the same probability. For Lambertian light the transmitted fractions from the two sides, times the square of the refractive index of the medium the light comes from, are equal (so light inside a medium of index n escapes with 1/n^2 times the transmittance for diffuse light from outside).", "quantifier": "all positive refractive indices, polarisations, unit directions, facet orientations, sides, random numbers in [0,1), numbers of facets; all angles including total internal reflection", "why_tests_cant": "A statement about all directions, random numbers and paths, and an integral over all angles.", "anchors": ["rayflare/ray_tracing/rt.py:decide_RT_Fresnel", "rayflare/ray_tracing/rt.py:calc_R", "rayflare/ray_tracing/rt.py:single_interface_check"]}
{"id": "C155", "title": "Number of bounces on gentle and steep textures", "statement": "On a periodic texture without overhangs whose slopes are all below 30 degrees, on a medium of higher refractive index, a ray from straight above meets exactly one facet, wherever it arrives (on large textures further than about 1e-9 times the facet size from an edge, because of the tolerances of the intersection test): it is reflected with the textbook Fresnel reflectance at the inclination beta of that facet, leaving at 2*beta to the vertical, or transmitted, by beta minus the angle of refraction off the vertical. In general a ray that leaves a facet more steeply than the texture rises anywhere does not meet the texture again. On a texture whose facets are all steeper than 45 degrees light from straight above that is reflected has met at least two facets. Regular pyramids are such textures, with the elevation angle as inclination of every facet.", "quantifier": "all periodic height maps (any number of facets, facet sizes up to a bound set by the program's offset of 1e-9), positions, refractive indices, polarisations, random numbers; regular pyramids of every base and elevation angle, upright or inverted", "why_tests_cant": "A statement about all points of the unit cell and all textures; whether a ray meets a neighbouring facet by the tolerance of the intersection test is not visible in samples.", "anchors": ["rayflare/ray_tracing/rt.py:single_interface_check", "rayflare/ray_tracing/rt.py:check_intersect", "rayflare/ray_tracing/rt.py:decide_RT_Fresnel", "rayflare/textures/standard_rt_textures.py:regular_pyramids"]}
{"id": "C156", "title": "R0 of a stack with a gentle front texture", "statement": "rt_structure.calculate for any stack whose front surface is a periodic texture without overhangs with slopes below 30 degrees, between transparent media (the lower one with the higher refractive index), for light from straight above: the mean over the random numbers of the reported front-surface reflectance R0 is the average, over the launch points (on large textures not within about 1e-9 times the facet size of an edge), of the textbook Fresnel reflectances at the inclinations of the facets above which they lie, whatever lies below the front surface. For regular pyramids it is the reflectance of a flat surface at the elevation angle.", "quantifier": "all stacks (any number of layers, surfaces, lookup tables below the front surface), launch points, numbers of rays, refractive indices, polarisations, numbers of surfaces and iterations; regular pyramids of every base and elevation angle below 30 degrees, upright or inverted", "why_tests_cant": "Random numbers and arbitrary structures below the surface; a test compares a noisy number for a few structures.", "anchors": ["rayflare/ray_tracing/rt.py:rt_structure.calculate", "rayflare/ray_tracing/rt.py:single_ray_stack", "rayflare/ray_tracing/rt.py:single_interface_check", "rayflare/ray_tracing/rt.py:decide_RT_Fresnel", "rayflare/textures/standard_rt_textures.py:regular_pyramids"]}
{"id": "C157", "title": "Ray tracing of any number of flat layers gives the incoherent multilayer result", "statement": "rt_structure.calculate for a stack of any number of layers between flat surfaces, periodic boundary conditions, Fresnel equations or lookup tables: the reflectance, the transmittance, the absorptance of each layer and of each layer of each coating, on average over the random numbers, are those of the balance of light in the stack (light is reflected, transmitted and absorbed at each surface, attenuated in each layer along the refracted path, and added up over all paths). They are never larger, and they are less by at most the intensity at which rays are given up plus the probability that a ray is not finished. The balance has a solution, which is unique if the layers absorb or the surfaces let light through; then all its parts add up to one, and for a single layer they are the textbook formulas for a slab; total reflection at a surface is included; and without coatings in transparent media the surfaces are those of the textbook.", "quantifier": "all numbers of layers, thicknesses, absorption coefficients, refractive indices, coatings, angles of incidence, launch points, numbers of rays, polarisations, thresholds and numbers of surfaces, and all quantities reported", "why_tests_cant": "An average over random numbers along paths of unbounded length through an unbounded number of layers; a test compares a noisy number for one stack.", "anchors": ["rayflare/ray_tracing/rt.py:rt_structure.calculate", "rayflare/ray_tracing/rt.py:single_ray_stack", "rayflare/ray_tracing/rt.py:single_interface_check", "rayflare/ray_tracing/rt.py:decide_RT_Fresnel", "rayflare/ray_tracing/rt.py:traverse"]}
{"id": "C158", "title": "What I_thresh does to a ray-traced result", "statement": "rt_structure.calculate with given random numbers, for surfaces of any shape: a ray that comes to an end with some I_thresh comes to an end with a higher one as well, and compared with any lower threshold each of the fractions R, T, the absorption in each layer and in each layer of each interface is the same or lower, by at most I_thresh; so is all the light accounted for taken together; the absorption profile is nowhere higher, the ray has passed through no more layers, and R0 does not depend on I_thresh. On average over the random numbers the same holds, up to the probability that a ray has not come to an end with the lower threshold.", "quantifier": "all stacks of layers and surfaces of any shape, with Fresnel equations or lookup tables, with or without periodic boundary conditions and random launch points, all random numbers, numbers of rays and of surfaces met, and all pairs of thresholds", "why_tests_cant": "A comparison of two executions along paths of unbounded length, for every sequence of random numbers and every geometry; a test compares two noisy numbers for one structure.", "anchors": ["rayflare/ray_tracing/rt.py:rt_structure.calculate", "rayflare/ray_tracing/rt.py:single_ray_stack", "rayflare/ray_tracing/rt.py:traverse"]}
{"id": "C159", "title": "Ray tracing and the matrix method agree for planar structures", "statement": "A slab between flat surfaces and transparent media, calculated once with rt_structure.calculate and once with calculate_RAT (surfaces by TMM): with enough polar bins, enough surfaces per ray and small thresholds, the reflectance, transmittance and absorptance of the two methods agree as closely as wanted. This holds for bare surfaces, where the solver gives Fresnel's results, and for coated surfaces, where ray tracing uses lookup tables with the same solver's results at close enough angles; then it also holds for the absorptance of each layer of the coatings. The mean of the ray-traced result over the random numbers differs from the result of the matrix method by less than any given amount plus the I_thresh of ray tracing.", "quantifier": "all angles of incidence, refractive indices (including total reflection at the rear surface; light does enter the slab and does not meet the rear surface exactly at its critical angle), coatings, thicknesses and absorption coefficients, polarisations, launch points, numbers of rays, azimuth resolutions, symmetries, spacings of the bins, and azimuths of the light", "why_tests_cant": "The agreement of two different algorithms in the limit of many bins and surfaces, on average over random numbers; a test compares two approximate numbers for one structure with a loose tolerance.", "anchors": ["rayflare/ray_tracing/rt.py:rt_structure.calculate", "rayflare/matrix_formalism/multiply_matrices.py:calculate_RAT", "rayflare/transfer_matrix_method/tmm.py:TMM"]}
{"id": "C160", "title": "Textures between media with the same refractive index are invisible", "statement": "If the media on the two sides of a surface without coating have the same refractive index, light is not reflected and not deflected, whatever the texture: a ray that meets the facets from the side it is on is reported as transmitted in its old direction, after any number of facets, for periodic surfaces and single cells. For rt_structure.calculate with any number of layers of the same refractive index (each with its own absorption coefficient) between periodic height maps on which the light falls more steeply than they rise, R is zero, and T and the absorption in each layer are those of Lambert-Beer, as without textures, for every single ray and not only on average; unless I_thresh ends the rays earlier, or a surface is missed a hundred times in a row. (For facets small enough, up to about 2.5 length units high, that the offset of 1e-9 with which rays leave them exceeds the tolerance of the intersection test.) For light from straight above no surface is ever missed.", "quantifier": "all surfaces, numbers of facets and layers, refractive indices (complex too), absorption coefficients, thicknesses, polarisations, angles of incidence, launch points and random numbers between 0 and 1", "why_tests_cant": "Holds for every ray and every texture; a test traces some rays through one texture.", "anchors": ["rayflare/ray_tracing/rt.py:rt_structure.calculate", "rayflare/ray_tracing/rt.py:single_ray_stack", "rayflare/ray_tracing/rt.py:single_interface_check", "rayflare/ray_tracing/rt.py:single_cell_check", "rayflare/ray_tracing/rt.py:decide_RT_Fresnel", "rayflare/ray_tracing/rt.py:calc_R", "rayflare/ray_tracing/rt.py:traverse"]}
{"id": "C161", "title": "Light gets through a planar structure equally well in both directions", "statement": "rt_structure.calculate for a stack of any number of absorbing layers between flat surfaces, and for the same stack turned over, with the light coming along the path on which it left: on average over the random numbers the transmittance of the two is the same, up to the intensity at which rays are given up and any given amount, if enough surfaces per ray are allowed. It is required that each surface for itself transmits the same from both sides; this is so for surfaces without coating between media with real refractive indices, for which nothing else is required. If nothing absorbs, the reflectance is the same from both sides too; otherwise in general it is not.", "quantifier": "all numbers of layers, thicknesses, absorption coefficients, refractive indices, coatings, angles of incidence, launch points, numbers of rays, azimuths, polarisations and thresholds", "why_tests_cant": "Relates two calculations for different structures, on average over random numbers, along paths of unbounded length; a test compares two noisy numbers for one structure.", "anchors": ["rayflare/ray_tracing/rt.py:rt_structure.calculate", "rayflare/ray_tracing/rt.py:single_ray_stack", "rayflare/ray_tracing/rt.py:decide_RT_Fresnel", "rayflare/ray_tracing/rt.py:traverse"]}
{"id": "C162", "title": "A layer may be given as several layers of the same material", "statement": "rt_structure.calculate for a stack between flat surfaces, and for the same stack with one of its layers given as two layers of the same material whose thicknesses add up to its thickness: on average over the random numbers all results are the same (reflectance, transmittance, absorptance of the other layers and of each layer of the coatings), and the absorptances of the two parts add up to that of the layer, up to the intensity at which rays are given up and any given amount, if enough surfaces per ray are allowed.", "quantifier": "all numbers of layers, layers split and ways to split them, thicknesses, absorption coefficients, refractive indices (complex too), coatings, angles of incidence, launch points, numbers of rays, azimuths, polarisations and thresholds", "why_tests_cant": "Relates two calculations for different structures, on average over random numbers, along paths of unbounded length; a test compares noisy numbers for one structure.", "anchors": ["rayflare/ray_tracing/rt.py:rt_structure.calculate", "rayflare/ray_tracing/rt.py:single_ray_stack", "rayflare/ray_tracing/rt.py:decide_RT_Fresnel", "rayflare/ray_tracing/rt.py:calc_R", "rayflare/ray_tracing/rt.py:traverse"]}
{"id": "C163", "title": "Maps of fields and permittivity show what was asked for", "statement": "get_fields and get_fourier_epsilon of rcwa_structure (with S4): entry [i, j] of the maps returned is what the solver gives at x point i and y point j, in the layer asked for at the depth asked for, with the optical constants of the wavelength of the last calculation closest to the one asked for. The points divide the area into equal steps, from end to end, and the default area is large enough to show the whole structure: every point of the plane is in it up to lattice vectors. (The same loop fills the maps of get_fields_z_integral; for the layer it uses see C94.)", "quantifier": "all solvers, numbers of points, areas, lattices, numbers of layers and thicknesses, depths and wavelengths", "why_tests_cant": "Holds for every lattice, area and number of points; a test can look at one map.", "anchors": ["rayflare/rigorous_coupled_wave_analysis/rcwa.py:rcwa_structure.get_fields", "rayflare/rigorous_coupled_wave_analysis/rcwa.py:rcwa_structure.get_fourier_epsilon", "rayflare/rigorous_coupled_wave_analysis/rcwa.py:rcwa_structure.get_fields_z_integral"]}
{"id": "C164", "title": "Magnitude of the fields is as documented", "statement": "The magnitudes returned by get_fields and get_fields_z_integral are sqrt(abs(Ex^2 + Ey^2 + Ez^2)), as documented. (Violated: they are the square roots of the sum of the squared moduli; this is the same if the components are in phase and never less, but for a circularly polarised field the documented expression is zero.)", "quantifier": "all complex fields", "why_tests_cant": "Holds or fails depending on the phases of the field; a test with linear polarisation does not see the difference.", "anchors": ["rayflare/rigorous_coupled_wave_analysis/rcwa.py:rcwa_structure.get_fields", "rayflare/rigorous_coupled_wave_analysis/rcwa.py:rcwa_structure.get_fields_z_integral"]}
{"id": "C165", "title": "Planar structures: thicker layers let less light through", "statement": "rt_structure.calculate for a stack of any number of layers between flat surfaces, and for the same stack with one of its layers thicker (or absorbing more strongly): on average over the random numbers no more light is reflected, transmitted, or absorbed in any coating or in any other layer, and no less is absorbed in that layer, up to the intensity at which rays are given up and any given amount, if enough surfaces per ray are allowed.", "quantifier": "all numbers of layers, thicknesses, absorption coefficients, refractive indices, coatings, angles of incidence, launch points, numbers of rays, azimuths, polarisations and thresholds", "why_tests_cant": "A comparison of two calculations for different structures, on average over random numbers, along paths of unbounded length; a test compares noisy numbers for one structure.", "anchors": ["rayflare/ray_tracing/rt.py:rt_structure.calculate", "rayflare/ray_tracing/rt.py:single_ray_stack", "rayflare/ray_tracing/rt.py:decide_RT_Fresnel", "rayflare/ray_tracing/rt.py:traverse"]}
{"id": "C166", "title": "Options may be given as a dictionary", "statement": "It makes no difference whether the options passed to a function of the user interface are a plain dictionary or a State object with the same entries. (Violated: make_absorption_function reads its options as attributes and raises an error for a dictionary; all other functions are as claimed.)", "quantifier": "all functions to which options are passed, all sets of options with arbitrary values, and every choice of the places at which options are read", "why_tests_cant": "Whether an option is read depends on the structure and on the other options; tests always pass the same kind of object.", "anchors": ["rayflare/options.py:default_options", "rayflare/utilities.py:make_absorption_function", "rayflare/utilities.py:get_wavelength", "rayflare/matrix_formalism/multiply_matrices.py:calculate_RAT", "rayflare/matrix_formalism/process_structure.py:process_structure", "rayflare/ray_tracing/rt.py:rt_structure.calculate", "rayflare/rigorous_coupled_wave_analysis/rcwa.py:rcwa_structure.calculate"]}
{"id": "C167", "title": "Options of the user are not changed", "statement": "After a call the options the user has passed are as they were before. (Violated: if both wavelength and wavelengths are given, functions of TMM and RCWA and those for lookup tables overwrite the user's entry wavelength; process_structure, calculate_RAT and rt_structure.calculate work on a copy. No other entry is ever changed.)", "quantifier": "all functions to which options are passed and all sets of options", "why_tests_cant": "An effect on the caller's object seen only in later calls.", "anchors": ["rayflare/utilities.py:get_wavelength", "rayflare/options.py:default_options", "rayflare/matrix_formalism/multiply_matrices.py:calculate_RAT", "rayflare/matrix_formalism/process_structure.py:process_structure"]}
{"id": "C168", "title": "The default options are complete", "statement": "With default_options() no function of the user interface fails because an option is missing, whatever options the user has added or changed, and each of the default options is used. (Violated: project_name has no default value, so process_structure, calculate_RAT and the lookup tables of rt_structure raise an error unless the user has set it, and avoid_edges is never read; otherwise it holds.)", "quantifier": "all functions to which options are passed, all values, and every choice of the places at which options are read", "why_tests_cant": "Which options are read depends on the structure and on the options; a test sees the ones of one calculation.", "anchors": ["rayflare/options.py:default_options", "rayflare/matrix_formalism/multiply_matrices.py:calculate_RAT", "rayflare/matrix_formalism/process_structure.py:process_structure", "rayflare/ray_tracing/rt.py:rt_structure.calculate", "rayflare/rigorous_coupled_wave_analysis/rcwa.py:rcwa_structure.calculate", "rayflare/transfer_matrix_method/tmm.py:tmm_structure.calculate"]}
{"id": "C169", "title": "Mixtures of light; phi_in = 'all'", "statement": "In the matrix method, light made up of given fractions of several lights (distributions over the angles) gives the same mixture of everything that is returned: reflectance, transmittance, absorption in the bulk and in the layers differ from the mixture of the results for the single lights by at most I_thresh in total. In particular phi_in = 'all' returns the mean of the results for the azimuth bins of the ring in which theta_in lies, up to I_thresh.", "quantifier": "all structures with one bulk layer (any front and rear matrices), all numbers of lights and all fractions; for phi_in all angular grids, the full range of azimuths and every even number of symmetry sectors", "why_tests_cant": "The number of passes is not the same for the mixture and for its parts, so the loop has to be followed for each of them.", "anchors": ["rayflare/matrix_formalism/multiply_matrices.py:matrix_multiplication", "rayflare/matrix_formalism/multiply_matrices.py:make_v0"]}
{"id": "C170", "title": "The unit cell of a texture", "statement": "The unit cell of a texture, by which it is repeated, has the size of the extent of its points in x and y; it is the same for light from the front and from the rear and is not changed by moving the surface or drawing new heights; and every ray is put at a position over the texture. (Violated: rays are always put between 0 and the size of the cell, so that a texture whose points do not start at 0 is missed; a flat square elsewhere sends all light back, whatever the materials. Proved if the points start at 0, as for all the textures provided.)", "quantifier": "all lists of points, all histories of moves and redraws, all positions and directions of rays; planar_surface, regular_pyramids, V_grooves of width 1, square height maps and rough textures of any size", "why_tests_cant": "Tests use textures that start at 0.", "anchors": ["rayflare/ray_tracing/rt.py:RTSurface", "rayflare/ray_tracing/rt.py:single_ray_stack", "rayflare/ray_tracing/rt.py:single_ray_interface", "rayflare/textures/standard_rt_textures.py:regular_pyramids", "rayflare/textures/standard_rt_textures.py:planar_surface", "rayflare/textures/define_textures.py:xyz_texture", "rayflare/textures/define_textures.py:heights_texture"]}
{"id": "C171", "title": "The order in which the wavelengths are listed does not matter", "statement": "Listing the wavelengths of a calculation in another order, or some of them twice, gives for each wavelength exactly the results it had before. For matrix_multiplication this holds pass by pass. For the matrices of transfer-matrix surfaces it holds for different wavelengths in any order, and for the lookup tables used in ray tracing when the order is reversed. (Violated: a wavelength listed twice makes the transfer-matrix surfaces raise an exception, and with a lookup table for wavelengths that are neither increasing nor decreasing every ray that meets the surface raises one.)", "quantifier": "all lists of wavelengths, all surfaces, bulk layers and thresholds, both branches of the loop, all rays", "why_tests_cant": "The number of passes is decided by all wavelengths together and the lookups depend on the order of the labels; tests use increasing wavelengths", "anchors": ["rayflare/matrix_formalism/multiply_matrices.py:matrix_multiplication", "rayflare/transfer_matrix_method/tmm.py:TMM", "rayflare/ray_tracing/rt.py:decide_RT_TMM", "rayflare/transfer_matrix_method/lookup_table.py:make_TMM_lookuptable"]}
{"id": "C172", "title": "The matrix method transmits the same in both directions", "statement": "For a planar structure with absorbing layers and bulk, and the structure turned over with light coming back along the path on which it left, calculate_RAT gives the same transmittance, as the number of polar bins grows and I_thresh decreases, if each surface transmits the same in both directions; if nothing absorbs, the same reflectance too.", "quantifier": "all planar structures, angles, angular grids and thresholds, different options for the two calculations", "why_tests_cant": "A statement about two calculations on different angular bins (the refracted angles fall into different rings), and a limit", "anchors": ["rayflare/matrix_formalism/multiply_matrices.py:calculate_RAT", "rayflare/matrix_formalism/multiply_matrices.py:matrix_multiplication", "rayflare/transfer_matrix_method/tmm.py:TMM"]}
{"id": "C173", "title": "The mirror image of a surface or structure gives the mirror image of the result", "statement": "If every surface is replaced by its mirror image in a vertical plane (facets in any order), and the light comes from the mirrored direction (launch positions and the random positions of relaunched or randomised rays mirrored), then for the same random numbers at the facets each ray does the mirror image of the same thing: at one surface it leaves or is absorbed after as many interactions, at the same local angles, in the mirrored direction; in a structure of any number of layers it ends in the same way, with the same intensity, absorption in the layers, number of passes and polar angle, hence R, A and T are the same. regular_pyramids of any size and height are their own mirror images. (For periodic surfaces and rays that do not pass within the tolerance of 1e-10 of an edge of a facet or exactly through an edge or corner of the unit cell.)", "quantifier": "all periodic triangulated surfaces and stacks of them, cell sizes, incidence directions, launch positions, refractive indices, polarisations, lookup tables and sequences of random numbers", "why_tests_cant": "A statement about all rays, surfaces and numbers of layers; a test compares noisy results for one texture that is usually mirror symmetric itself", "anchors": ["rayflare/ray_tracing/rt.py:single_ray_stack", "rayflare/ray_tracing/rt.py:single_ray_interface", "rayflare/ray_tracing/rt.py:single_interface_check", "rayflare/ray_tracing/rt.py:check_intersect", "rayflare/ray_tracing/rt.py:exit_side"]}
{"id": "C174", "title": "The unit of length of a texture is arbitrary", "statement": "Making a texture larger or smaller in all directions, with the launch positions moved along, changes nothing about the results: for the same random numbers every ray does the same thing, in the same directions, at positions multiplied by the factor. (Violated: a ray that missed the surface is started anew at a fixed height of 0.01, in the unit of the texture, above or below it. A ridge on which every ray that meets it is absorbed absorbs at size 1 a ray that it sends back at size 1/200, whatever the random numbers. Proved if the three fixed lengths, 1e-9 after each facet, 0.01 for a new start and 1e-8 for the launch, are multiplied by the same factor, so the size matters only in comparison with them.)", "quantifier": "all periodic triangulated surfaces, factors, cell sizes, incidence directions, launch positions, materials and sequences of random numbers", "why_tests_cant": "A statement about all rays and surfaces; tests use textures of one size", "anchors": ["rayflare/ray_tracing/rt.py:single_interface_check", "rayflare/ray_tracing/rt.py:single_ray_interface", "rayflare/ray_tracing/rt.py:check_intersect", "rayflare/ray_tracing/rt.py:exit_side", "rayflare/textures/standard_rt_textures.py:regular_pyramids"]}
{"id": "C175", "title": "Unpolarised light in flat structures: ray tracing and matrix method", "statement": "For a structure with flat surfaces the results for pol = 'u' are the mean of those for 's' and 'p'. (Violated: the reflectances are averaged at each surface, as if light became unpolarised again at each of them. A transparent plate of refractive index 3^(1/2) in air, under 60 degrees, transmits 3/5 of s- and all p-polarised light, but for 'u' the result is 7/9 instead of 4/5. Proved for one surface at any angle and for a slab at normal incidence; for a transparent plate at any angle the difference is proved to be (a-b)^2/((1+a)(1+b)(2+a+b)), where a and b are the reflectances of one surface for s and p, in ray tracing and in the matrix method.)", "quantifier": "all slabs and plates, angles, numbers of rays, launch positions; limits of many interactions and bins", "why_tests_cant": "A statement about averages over the random numbers for three calculations", "anchors": ["rayflare/ray_tracing/rt.py:calc_R", "rayflare/ray_tracing/rt.py:decide_RT_Fresnel", "rayflare/ray_tracing/rt.py:rt_structure", "rayflare/transfer_matrix_method/tmm.py:TMM", "rayflare/matrix_formalism/multiply_matrices.py:calculate_RAT"]}
{"id": "C176", "title": "With random positions the thickness of a layer matters only through its absorption", "statement": "With randomize_surface = True, two structures made from the same textures, materials and options, whose layers have different thicknesses but the same product of thickness and absorption coefficient, give the same reflection, transmission and absorption in each layer and interface: each ray from outside ends in the same way for the same random numbers. The surfaces of two structures made from the same textures (with real coordinates) do differ only by their heights.", "quantifier": "all periodic and non-periodic stacks of triangulated surfaces, thicknesses, lookup tables, numbers of rays, launch positions and sequences of random numbers", "why_tests_cant": "A statement about all thicknesses and all rays; tests fix a few structures", "anchors": ["rayflare/ray_tracing/rt.py:single_ray_stack", "rayflare/ray_tracing/rt.py:traverse", "rayflare/ray_tracing/rt.py:single_interface_check", "rayflare/ray_tracing/rt.py:single_cell_check", "rayflare/ray_tracing/rt.py:rt_structure"]}
{"id": "C177", "title": "Absorption function of a ray-traced structure", "statement": "For an rt_structure, make_absorption_function returns the function whose samples are, from the top of the structure to the bottom, the layers on the first surface, the first bulk layer, the layers on the second surface and so on, each sample with its own depth in metres and the absorption per metre there (0 in layers whose profile was not requested), for any mixture of surfaces with and without layers; the depths increase strictly from 0 and stay inside the structure. (Violated: a bulk layer that contains no sample of the depth grid makes the call fail when any surface has layers; the depths are wrong if layers are not multiples of the spacing, see C67 and C98. Proved for layers that are multiples of the spacing, and for uncoated structures; the order of the depths is proved for all widths and spacings, and that bulk depths are too small by less than one spacing.)", "quantifier": "all structures, widths, spacings, requested layers and profiles", "why_tests_cant": "Any number of layers, widths and spacings.", "anchors": ["rayflare/utilities.py:make_absorption_function", "rayflare/ray_tracing/rt.py:rt_structure.calculate", "rayflare/ray_tracing/rt.py:make_lookuptable_rt_structure"]}
{"id": "C178", "title": "The absorption function can be evaluated at any depth", "statement": "The function returned by make_absorption_function can be evaluated at any depth of the structure, has the sampled value at each sample, lies between neighbouring samples elsewhere, and is not negative if the profile is not. (Violated for every structure of every kind: it raises an exception between the last sample and the bottom. Proved from the top to the last sample.)", "quantifier": "all structures, widths, spacings, profiles and depths", "why_tests_cant": "The depth is continuous and the widths and spacings are arbitrary.", "anchors": ["rayflare/utilities.py:make_absorption_function"]}
{"id": "C179", "title": "no_back_reflection of tmm_structure", "statement": "tmm_structure(..., no_back_reflection=True) suppresses reflection at the back: what gets through the layers is lost to them. It is reported as transmitted, and A and A_per_layer contain what the layers absorb, one entry per layer. (Violated: the absorbing medium that is put behind the layers is reported as one more layer, A contains what it absorbs, and T is only what gets through it; if it absorbs everything, A = 1 - R. Proved: what is reported with the option, and that without it A, T and A_per_layer are as they should be, for coherent and incoherent calculations and for s, p and unpolarised light.)", "quantifier": "all structures, polarisations, wavelengths and angles", "why_tests_cant": "The results look plausible and add up to one; with the option they describe another structure.", "anchors": ["rayflare/transfer_matrix_method/tmm.py:tmm_structure.__init__", "rayflare/transfer_matrix_method/tmm.py:tmm_structure.calculate", "rayflare/transfer_matrix_method/tmm.py:tmm_structure.build_coh_list"]}
{"id": "C180", "title": "An rcwa_structure can be calculated at any wavelengths", "statement": "rcwa_structure.calculate can be called with any wavelengths in the options, also other ones or another number of them than the structure was built for, and calculates each wavelength with the optical constants of the materials at this wavelength. (Violated: with NumPy 1.25 or later an exception is raised if the number of wavelengths changes and neither number is 1; and if the array of wavelengths is changed in place, the constants at the old wavelengths are used without a warning. Proved: without in-place changes no wavelength is ever calculated with the constants of another, and no exception is raised if the number of wavelengths stays the same; exactly when the exception is raised.)", "quantifier": "all sequences of calls and of changes to arrays of wavelengths, before and after NumPy 1.25", "why_tests_cant": "Histories of unbounded length, aliasing of arrays and two meanings of a comparison of arrays.", "anchors": ["rayflare/rigorous_coupled_wave_analysis/rcwa.py:rcwa_structure.calculate", "rayflare/rigorous_coupled_wave_analysis/rcwa.py:rcwa_structure.update_oc", "rayflare/rigorous_coupled_wave_analysis/rcwa.py:rcwa_structure.__init__"]}
{"id": "C181", "title": "A ray on a texture meets the next facet in its way", "statement": "When a ray is reflected or transmitted at a facet of a periodic texture, the next facet it meets is the first one in its way on the periodically continued surface, in whichever unit cell that is; and if the ray is reported as having left the surface, no facet is in its way. (Violated: a ray that moves away from the surface, up in the upper medium or down in the lower one, is tested only in its own unit cell and the next one, so a facet two cells further is passed through. Proved for every surface and every ray that does not pass exactly over a corner of the unit cells: a facet that is met is the first one; a ray moving towards the other side leaves only if there is none; a ray moving away leaves only if there is none up to the end of the next cell.)", "quantifier": "all periodic surfaces, facets, directions that are not vertical, decisions at the facets and numbers of unit cells passed", "why_tests_cant": "The facet that is missed may be any number of unit cells away; rays pass through the code without an error and the result looks plausible.", "anchors": ["rayflare/ray_tracing/rt.py:single_interface_check", "rayflare/ray_tracing/rt.py:check_intersect", "rayflare/ray_tracing/rt.py:exit_side"]}
{"id": "C182", "title": "A texture may be described by a larger unit cell", "statement": "A periodic texture can be described by one of its periods or by any number of periods in both directions, with the same result: a ray that leaves a facet in the same place and direction meets the next facet in the same place, with the same normal, or leaves the surface, with either description. (Violated: a ray that moves away from the surface is tested in its own unit cell and the next one only, so that with a larger unit cell it meets facets that it passes through with a smaller one. Proved for rays that move towards the other side of the surface, in general position.)", "quantifier": "all periodic textures, numbers of periods, rays in general position (nothing hinges on the tolerance of the intersection test)", "why_tests_cant": "All sizes of the unit cell and all rays; the difference shows up only in a few rays.", "anchors": ["rayflare/ray_tracing/rt.py:single_interface_check", "rayflare/ray_tracing/rt.py:check_intersect", "rayflare/ray_tracing/rt.py:RTSurface"]}
{"id": "C183", "title": "A ray that arrives at a texture meets the first facet in its way", "statement": "The first facet that a ray meets on a periodic texture is the first one in its way on the periodically continued surface. (Violated: the ray is put into the unit cell at the reference height, the height of the corner of the texture, and tested against the facets of this cell only. If the reference height is at the bottom of the texture, as for grooves and upright pyramids and light from above, slanted rays pass through the ridges of the cells before and arrive at places that are in the shade: for V-grooves of 45 degrees and light 53 degrees from the vertical, at least one ray in six. Proved if the reference height is on the side the light comes from, for example light from above on inverted pyramids and light from below on upright ones, and whatever the reference height for light steeper than the slopes of the texture.)", "quantifier": "all periodic surfaces, reference heights, positions and directions of rays; regular pyramids of every base and height", "why_tests_cant": "Which rays are affected depends on texture and direction; the result looks plausible for every single ray.", "anchors": ["rayflare/ray_tracing/rt.py:single_ray_stack", "rayflare/ray_tracing/rt.py:single_ray_interface", "rayflare/ray_tracing/rt.py:single_interface_check", "rayflare/ray_tracing/rt.py:check_intersect", "rayflare/ray_tracing/rt.py:RTSurface", "rayflare/textures/standard_rt_textures.py:V_grooves", "rayflare/textures/standard_rt_textures.py:regular_pyramids"]}
{"id": "C184", "title": "A polarisation means the same in every method, and unknown ones are refused", "statement": "The values 's', 'p' and 'u' of the option pol mean s polarised, p polarised and unpolarised light (half of each) in ray tracing with and without lookup tables, in tmm_structure, in TMM for the matrix method and in RCWA; any other string is refused. (Violated: ray tracing without coating takes any other value, and tmm_structure and TMM for the matrix method any other string but the empty one and 'sp', for example 'S' or 'TE', as unpolarised light without a warning; RCWA takes the empty string and calculates without light. Proved for the documented values in all methods, that lookup tables and RCWA refuse all others, and exactly which strings the others refuse.)", "quantifier": "all strings, and pairs of amplitudes", "why_tests_cant": "All strings in five methods, with a substring test in three of them.", "anchors": ["rayflare/ray_tracing/rt.py:calc_R", "rayflare/ray_tracing/rt.py:decide_RT_TMM", "rayflare/transfer_matrix_method/tmm.py:tmm_structure.calculate", "rayflare/transfer_matrix_method/tmm.py:TMM", "rayflare/transfer_matrix_method/lookup_table.py:make_TMM_lookuptable", "rayflare/rigorous_coupled_wave_analysis/rcwa.py:process_pol"]}
{"id": "C185", "title": "Light absorbed in a ray-traced surface is filed in the layers that absorb it", "statement": "In the absorption matrix of a ray-traced surface with layers, the entry of a layer and a direction of incidence is the mean, over the rays launched in that direction, of the part of the ray absorbed in that layer (for an absorbed ray: the tabulated absorption of that layer relative to all layers, at the angle and from the side at which it met them, as in rt_structure). (Violated: an absorbed ray is counted with the tabulated absorption itself, so that it has the more weight the more absorbing the surface is at its angle; the sum over the layers is right, the division among them is not. Two rays absorbed in different layers give 1/4 and 3/4 if the table has 0.1 and 0.3. Proved if the tabulated absorption of all layers together is the same for all absorbed rays; if it lies between a and b, the entries are right within a factor b/a. Also proved if all absorbed rays are divided among the layers in the same proportion, with an error bound by the spread of the proportions otherwise.)", "quantifier": "all grids, spacings, symmetries, numbers of layers and lists of rays with any results", "why_tests_cant": "The sums are right for every list of rays, so only the division among layers for rays with different local angles shows the difference.", "anchors": ["rayflare/ray_tracing/rt.py:RT", "rayflare/ray_tracing/rt.py:RT_wl", "rayflare/ray_tracing/rt.py:single_ray_interface", "rayflare/ray_tracing/rt.py:decide_RT_TMM"]}
{"id": "C186", "title": "Profile of the rays absorbed in a ray-traced surface (matrix method)", "statement": "For a ray-traced surface with layers, the profile filed for a direction of incidence is the mean, over the rays launched in that direction and absorbed, of the profile tabulated for the side from which the ray met the layers, at the centre of the range of polar angles its local angle is in; depths are counted from the front for both sides of illumination. (Violated: the profile for the side of illumination is used for all rays, also for those that met the layers from the other side, for example after refraction into the texture. Proved if all absorbed rays met the layers from the side of illumination, none at exactly normal incidence, and the table covers the angles, see C108, C118.)", "quantifier": "all grids, symmetries, numbers of layers, lookup tables, depth samples and lists of rays with any results", "why_tests_cant": "Which rays meet the layers from the other side depends on texture and direction; the filed profile looks plausible and is scaled to the right total.", "anchors": ["rayflare/ray_tracing/rt.py:RT_wl", "rayflare/ray_tracing/rt.py:make_profiles_wl", "rayflare/ray_tracing/rt.py:RT", "rayflare/transfer_matrix_method/lookup_table.py:make_TMM_lookuptable"]}
{"id": "C187", "title": "Escape cone and path length of the light of a Lambertian reflector", "statement": "The light that a Lambertian surface sends into the cone of half-angle a around the normal (for example the escape cone of the bulk) is sin(a)^2, and the mean path of its light through a layer is twice the thickness; so with a finer grid the results approach those of an ideal diffuse reflector. (Violated: it is sin(a), up to 1/(2 n_theta_bins), and exactly sin(a) with linear spacing, so on every grid with three or more rings every cone gets too much light, and an escape cone with sin(a) = 1/n gets about n times too much; the mean path is at most pi/2 times the thickness on every grid. Proved: these values, for every grid and both spacings; refining the grid does not help.)", "quantifier": "all numbers of polar bins, azimuthal discretisations and spacings, all cones bounded by an edge of the grid", "why_tests_cant": "The number of bins is unbounded and the deviation does not decrease with it, so that convergence tests do not show it.", "anchors": ["rayflare/matrix_formalism/ideal_cases.py:lambertian_matrix", "rayflare/angles.py:make_angle_vector"]}
{"id": "C188", "title": "Light-trapping limit of a weakly absorbing slab", "statement": "For a bulk layer with a flat front surface that lets all light in and out within its escape cone of half-angle a (sin(a) = 1/n), and a Lambertian rear surface, the reported absorptance for weak absorption is the optical thickness times 1/cos(B) + 2 (1 + cos a) / sin(a)^2, which is close to 4 n^2 + 1 (B: direction of the refracted light); more generally the enhancement is proportional to the square of the refractive index. (Violated: it is at most the optical thickness times 1/cos(B) + pi/sin(a), for every grid, threshold and absorption, so it is proportional to n; for n = 3.57 at most 12.4 instead of more than 49, and for every n >= 2 less than half of the right value if the absorption is weak enough. Proved: this bound, also for a front surface that lets only a part of the light in the cone out.)", "quantifier": "all numbers of polar bins, azimuthal discretisations, spacings, escape cones bounded by an edge of the grid, absorption coefficients, thicknesses, thresholds and numbers of passes", "why_tests_cant": "The bound concerns all absorption coefficients at once, and the limit of weak absorption takes ever more passes; results look plausible because strongly absorbing layers are not affected.", "anchors": ["rayflare/matrix_formalism/ideal_cases.py:lambertian_matrix", "rayflare/matrix_formalism/multiply_matrices.py:calculate_RAT", "rayflare/matrix_formalism/multiply_matrices.py:matrix_multiplication"]}
{"id": "C189", "title": "Structures with a Lambertian reflector as the angular grid is refined", "statement": "For a structure of a planar layer stack (TMM), a bulk layer and a Lambertian rear reflector, the reported R, bulk absorption and layer absorption approach, as the number of polar bins grows and I_thresh falls, the light-trapping formula in which the light from the reflector is averaged over 2 sin(theta) cos(theta) d(theta), and T is 0. (Violated: they approach the formula with the average over cos(theta) d(theta); there is a structure whose reflectance stays too large by a fixed amount however fine the grid. Proved: convergence to that other formula, for every spacing, azimuth resolution, symmetry and azimuth of the light, with and without profiles.)", "quantifier": "all planar structures whose solver results are continuous in the angle, all incidence angles, tolerances, numbers of bins beyond a bound, spacings, azimuth resolutions, symmetries, thresholds and numbers of passes", "why_tests_cant": "The statement is about a limit; a comparison of two finite grids shows that the result settles, and it does, at the wrong value.", "anchors": ["rayflare/matrix_formalism/ideal_cases.py:lambertian_matrix", "rayflare/matrix_formalism/multiply_matrices.py:calculate_RAT", "rayflare/matrix_formalism/multiply_matrices.py:matrix_multiplication", "rayflare/transfer_matrix_method/tmm.py:TMM", "rayflare/angles.py:make_angle_vector"]}
{"id": "C190", "title": "The bulk absorption profile follows the law of Beer and Lambert", "statement": "With bulk_profile, every value of the bulk profile from calculate_RAT is close to the exact absorption density at its depth: the loss per unit of depth of the net flux of light going down and up through the layer in the steady state, each direction attenuated by the law of Beer and Lambert. The error is at most 3 s K^2 A_bulk + K I_thresh, where s is depth_spacing_bulk and K a constant of the layer (for every direction, the loss per unit of depth is at most K times the fraction absorbed in one passage), so it goes to zero with depth_spacing_bulk and I_thresh, whatever the uninitialised memory contained. The density integrates to the absorptance of the layer. For a planar structure the density is the textbook one of an incoherent slab, attenuated exponentials from the front and from the rear times the number of round trips, with K taken for the direction of the light only; and with enough polar bins, a small enough depth_spacing_bulk and a small enough I_thresh the profile of a bulk layer between two planar stacks is within any tolerance of the textbook density at the true angles given by Snell's law.", "quantifier": "all energy-conserving stored matrices, angle grids, illumination, bulk layers, depth spacings below half of 1/K, thresholds, numbers of passes and uninitialised memory; for planar structures also all flat surfaces and an absorbing layer", "why_tests_cant": "a profile on one grid of depths can only be compared with another computation; that the values converge to the law needs a bound for all depths, spacings and numbers of passes", "anchors": ["rayflare/matrix_formalism/multiply_matrices.py:calculate_RAT", "rayflare/matrix_formalism/multiply_matrices.py:bulk_profile_calc"]}
{"id": "C191", "title": "Small errors in the stored matrices cause only small errors in R, A and T", "statement": "Take two calculations with calculate_RAT with the same angular grid, incident light and bulk layer, whose stored matrices of the surfaces differ by at most eta (for light incident in any direction, the differences of the fractions reflected and transmitted into each direction and absorbed in each layer add up to at most eta), for instance because of the statistical noise of ray-tracing or different solver options. After equally many passes the differences of everything recorded add up to at most (1 + 2 x number of passes) eta times the incident light. If the bulk layer absorbs, the returned reflection and transmission (for every direction and in total), the absorption in every layer and in the bulk differ by at most eta (1 + 2 / (1 - exp(-2 alpha d))) times the incident light plus the larger I_thresh, however many passes are made, with or without profiles; for the exact solutions all differences together satisfy this bound without I_thresh. Without absorption in the bulk no such bound exists: there are matrices that differ as little as one likes for which all the light is reflected with the one and none with the other.", "quantifier": "all pairs of energy-conserving stored matrices, errors eta, angle grids, illumination, absorbing bulk layers, thresholds, numbers of passes, both branches of the loop", "why_tests_cant": "errors are fed back through an unbounded number of passes; comparing two runs shows one difference, not a bound for all perturbations", "anchors": ["rayflare/matrix_formalism/multiply_matrices.py:calculate_RAT", "rayflare/matrix_formalism/multiply_matrices.py:matrix_multiplication"]}
{"id": "C192", "title": "With enough rays, R, A and T from ray-traced matrices are within any tolerance of the exact ones", "statement": "If every entry of the stored matrices is off by eps or more with probability at most delta, then the R, A and T returned by calculate_RAT for a structure with an absorbing bulk layer (for every direction, every layer and in total) are off by more than (2 h + L) eps (1 + 2 / (1 - exp(-2 alpha d))) times the incident light plus I_thresh with probability at most delta times the number of entries (h directions per hemisphere, L layers), whatever the dependence between the entries. For surfaces that are ray-traced with random numbers, bare or coated with one layer, it follows that for every tolerance and every accepted probability of failure a number of rays per direction can be given in advance, ln(6 h (2 h + 1) / delta) C^2 / (2 tol^2) with C = (2 h + 1) (1 + 2 / (1 - exp(-2 alpha d))), with which all results are within the tolerance plus I_thresh of those with the exact matrices, which are found by following all branches of the rays; for W wavelengths at once, delta is replaced by delta / W in this number. With coatings of several layers the same holds for reflection and transmission, the absorption in the bulk layer and the total absorption of each surface.", "quantifier": "all energy-conserving stored matrices, error distributions, angle grids, illumination, absorbing bulk layers, regular or random textures whose rays get out, numbers of rays, tolerances, probabilities, thresholds and numbers of passes", "why_tests_cant": "the statement is about the distribution of a random result for every texture and number of rays; a test sees single draws and has no exact result to compare with", "anchors": ["rayflare/matrix_formalism/multiply_matrices.py:calculate_RAT", "rayflare/matrix_formalism/multiply_matrices.py:matrix_multiplication", "rayflare/ray_tracing/rt.py:RT", "rayflare/ray_tracing/rt.py:single_ray_stack"]}
{"id": "C193", "title": "In the matrix method the thickness of the bulk layer matters only through its absorption", "statement": "Two calculations with calculate_RAT with the same surface matrices, incident light and I_thresh, whose bulk layers have at every wavelength the same product of absorption coefficient and thickness, make the same number of passes and return the same R, T, bulk absorption and absorption per layer, pass by pass and exactly, with or without profiles. If the depth spacing is scaled with the thickness the bulk profiles are taken at corresponding depths and their values are scaled inversely: all lengths may be given in another unit, the profile being an absorption per unit of length (also for values that come from uninitialised memory).", "quantifier": "all matrices (energy-conserving or not), grids, illumination, wavelengths, pairs of absorption coefficients and thicknesses with the same product, scale factors, depth grids, numbers of passes, contents of uninitialised memory", "why_tests_cant": "a statement about all thicknesses and numbers of passes; tests fix a few structures and compare with a tolerance", "anchors": ["rayflare/matrix_formalism/multiply_matrices.py:calculate_RAT", "rayflare/matrix_formalism/multiply_matrices.py:matrix_multiplication", "rayflare/matrix_formalism/multiply_matrices.py:bulk_profile_calc", "rayflare/matrix_formalism/multiply_matrices.py:make_D"]}
{"id": "C194", "title": "Small errors in the absorption coefficient or the thickness cause only small errors in R, A and T", "statement": "Take two calculations with calculate_RAT with the same angular grid and incident light, in which the product of absorption coefficient and thickness of the bulk layer at a wavelength differs by a relative error of at most rho (for instance because the optical constants are interpolated or the thickness is known only approximately), and whose stored surface matrices differ by at most eta. The returned reflection and transmission (for every direction and in total), the absorption in every layer and in the bulk differ by at most eta + (2 eta + 1.5 rho) / (1 - exp(-2 alpha d)) times the incident light plus the larger I_thresh, however many passes are made, with or without profiles, and for every grid: directions close to grazing do not make the errors larger. For the exact solutions all differences together satisfy this bound without I_thresh.", "quantifier": "all pairs of energy-conserving stored matrices, optical thicknesses and relative errors, angle grids, illumination, thresholds, numbers of passes, both branches of the loop", "why_tests_cant": "the error is made anew in every one of an unbounded number of passes and for path lengths that grow without bound near grazing directions; comparing two runs shows one difference, not a bound", "anchors": ["rayflare/matrix_formalism/multiply_matrices.py:calculate_RAT", "rayflare/matrix_formalism/multiply_matrices.py:matrix_multiplication", "rayflare/matrix_formalism/multiply_matrices.py:make_D"]}
{"id": "C195", "title": "How the absorption of a surface is divided among its layers affects nothing but the absorption per layer", "statement": "Take two calculations with calculate_RAT that differ only in the number of layers of the surfaces and in how the stored absorption of a surface is divided among its layers (for instance because a layer of a coating is split in two). If one runs, so does the other; they make the same number of passes, with or without profiles, and return the same reflection, transmission and bulk absorption for every pass and direction and in total, the same bulk profile and the same total absorption in each surface. The profile returned for a surface depends only on its stored profile and its total absorption.", "quantifier": "all stored matrices, numbers of layers, divisions of the absorption, angle grids, illumination, thresholds and numbers of passes, both branches of the loop", "why_tests_cant": "two numbers of layers and divisions can be compared for one structure and one threshold; the claim is about all of them and about runs with any number of passes", "anchors": ["rayflare/matrix_formalism/multiply_matrices.py:calculate_RAT", "rayflare/matrix_formalism/multiply_matrices.py:matrix_multiplication", "rayflare/matrix_formalism/multiply_matrices.py:append_per_pass_info"]}
{"id": "C196", "title": "Absorption in the surfaces only takes light away from everything else", "statement": "Replace the surfaces of a structure by ones that, from every direction of incidence, send at most as much light into every direction (because their layers absorb more; the layers may also be different in number). Then calculate_RAT makes at most as many passes and returns at most as much reflection and transmission, into every direction and in total, and at most as much absorption in the bulk layer. If the original calculation ends, so does the new one, with or without profiles.", "quantifier": "all stored matrices with non-negative entries, decreases of their entries, angle grids, illumination, bulk layers, thresholds and numbers of passes, both branches of the loop", "why_tests_cant": "the comparison must hold for all pairs of surfaces and although the two calculations may end after different numbers of passes, which can be as many as one likes", "anchors": ["rayflare/matrix_formalism/multiply_matrices.py:calculate_RAT", "rayflare/matrix_formalism/multiply_matrices.py:matrix_multiplication", "rayflare/matrix_formalism/multiply_matrices.py:append_per_pass_info"]}
