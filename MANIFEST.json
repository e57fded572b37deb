{
 "claims": [
  {
   "property": "C01",
   "status": "proved",
   "theorems": [
    "Rayflare.C01_polar_edges",
    "Rayflare.C01_azimuth_edges",
    "Rayflare.C01_rows"
   ],
   "note": "Proved for the model."
  },
  {
   "property": "C02",
   "status": "proved",
   "theorems": [
    "Rayflare.C02_hemispheres"
   ],
   "note": "Proved for the model."
  },
  {
   "property": "C03",
   "status": "proved",
   "theorems": [
    "Rayflare.C03_unique_bin",
    "Rayflare.C03_centre_round_trip"
   ],
   "note": "Proved for the model."
  },
  {
   "property": "C04",
   "status": "partial",
   "theorems": [
    "Rayflare.C04_own_ring_partial",
    "Rayflare.C04_fails"
   ],
   "note": "Violated: digitize(right=True) gives -1, so overall_bin returns the last row of the previous polar ring, or row -1, i.e. the last row, for the first ring. The unchanged code violates the full property: the _fails theorem(s) refute it, the _partial theorem(s) prove the part that holds."
  },
  {
   "property": "C05",
   "status": "proved",
   "theorems": [
    "Rayflare.C05_fold",
    "Rayflare.C05_fold_rotation",
    "Rayflare.C05_fold_idempotent"
   ],
   "note": "Proved for the model."
  },
  {
   "property": "C06",
   "status": "partial",
   "theorems": [
    "Rayflare.C06_fold_general_partial",
    "Rayflare.C06_exactly_partial",
    "Rayflare.C06_fails"
   ],
   "note": "Violated when phi_sym does not divide 2*pi: the function first adds a multiple of 2*pi; only the range [0, phi_sym) is guaranteed. The unchanged code violates the full property: the _fails theorem(s) refute it, the _partial theorem(s) prove the part that holds."
  },
  {
   "property": "C07",
   "status": "proved",
   "theorems": [
    "Rayflare.C07_theta_summary_front",
    "Rayflare.C07_theta_summary_rear",
    "Rayflare.C07_normalised",
    "Rayflare.C07_normalised_rear"
   ],
   "note": "Proved for the model."
  },
  {
   "property": "C08",
   "status": "partial",
   "theorems": [
    "Rayflare.C08_summary_A_partial",
    "Rayflare.C08_fails"
   ],
   "note": "Violated for every ring with more than one azimuth bin and non-zero absorption: theta_summary_A sums over the incidence bins instead of averaging. The unchanged code violates the full property: the _fails theorem(s) refute it, the _partial theorem(s) prove the part that holds."
  },
  {
   "property": "C09",
   "status": "proved",
   "theorems": [
    "Rayflare.C09_launch_single",
    "Rayflare.C09_launch_all"
   ],
   "note": "Proved for the model."
  },
  {
   "property": "C10",
   "status": "partial",
   "theorems": [
    "Rayflare.C10_launch_any_azimuth_partial",
    "Rayflare.C10_fails_at_symmetry_edge",
    "Rayflare.C10_fails_negative"
   ],
   "note": "Violated for phi_in == phi_symmetry, which is not folded because the comparison is strict and lands in the next ring, and for negative phi_in, which is never folded. The unchanged code violates the full property: the _fails theorem(s) refute it, the _partial theorem(s) prove the part that holds."
  },
  {
   "property": "C11",
   "status": "partial",
   "theorems": [
    "Rayflare.C11_same_bin_partial",
    "Rayflare.C11_normal_incidence_partial",
    "Rayflare.C11_fails_on_edges",
    "Rayflare.C11_exactly_partial",
    "Rayflare.C11_fails_on_azimuth_edges"
   ],
   "note": "Violated on interior bin edges, because RT bins with right-closed and make_v0 with left-closed intervals. Proved when theta_in and phi_in are not on a bin edge. The unchanged code violates the full property: the _fails theorem(s) refute it, the _partial theorem(s) prove the part that holds."
  },
  {
   "property": "C12",
   "status": "proved",
   "theorems": [
    "Rayflare.C12_format_change",
    "Rayflare.C12_round_trip",
    "Rayflare.C12_format_change_full"
   ],
   "note": "Proved for the model."
  },
  {
   "property": "C13",
   "status": "partial",
   "theorems": [
    "Rayflare.C13_even_rings_partial",
    "Rayflare.C13_fails"
   ],
   "note": "Violated for odd m >= 3, e.g. five-fold symmetry: in any ring with an odd number of azimuth bins the middle bin folds to azimuth exactly 0, is given bin -1, and for the outermost rings the column of the extracted block is zero. The unchanged code violates the full property: the _fails theorem(s) refute it, the _partial theorem(s) prove the part that holds."
  },
  {
   "property": "C14",
   "status": "proved",
   "theorems": [
    "Rayflare.C14_attenuation",
    "Rayflare.C14_pass",
    "Rayflare.C14_grid_angles"
   ],
   "note": "Proved for the model."
  },
  {
   "property": "C15",
   "status": "proved",
   "theorems": [
    "Rayflare.C15_assembled",
    "Rayflare.C15_energy_balance",
    "Rayflare.C15_nonneg"
   ],
   "note": "Proved for the model."
  },
  {
   "property": "C16",
   "status": "proved",
   "theorems": [
    "Rayflare.C16_end_to_end",
    "Rayflare.C16_total"
   ],
   "note": "Proved for the model."
  },
  {
   "property": "C17",
   "status": "proved",
   "theorems": [
    "Rayflare.C17_end_to_end",
    "Rayflare.C17_terminates",
    "Rayflare.C17_terminates_exists",
    "Rayflare.C17_absorbing_bulk"
   ],
   "note": "Proved for the model."
  },
  {
   "property": "C18",
   "status": "partial",
   "theorems": [
    "Rayflare.C18_lossless_never_ends_fails",
    "Rayflare.C18_fails",
    "Rayflare.C18_ends_iff_partial"
   ],
   "note": "Violated: for a lossless bulk between interfaces that reflect everything internally the travelling power never drops below I_thresh and the loop never ends. Proved: the loop ends for every threshold if and only if every angular bin that light gets into loses some light sooner or later. The unchanged code violates the full property: the _fails theorem(s) refute it, the _partial theorem(s) prove the part that holds."
  },
  {
   "property": "C19",
   "status": "proved",
   "theorems": [
    "Rayflare.C19_branches_agree"
   ],
   "note": "Proved for the model."
  },
  {
   "property": "C20",
   "status": "proved",
   "theorems": [
    "Rayflare.C20_one_pass",
    "Rayflare.C20_profile_integral"
   ],
   "note": "Proved for the model."
  },
  {
   "property": "C21",
   "status": "partial",
   "theorems": [
    "Rayflare.C21_deterministic_partial",
    "Rayflare.C21_one_sample_fails"
   ],
   "note": "Violated when depth_spacing_bulk >= thickness: the single-sample integral is 0 so the rescaling factor is an unset array entry. The unchanged code violates the full property: the _fails theorem(s) refute it, the _partial theorem(s) prove the part that holds."
  },
  {
   "property": "C22",
   "status": "proved",
   "theorems": [
    "Rayflare.C22_assembled",
    "Rayflare.C22_blocks",
    "Rayflare.C22_conserves",
    "Rayflare.C22_fractions"
   ],
   "note": "Proved for the model."
  },
  {
   "property": "C23",
   "status": "proved",
   "theorems": [
    "Rayflare.C23_lambertian"
   ],
   "note": "Proved for the model."
  },
  {
   "property": "C24",
   "status": "proved",
   "theorems": [
    "Rayflare.C24_mirror"
   ],
   "note": "Proved for the model."
  },
  {
   "property": "C25",
   "status": "partial",
   "theorems": [
    "Rayflare.C25_mirror_even_rings_partial",
    "Rayflare.C25_fails"
   ],
   "note": "Violated: unlike out_to_in_matrix it does not special-case 2*pi; in a ring with an odd number of azimuth bins the middle bin folds to azimuth 0 and is filed in another ring, for the first ring in the last, i.e. transmitted, row. The unchanged code violates the full property: the _fails theorem(s) refute it, the _partial theorem(s) prove the part that holds."
  },
  {
   "property": "C26",
   "status": "proved",
   "theorems": [
    "Rayflare.C26_reuse",
    "Rayflare.C26_recompute",
    "Rayflare.C26_iff"
   ],
   "note": "Proved for the model."
  },
  {
   "property": "C27",
   "status": "proved",
   "theorems": [
    "Rayflare.C27_complete_not_recomputed",
    "Rayflare.C27_rerun_changes_nothing",
    "Rayflare.C27_rerun_computes_nothing"
   ],
   "note": "Proved for the model."
  },
  {
   "property": "C28",
   "status": "partial",
   "theorems": [
    "Rayflare.C28_all_loads_succeed_partial",
    "Rayflare.C28_ideal_not_last_fails",
    "Rayflare.C28_profile_method_fails",
    "Rayflare.C28_exactly_partial"
   ],
   "note": "Violated for a Mirror/Lambertian interface that is not last, and for profile layers on RT_Fresnel, Mirror or Lambertian interfaces. Proved for structures in which ideal interfaces occur only last and profiles are requested only from TMM, RT_TMM and RCWA interfaces. The unchanged code violates the full property: the _fails theorem(s) refute it, the _partial theorem(s) prove the part that holds."
  },
  {
   "property": "C29",
   "status": "partial",
   "theorems": [
    "Rayflare.C29_paths_distinct_partial",
    "Rayflare.C29_exactly_partial",
    "Rayflare.C29_absolute_name_fails",
    "Rayflare.C29_own_matrices"
   ],
   "note": "Violated for names that are absolute paths: os.path.join then drops the project folder. Proved for all other names. The unchanged code violates the full property: the _fails theorem(s) refute it, the _partial theorem(s) prove the part that holds."
  },
  {
   "property": "C30",
   "status": "partial",
   "theorems": [
    "Rayflare.C30_same_name_fails",
    "Rayflare.C30_distinct_names_partial"
   ],
   "note": "Violated if two interfaces of a structure carry the same name: the second silently reuses the first one's files. Proved for distinct names, over all histories of completed and killed runs. The unchanged code violates the full property: the _fails theorem(s) refute it, the _partial theorem(s) prove the part that holds."
  },
  {
   "property": "C31",
   "status": "proved",
   "theorems": [
    "Rayflare.C31_crash_repaired",
    "Rayflare.C31_identical"
   ],
   "note": "Proved for the model."
  },
  {
   "property": "C32",
   "status": "partial",
   "theorems": [
    "Rayflare.C32_crash_overwriting_fails",
    "Rayflare.C32_overwrite_repairs_partial"
   ],
   "note": "Violated: killed after saving the new RT file and before the new A file, the mixed new/old pair is accepted by every later run with overwrite=False. The unchanged code violates the full property: the _fails theorem(s) refute it, the _partial theorem(s) prove the part that holds."
  },
  {
   "property": "C33",
   "status": "proved",
   "theorems": [
    "Rayflare.C33_path",
    "Rayflare.C33_again",
    "Rayflare.C33_succeeds",
    "Rayflare.C33_nested_project_raises"
   ],
   "note": "Proved for the model."
  },
  {
   "property": "C34",
   "status": "proved",
   "theorems": [
    "Rayflare.C34_single_call",
    "Rayflare.C34_history"
   ],
   "note": "Proved for the model."
  },
  {
   "property": "C35",
   "status": "proved",
   "theorems": [
    "Rayflare.C35_indices",
    "Rayflare.C35_moves"
   ],
   "note": "Proved for the model."
  },
  {
   "property": "C36",
   "status": "proved",
   "theorems": [
    "Rayflare.C36_energy",
    "Rayflare.C36_beer_lambert"
   ],
   "note": "Proved for the model."
  },
  {
   "property": "C37",
   "status": "proved",
   "theorems": [
    "Rayflare.C37_totals",
    "Rayflare.C37_signs",
    "Rayflare.C37_classification"
   ],
   "note": "Proved for the model."
  },
  {
   "property": "C38",
   "status": "proved",
   "theorems": [
    "Rayflare.C38_terminates"
   ],
   "note": "Proved for the model."
  },
  {
   "property": "C39",
   "status": "partial",
   "theorems": [
    "Rayflare.C39_fails",
    "Rayflare.C39_almost_surely_partial"
   ],
   "note": "Violated: with no absorption there are outcome sequences - a ray trapped by reflection - for which the loop never ends. Proved: with a positive lower bound on the probability of leaving each surface the probability of still being under way goes to zero geometrically. The unchanged code violates the full property: the _fails theorem(s) refute it, the _partial theorem(s) prove the part that holds."
  },
  {
   "property": "C40",
   "status": "proved",
   "theorems": [
    "Rayflare.C40_ray_profile",
    "Rayflare.C40_profile",
    "Rayflare.C40_one_layer"
   ],
   "note": "Proved for the model."
  },
  {
   "property": "C41",
   "status": "proved",
   "theorems": [
    "Rayflare.C41_range",
    "Rayflare.C41_unpolarised",
    "Rayflare.C41_normal",
    "Rayflare.C41_reciprocal",
    "Rayflare.C41_brewster",
    "Rayflare.C41_textbook"
   ],
   "note": "Proved for the model."
  },
  {
   "property": "C42",
   "status": "proved",
   "theorems": [
    "Rayflare.C42_fresnel",
    "Rayflare.C42_tmm"
   ],
   "note": "Proved for the model."
  },
  {
   "property": "C43",
   "status": "proved",
   "theorems": [
    "Rayflare.C43_fresnel",
    "Rayflare.C43_reflectance",
    "Rayflare.C43_tmm"
   ],
   "note": "Proved for the model."
  },
  {
   "property": "C44",
   "status": "proved",
   "theorems": [
    "Rayflare.C44_interface_absorption"
   ],
   "note": "Proved for the model."
  },
  {
   "property": "C45",
   "status": "proved",
   "theorems": [
    "Rayflare.C45_sound_nearest",
    "Rayflare.C45_complete"
   ],
   "note": "Proved for the model."
  },
  {
   "property": "C46",
   "status": "proved",
   "theorems": [
    "Rayflare.C46_exit"
   ],
   "note": "Proved for the model."
  },
  {
   "property": "C47",
   "status": "proved",
   "theorems": [
    "Rayflare.C47_wrap"
   ],
   "note": "Proved for the model."
  },
  {
   "property": "C48",
   "status": "proved",
   "theorems": [
    "Rayflare.C48_columns",
    "Rayflare.C48_entries"
   ],
   "note": "Proved for the model."
  },
  {
   "property": "C49",
   "status": "partial",
   "theorems": [
    "Rayflare.C49_unused_bins_fails",
    "Rayflare.C49_used_bin_partial",
    "Rayflare.C49_all_bins_used_partial"
   ],
   "note": "Violated: np.divide(..., where=n_rays != 0) without out= leaves them unset. The unchanged code violates the full property: the _fails theorem(s) refute it, the _partial theorem(s) prove the part that holds."
  },
  {
   "property": "C50",
   "status": "proved",
   "theorems": [
    "Rayflare.C50_number",
    "Rayflare.C50_even",
    "Rayflare.C50_populated"
   ],
   "note": "Proved for the model."
  },
  {
   "property": "C51",
   "status": "proved",
   "theorems": [
    "Rayflare.C51_entries",
    "Rayflare.C51_energy"
   ],
   "note": "Proved for the model."
  },
  {
   "property": "C52",
   "status": "proved",
   "theorems": [
    "Rayflare.C52_labels",
    "Rayflare.C52_tmm"
   ],
   "note": "Proved for the model."
  },
  {
   "property": "C53",
   "status": "partial",
   "theorems": [
    "Rayflare.C53_lookup",
    "Rayflare.C53_tmm_fails",
    "Rayflare.C53_tmm_partial",
    "Rayflare.C53_coherency_list"
   ],
   "note": "Violated in TMM, which reverses the layers but not the coherency list. Proved for make_TMM_lookuptable. The unchanged code violates the full property: the _fails theorem(s) refute it, the _partial theorem(s) prove the part that holds."
  },
  {
   "property": "C54",
   "status": "proved",
   "theorems": [
    "Rayflare.C54_incoherent_pol",
    "Rayflare.C54_incoherent_u",
    "Rayflare.C54_coherent"
   ],
   "note": "Proved for the model."
  },
  {
   "property": "C55",
   "status": "proved",
   "theorems": [
    "Rayflare.C55_front"
   ],
   "note": "Proved for the model."
  },
  {
   "property": "C56",
   "status": "partial",
   "theorems": [
    "Rayflare.C56_rear_partial",
    "Rayflare.C56_rear_fails"
   ],
   "note": "Violated: the accumulation reads column i1 but writes column in_bin[i1], so orders sharing a bin are lost or power of another column is added. The unchanged code violates the full property: the _fails theorem(s) refute it, the _partial theorem(s) prove the part that holds."
  },
  {
   "property": "C57",
   "status": "proved",
   "theorems": [
    "Rayflare.C57_energy"
   ],
   "note": "Proved for the model."
  },
  {
   "property": "C58",
   "status": "partial",
   "theorems": [
    "Rayflare.C58_pol_partial",
    "Rayflare.C58_pol_fails"
   ],
   "note": "Violated: the empty string is accepted as (0,0) and any two-character string is passed through. Proved for all other arguments. The unchanged code violates the full property: the _fails theorem(s) refute it, the _partial theorem(s) prove the part that holds."
  },
  {
   "property": "C59",
   "status": "proved",
   "theorems": [
    "Rayflare.C59_magnitude",
    "Rayflare.C59_group"
   ],
   "note": "Proved for the model."
  },
  {
   "property": "C60",
   "status": "proved",
   "theorems": [
    "Rayflare.C60_reciprocal",
    "Rayflare.C60_unique"
   ],
   "note": "Proved for the model."
  },
  {
   "property": "C61",
   "status": "partial",
   "theorems": [
    "Rayflare.C61_shift_partial",
    "Rayflare.C61_shift_fails"
   ],
   "note": "Violated for surfaces whose coordinates are all Python integers, such as planar_surface(size=1): NumPy then truncates the shifted heights but moves the reference height. Proved for floating point coordinates, over exact reals. The unchanged code violates the full property: the _fails theorem(s) refute it, the _partial theorem(s) prove the part that holds."
  },
  {
   "property": "C62",
   "status": "partial",
   "theorems": [
    "Rayflare.C62_refresh_partial",
    "Rayflare.C62_refresh_fails"
   ],
   "note": "Violated for every surface below the first one of a stack, because shift leaves the stored original points unshifted. Proved for surfaces that have not been shifted. The unchanged code violates the full property: the _fails theorem(s) refute it, the _partial theorem(s) prove the part that holds."
  },
  {
   "property": "C63",
   "status": "partial",
   "theorems": [
    "Rayflare.C63_heightmap_partial",
    "Rayflare.C63_heightmap_fails",
    "Rayflare.C63_not_square_fails"
   ],
   "note": "Violated for non-square maps, whose heights are scrambled. Proved for square maps, with the transposed placement (x_j, y_i). The unchanged code violates the full property: the _fails theorem(s) refute it, the _partial theorem(s) prove the part that holds."
  },
  {
   "property": "C64",
   "status": "proved",
   "theorems": [
    "Rayflare.C64_facet_angle",
    "Rayflare.C64_mesh"
   ],
   "note": "Proved for the model."
  },
  {
   "property": "C65",
   "status": "partial",
   "theorems": [
    "Rayflare.C65_grooves_partial",
    "Rayflare.C65_grooves_fails"
   ],
   "note": "Violated for every width other than 1: the end of the ridge is hard-coded at 1. Proved for width = 1. The unchanged code violates the full property: the _fails theorem(s) refute it, the _partial theorem(s) prove the part that holds."
  },
  {
   "property": "C66",
   "status": "proved",
   "theorems": [
    "Rayflare.C66_rough_plane",
    "Rayflare.C66_rough_pyramid",
    "Rayflare.C66_grid_corners"
   ],
   "note": "Proved for the model."
  },
  {
   "property": "C67",
   "status": "partial",
   "theorems": [
    "Rayflare.C67_tmm",
    "Rayflare.C67_rt_partial",
    "Rayflare.C67_rt_fails",
    "Rayflare.C67_rt_order_fails"
   ],
   "note": "Violated for ray-traced interfaces, sampled layer by layer, when a layer width is not a multiple of the depth spacing or the layers are not requested in increasing order. Proved for those otherwise, and for profiles sampled on the global depth grid as by TMM and RCWA, for any order of the requested layers. The unchanged code violates the full property: the _fails theorem(s) refute it, the _partial theorem(s) prove the part that holds."
  },
  {
   "property": "C68",
   "status": "proved",
   "theorems": [
    "Rayflare.C68_interface",
    "Rayflare.C68_method"
   ],
   "note": "Proved for the model."
  },
  {
   "property": "C69",
   "status": "partial",
   "theorems": [
    "Rayflare.C69_lambert_law_partial",
    "Rayflare.C69_fails"
   ],
   "note": "Violated for every grid with two or more polar rings: the weights are cos(theta)*dtheta without the solid-angle factor sin(theta), so light is over-concentrated near the normal. The unchanged code violates the full property: the _fails theorem(s) refute it, the _partial theorem(s) prove the part that holds."
  },
  {
   "property": "C70",
   "status": "partial",
   "theorems": [
    "Rayflare.C70_variables_partial",
    "Rayflare.C70_no_pass_fails",
    "Rayflare.C70_fails"
   ],
   "note": "Violated when the front surface transmits no more than I_thresh at every wavelength: no pass is made and only R is returned, although the front surface may absorb. The unchanged code violates the full property: the _fails theorem(s) refute it, the _partial theorem(s) prove the part that holds."
  },
  {
   "property": "C71",
   "status": "proved",
   "theorems": [
    "Rayflare.C71_interface_profile"
   ],
   "note": "Proved for the model."
  },
  {
   "property": "C72",
   "status": "partial",
   "theorems": [
    "Rayflare.C72_path_clash",
    "Rayflare.C72_only_clash_partial",
    "Rayflare.C72_lookup_table_overwritten_fails"
   ],
   "note": "Violated when the table's interface name is another interface's name followed by 'frontprofmat' or 'rearprofmat'; those are the only clashes. The unchanged code violates the full property: the _fails theorem(s) refute it, the _partial theorem(s) prove the part that holds."
  },
  {
   "property": "C73",
   "status": "partial",
   "theorems": [
    "Rayflare.C73_stale_profile_fails",
    "Rayflare.C73_same_request_partial"
   ],
   "note": "Violated: an overwriting run without prof_layers leaves an older profile file, which a later run with prof_layers accepts. Proved for histories in which the request does not change. The unchanged code violates the full property: the _fails theorem(s) refute it, the _partial theorem(s) prove the part that holds."
  },
  {
   "property": "C74",
   "status": "partial",
   "theorems": [
    "Rayflare.C74_table_without_profile_fails",
    "Rayflare.C74_history_fails",
    "Rayflare.C74_fresh_table_partial"
   ],
   "note": "Violated for RT_TMM interfaces: the lookup table without profile coefficients is kept and the calculation raises. The unchanged code violates the full property: the _fails theorem(s) refute it, the _partial theorem(s) prove the part that holds."
  },
  {
   "property": "C75",
   "status": "partial",
   "theorems": [
    "Rayflare.C75_torn_file_fails",
    "Rayflare.C75_torn_RT_repaired_partial",
    "Rayflare.C75_overwrite_repairs_partial"
   ],
   "note": "Violated: a cut-off A, profile or lookup-table file, or a cut-off RT file beside an existing A file, makes every later run with overwrite=False raise, however often it is tried; a cut-off RT file without an A file is repaired; with overwrite=True every state of the disk is repaired. The unchanged code violates the full property: the _fails theorem(s) refute it, the _partial theorem(s) prove the part that holds."
  },
  {
   "property": "C76",
   "status": "proved",
   "theorems": [
    "Rayflare.C76_label"
   ],
   "note": "Proved for the model."
  },
  {
   "property": "C77",
   "status": "proved",
   "theorems": [
    "Rayflare.C77_angle_assigned",
    "Rayflare.C77_in_cell",
    "Rayflare.C77_unit"
   ],
   "note": "Proved for the model."
  },
  {
   "property": "C78",
   "status": "partial",
   "theorems": [
    "Rayflare.C78_nonperiodic_label_fails",
    "Rayflare.C78_label_partial"
   ],
   "note": "Violated: a ray from above reflected by a facet steeper than 45 degrees and leaving downwards next to the mesh is reported as transmitted although it never entered the other medium. Proved when the ray leaves upwards in the upper or downwards in the lower medium. The unchanged code violates the full property: the _fails theorem(s) refute it, the _partial theorem(s) prove the part that holds."
  },
  {
   "property": "C79",
   "status": "proved",
   "theorems": [
    "Rayflare.C79_direction_index",
    "Rayflare.C79_giving_up"
   ],
   "note": "Proved for the model."
  },
  {
   "property": "C80",
   "status": "proved",
   "theorems": [
    "Rayflare.C80_one_interaction"
   ],
   "note": "Proved for the model."
  },
  {
   "property": "C81",
   "status": "partial",
   "theorems": [
    "Rayflare.C81_sides_fails",
    "Rayflare.C81_default_partial"
   ],
   "note": "Violated: the reversed stack is used for the second entry of sides, whatever it is, so sides=[-1, 1] stores front-incidence results, in reversed layer order, as side -1 and vice versa. Proved for the default order. The unchanged code violates the full property: the _fails theorem(s) refute it, the _partial theorem(s) prove the part that holds."
  },
  {
   "property": "C82",
   "status": "partial",
   "theorems": [
    "Rayflare.C82_transparent_fails",
    "Rayflare.C82_independent_partial"
   ],
   "note": "Violated for unpolarised light: np.divide(..., where=...) without out= returns uninitialised memory. The unchanged code violates the full property: the _fails theorem(s) refute it, the _partial theorem(s) prove the part that holds."
  },
  {
   "property": "C83",
   "status": "partial",
   "theorems": [
    "Rayflare.C83_reaching_fails",
    "Rayflare.C83_reaching_u_fails",
    "Rayflare.C83_reaching_partial",
    "Rayflare.C83_reaching_pol_partial"
   ],
   "note": "Violated for s or p: the light left after the layer is used and reflection is ignored; violated for unpolarised light: the s value is used for both. Proved: for unpolarised light the value is that of s; for one polarisation it is too large by the reflected light minus the absorption of the layer, so it is right only if these happen to be equal. The unchanged code violates the full property: the _fails theorem(s) refute it, the _partial theorem(s) prove the part that holds."
  },
  {
   "property": "C84",
   "status": "partial",
   "theorems": [
    "Rayflare.C84_mean_fails",
    "Rayflare.C84_equal_partial"
   ],
   "note": "Violated: the s solution is used twice. The unchanged code violates the full property: the _fails theorem(s) refute it, the _partial theorem(s) prove the part that holds."
  },
  {
   "property": "C85",
   "status": "partial",
   "theorems": [
    "Rayflare.C85_polar",
    "Rayflare.C85_azimuth_partial",
    "Rayflare.C85_azimuth_fails",
    "Rayflare.C85_bins_partial"
   ],
   "note": "Violated when phi_symmetry does not divide 180 degrees: arctan(fr_x/fr_y) gives an order and the opposite one the same azimuth. Proved for the polar angle always, and for the azimuth if phi_symmetry is 360 degrees divided by an even number. The unchanged code violates the full property: the _fails theorem(s) refute it, the _partial theorem(s) prove the part that holds."
  },
  {
   "property": "C86",
   "status": "partial",
   "theorems": [
    "Rayflare.C86_no_reflection_fails",
    "Rayflare.C86_reflection_partial"
   ],
   "note": "Violated: if no propagating reflected order carries power of at least 1e-16, e.g. an index-matched interface, reflected powers are normalised by 0/0 and the whole column is NaN. Proved if some reflected order does. The unchanged code violates the full property: the _fails theorem(s) refute it, the _partial theorem(s) prove the part that holds."
  },
  {
   "property": "C87",
   "status": "partial",
   "theorems": [
    "Rayflare.C87_geometry_partial",
    "Rayflare.C87_geometry_fails",
    "Rayflare.C87_absorption_order"
   ],
   "note": "Violated: layers and widths are reversed, the list of shapes is not. Proved for front incidence and for stacks whose list of shapes is symmetric. The unchanged code violates the full property: the _fails theorem(s) refute it, the _partial theorem(s) prove the part that holds."
  },
  {
   "property": "C88",
   "status": "partial",
   "theorems": [
    "Rayflare.C88_calculate_partial",
    "Rayflare.C88_calculate_fails"
   ],
   "note": "Violated: a change of wavelengths after set_widths silently restores the widths given at construction. Proved for all histories without such a change. The unchanged code violates the full property: the _fails theorem(s) refute it, the _partial theorem(s) prove the part that holds."
  },
  {
   "property": "C89",
   "status": "partial",
   "theorems": [
    "Rayflare.C89_profile_partial",
    "Rayflare.C89_profile_fails"
   ],
   "note": "Violated: when angle, polarisation, widths or shapes change but not the wavelengths, R, T and A of the earlier calculation are returned with the new profile. Proved if nothing was calculated before, if the wavelengths changed, or directly after calculate with the same options. The unchanged code violates the full property: the _fails theorem(s) refute it, the _partial theorem(s) prove the part that holds."
  },
  {
   "property": "C90",
   "status": "partial",
   "theorems": [
    "Rayflare.C90_results_partial",
    "Rayflare.C90_results_fails"
   ],
   "note": "Violated: calculate_profile adds to or overwrites the dictionary returned earlier. Proved for R, T, A always and for everything if no profile is asked for. The unchanged code violates the full property: the _fails theorem(s) refute it, the _partial theorem(s) prove the part that holds."
  },
  {
   "property": "C91",
   "status": "partial",
   "theorems": [
    "Rayflare.C91_polygon_partial",
    "Rayflare.C91_polygon_fails"
   ],
   "note": "Violated for vertices given as a list: the list is shifted in place, so the polygon moves by its centre from one wavelength to the next. Proved for tuples and for polygons centred at the origin. The unchanged code violates the full property: the _fails theorem(s) refute it, the _partial theorem(s) prove the part that holds."
  },
  {
   "property": "C92",
   "status": "partial",
   "theorems": [
    "Rayflare.C92_unpolarised_partial",
    "Rayflare.C92_unpolarised_fails"
   ],
   "note": "Violated: 'u' is a single wave polarised at 45 degrees. Proved when no power flux mixes s and p. The unchanged code violates the full property: the _fails theorem(s) refute it, the _partial theorem(s) prove the part that holds."
  },
  {
   "property": "C93",
   "status": "partial",
   "theorems": [
    "Rayflare.C93_material_partial",
    "Rayflare.C93_material_fails"
   ],
   "note": "Violated for different materials with the same text representation. Proved otherwise, for any order of the set of materials. The unchanged code violates the full property: the _fails theorem(s) refute it, the _partial theorem(s) prove the part that holds."
  },
  {
   "property": "C94",
   "status": "partial",
   "theorems": [
    "Rayflare.C94_depth_partial",
    "Rayflare.C94_epsilon",
    "Rayflare.C94_depth_fails"
   ],
   "note": "Violated: get_fields_z_integral uses the layer above; get_fields_unit_cell for the incidence medium uses the first layer, and get_fields raises an exception. Proved otherwise. The unchanged code violates the full property: the _fails theorem(s) refute it, the _partial theorem(s) prove the part that holds."
  },
  {
   "property": "C95",
   "status": "partial",
   "theorems": [
    "Rayflare.C95_rear_partial",
    "Rayflare.C95_rear_fails"
   ],
   "note": "Violated for every coverage_height other than 0: the rear surface gets the same, not the opposite, reference height. The unchanged code violates the full property: the _fails theorem(s) refute it, the _partial theorem(s) prove the part that holds."
  },
  {
   "property": "C96",
   "status": "partial",
   "theorems": [
    "Rayflare.C96_rear_partial",
    "Rayflare.C96_rear_fails"
   ],
   "note": "Violated: the rear surface is built without the height distribution and keeps its first height. The unchanged code violates the full property: the _fails theorem(s) refute it, the _partial theorem(s) prove the part that holds."
  },
  {
   "property": "C97",
   "status": "partial",
   "theorems": [
    "Rayflare.C97_hemisphere_partial",
    "Rayflare.C97_hemisphere_fails"
   ],
   "note": "The last part is violated, without any error, for a cap that does not fit into the unit cell. The unchanged code violates the full property: the _fails theorem(s) refute it, the _partial theorem(s) prove the part that holds."
  },
  {
   "property": "C98",
   "status": "partial",
   "theorems": [
    "Rayflare.C98_bulk_depths_partial",
    "Rayflare.C98_bulk_depths_fails",
    "Rayflare.C98_error_bound_partial"
   ],
   "note": "Violated for layers that do not start at a multiple of the depth spacing: the first sample is always labelled as if it were at the top of the layer. Proved for all widths: the values are those of the true depths and the labels are too small by less than one spacing. The unchanged code violates the full property: the _fails theorem(s) refute it, the _partial theorem(s) prove the part that holds."
  },
  {
   "property": "C99",
   "status": "partial",
   "theorems": [
    "Rayflare.C99_function_partial",
    "Rayflare.C99_function_fails"
   ],
   "note": "Violated for options.bulk_profile=False: always an exception. Proved with a bulk profile. The unchanged code violates the full property: the _fails theorem(s) refute it, the _partial theorem(s) prove the part that holds."
  },
  {
   "property": "C100",
   "status": "proved",
   "theorems": [
    "Rayflare.C100_surroundings"
   ],
   "note": "Proved for the model."
  },
  {
   "property": "C101",
   "status": "partial",
   "theorems": [
    "Rayflare.C101_direction",
    "Rayflare.C101_above_first_surface",
    "Rayflare.C101_inside_layer_partial",
    "Rayflare.C101_from_below_fails"
   ],
   "note": "Violated for rays started upwards from the transmission medium: they start 1e-8 above the last surface, on the wrong side of it. Proved for the incidence medium and the inner layers. The unchanged code violates the full property: the _fails theorem(s) refute it, the _partial theorem(s) prove the part that holds."
  },
  {
   "property": "C102",
   "status": "proved",
   "theorems": [
    "Rayflare.C102_coverage_height",
    "Rayflare.C102_aims_into_cell",
    "Rayflare.C102_starts_clear"
   ],
   "note": "Proved for the model."
  },
  {
   "property": "C103",
   "status": "partial",
   "theorems": [
    "Rayflare.C103_build",
    "Rayflare.C103_position_partial",
    "Rayflare.C103_too_many",
    "Rayflare.C103_integer_coordinates_fails"
   ],
   "note": "Violated for a texture given with integer coordinates, which moves by whole units only. Proved otherwise; too many textures raise an exception. The unchanged code violates the full property: the _fails theorem(s) refute it, the _partial theorem(s) prove the part that holds."
  },
  {
   "property": "C104",
   "status": "partial",
   "theorems": [
    "Rayflare.C104_rt_tmm_partial",
    "Rayflare.C104_rcwa_even_partial",
    "Rayflare.C104_rcwa_odd_fails"
   ],
   "note": "Violated by RCWA for phi_symmetry = 2*pi/odd: filed under the incident azimuth instead of the opposite one. Proved for ray tracing against TMM, and for RCWA for 2*pi/even. The unchanged code violates the full property: the _fails theorem(s) refute it, the _partial theorem(s) prove the part that holds."
  },
  {
   "property": "C105",
   "status": "partial",
   "theorems": [
    "Rayflare.C105_meaning_partial",
    "Rayflare.C105_rt_rcwa_fails"
   ],
   "note": "Violated: ray tracing measures azimuths from the x axis, RCWA diffraction orders are filed with azimuths measured from the y axis. Proved for directions on the diagonal. The unchanged code violates the full property: the _fails theorem(s) refute it, the _partial theorem(s) prove the part that holds."
  },
  {
   "property": "C106",
   "status": "proved",
   "theorems": [
    "Rayflare.C106_orders",
    "Rayflare.C106_grating",
    "Rayflare.C106_zeroth"
   ],
   "note": "Proved for the model."
  },
  {
   "property": "C107",
   "status": "partial",
   "theorems": [
    "Rayflare.C107_integral_partial",
    "Rayflare.C107_one_grazing_ray_fails"
   ],
   "note": "Violated: one absorbed ray at an angle not covered by the lookup table, which ends 1e-3 rad before 90 degrees, makes the profile of the whole side zero. Proved when all angles are covered. The unchanged code violates the full property: the _fails theorem(s) refute it, the _partial theorem(s) prove the part that holds."
  },
  {
   "property": "C108",
   "status": "partial",
   "theorems": [
    "Rayflare.C108_weighted_partial",
    "Rayflare.C108_incoherent_fails",
    "Rayflare.C108_outside_table_fails"
   ],
   "note": "Violated: identically zero if all layers are requested and all are incoherent, and identically zero if any local angle of the grid, with light or without, lies outside the table. Proved otherwise. The unchanged code violates the full property: the _fails theorem(s) refute it, the _partial theorem(s) prove the part that holds."
  },
  {
   "property": "C109",
   "status": "proved",
   "theorems": [
    "Rayflare.C109_positions",
    "Rayflare.C109_complete",
    "Rayflare.C109_default",
    "Rayflare.C109_media"
   ],
   "note": "Proved for the model."
  },
  {
   "property": "C110",
   "status": "partial",
   "theorems": [
    "Rayflare.C110_inside_partial",
    "Rayflare.C110_boundary_fails"
   ],
   "note": "Violated on layer boundaries: whichever layer the solver assigns a boundary to, for one of the two directions the value comes from the neighbouring layer. Proved at all depths strictly inside a layer. The unchanged code violates the full property: the _fails theorem(s) refute it, the _partial theorem(s) prove the part that holds."
  },
  {
   "property": "C111",
   "status": "partial",
   "theorems": [
    "Rayflare.C111_names",
    "Rayflare.C111_tables_partial",
    "Rayflare.C111_stale_fails"
   ],
   "note": "Violated with overwrite=False: a second structure using textures with the same names in the same project silently uses the tables of the first, whatever its materials and layers. Proved with overwrite=True or when no table of that name exists. The unchanged code violates the full property: the _fails theorem(s) refute it, the _partial theorem(s) prove the part that holds."
  },
  {
   "property": "C112",
   "status": "partial",
   "theorems": [
    "Rayflare.C112_angle",
    "Rayflare.C112_wavelength_partial",
    "Rayflare.C112_wavelength_fails"
   ],
   "note": "Violated: for a wavelength that is not in the table the nearest tabulated one is used without any error, however far away. Proved for tabulated wavelengths. The unchanged code violates the full property: the _fails theorem(s) refute it, the _partial theorem(s) prove the part that holds."
  },
  {
   "property": "C113",
   "status": "partial",
   "theorems": [
    "Rayflare.C113_area_partial",
    "Rayflare.C113_area_fails"
   ],
   "note": "Violated: the cosine in each facet is not divided by the lengths of the edges, so a flat unit square has area 0 and larger facets give NaN. Proved if every facet has a right angle, or two edges of length 1, at its second corner. The unchanged code violates the full property: the _fails theorem(s) refute it, the _partial theorem(s) prove the part that holds."
  },
  {
   "property": "C114",
   "status": "partial",
   "theorems": [
    "Rayflare.C114_bulks_partial",
    "Rayflare.C114_total_partial",
    "Rayflare.C114_opaque_front_fails",
    "Rayflare.C114_profiles_partial",
    "Rayflare.C114_branches_partial",
    "Rayflare.C114_profile_totals_partial"
   ],
   "note": "Violated: each bulk layer is calculated on its own, with the full incident light on the interface above it. A stack whose front surface absorbs 98 % of the light is reported to transmit all light, and all results add up to the number of bulk layers times the incident power. Proved: the results for each bulk index, with or without profiles, are those of the structure of this bulk layer and its two interfaces alone, and the profiles integrate to the absorption; for a single bulk layer this is the full property. The unchanged code violates the full property: the _fails theorem(s) refute it, the _partial theorem(s) prove the part that holds."
  },
  {
   "property": "C115",
   "status": "partial",
   "theorems": [
    "Rayflare.C115_shifted_partial",
    "Rayflare.C115_shift_fails",
    "Rayflare.C115_layer_fails",
    "Rayflare.C115_order_fails"
   ],
   "note": "Violated for light from the rear: with layer widths that are multiples of the spacing every value is the one at z plus the spacing; with other widths values come from the wrong layer, and with prof_layers not in increasing order the layers are exchanged. Proved: the exact shift for widths that are multiples of the spacing. The unchanged code violates the full property: the _fails theorem(s) refute it, the _partial theorem(s) prove the part that holds."
  },
  {
   "property": "C116",
   "status": "proved",
   "theorems": [
    "Rayflare.C116_density"
   ],
   "note": "Proved for the model."
  },
  {
   "property": "C117",
   "status": "partial",
   "theorems": [
    "Rayflare.C117_all_layers_partial",
    "Rayflare.C117_set_widths_fails",
    "Rayflare.C117_order_fails",
    "Rayflare.C117_subset_fails"
   ],
   "note": "Violated: after set_widths the depths are those of the old widths, so that an exception is raised unless the numbers of samples agree; profiles of only some layers raise an exception, and layers requested in another order are silently put at the wrong depths. Proved for all layers and unchanged widths. The unchanged code violates the full property: the _fails theorem(s) refute it, the _partial theorem(s) prove the part that holds."
  },
  {
   "property": "C118",
   "status": "partial",
   "theorems": [
    "Rayflare.C118_local_partial",
    "Rayflare.C118_normal_fails"
   ],
   "note": "Violated: rays absorbed at exactly normal local incidence are filed as grazing. Proved for all other rays. The unchanged code violates the full property: the _fails theorem(s) refute it, the _partial theorem(s) prove the part that holds."
  },
  {
   "property": "C119",
   "status": "partial",
   "theorems": [
    "Rayflare.C119_refraction_partial",
    "Rayflare.C119_refraction_fails"
   ],
   "note": "Violated if a medium absorbs: decide_RT_TMM uses the complex ratio of the refractive indices, decide_RT_Fresnel that of the real parts. Proved for transparent media. The unchanged code violates the full property: the _fails theorem(s) refute it, the _partial theorem(s) prove the part that holds."
  },
  {
   "property": "C120",
   "status": "partial",
   "theorems": [
    "Rayflare.C120_schedules_partial",
    "Rayflare.C120_surfaces",
    "Rayflare.C120_surfaces_fails",
    "Rayflare.C120_polygons",
    "Rayflare.C120_polygons_batch",
    "Rayflare.C120_polygons_fails"
   ],
   "note": "Violated: Inkstone polygons whose vertices are given as a list are moved again at every wavelength of a batch, and surfaces with a height distribution keep the height drawn last, so that in both cases results depend on the batches. Proved for tasks whose results do not depend on changes made by earlier ones, in particular for surfaces without height distribution and polygons given as tuples. The unchanged code violates the full property: the _fails theorem(s) refute it, the _partial theorem(s) prove the part that holds."
  },
  {
   "property": "C121",
   "status": "partial",
   "theorems": [
    "Rayflare.C121_front_partial",
    "Rayflare.C121_rear_partial",
    "Rayflare.C121_both_partial",
    "Rayflare.C121_rear_only_fails"
   ],
   "note": "Violated: surfaces without prof_layers are left out of the list, so with profiles in the rear surface only the first entry is the one of the rear surface and make_absorption_function raises IndexError. Proved: the integral for each surface with profiles, and the order if both surfaces have profiles. The unchanged code violates the full property: the _fails theorem(s) refute it, the _partial theorem(s) prove the part that holds."
  },
  {
   "property": "C122",
   "status": "partial",
   "theorems": [
    "Rayflare.C122_points",
    "Rayflare.C122_outward_partial",
    "Rayflare.C122_inward_partial",
    "Rayflare.C122_facets",
    "Rayflare.C122_open",
    "Rayflare.C122_shallow_fails",
    "Rayflare.C122_sphere_fails",
    "Rayflare.C122_rim_fails"
   ],
   "note": "Violated: facets with two corners on the rim and the third close above the edge between them are turned inwards; if the centre is lowered by more than 0.9 radius all acute facets are removed; with h = radius the bottom of the sphere is missing up to a height of 0.1 radius. Proved: all points are on the sphere and above z = 0, facets and indices agree, no facet with area in z = 0 remains, and acute facets whose corners are all above or all below the centre (or, near its height, on one side of the plane y = 0) are oriented correctly. The unchanged code violates the full property: the _fails theorem(s) refute it, the _partial theorem(s) prove the part that holds."
  },
  {
   "property": "C123",
   "status": "proved",
   "theorems": [
    "Rayflare.C123_stored",
    "Rayflare.C123_energy",
    "Rayflare.C123_ends"
   ],
   "note": "Proved for the model."
  },
  {
   "property": "C124",
   "status": "partial",
   "theorems": [
    "Rayflare.C124_returned_partial",
    "Rayflare.C124_returned_profiles_partial",
    "Rayflare.C124_returned_fails"
   ],
   "note": "Violated: if an interface lets less than I_thresh of the incident light through, calculate_RAT returns only R if this interface is on top of the last bulk layer, and raises an exception if it is on top of another one. Proved: all results are returned if and only if every interface above a bulk layer transmits more than I_thresh at some wavelength. The unchanged code violates the full property: the _fails theorem(s) refute it, the _partial theorem(s) prove the part that holds."
  },
  {
   "property": "C125",
   "status": "partial",
   "theorems": [
    "Rayflare.C125_energy_partial",
    "Rayflare.C125_ends_partial",
    "Rayflare.C125_memory_partial",
    "Rayflare.C125_edge_fails",
    "Rayflare.C125_all_fails",
    "Rayflare.C125_others"
   ],
   "note": "Violated: for theta_in on an edge between two rings of bins the reported reflectance is uninitialised memory and can be any number, and with phi_in='all' the ray tracing raises an exception. Proved for every direction strictly inside a bin and for normal incidence. The unchanged code violates the full property: the _fails theorem(s) refute it, the _partial theorem(s) prove the part that holds."
  },
  {
   "property": "C126",
   "status": "proved",
   "theorems": [
    "Rayflare.C126_ray",
    "Rayflare.C126_media",
    "Rayflare.C126_columns",
    "Rayflare.C126_hemispheres",
    "Rayflare.C126_calculated"
   ],
   "note": "Proved for the model."
  },
  {
   "property": "C127",
   "status": "proved",
   "theorems": [
    "Rayflare.C127_wander",
    "Rayflare.C127_returns"
   ],
   "note": "Proved for the model."
  },
  {
   "property": "C128",
   "status": "proved",
   "theorems": [
    "Rayflare.C128_not_trapped"
   ],
   "note": "Proved for the model."
  },
  {
   "property": "C129",
   "status": "proved",
   "theorems": [
    "Rayflare.C129_fresnel",
    "Rayflare.C129_transparent",
    "Rayflare.C129_tmm",
    "Rayflare.C129_probability",
    "Rayflare.C129_matrix",
    "Rayflare.C129_matrix_bare"
   ],
   "note": "Proved for the model."
  },
  {
   "property": "C130",
   "status": "proved",
   "theorems": [
    "Rayflare.C130_no_error",
    "Rayflare.C130_totals",
    "Rayflare.C130_classification",
    "Rayflare.C130_media",
    "Rayflare.C130_slipping",
    "Rayflare.C130_ends",
    "Rayflare.C130_position",
    "Rayflare.C130_level"
   ],
   "note": "Proved for the model."
  },
  {
   "property": "C131",
   "status": "proved",
   "theorems": [
    "Rayflare.C131_unbiased",
    "Rayflare.C131_probability",
    "Rayflare.C131_RAT"
   ],
   "note": "Proved for the model."
  },
  {
   "property": "C132",
   "status": "proved",
   "theorems": [
    "Rayflare.C132_restart",
    "Rayflare.C132_giving_up",
    "Rayflare.C132_undefined"
   ],
   "note": "Proved for the model."
  },
  {
   "property": "C133",
   "status": "proved",
   "theorems": [
    "Rayflare.C133_lower_threshold",
    "Rayflare.C133_accuracy",
    "Rayflare.C133_limit",
    "Rayflare.C133_total",
    "Rayflare.C133_exists_iff",
    "Rayflare.C133_exists_iff_ends"
   ],
   "note": "Proved for the model."
  },
  {
   "property": "C134",
   "status": "proved",
   "theorems": [
    "Rayflare.C134_other_wavelengths",
    "Rayflare.C134_not_exact"
   ],
   "note": "Proved for the model."
  },
  {
   "property": "C135",
   "status": "proved",
   "theorems": [
    "Rayflare.C135_returned",
    "Rayflare.C135_exact"
   ],
   "note": "Proved for the model."
  },
  {
   "property": "C136",
   "status": "partial",
   "theorems": [
    "Rayflare.C136_changed_structure_fails",
    "Rayflare.C136_shared_folder_partial"
   ],
   "note": "Violated: if a structure is changed without changing the names of its interfaces, or the options are changed, the results of the old one are silently reused unless overwrite is set. It holds for any number of structures sharing the folder and any history of completed runs, overwriting or not, and runs killed between two saves, as long as the same name always stands for the same interface; a run then also never raises. The unchanged code violates the full property: the _fails theorem(s) refute it, the _partial theorem(s) prove the part that holds."
  },
  {
   "property": "C137",
   "status": "partial",
   "theorems": [
    "Rayflare.C137_none_raises",
    "Rayflare.C137_files_right",
    "Rayflare.C137_same_as_alone_partial",
    "Rayflare.C137_different_interfaces_partial",
    "Rayflare.C137_every_schedule_ends",
    "Rayflare.C137_random_fails"
   ],
   "note": "Violated for ray tracing of a common interface: R/T and absorption matrices of two different calculations can end up side by side. The unchanged code violates the full property: the _fails theorem(s) refute it, the _partial theorem(s) prove the part that holds."
  },
  {
   "property": "C138",
   "status": "proved",
   "theorems": [
    "Rayflare.C138_frequency",
    "Rayflare.C138_RAT",
    "Rayflare.C138_enough",
    "Rayflare.C138_matrix",
    "Rayflare.C138_matrix_bare"
   ],
   "note": "Proved for the model."
  },
  {
   "property": "C139",
   "status": "proved",
   "theorems": [
    "Rayflare.C139_passes",
    "Rayflare.C139_textbook",
    "Rayflare.C139_tmm",
    "Rayflare.C139_mirror",
    "Rayflare.C139_tmm_slab"
   ],
   "note": "Proved for the model."
  },
  {
   "property": "C140",
   "status": "partial",
   "theorems": [
    "Rayflare.C140_sum_partial",
    "Rayflare.C140_labels_partial",
    "Rayflare.C140_raises",
    "Rayflare.C140_labels_fails",
    "Rayflare.C140_sum_fails"
   ],
   "note": "Violated: the returned basis set is made with the S4_options given to calculate, the absorptions with those given when the structure was made; the absorption per layer is cut off at zero, that per order is not; with Inkstone, or unless all S4_options are given, calculate fails. Proved for the same complete S4_options and layers that do not emit light. The unchanged code violates the full property: the _fails theorem(s) refute it, the _partial theorem(s) prove the part that holds."
  },
  {
   "property": "C141",
   "status": "partial",
   "theorems": [
    "Rayflare.C141_used_partial",
    "Rayflare.C141_used_fails",
    "Rayflare.C141_method_fails",
    "Rayflare.C141_fields"
   ],
   "note": "Violated: calculate uses the S4_options given when the structure was made; a structure made for Inkstone cannot be calculated with S4; the functions returning fields use the S4_options given to them but fail if any is missing. Proved if the options are the same as when the structure was made. The unchanged code violates the full property: the _fails theorem(s) refute it, the _partial theorem(s) prove the part that holds."
  },
  {
   "property": "C142",
   "status": "partial",
   "theorems": [
    "Rayflare.C142_s4",
    "Rayflare.C142_inkstone_partial",
    "Rayflare.C142_inkstone_fails"
   ],
   "note": "Violated: Inkstone ignores the angle of polygons. Proved for S4 and for all other shapes. The unchanged code violates the full property: the _fails theorem(s) refute it, the _partial theorem(s) prove the part that holds."
  },
  {
   "property": "C143",
   "status": "partial",
   "theorems": [
    "Rayflare.C143_material_partial",
    "Rayflare.C143_new_fails",
    "Rayflare.C143_list_fails"
   ],
   "note": "Violated: a material that no shape had when the structure was made, and materials given as lists, raise an exception. Proved for materials which occur at construction and have different names. The unchanged code violates the full property: the _fails theorem(s) refute it, the _partial theorem(s) prove the part that holds."
  },
  {
   "property": "C144",
   "status": "partial",
   "theorems": [
    "Rayflare.C144_trapping_partial",
    "Rayflare.C144_tmm_partial",
    "Rayflare.C144_fails"
   ],
   "note": "Violated: the shares of the program are cos(theta) dtheta normalised instead of sin^2(theta2) - sin^2(theta1). Proved with the program's shares. The unchanged code violates the full property: the _fails theorem(s) refute it, the _partial theorem(s) prove the part that holds."
  },
  {
   "property": "C145",
   "status": "proved",
   "theorems": [
    "Rayflare.C145_reports",
    "Rayflare.C145_order",
    "Rayflare.C145_all_rays",
    "Rayflare.C145_totals",
    "Rayflare.C145_profile",
    "Rayflare.C145_units"
   ],
   "note": "Proved for the model."
  },
  {
   "property": "C146",
   "status": "partial",
   "theorems": [
    "Rayflare.C146_inside",
    "Rayflare.C146_fails",
    "Rayflare.C146_columns",
    "Rayflare.C146_rays",
    "Rayflare.C146_unbiased_partial"
   ],
   "note": "Violated: nx values of x and ny values of y are drawn and combined, so the points form a grid, rays in a column share one x, and the same points are used for all repetitions and wavelengths. Proved: every point is in the window, the average over the points is unbiased; a quantity depending on x only is sampled nx times however many rays there are. The unchanged code violates the full property: the _fails theorem(s) refute it, the _partial theorem(s) prove the part that holds."
  },
  {
   "property": "C147",
   "status": "partial",
   "theorems": [
    "Rayflare.C147_scan",
    "Rayflare.C147_margin",
    "Rayflare.C147_cell_partial",
    "Rayflare.C147_fails",
    "Rayflare.C147_expected"
   ],
   "note": "Violated with the default limits: the outermost hundredth of the cell at each edge is never hit, so a strip of one hundredth of the cell is missed with any number of points and rays. Proved: the average over the points differs from that over the launching window by at most Vx/nx + Vy/ny, where Vx and Vy bound the variation along lines, and from that over the unit cell by at most 0.04 more for quantities between 0 and 1; the expected R returned is the average over the points of the expected R per point. The unchanged code violates the full property: the _fails theorem(s) refute it, the _partial theorem(s) prove the part that holds."
  },
  {
   "property": "C148",
   "status": "partial",
   "theorems": [
    "Rayflare.C148_front_partial",
    "Rayflare.C148_rear_partial",
    "Rayflare.C148_last_sample",
    "Rayflare.C148_tmm_fails",
    "Rayflare.C148_rcwa_partial",
    "Rayflare.C148_rcwa_fails"
   ],
   "note": "Violated for light from the rear: values are flipped and coordinates are not, so that with two or more samples the first value is neither the one at depth z from the rear nor the one at depth z from the front. Proved for light from the front; for light from the rear values and coordinates are in opposite order. The unchanged code violates the full property: the _fails theorem(s) refute it, the _partial theorem(s) prove the part that holds."
  },
  {
   "property": "C149",
   "status": "partial",
   "theorems": [
    "Rayflare.C149_points",
    "Rayflare.C149_few",
    "Rayflare.C149_inclination_partial",
    "Rayflare.C149_regular_fails",
    "Rayflare.C149_random_fails"
   ],
   "note": "Violated: on a regular grid facets can be inclined by up to arctan(sqrt(2)*tan(noise_angle)), for random positions by any angle below 90 degrees. Proved: the number of points, and the bound arctan(sqrt(2)*tan(noise_angle)) on a regular grid. The unchanged code violates the full property: the _fails theorem(s) refute it, the _partial theorem(s) prove the part that holds."
  },
  {
   "property": "C150",
   "status": "proved",
   "theorems": [
    "Rayflare.C150_converges",
    "Rayflare.C150_mirror"
   ],
   "note": "Proved for the model."
  },
  {
   "property": "C151",
   "status": "proved",
   "theorems": [
    "Rayflare.C151_slab",
    "Rayflare.C151_late",
    "Rayflare.C151_converges",
    "Rayflare.C151_transparent"
   ],
   "note": "Proved for the model."
  },
  {
   "property": "C152",
   "status": "proved",
   "theorems": [
    "Rayflare.C152_coated",
    "Rayflare.C152_runs",
    "Rayflare.C152_bare",
    "Rayflare.C152_planar"
   ],
   "note": "Proved for the model."
  },
  {
   "property": "C153",
   "status": "proved",
   "theorems": [
    "Rayflare.C153_stack",
    "Rayflare.C153_turn",
    "Rayflare.C153_matrix",
    "Rayflare.C153_symmetric",
    "Rayflare.C153_half_turn",
    "Rayflare.C153_half_turn_counted",
    "Rayflare.C153_pyramids"
   ],
   "note": "Proved for the model."
  },
  {
   "property": "C154",
   "status": "proved",
   "theorems": [
    "Rayflare.C154_facet",
    "Rayflare.C154_path",
    "Rayflare.C154_diffuse"
   ],
   "note": "Proved for the model."
  },
  {
   "property": "C155",
   "status": "proved",
   "theorems": [
    "Rayflare.C155_once",
    "Rayflare.C155_gentle",
    "Rayflare.C155_reflectance",
    "Rayflare.C155_steep",
    "Rayflare.C155_pyramids",
    "Rayflare.C155_steep_pyramids"
   ],
   "note": "Proved for the model."
  },
  {
   "property": "C156",
   "status": "proved",
   "theorems": [
    "Rayflare.C156_ray",
    "Rayflare.C156_pyramids"
   ],
   "note": "Proved for the model."
  },
  {
   "property": "C157",
   "status": "proved",
   "theorems": [
    "Rayflare.C157_balance",
    "Rayflare.C157_unique",
    "Rayflare.C157_total",
    "Rayflare.C157_two",
    "Rayflare.C157_stack",
    "Rayflare.C157_late",
    "Rayflare.C157_converges",
    "Rayflare.C157_transparent"
   ],
   "note": "Proved for the model."
  },
  {
   "property": "C158",
   "status": "proved",
   "theorems": [
    "Rayflare.C158_ray",
    "Rayflare.C158_results",
    "Rayflare.C158_mean"
   ],
   "note": "Proved for the model."
  },
  {
   "property": "C159",
   "status": "proved",
   "theorems": [
    "Rayflare.C159_agree",
    "Rayflare.C159_coated",
    "Rayflare.C159_same_slab",
    "Rayflare.C159_bare"
   ],
   "note": "Proved for the model."
  },
  {
   "property": "C160",
   "status": "proved",
   "theorems": [
    "Rayflare.C160_straight",
    "Rayflare.C160_straight_cell",
    "Rayflare.C160_steep",
    "Rayflare.C160_ray",
    "Rayflare.C160_matched",
    "Rayflare.C160_normal"
   ],
   "note": "Proved for the model."
  },
  {
   "property": "C161",
   "status": "proved",
   "theorems": [
    "Rayflare.C161_balance",
    "Rayflare.C161_lossless",
    "Rayflare.C161_bare",
    "Rayflare.C161_turned",
    "Rayflare.C161_transparent"
   ],
   "note": "Proved for the model."
  },
  {
   "property": "C162",
   "status": "proved",
   "theorems": [
    "Rayflare.C162_balance",
    "Rayflare.C162_split"
   ],
   "note": "Proved for the model."
  },
  {
   "property": "C163",
   "status": "proved",
   "theorems": [
    "Rayflare.C163_entries",
    "Rayflare.C163_points",
    "Rayflare.C163_area",
    "Rayflare.C163_wavelength",
    "Rayflare.C163_fields",
    "Rayflare.C163_permittivity"
   ],
   "note": "Proved for the model."
  },
  {
   "property": "C164",
   "status": "partial",
   "theorems": [
    "Rayflare.C164_magnitude_partial",
    "Rayflare.C164_magnitude_fails"
   ],
   "note": "Violated: they are the square roots of the sum of the squared moduli; this is the same if the components are in phase and never less, but for a circularly polarised field the documented expression is zero. The unchanged code violates the full property: the _fails theorem(s) refute it, the _partial theorem(s) prove the part that holds."
  },
  {
   "property": "C165",
   "status": "proved",
   "theorems": [
    "Rayflare.C165_balance",
    "Rayflare.C165_layer",
    "Rayflare.C165_thicker"
   ],
   "note": "Proved for the model."
  },
  {
   "property": "C166",
   "status": "partial",
   "theorems": [
    "Rayflare.C166_dictionary_partial",
    "Rayflare.C166_dictionary_fails"
   ],
   "note": "Violated: make_absorption_function reads its options as attributes and raises an error for a dictionary; all other functions are as claimed. The unchanged code violates the full property: the _fails theorem(s) refute it, the _partial theorem(s) prove the part that holds."
  },
  {
   "property": "C167",
   "status": "partial",
   "theorems": [
    "Rayflare.C167_unchanged_partial",
    "Rayflare.C167_only_wavelength",
    "Rayflare.C167_unchanged_fails"
   ],
   "note": "Violated: if both wavelength and wavelengths are given, functions of TMM and RCWA and those for lookup tables overwrite the user's entry wavelength; process_structure, calculate_RAT and rt_structure.calculate work on a copy. No other entry is ever changed. The unchanged code violates the full property: the _fails theorem(s) refute it, the _partial theorem(s) prove the part that holds."
  },
  {
   "property": "C168",
   "status": "partial",
   "theorems": [
    "Rayflare.C168_defaults_partial",
    "Rayflare.C168_defaults_fails",
    "Rayflare.C168_used_partial",
    "Rayflare.C168_unused_fails"
   ],
   "note": "Violated: project_name has no default value, so process_structure, calculate_RAT and the lookup tables of rt_structure raise an error unless the user has set it, and avoid_edges is never read; otherwise it holds. The unchanged code violates the full property: the _fails theorem(s) refute it, the _partial theorem(s) prove the part that holds."
  },
  {
   "property": "C169",
   "status": "proved",
   "theorems": [
    "Rayflare.C169_mixture",
    "Rayflare.C169_all_azimuths"
   ],
   "note": "Proved for the model."
  },
  {
   "property": "C170",
   "status": "partial",
   "theorems": [
    "Rayflare.C170_size",
    "Rayflare.C170_history",
    "Rayflare.C170_both_sides",
    "Rayflare.C170_planar",
    "Rayflare.C170_pyramids",
    "Rayflare.C170_grooves_partial",
    "Rayflare.C170_heights_partial",
    "Rayflare.C170_rough",
    "Rayflare.C170_over_texture_partial",
    "Rayflare.C170_offset_fails"
   ],
   "note": "Violated: rays are always put between 0 and the size of the cell, so that a texture whose points do not start at 0 is missed; a flat square elsewhere sends all light back, whatever the materials. Proved if the points start at 0, as for all the textures provided. The unchanged code violates the full property: the _fails theorem(s) refute it, the _partial theorem(s) prove the part that holds."
  },
  {
   "property": "C171",
   "status": "partial",
   "theorems": [
    "Rayflare.C171_tmm_partial",
    "Rayflare.C171_repeated_fails",
    "Rayflare.C171_tables_partial",
    "Rayflare.C171_tables_fails",
    "Rayflare.C171_matrix_method",
    "Rayflare.C171_matrix_method_profiles",
    "Rayflare.C171_unique"
   ],
   "note": "Violated: a wavelength listed twice makes the transfer-matrix surfaces raise an exception, and with a lookup table for wavelengths that are neither increasing nor decreasing every ray that meets the surface raises one. The unchanged code violates the full property: the _fails theorem(s) refute it, the _partial theorem(s) prove the part that holds."
  },
  {
   "property": "C172",
   "status": "proved",
   "theorems": [
    "Rayflare.C172_reciprocal",
    "Rayflare.C172_lossless"
   ],
   "note": "Proved for the model."
  },
  {
   "property": "C173",
   "status": "proved",
   "theorems": [
    "Rayflare.C173_mirror",
    "Rayflare.C173_pyramids",
    "Rayflare.C173_stack"
   ],
   "note": "Proved for the model."
  },
  {
   "property": "C174",
   "status": "partial",
   "theorems": [
    "Rayflare.C174_code",
    "Rayflare.C174_scale_partial",
    "Rayflare.C174_fails"
   ],
   "note": "Violated: a ray that missed the surface is started anew at a fixed height of 0.01, in the unit of the texture, above or below it. A ridge on which every ray that meets it is absorbed absorbs at size 1 a ray that it sends back at size 1/200, whatever the random numbers. Proved if the three fixed lengths, 1e-9 after each facet, 0.01 for a new start and 1e-8 for the launch, are multiplied by the same factor, so the size matters only in comparison with them. The unchanged code violates the full property: the _fails theorem(s) refute it, the _partial theorem(s) prove the part that holds."
  },
  {
   "property": "C175",
   "status": "partial",
   "theorems": [
    "Rayflare.C175_normal_partial",
    "Rayflare.C175_deficit_partial",
    "Rayflare.C175_fails",
    "Rayflare.C175_surface_partial",
    "Rayflare.C175_matrix_partial"
   ],
   "note": "Violated: the reflectances are averaged at each surface, as if light became unpolarised again at each of them. A transparent plate of refractive index 3^(1/2) in air, under 60 degrees, transmits 3/5 of s- and all p-polarised light, but for 'u' the result is 7/9 instead of 4/5. Proved for one surface at any angle and for a slab at normal incidence; for a transparent plate at any angle the difference is proved to be (a-b)^2/((1+a)(1+b)(2+a+b)), where a and b are the reflectances of one surface for s and p, in ray tracing and in the matrix method. The unchanged code violates the full property: the _fails theorem(s) refute it, the _partial theorem(s) prove the part that holds."
  },
  {
   "property": "C176",
   "status": "proved",
   "theorems": [
    "Rayflare.C176_ray",
    "Rayflare.C176_results",
    "Rayflare.C176_built"
   ],
   "note": "Proved for the model."
  },
  {
   "property": "C177",
   "status": "partial",
   "theorems": [
    "Rayflare.C177_increasing",
    "Rayflare.C177_function_partial",
    "Rayflare.C177_thin_fails",
    "Rayflare.C177_plain",
    "Rayflare.C177_any_width_partial"
   ],
   "note": "Violated: a bulk layer that contains no sample of the depth grid makes the call fail when any surface has layers; the depths are wrong if layers are not multiples of the spacing, see C67 and C98. Proved for layers that are multiples of the spacing, and for uncoated structures; the order of the depths is proved for all widths and spacings, and that bulk depths are too small by less than one spacing. The unchanged code violates the full property: the _fails theorem(s) refute it, the _partial theorem(s) prove the part that holds."
  },
  {
   "property": "C178",
   "status": "partial",
   "theorems": [
    "Rayflare.C178_samples",
    "Rayflare.C178_between",
    "Rayflare.C178_defined_partial",
    "Rayflare.C178_bottom_fails",
    "Rayflare.C178_planar_bottom_fails",
    "Rayflare.C178_matrix_bottom_fails"
   ],
   "note": "Violated for every structure of every kind: it raises an exception between the last sample and the bottom. Proved from the top to the last sample. The unchanged code violates the full property: the _fails theorem(s) refute it, the _partial theorem(s) prove the part that holds."
  },
  {
   "property": "C179",
   "status": "partial",
   "theorems": [
    "Rayflare.C179_reported_partial",
    "Rayflare.C179_unpolarised_partial",
    "Rayflare.C179_off_partial",
    "Rayflare.C179_fails",
    "Rayflare.C179_example"
   ],
   "note": "Violated: the absorbing medium that is put behind the layers is reported as one more layer, A contains what it absorbs, and T is only what gets through it; if it absorbs everything, A = 1 - R. Proved: what is reported with the option, and that without it A, T and A_per_layer are as they should be, for coherent and incoherent calculations and for s, p and unpolarised light. The unchanged code violates the full property: the _fails theorem(s) refute it, the _partial theorem(s) prove the part that holds."
  },
  {
   "property": "C180",
   "status": "partial",
   "theorems": [
    "Rayflare.C180_own_partial",
    "Rayflare.C180_same_number_partial",
    "Rayflare.C180_raises_iff_partial",
    "Rayflare.C180_history_raises_iff_partial",
    "Rayflare.C180_number_fails",
    "Rayflare.C180_in_place_fails"
   ],
   "note": "Violated: with NumPy 1.25 or later an exception is raised if the number of wavelengths changes and neither number is 1; and if the array of wavelengths is changed in place, the constants at the old wavelengths are used without a warning. Proved: without in-place changes no wavelength is ever calculated with the constants of another, and no exception is raised if the number of wavelengths stays the same; exactly when the exception is raised. The unchanged code violates the full property: the _fails theorem(s) refute it, the _partial theorem(s) prove the part that holds."
  },
  {
   "property": "C181",
   "status": "partial",
   "theorems": [
    "Rayflare.C181_next_partial",
    "Rayflare.C181_fails"
   ],
   "note": "Violated: a ray that moves away from the surface, up in the upper medium or down in the lower one, is tested only in its own unit cell and the next one, so a facet two cells further is passed through. Proved for every surface and every ray that does not pass exactly over a corner of the unit cells: a facet that is met is the first one; a ray moving towards the other side leaves only if there is none; a ray moving away leaves only if there is none up to the end of the next cell. The unchanged code violates the full property: the _fails theorem(s) refute it, the _partial theorem(s) prove the part that holds."
  },
  {
   "property": "C182",
   "status": "partial",
   "theorems": [
    "Rayflare.C182_next_partial",
    "Rayflare.C182_fails"
   ],
   "note": "Violated: a ray that moves away from the surface is tested in its own unit cell and the next one only, so that with a larger unit cell it meets facets that it passes through with a smaller one. Proved for rays that move towards the other side of the surface, in general position. The unchanged code violates the full property: the _fails theorem(s) refute it, the _partial theorem(s) prove the part that holds."
  },
  {
   "property": "C183",
   "status": "partial",
   "theorems": [
    "Rayflare.C183_first_partial",
    "Rayflare.C183_pyramids_partial",
    "Rayflare.C183_fails",
    "Rayflare.C183_steep_partial",
    "Rayflare.C183_pyramids_steep_partial",
    "Rayflare.C183_pyramids_fails"
   ],
   "note": "Violated: the ray is put into the unit cell at the reference height, the height of the corner of the texture, and tested against the facets of this cell only. If the reference height is at the bottom of the texture, as for grooves and upright pyramids and light from above, slanted rays pass through the ridges of the cells before and arrive at places that are in the shade: for V-grooves of 45 degrees and light 53 degrees from the vertical, at least one ray in six. Proved if the reference height is on the side the light comes from, for example light from above on inverted pyramids and light from below on upright ones, and whatever the reference height for light steeper than the slopes of the texture. The unchanged code violates the full property: the _fails theorem(s) refute it, the _partial theorem(s) prove the part that holds."
  },
  {
   "property": "C184",
   "status": "partial",
   "theorems": [
    "Rayflare.C184_documented_partial",
    "Rayflare.C184_refused_partial",
    "Rayflare.C184_fails"
   ],
   "note": "Violated: ray tracing without coating takes any other value, and tmm_structure and TMM for the matrix method any other string but the empty one and 'sp', for example 'S' or 'TE', as unpolarised light without a warning; RCWA takes the empty string and calculates without light. Proved for the documented values in all methods, that lookup tables and RCWA refuse all others, and exactly which strings the others refuse. The unchanged code violates the full property: the _fails theorem(s) refute it, the _partial theorem(s) prove the part that holds."
  },
  {
   "property": "C185",
   "status": "partial",
   "theorems": [
    "Rayflare.C185_weighted_partial",
    "Rayflare.C185_within_partial",
    "Rayflare.C185_equal_partial",
    "Rayflare.C185_fails",
    "Rayflare.C185_shares_partial",
    "Rayflare.C185_same_share_partial"
   ],
   "note": "Violated: an absorbed ray is counted with the tabulated absorption itself, so that it has the more weight the more absorbing the surface is at its angle; the sum over the layers is right, the division among them is not. Two rays absorbed in different layers give 1/4 and 3/4 if the table has 0.1 and 0.3. Proved if the tabulated absorption of all layers together is the same for all absorbed rays; if it lies between a and b, the entries are right within a factor b/a. Also proved if all absorbed rays are divided among the layers in the same proportion, with an error bound by the spread of the proportions otherwise. The unchanged code violates the full property: the _fails theorem(s) refute it, the _partial theorem(s) prove the part that holds."
  },
  {
   "property": "C186",
   "status": "partial",
   "theorems": [
    "Rayflare.C186_same_side_partial",
    "Rayflare.C186_other_side_fails"
   ],
   "note": "Violated: the profile for the side of illumination is used for all rays, also for those that met the layers from the other side, for example after refraction into the texture. Proved if all absorbed rays met the layers from the side of illumination, none at exactly normal incidence, and the table covers the angles, see C108, C118. The unchanged code violates the full property: the _fails theorem(s) refute it, the _partial theorem(s) prove the part that holds."
  },
  {
   "property": "C187",
   "status": "partial",
   "theorems": [
    "Rayflare.C187_cone_partial",
    "Rayflare.C187_path_partial",
    "Rayflare.C187_cone_fails",
    "Rayflare.C187_path_fails"
   ],
   "note": "Violated: it is sin(a), up to 1/(2 n_theta_bins), and exactly sin(a) with linear spacing, so on every grid with three or more rings every cone gets too much light, and an escape cone with sin(a) = 1/n gets about n times too much; the mean path is at most pi/2 times the thickness on every grid. Proved: these values, for every grid and both spacings; refining the grid does not help. The unchanged code violates the full property: the _fails theorem(s) refute it, the _partial theorem(s) prove the part that holds."
  },
  {
   "property": "C188",
   "status": "partial",
   "theorems": [
    "Rayflare.C188_enhancement_partial",
    "Rayflare.C188_fails"
   ],
   "note": "Violated: it is at most the optical thickness times 1/cos(B) + pi/sin(a), for every grid, threshold and absorption, so it is proportional to n; for n = 3.57 at most 12.4 instead of more than 49, and for every n >= 2 less than half of the right value if the absorption is weak enough. Proved: this bound, also for a front surface that lets only a part of the light in the cone out. The unchanged code violates the full property: the _fails theorem(s) refute it, the _partial theorem(s) prove the part that holds."
  },
  {
   "property": "C189",
   "status": "partial",
   "theorems": [
    "Rayflare.C189_converges_partial",
    "Rayflare.C189_fails"
   ],
   "note": "Violated: they approach the formula with the average over cos(theta) d(theta); there is a structure whose reflectance stays too large by a fixed amount however fine the grid. Proved: convergence to that other formula, for every spacing, azimuth resolution, symmetry and azimuth of the light, with and without profiles. The unchanged code violates the full property: the _fails theorem(s) refute it, the _partial theorem(s) prove the part that holds."
  },
  {
   "property": "C190",
   "status": "proved",
   "theorems": [
    "Rayflare.C190_density",
    "Rayflare.C190_bound",
    "Rayflare.C190_converges",
    "Rayflare.C190_fine",
    "Rayflare.C190_planar"
   ],
   "note": "Proved for the model."
  },
  {
   "property": "C191",
   "status": "proved",
   "theorems": [
    "Rayflare.C191_passes",
    "Rayflare.C191_stable",
    "Rayflare.C191_exact",
    "Rayflare.C191_needs_absorption"
   ],
   "note": "Proved for the model."
  },
  {
   "property": "C192",
   "status": "proved",
   "theorems": [
    "Rayflare.C192_noise",
    "Rayflare.C192_enough",
    "Rayflare.C192_any_coating",
    "Rayflare.C192_any_coating_all",
    "Rayflare.C192_traced",
    "Rayflare.C192_all_wavelengths"
   ],
   "note": "Proved for the model."
  },
  {
   "property": "C193",
   "status": "proved",
   "theorems": [
    "Rayflare.C193_same_results",
    "Rayflare.C193_depths",
    "Rayflare.C193_units"
   ],
   "note": "Proved for the model."
  },
  {
   "property": "C194",
   "status": "proved",
   "theorems": [
    "Rayflare.C194_stable",
    "Rayflare.C194_exact"
   ],
   "note": "Proved for the model."
  },
  {
   "property": "C195",
   "status": "proved",
   "theorems": [
    "Rayflare.C195_layers",
    "Rayflare.C195_interface_profile"
   ],
   "note": "Proved for the model."
  },
  {
   "property": "C196",
   "status": "proved",
   "theorems": [
    "Rayflare.C196_parasitic",
    "Rayflare.C196_ends"
   ],
   "note": "Proved for the model."
  }
 ]
}