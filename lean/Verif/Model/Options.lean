import Mathlib.Data.List.Basic

/-!
# Model of how options are read (all of /repo/rayflare; options.py)

Options are a plain dictionary or a `State` object of Solcore: a dictionary whose entries can also be read as attributes.  `State(options)` is a new object with the same entries.
-/

namespace Rayflare.Model

/-- Names of options. -/
inductive OptKey
  | wavelength | wavelengths | phi_in | theta_in | phi_symmetry | n_theta_bins | I_thresh | depth_spacing | bulk_profile | depth_spacing_bulk | parallel | pol | n_jobs | c_azimuth | only_incidence_angle
  | A_per_order | S4_options | RCWA_method | orders
  | nx | ny | random_ray_position | avoid_edges | randomize_surface | random_ray_angles | n_rays
  | lookuptable_angles | coherent | coherency_list
  | project_name | theta_spacing | x_limits | y_limits | periodic | initial_material | initial_direction | z_points | z_limit
  deriving DecidableEq

/-- An object passed as `options`: is it a `State` object, and its entries. -/
structure Opts (V : Type*) where
  isState : Bool
  vals : OptKey → Option V

/-- `default_options().__init__`, options.py 17-67: the options that are set. -/
def OptKey.hasDefault : OptKey → Bool
  | .wavelength | .phi_in | .theta_in | .phi_symmetry | .n_theta_bins | .I_thresh | .depth_spacing | .bulk_profile | .depth_spacing_bulk | .parallel | .pol | .n_jobs | .c_azimuth | .only_incidence_angle => true
  | .A_per_order | .S4_options | .RCWA_method | .orders => true
  | .nx | .ny | .random_ray_position | .avoid_edges | .randomize_surface | .random_ray_angles | .n_rays => true
  | .lookuptable_angles | .coherent | .coherency_list => true
  | _ => false

/-- Ways in which an option is read: `options["k"]`, `options.k`, and the same if `"k" in options` (otherwise a default is used). -/
inductive OptRead
  | item (k : OptKey)
  | attr (k : OptKey)
  | itemIf (k : OptKey)
  | attrIf (k : OptKey)
  deriving DecidableEq

/-- What is read; `none`: KeyError or AttributeError; `some none`: the default is used. -/
def Opts.read {V : Type*} (o : Opts V) : OptRead → Option (Option V)
  | .item k => (o.vals k).map some
  | .attr k => if o.isState then (o.vals k).map some else none
  | .itemIf k => some (o.vals k)
  | .attrIf k => match o.vals k with
    | none => some none
    | some v => if o.isState then some (some v) else none

/-- `get_wavelength`, utilities.py 342-351: `options["wavelength"] = options["wavelengths"]` if there is such an entry. -/
def Opts.getWavelength {V : Type*} (o : Opts V) : Opts V := match o.vals .wavelengths with
  | none => o
  | some w => { o with vals := fun k => if k = .wavelength then some w else o.vals k }

/-- The functions to which a user passes options. -/
inductive OptEntry
  | processStructure
  | calculateRAT
  | rtCalculate
  | rtLookupTable
  | lookupTable
  | tmmCalculate
  | rcwaNew
  | rcwaCalculate
  | rcwaProfile
  | rcwaFields
  | absorptionFunction
  deriving DecidableEq

/-- Does the function go on with `State(options)`?  (process_structure.py 40-41, multiply_matrices.py 53-54, rt.py 821-822; a `State` object is a dictionary too.) -/
def OptEntry.copies : OptEntry → Bool
  | .processStructure | .calculateRAT | .rtCalculate => true
  | _ => false

/-- Does the function call `get_wavelength`?  (rt.py 81, 824, tmm.py 143, 596, lookup_table.py 62, multiply_matrices.py 327, utilities.py 38, rcwa.py 125, 956, 1100, 1174; `process_structure` does so in the methods.) -/
def OptEntry.getsWavelength : OptEntry → Bool
  | .rcwaFields => false
  | _ => true

/-- The places where the function, and what it calls, reads options.  Which of them are reached depends on the structure and on the values. -/
def OptEntry.reads : OptEntry → List OptRead
  -- process_structure.py 64, 124-129, 145-150, 199, 225; RT, rt.py 82-203; TMM, tmm.py 144-331; RCWA, rcwa.py 126-246; lookup_table.py 63-64; ideal_cases.py 126, 132
  | .processStructure => [.item .project_name, .attrIf .theta_spacing, .item .n_theta_bins, .item .phi_symmetry, .item .c_azimuth, .item .only_incidence_angle, .item .wavelength, .item .n_rays, .item .nx, .item .ny, .item .pol, .item .parallel,
      .attrIf .n_jobs, .item .depth_spacing, .item .theta_in, .item .phi_in, .item .random_ray_angles, .itemIf .x_limits, .itemIf .y_limits, .item .random_ray_position, .item .RCWA_method, .itemIf .S4_options, .itemIf .n_jobs, .item .lookuptable_angles]
  -- multiply_matrices.py 310-365, 390, 429, 450, 477, 543, 568-625
  | .calculateRAT => [.attr .project_name, .attrIf .theta_spacing, .attr .n_theta_bins, .attr .phi_symmetry, .attr .c_azimuth, .item .wavelength, .attr .phi_in, .item .phi_in, .item .phi_symmetry, .item .theta_in, .item .n_theta_bins, .item .c_azimuth,
      .item .bulk_profile, .item .depth_spacing_bulk, .attr .bulk_profile, .item .I_thresh]
  -- rt.py 825-928
  | .rtCalculate => [.item .wavelength, .item .theta_in, .item .phi_in, .item .I_thresh, .itemIf .periodic, .itemIf .depth_spacing, .item .parallel, .attrIf .n_jobs, .item .depth_spacing_bulk, .itemIf .x_limits, .itemIf .y_limits, .item .nx, .item .ny,
      .item .random_ray_position, .item .n_rays, .item .pol, .item .randomize_surface, .itemIf .initial_material, .itemIf .initial_direction]
  -- make_lookuptable_rt_structure, rt.py 541, and lookup_table.py 63-64
  | .rtLookupTable => [.item .project_name, .item .wavelength, .item .lookuptable_angles]
  -- lookup_table.py 63-64
  | .lookupTable => [.item .wavelength, .item .lookuptable_angles]
  -- tmm.py 427, 597-601, 735
  | .tmmCalculate => [.item .wavelength, .item .pol, .item .theta_in, .itemIf .coherent, .itemIf .coherency_list, .item .depth_spacing]
  -- rcwa.py 957, 1002-1016
  | .rcwaNew => [.item .wavelength, .item .RCWA_method, .itemIf .S4_options]
  -- rcwa.py 1101-1139, make_S 1059-1070
  | .rcwaCalculate => [.item .wavelength, .item .pol, .item .parallel, .itemIf .n_jobs, .item .RCWA_method, .item .theta_in, .item .phi_in, .item .orders, .item .A_per_order, .item .S4_options]
  -- rcwa.py 1175-1220, and `calculate`
  | .rcwaProfile => [.item .wavelength, .item .pol, .itemIf .z_points, .itemIf .z_limit, .item .depth_spacing, .item .parallel, .itemIf .n_jobs, .item .RCWA_method, .item .theta_in, .item .phi_in, .item .orders, .item .A_per_order, .item .S4_options]
  -- get_fourier_epsilon, get_fields, get_fields_z_integral, rcwa.py 63-69, 1059-1070, 1265, 1349-1351, 1434-1439, 1474-1479
  | .rcwaFields => [.item .orders, .item .RCWA_method, .item .S4_options, .item .pol, .item .theta_in, .item .phi_in]
  -- make_absorption_function, utilities.py 47-62, 79-80, 89, 111, 130, 167, 181-184
  | .absorptionFunction => [.attr .depth_spacing, .attr .depth_spacing_bulk, .attr .wavelength, .attr .bulk_profile]

/-- A call of the function in which the options are read at the places `B`: what is read (`none`: exception), and the object the user has passed, after the call. -/
def OptEntry.call {V : Type*} (e : OptEntry) (B : List OptRead) (o : Opts V) : Option (List (Option V)) × Opts V :=
  let o1 : Opts V := if e.copies then { o with isState := true } else o
  let o2 := if e.getsWavelength then o1.getWavelength else o1
  (B.mapM o2.read, if e.copies then o else o2)

end Rayflare.Model
