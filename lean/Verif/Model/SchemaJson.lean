import Verif.Model.SchemaFile

/-!
# The description of the options shipped with the code: config/config-format.json, the whole file
-/

namespace WxVerif.SchemaFile

/-- `version` of config/config-format.json -/
def shippedVersion : String := "0.1"

/-- the sections of config/config-format.json and the descriptions in each, key by key (numbers as decimal fractions) -/
def shippedSections : List (String × List Obj) := [
  ("General", [
    [("name", .str "equations"), ("type", .str "str"), ("selectables", .arr [.str "euler", .str "shallow_water"])],
    [("name", .str "depth_approx"), ("type", .str "str"), ("selectables", .arr [.str "deep", .str "shallow"]), ("default", .str "deep"), ("dependency", .obj [("name", .str "equations"), ("values", .arr [.str "euler"])])]]),
  ("System", [
    [("name", .str "desired_device"), ("type", .str "str"), ("selectables", .arr [.str "cpu", .str "cuda"]), ("default", .str "cpu"), ("description", .str "Physical backend to run the computation on")],
    [("name", .str "cuda_devices"), ("type", .str "list-int"), ("default", .arr []), ("dependency", .obj [("name", .str "desired_device"), ("values", .arr [.str "cuda"])]), ("description", .str "List of Nvidia physical device to use")]]),
  ("Test_case", [
    [("name", .str "case_number"), ("type", .str "int"), ("default", .int (-1))],
    [("name", .str "matsuno_wave_type"), ("type", .str "str"), ("dependency", .obj [("name", .str "case_number"), ("values", .arr [.int 9])])],
    [("name", .str "matsuno_amp"), ("type", .str "float"), ("dependency", .obj [("name", .str "case_number"), ("values", .arr [.int 9])])],
    [("name", .str "bubble_theta"), ("type", .str "float"), ("default", .real 0)],
    [("name", .str "bubble_rad"), ("type", .str "float"), ("default", .real 0)]]),
  ("Time_integration", [
    [("name", .str "dt"), ("type", .str "float"), ("min", .real 0)],
    [("name", .str "t_end"), ("type", .str "float")],
    [("name", .str "time_integrator"), ("type", .str "str")],
    [("name", .str "tolerance"), ("type", .str "float")],
    [("name", .str "starting_step"), ("type", .str "int"), ("default", .int 0)],
    [("name", .str "exponential_solver"), ("type", .str "str"), ("default", .str "pmex"), ("selectables", .arr [.str "pmex", .str "kiops", .str "exode", .str "pmex_ne", .str "cwy_1s", .str "cwy_ne", .str "cwy_ne1s", .str "dcgs2", .str "icwy_1s", .str "icwy_neiop", .str "icwy_ne", .str "icwy_ne1s", .str "kiops_ne", .str "pmex_1s", .str "pmex_ne1s"])],
    [("name", .str "exode_method"), ("type", .str "str"), ("default", .str "BS3(2)"), ("selectables", .arr [.str "BS3(2)", .str "DP5(4)", .str "M4(3)", .str "KC3(2)", .str "EXLRK3(2)", .str "EXLRK4(3)", .str "F14(12)", .str "DP8(7)", .str "F10(8)"])],
    [("name", .str "exode_controller"), ("type", .str "str"), ("default", .str "")],
    [("name", .str "krylov_size"), ("type", .str "int"), ("default", .int 1), ("min", .int 0)],
    [("name", .str "jacobian_method"), ("type", .str "str"), ("default", .str "complex"), ("selectables", .arr [.str "complex", .str "fd"])],
    [("name", .str "linear_solver"), ("type", .str "str"), ("default", .str "fgmres"), ("selectables", .arr [.str "fgmres", .str "gcrot"])],
    [("name", .str "verbose_solver"), ("type", .str "int"), ("default", .int 0)],
    [("name", .str "gmres_restart"), ("type", .str "int"), ("default", .int 20), ("min", .int 1)]]),
  ("Spatial_discretization", [
    [("name", .str "num_solpts"), ("type", .str "int"), ("min", .int 1)],
    [("name", .str "num_elements_horizontal"), ("type", .str "int"), ("min", .int 1)],
    [("name", .str "num_elements_vertical"), ("type", .str "int"), ("min", .int 1), ("default", .int 1)],
    [("name", .str "filter_apply"), ("type", .str "bool"), ("default", .bool false)],
    [("name", .str "filter_order"), ("type", .str "int"), ("default", .int 16), ("dependency", .obj [("name", .str "filter_apply"), ("values", .arr [.bool true])])],
    [("name", .str "filter_order"), ("type", .str "int"), ("default", .int 0), ("dependency", .obj [("name", .str "filter_apply"), ("values", .arr [.bool false])])],
    [("name", .str "filter_cutoff"), ("type", .str "float"), ("default", .real (1 / 4)), ("dependency", .obj [("name", .str "filter_apply"), ("values", .arr [.bool true])])],
    [("name", .str "filter_cutoff"), ("type", .str "float"), ("default", .real 0), ("dependency", .obj [("name", .str "filter_apply"), ("values", .arr [.bool false])])],
    [("name", .str "expfilter_apply"), ("type", .str "bool"), ("default", .bool false)],
    [("name", .str "expfilter_order"), ("type", .str "int"), ("dependency", .obj [("name", .str "expfilter_apply"), ("values", .arr [.bool true])])],
    [("name", .str "expfilter_order"), ("type", .str "int"), ("default", .int 0), ("dependency", .obj [("name", .str "expfilter_apply"), ("values", .arr [.bool false])])],
    [("name", .str "expfilter_cutoff"), ("type", .str "float"), ("dependency", .obj [("name", .str "expfilter_apply"), ("values", .arr [.bool true])])],
    [("name", .str "expfilter_cutoff"), ("type", .str "float"), ("default", .real 0), ("dependency", .obj [("name", .str "expfilter_apply"), ("values", .arr [.bool false])])],
    [("name", .str "expfilter_strength"), ("type", .str "float"), ("dependency", .obj [("name", .str "expfilter_apply"), ("values", .arr [.bool true])])],
    [("name", .str "expfilter_strength"), ("type", .str "float"), ("default", .real 0), ("dependency", .obj [("name", .str "expfilter_apply"), ("values", .arr [.bool false])])],
    [("name", .str "apply_sponge"), ("type", .str "bool"), ("default", .bool false)],
    [("name", .str "sponge_tscale"), ("type", .str "float"), ("default", .real 1)],
    [("name", .str "sponge_zscale"), ("type", .str "float"), ("default", .real 0)]]),
  ("Grid", [
    [("name", .str "grid_type"), ("type", .str "str"), ("selectables", .arr [.str "cubed_sphere", .str "cartesian2d"])],
    [("name", .str "discretization"), ("type", .str "str"), ("default", .str "dg"), ("selectables", .arr [.str "dg", .str "fv"])],
    [("name", .str "lambda0"), ("type", .str "angle24"), ("dependency", .obj [("name", .str "grid_type"), ("values", .arr [.str "cubed_sphere"])]), ("description", .str "Longitude in radians of the central point of panel 0")],
    [("name", .str "phi0"), ("type", .str "angle24"), ("dependency", .obj [("name", .str "grid_type"), ("values", .arr [.str "cubed_sphere"])]), ("description", .str "Latitude in radians of the central point of panel 0")],
    [("name", .str "alpha0"), ("type", .str "angle24"), ("dependency", .obj [("name", .str "grid_type"), ("values", .arr [.str "cubed_sphere"])]), ("description", .str "Rotation in radians of the central meridian of panel 0")],
    [("name", .str "ztop"), ("type", .str "float"), ("default", .real 0), ("dependency", .obj [("name", .str "grid_type"), ("values", .arr [.str "cubed_sphere"])])],
    [("name", .str "x0"), ("type", .str "float"), ("dependency", .obj [("name", .str "grid_type"), ("values", .arr [.str "cartesian2d"])])],
    [("name", .str "x1"), ("type", .str "float"), ("dependency", .obj [("name", .str "grid_type"), ("values", .arr [.str "cartesian2d"])])],
    [("name", .str "z0"), ("type", .str "float"), ("dependency", .obj [("name", .str "grid_type"), ("values", .arr [.str "cartesian2d"])])],
    [("name", .str "z1"), ("type", .str "float"), ("dependency", .obj [("name", .str "grid_type"), ("values", .arr [.str "cartesian2d"])])]]),
  ("Preconditioning", [
    [("name", .str "preconditioner"), ("type", .str "str"), ("default", .str "none"), ("selectables", .arr [.str "none", .str "fv", .str "fv-mg", .str "p-mg", .str "lu", .str "ilu"])],
    [("name", .str "precond_flux"), ("type", .str "str"), ("default", .str "ausm"), ("selectables", .arr [.str "ausm", .str "upwind", .str "rusanov"])],
    [("name", .str "num_mg_levels"), ("type", .str "int"), ("default", .int 1), ("min", .int 1), ("dependency", .obj [("name", .str "preconditioner"), ("values", .arr [.str "fv-mg", .str "p-mg"])])],
    [("name", .str "precond_tolerance"), ("type", .str "float"), ("default", .real (1 / 10))],
    [("name", .str "num_pre_smoothe"), ("type", .str "int"), ("default", .int 1), ("min", .int 0)],
    [("name", .str "num_post_smoothe"), ("type", .str "int"), ("default", .int 1), ("min", .int 0)],
    [("name", .str "mg_smoother"), ("type", .str "str"), ("default", .str "exp"), ("selectables", .arr [.str "exp", .str "kiops", .str "erk3", .str "erk1", .str "ark3"])],
    [("name", .str "exp_smoothe_spectral_radii"), ("type", .str "list-float"), ("default", .arr [.real 2]), ("dependency", .obj [("name", .str "mg_smoother"), ("values", .arr [.str "exp"])])],
    [("name", .str "exp_smoothe_num_iters"), ("type", .str "list-int"), ("default", .arr [.int 4]), ("dependency", .obj [("name", .str "mg_smoother"), ("values", .arr [.str "exp"])])],
    [("name", .str "mg_solve_coarsest"), ("type", .str "bool"), ("default", .bool false)],
    [("name", .str "kiops_dt_factor"), ("type", .str "float"), ("default", .real (11 / 10))],
    [("name", .str "verbose_precond"), ("type", .str "int"), ("default", .int 0)],
    [("name", .str "dg_to_fv_interp"), ("type", .str "str"), ("default", .str "lagrange"), ("selectables", .arr [.str "l2-norm", .str "lagrange"])],
    [("name", .str "pseudo_cfl"), ("type", .str "float"), ("default", .real 1)]]),
  ("Output_options", [
    [("name", .str "stat_freq"), ("type", .str "int"), ("default", .int 0), ("description", .str "Frequency in timesteps at which to print block stats")],
    [("name", .str "output_freq"), ("type", .str "int"), ("default", .int 0), ("description", .str "Frequency in timesteps at which to store the solution")],
    [("name", .str "save_state_freq"), ("type", .str "int"), ("default", .int 0), ("description", .str "Frequency in timesteps at which to save the state vector")],
    [("name", .str "store_solver_stats"), ("type", .str "bool"), ("default", .bool false), ("description", .str "Whether to store solver stats (at every timestep)")],
    [("name", .str "output_dir"), ("type", .str "case-sensitive-str"), ("default", .str "results"), ("description", .str "Directory where to store all the output")],
    [("name", .str "base_output_file"), ("type", .str "case-sensitive-str"), ("default", .str "out"), ("description", .str "Name of file where to store the solution")],
    [("name", .str "solver_stats_file"), ("type", .str "case-sensitive-str"), ("default", .str "solver_stats.db"), ("description", .str "SQL file where to store statistics for this run")],
    [("name", .str "store_total_time"), ("type", .str "bool"), ("default", .bool false), ("description", .str "Whether to output total runtime in seconds to a file")],
    [("name", .str "output_format"), ("type", .str "str"), ("default", .str "netcdf"), ("selectable", .arr [.str "netcdf", .str "fst"]), ("description", .str "Desired format to use for storing simulation results.")]])]

end WxVerif.SchemaFile
