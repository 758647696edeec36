import Verif.Model.Config

/-!
# The schema shipped with the code: config/config-format.json

Section, name and dependency of every option, in file order.  Values are written as text.
-/

namespace WxVerif.Config

/-- config/config-format.json (the whole file; types, ranges and defaults are left out). -/
def shippedSchema : List (String × String × Option (String × List String)) := [
  ("General", "equations", none),
  ("General", "depth_approx", some ("equations", ["euler"])),
  ("System", "desired_device", none),
  ("System", "cuda_devices", some ("desired_device", ["cuda"])),
  ("Test_case", "case_number", none),
  ("Test_case", "matsuno_wave_type", some ("case_number", ["9"])),
  ("Test_case", "matsuno_amp", some ("case_number", ["9"])),
  ("Test_case", "bubble_theta", none),
  ("Test_case", "bubble_rad", none),
  ("Time_integration", "dt", none),
  ("Time_integration", "t_end", none),
  ("Time_integration", "time_integrator", none),
  ("Time_integration", "tolerance", none),
  ("Time_integration", "starting_step", none),
  ("Time_integration", "exponential_solver", none),
  ("Time_integration", "exode_method", none),
  ("Time_integration", "exode_controller", none),
  ("Time_integration", "krylov_size", none),
  ("Time_integration", "jacobian_method", none),
  ("Time_integration", "linear_solver", none),
  ("Time_integration", "verbose_solver", none),
  ("Time_integration", "gmres_restart", none),
  ("Spatial_discretization", "num_solpts", none),
  ("Spatial_discretization", "num_elements_horizontal", none),
  ("Spatial_discretization", "num_elements_vertical", none),
  ("Spatial_discretization", "filter_apply", none),
  ("Spatial_discretization", "filter_order", some ("filter_apply", ["true"])),
  ("Spatial_discretization", "filter_order", some ("filter_apply", ["false"])),
  ("Spatial_discretization", "filter_cutoff", some ("filter_apply", ["true"])),
  ("Spatial_discretization", "filter_cutoff", some ("filter_apply", ["false"])),
  ("Spatial_discretization", "expfilter_apply", none),
  ("Spatial_discretization", "expfilter_order", some ("expfilter_apply", ["true"])),
  ("Spatial_discretization", "expfilter_order", some ("expfilter_apply", ["false"])),
  ("Spatial_discretization", "expfilter_cutoff", some ("expfilter_apply", ["true"])),
  ("Spatial_discretization", "expfilter_cutoff", some ("expfilter_apply", ["false"])),
  ("Spatial_discretization", "expfilter_strength", some ("expfilter_apply", ["true"])),
  ("Spatial_discretization", "expfilter_strength", some ("expfilter_apply", ["false"])),
  ("Spatial_discretization", "apply_sponge", none),
  ("Spatial_discretization", "sponge_tscale", none),
  ("Spatial_discretization", "sponge_zscale", none),
  ("Grid", "grid_type", none),
  ("Grid", "discretization", none),
  ("Grid", "lambda0", some ("grid_type", ["cubed_sphere"])),
  ("Grid", "phi0", some ("grid_type", ["cubed_sphere"])),
  ("Grid", "alpha0", some ("grid_type", ["cubed_sphere"])),
  ("Grid", "ztop", some ("grid_type", ["cubed_sphere"])),
  ("Grid", "x0", some ("grid_type", ["cartesian2d"])),
  ("Grid", "x1", some ("grid_type", ["cartesian2d"])),
  ("Grid", "z0", some ("grid_type", ["cartesian2d"])),
  ("Grid", "z1", some ("grid_type", ["cartesian2d"])),
  ("Preconditioning", "preconditioner", none),
  ("Preconditioning", "precond_flux", none),
  ("Preconditioning", "num_mg_levels", some ("preconditioner", ["fv-mg", "p-mg"])),
  ("Preconditioning", "precond_tolerance", none),
  ("Preconditioning", "num_pre_smoothe", none),
  ("Preconditioning", "num_post_smoothe", none),
  ("Preconditioning", "mg_smoother", none),
  ("Preconditioning", "exp_smoothe_spectral_radii", some ("mg_smoother", ["exp"])),
  ("Preconditioning", "exp_smoothe_num_iters", some ("mg_smoother", ["exp"])),
  ("Preconditioning", "mg_solve_coarsest", none),
  ("Preconditioning", "kiops_dt_factor", none),
  ("Preconditioning", "verbose_precond", none),
  ("Preconditioning", "dg_to_fv_interp", none),
  ("Preconditioning", "pseudo_cfl", none),
  ("Output_options", "stat_freq", none),
  ("Output_options", "output_freq", none),
  ("Output_options", "save_state_freq", none),
  ("Output_options", "store_solver_stats", none),
  ("Output_options", "output_dir", none),
  ("Output_options", "base_output_file", none),
  ("Output_options", "solver_stats_file", none),
  ("Output_options", "store_total_time", none),
  ("Output_options", "output_format", none)]

/-- The options of the shipped schema; `read` is the outcome of reading each of them from a given file. -/
def shippedOptions (read : Nat → Except Err String) : List (Opt String) :=
  (shippedSchema.zipIdx).map fun (f, i) => ⟨f.2.1, f.1, f.2.2, read i⟩

end WxVerif.Config
