{
 "claims": [
  {
   "property": "C01",
   "status": "proved",
   "theorems": [
    "WxVerif.Props.Topology.C01_size_accepted_iff"
   ],
   "note": ""
  },
  {
   "property": "C02",
   "status": "proved",
   "theorems": [
    "WxVerif.Props.Topology.C02_placement_bijective"
   ],
   "note": ""
  },
  {
   "property": "C03",
   "status": "proved",
   "theorems": [
    "WxVerif.Props.Topology.C03_neighbours"
   ],
   "note": ""
  },
  {
   "property": "C04",
   "status": "proved",
   "theorems": [
    "WxVerif.Props.Topology.C04_scalar_exchange",
    "WxVerif.Props.Topology.C04_scalar_exchange_field"
   ],
   "note": ""
  },
  {
   "property": "C05",
   "status": "proved",
   "theorems": [
    "WxVerif.Props.Topology.C05_vector_exchange"
   ],
   "note": ""
  },
  {
   "property": "C06",
   "status": "partial",
   "theorems": [
    "WxVerif.Props.Topology.C06_panel2_south_violates",
    "WxVerif.Props.Topology.C06_covariant_exchange_partial",
    "WxVerif.Props.Topology.C06_contraction_invariant"
   ],
   "note": "The code violates the property on panel 2 south (process_topology.py:191); negation proved, the other 23 edges proved."
  },
  {
   "property": "C07",
   "status": "proved",
   "theorems": [
    "WxVerif.Props.Gather.C07_gather_then_distribute",
    "WxVerif.Props.Gather.C07_distribute_then_gather",
    "WxVerif.Props.Gather.C07_distribute_refuses",
    "WxVerif.Props.Gather.C07_gather_refuses"
   ],
   "note": ""
  },
  {
   "property": "C08",
   "status": "proved",
   "theorems": [
    "WxVerif.Props.Mpi.C08_single_process_all_or_nothing",
    "WxVerif.Props.Mpi.C08_do_once"
   ],
   "note": ""
  },
  {
   "property": "C09",
   "status": "partial",
   "theorems": [
    "WxVerif.Props.Mpi.C09_finished_process_not_stopped",
    "WxVerif.Props.Mpi.C09_multiple_processes_partial"
   ],
   "note": "The code violates the full claim: a process that finished its body is not stopped when another one failed (proved). Proved part: what each process does in every case."
  },
  {
   "property": "C10",
   "status": "proved",
   "theorems": [
    "WxVerif.Props.Simulation.C10_advertised_counts"
   ],
   "note": ""
  },
  {
   "property": "C100",
   "status": "partial",
   "theorems": [
    "WxVerif.Props.Factorization.C100_first_step",
    "WxVerif.Props.Factorization.C100_same_system_partial",
    "WxVerif.Props.Factorization.C100_provenance",
    "WxVerif.Props.Factorization.C100_later_iff",
    "WxVerif.Props.Factorization.C100_file_iff",
    "WxVerif.Props.Factorization.C100_exact_cycle",
    "WxVerif.Props.Factorization.C100_later_step_fails",
    "WxVerif.Props.Factorization.C100_earlier_run_fails",
    "WxVerif.Props.Factorization.C100_killed_writing_fails",
    "WxVerif.Props.Factorization.C100_killed_between_fails",
    "WxVerif.Props.Factorization.C100_no_matrix_fails",
    "WxVerif.Props.Factorization.C100_library",
    "WxVerif.Props.Factorization.C100_library_raises"
   ],
   "note": "Proved for the first step in a directory without files, and for all steps and histories without kills if the system never changes. The code violates the rest: the matrix of the first step is kept, files of earlier runs are used whatever their state was, and killed runs make later ones raise or wait for ever. The simulation refuses every preconditioner at this commit (C73), so this is about the class handed to an integrator."
  },
  {
   "property": "C101",
   "status": "proved",
   "theorems": [
    "WxVerif.Props.Convergence.C101_srerk",
    "WxVerif.Props.Convergence.C101_default",
    "WxVerif.Props.Accuracy.C101_simulation",
    "WxVerif.Props.Srerk.C56_nodes_inside",
    "WxVerif.Props.Srerk.C56_default_nodes"
   ],
   "note": "The simulation is one without filters, prescribed winds and with output managers that leave the state alone, as in C93. The roots are exact; the code computes them in floating point."
  },
  {
   "property": "C102",
   "status": "partial",
   "theorems": [
    "WxVerif.Props.Galewsky.C102_jet_partial",
    "WxVerif.Props.Galewsky.C102_edges_fails",
    "WxVerif.Props.Galewsky.C102_balanced_partial",
    "WxVerif.Props.Galewsky.C102_defined",
    "WxVerif.Props.Galewsky.C102_rational",
    "WxVerif.Props.Galewsky.C102_south",
    "WxVerif.Props.Galewsky.C102_perturbation_partial",
    "WxVerif.Props.Galewsky.C102_perturbation_fails",
    "WxVerif.Props.Galewsky.C102_points"
   ],
   "note": "The loop at one point; before it, the pinned code raises because the arrays of the grid have three axes. The program raises at the two edges of the jet, and the perturbation is cut along longitude zero because the longitudes of the grid run from zero to two pi. The error bound is in terms of a bound of the fourth derivative of the integrated function, which exists."
  },
  {
   "property": "C103",
   "status": "partial",
   "theorems": [
    "WxVerif.Props.ConfigPrint.C103_shown_partial",
    "WxVerif.Props.ConfigPrint.C103_same_text_partial",
    "WxVerif.Props.ConfigPrint.C103_shipped_schema",
    "WxVerif.Props.ConfigPrint.C103_digits_fails"
   ],
   "note": "Proved for every schema whose parents depend on nothing and whose options of equal name exclude each other (the shipped one does), whenever names and value texts hold no line break or bar and do not end in a space. The text of a number has six digits, so different values can print alike: proved. How values become text (str, .6g) is a parameter, except .6g between 1 and 10."
  },
  {
   "property": "C104",
   "status": "partial",
   "theorems": [
    "WxVerif.Props.Exchange.C104_accepted",
    "WxVerif.Props.Exchange.C104_refused_partial",
    "WxVerif.Props.Exchange.C104_refused_fails",
    "WxVerif.Props.Exchange.C104_flat_scalars",
    "WxVerif.Props.Exchange.C104_face_scalars",
    "WxVerif.Props.Exchange.C104_flat_vectors",
    "WxVerif.Props.Exchange.C104_face_vectors",
    "WxVerif.Props.ExchangeHalo.C104_halo_scalars",
    "WxVerif.Props.ExchangeHalo.C104_halo_vectors",
    "WxVerif.Props.ExchangeHalo.C104_halo_height",
    "WxVerif.Props.ExchangeHalo.C104_halo_momentum",
    "WxVerif.Props.ExchangeHalo.C104_halo_slopes"
   ],
   "note": "Delivery is proved for the two layouts the code uses: the boundary in the last axes in order with the default flip, and the faces of elements with flip_dim (-3, -1). Together with C04 to C06 this settles where each value comes from. The halos in the equations of the shallow-water and 3D models are proved to be what the exchange of their arrays gives. Arrays with fewer entries than the boundary are refused with IndexError instead of the documented ValueError: proved."
  },
  {
   "property": "C105",
   "status": "partial",
   "theorems": [
    "WxVerif.Props.PrintSol.C105_print_sol",
    "WxVerif.Props.PrintSol.C105_computed",
    "WxVerif.Props.PrintSol.C105_uneven_fails"
   ],
   "note": "Holds when the points are divided evenly; otherwise, which nothing checks, values are printed at wrong places and the rest are zeros (proved). Not modelled: print_stats, which no caller uses and which ends with a NameError; the text of a number is a parameter."
  },
  {
   "property": "C106",
   "status": "partial",
   "theorems": [
    "WxVerif.Props.StepReport.C106_rows",
    "WxVerif.Props.StepReport.C106_clock",
    "WxVerif.Props.StepReport.C106_recorded_partial",
    "WxVerif.Props.StepReport.C106_recorded_fails",
    "WxVerif.Props.StepReport.C106_reported_partial",
    "WxVerif.Props.StepReport.C106_reported_fails",
    "WxVerif.Props.StepReport.C106_stops_partial",
    "WxVerif.Props.StepReport.C106_stops_fails"
   ],
   "note": "Rows and times proved for every integrator. Reporting failures is proved for Ros2 and violated by every other integrator and by the splittings; recording them is violated by Ros2 with GCROT, the Newton methods and the splittings."
  },
  {
   "property": "C107",
   "status": "proved",
   "theorems": [
    "WxVerif.Props.ConfigCopy.C107_same",
    "WxVerif.Props.ConfigCopy.C107_original_kept",
    "WxVerif.Props.ConfigCopy.C107_copy_kept",
    "WxVerif.Props.ConfigCopy.C107_sharing"
   ],
   "note": "options that hold immutable values or lists of them; the attributes schema, parser and sections, which nothing changes, are left out"
  },
  {
   "property": "C108",
   "status": "partial",
   "theorems": [
    "WxVerif.Props.SchemaTable.C108_range",
    "WxVerif.Props.SchemaTable.C108_type_partial",
    "WxVerif.Props.SchemaTable.C108_mandatory",
    "WxVerif.Props.SchemaTable.C108_list_fails"
   ],
   "note": "Range and mandatory options proved. The type cell identifies the type of the elements but not whether a list is meant (violation proved). The text of single values is a parameter: distinct words without comma."
  },
  {
   "property": "C11",
   "status": "proved",
   "theorems": [
    "WxVerif.Props.Simulation.C11_run_reaches_end",
    "WxVerif.Props.Simulation.C11_schedule",
    "WxVerif.Props.ProgressLine.C11_progress"
   ],
   "note": ""
  },
  {
   "property": "C12",
   "status": "proved",
   "theorems": [
    "WxVerif.Props.Simulation.C12_failure_stops"
   ],
   "note": ""
  },
  {
   "property": "C13",
   "status": "proved",
   "theorems": [
    "WxVerif.Props.Simulation.C13_output_schedule"
   ],
   "note": ""
  },
  {
   "property": "C14",
   "status": "proved",
   "theorems": [
    "WxVerif.Props.Simulation.C14_second_run",
    "WxVerif.Props.Simulation.C14_run_twice"
   ],
   "note": "the state is reset to the array of the initial state, as the output of the starting step left it (C77)"
  },
  {
   "property": "C15",
   "status": "partial",
   "theorems": [
    "WxVerif.Props.Simulation.C15_restart_partial",
    "WxVerif.Props.WriteResult.C77_restart_fails"
   ],
   "note": "proved when the output of the restart step leaves the saved state unchanged, which holds for every output manager except netCDF output of shallow water over a mountain (C77_managers); for that one the restarted run is proved to end with another solution"
  },
  {
   "property": "C16",
   "status": "proved",
   "theorems": [
    "WxVerif.Props.Simulation.C16_starting_state_agreement"
   ],
   "note": ""
  },
  {
   "property": "C17",
   "status": "proved",
   "theorems": [
    "WxVerif.Props.Output.C17_state_file_names",
    "WxVerif.Props.Output.C17_step_width"
   ],
   "note": ""
  },
  {
   "property": "C18",
   "status": "proved",
   "theorems": [
    "WxVerif.Props.Output.C18_state_round_trip",
    "WxVerif.Props.Output.C18_strip_spec",
    "WxVerif.Props.Output.C18_readfile"
   ],
   "note": ""
  },
  {
   "property": "C19",
   "status": "partial",
   "theorems": [
    "WxVerif.Props.Output.C19_long_durations_fail",
    "WxVerif.Props.Output.C19_durations_partial",
    "WxVerif.Props.Output.C19_integers_lose_minutes"
   ],
   "note": "The code violates the property for every float duration above 1000 s (proved); durations up to 1000 s proved."
  },
  {
   "property": "C20",
   "status": "proved",
   "theorems": [
    "WxVerif.Props.Config.C20_read",
    "WxVerif.Props.Config.C20_never_out_of_range",
    "WxVerif.Props.Config.C20_convert"
   ],
   "note": ""
  },
  {
   "property": "C21",
   "status": "proved",
   "theorems": [
    "WxVerif.Props.Config.C21_sorted",
    "WxVerif.Props.Config.C21_configure",
    "WxVerif.Props.Config.C21_shipped_schema",
    "WxVerif.Props.Config.C21_chain_out_of_order_fails"
   ],
   "note": ""
  },
  {
   "property": "C22",
   "status": "proved",
   "theorems": [
    "WxVerif.Props.Config.C22_eval",
    "WxVerif.Props.Config.C22_rejects"
   ],
   "note": ""
  },
  {
   "property": "C23",
   "status": "proved",
   "theorems": [
    "WxVerif.Props.Config.C23_code_round_trip",
    "WxVerif.Props.Config.C23_angle_round_trip",
    "WxVerif.Props.Config.C23_periodic",
    "WxVerif.Props.Config.C23_idempotent"
   ],
   "note": ""
  },
  {
   "property": "C24",
   "status": "proved",
   "theorems": [
    "WxVerif.Props.Epi.C24_multistep",
    "WxVerif.Props.Epi.C24_history"
   ],
   "note": ""
  },
  {
   "property": "C25",
   "status": "proved",
   "theorems": [
    "WxVerif.Props.Epi.C25_order"
   ],
   "note": ""
  },
  {
   "property": "C26",
   "status": "partial",
   "theorems": [
    "WxVerif.Props.Epi.C26_alpha",
    "WxVerif.Props.Epi.C26_stiff_partial",
    "WxVerif.Props.Epi.C26_stiff_vectors_partial",
    "WxVerif.Props.Epi.C26_stiff_fails"
   ],
   "note": "The stiff variant passes positive nodes where the past states are at negative times, so the order claim is false of it for every order above 3 (proved); the weights it would get at the right nodes are proved correct."
  },
  {
   "property": "C27",
   "status": "proved",
   "theorems": [
    "WxVerif.Props.RungeKutta.C27_step",
    "WxVerif.Props.RungeKutta.C27_never_oversteps",
    "WxVerif.Props.RungeKutta.C27_ends",
    "WxVerif.Props.RungeKutta.C27_not_running",
    "WxVerif.Props.RungeKutta.C27_limiter",
    "WxVerif.Props.RungeKutta.C27_controllers",
    "WxVerif.Props.RungeKutta.C27_min_step_parameters",
    "WxVerif.Props.ErrorEstimate.C27_error_estimate"
   ],
   "note": ""
  },
  {
   "property": "C28",
   "status": "partial",
   "theorems": [
    "WxVerif.Props.Butcher.C28_exact",
    "WxVerif.Props.Butcher.C28_kc32",
    "WxVerif.Props.Butcher.C28_f10",
    "WxVerif.Props.Butcher.C28_f14_partial",
    "WxVerif.Props.Butcher.C28_dp87_partial",
    "WxVerif.Props.Butcher.C28_dp87_fails",
    "WxVerif.Props.Butcher.C28_validation",
    "WxVerif.Props.Butcher.C28_accepted"
   ],
   "note": "Violated by DP8(7) (main and embedded weights exchanged) and DP5(4) (refused by the validation); F14(12) is checked up to order eight of fourteen."
  },
  {
   "property": "C29",
   "status": "proved",
   "theorems": [
    "WxVerif.Props.Schemes.C29_steady",
    "WxVerif.Props.Schemes.C29_consistent",
    "WxVerif.Props.Schemes.C29_amplification",
    "WxVerif.Props.Schemes.C29_accuracy",
    "WxVerif.Props.Schemes.C29_tvd",
    "WxVerif.Props.Schemes.C29_runge_kutta_steady"
   ],
   "note": ""
  },
  {
   "property": "C30",
   "status": "partial",
   "theorems": [
    "WxVerif.Props.Schemes.C30_one_step",
    "WxVerif.Props.Schemes.C30_bdf2",
    "WxVerif.Props.Schemes.C30_bdf2_order",
    "WxVerif.Props.Schemes.C30_bdf2_start_partial",
    "WxVerif.Props.Schemes.C30_bdf2_start_fails",
    "WxVerif.Props.Schemes.C30_ros2",
    "WxVerif.Props.Schemes.C30_rosexp2",
    "WxVerif.Props.Schemes.C30_partrosexp2",
    "WxVerif.Props.Schemes.C30_accuracy",
    "WxVerif.Props.Schemes.C30_sdirk_equation",
    "WxVerif.Props.Schemes.C30_sdirk_parameter",
    "WxVerif.Props.Schemes.C30_imex2",
    "WxVerif.Props.Schemes.C30_imex2_equation"
   ],
   "note": "Violated by the start-up step of BDF2, which uses half of the right-hand side (proved); every other scheme proved."
  },
  {
   "property": "C31",
   "status": "proved",
   "theorems": [
    "WxVerif.Props.KrylovControl.C31_control",
    "WxVerif.Props.KrylovControl.C31_outputs",
    "WxVerif.Props.KrylovControl.C31_pass",
    "WxVerif.Props.KrylovControl.C31_negative_times_fail"
   ],
   "note": "Negative requested times are stored wrongly (proved). That the loop ends cannot be proved: every attempt may be rejected."
  },
  {
   "property": "C32",
   "status": "partial",
   "theorems": [
    "WxVerif.Props.Augmented.C32_first_substep",
    "WxVerif.Props.Augmented.C32_exact_tail",
    "WxVerif.Props.Augmented.C32_one_substep_partial",
    "WxVerif.Props.Augmented.C32_phi1_all_substeps",
    "WxVerif.Props.Augmented.C32_restart_fails",
    "WxVerif.Props.Augmented.C32_two_substeps_fail",
    "WxVerif.Props.Augmented.C32_single_vector_fails"
   ],
   "note": "Violated by the code: with two or more added vectors the restart of the second and later sub-steps uses wrong powers of time; a single vector is refused. Proved: one sub-step with any number of vectors, all sub-steps with one added vector."
  },
  {
   "property": "C33",
   "status": "partial",
   "theorems": [
    "WxVerif.Props.Gmres.C33_rotg",
    "WxVerif.Props.Gmres.C33_cycle",
    "WxVerif.Props.Gmres.C33_krylov_minimum",
    "WxVerif.Props.Gmres.C33_solvable",
    "WxVerif.Props.Gmres.C33_flag",
    "WxVerif.Props.Gmres.C33_progress",
    "WxVerif.Props.Gmres.C33_rescale",
    "WxVerif.Props.Gmres.C33_exact_guess_fails"
   ],
   "note": "Violated in one part: an initial guess that already solves the system makes the solver raise (proved). Everything else proved."
  },
  {
   "property": "C34",
   "status": "proved",
   "theorems": [
    "WxVerif.Props.Reductions.C34_dot",
    "WxVerif.Props.Reductions.C34_dot_independent",
    "WxVerif.Props.Reductions.C34_norm",
    "WxVerif.Props.Reductions.C34_norm_independent",
    "WxVerif.Props.Reductions.C34_inf_norm",
    "WxVerif.Props.Reductions.C34_inf_norm_independent",
    "WxVerif.Props.Reductions.C34_inf_norm_empty_part"
   ],
   "note": ""
  },
  {
   "property": "C35",
   "status": "partial",
   "theorems": [
    "WxVerif.Props.Metric2D.C35_induced",
    "WxVerif.Props.Metric2D.C35_inverse",
    "WxVerif.Props.Metric2D.C35_volume",
    "WxVerif.Props.Metric2D.C35_scaled_induced",
    "WxVerif.Props.Metric2D.C35_scaled_inverse",
    "WxVerif.Props.Metric2D.C35_scaled_volume_fails"
   ],
   "note": "Violated in one part: after element scaling the volume element has an extra factor 1/2 (proved)."
  },
  {
   "property": "C36",
   "status": "partial",
   "theorems": [
    "WxVerif.Props.Metric3D.C36_induced_deep",
    "WxVerif.Props.Metric3D.C36_induced_shallow",
    "WxVerif.Props.Metric3D.C36_inverse",
    "WxVerif.Props.Metric3D.C36_volume",
    "WxVerif.Props.Metric3D.C36_volume_pos",
    "WxVerif.Props.Metric3D.C36_auxiliary_partial",
    "WxVerif.Props.Metric3D.C36_auxiliary_fails"
   ],
   "note": "Violated in one part: the auxiliary contravariant metric used at interfaces has a sum instead of a product (proved, with the exact set of points)."
  },
  {
   "property": "C37",
   "status": "proved",
   "theorems": [
    "WxVerif.Props.Metric2D.C37_levi_civita",
    "WxVerif.Props.Metric2D.C37_trace",
    "WxVerif.Props.Metric2D.C37_divergence",
    "WxVerif.Props.Metric2D.C37_scaled",
    "WxVerif.Props.Metric2D.C37_scaled_square_needed"
   ],
   "note": "The scaling is right for square elements, the only ones the grid makes; C37_scaled_square_needed shows it is wrong for others."
  },
  {
   "property": "C38",
   "status": "partial",
   "theorems": [
    "WxVerif.Props.Metric2D.C38_coriolis_2d",
    "WxVerif.Props.Metric2D.C38_no_work_2d",
    "WxVerif.Props.Metric2D.C38_no_work_2d_scaled",
    "WxVerif.Props.Metric2D.C38_coriolis_parameter",
    "WxVerif.Props.Metric3D.C38_coriolis_3d_partial",
    "WxVerif.Props.Metric3D.C38_coriolis_3d_corrected",
    "WxVerif.Props.Metric3D.C38_no_work_3d_corrected",
    "WxVerif.Props.Metric3D.C38_no_work_3d_fails"
   ],
   "note": "Violated in 3D: the signs of two rotation symbols (proved, with the exact amount of work at panel centres). Proved in 2D, in 3D for velocities without second component, and in 3D with the signs corrected."
  },
  {
   "property": "C39",
   "status": "partial",
   "theorems": [
    "WxVerif.Props.Winds.C39_wind2contra",
    "WxVerif.Props.Winds.C39_roundtrip_wind",
    "WxVerif.Props.Winds.C39_roundtrip_contra",
    "WxVerif.Props.Winds.C39_contra2wind",
    "WxVerif.Props.Winds.C39_cart2sph",
    "WxVerif.Props.Metric3D.C39_contra2wind_3d",
    "WxVerif.Props.Metric3D.C39_roundtrip_3d_partial",
    "WxVerif.Props.Metric3D.C39_roundtrip_3d_fails"
   ],
   "note": "Violated in 3D over sloping terrain (proved, with the exact spurious vertical wind). Proved in 2D, in 3D on level surfaces, and for the contravariant-to-physical direction everywhere."
  },
  {
   "property": "C40",
   "status": "partial",
   "theorems": [
    "WxVerif.Props.Layout.C40_to_new_3d",
    "WxVerif.Props.Layout.C40_to_block_3d",
    "WxVerif.Props.Layout.C40_roundtrip_3d",
    "WxVerif.Props.Layout.C40_itf_i_3d",
    "WxVerif.Props.Layout.C40_itf_j_3d",
    "WxVerif.Props.Layout.C40_itf_k_3d",
    "WxVerif.Props.Layout.C40_to_new_2d",
    "WxVerif.Props.Layout.C40_to_new_2d_fields",
    "WxVerif.Props.Layout.C40_rectangular_fails",
    "WxVerif.Props.Layout.C40_to_block_2d",
    "WxVerif.Props.Layout.C40_roundtrip_2d",
    "WxVerif.Props.Layout.C40_itf_i_2d_partial",
    "WxVerif.Props.Layout.C40_itf_j_2d_partial",
    "WxVerif.Props.Layout.C40_itf_one_element_fails",
    "WxVerif.Props.Layout.C40_get_floor",
    "WxVerif.Props.Layout.C40_get_itf_i_floor",
    "WxVerif.Props.Layout.C40_get_itf_j_floor",
    "WxVerif.Props.Layout.C40_floor_to_bulk",
    "WxVerif.Props.Layout.C40_floor_to_bulk_k",
    "WxVerif.Props.Layout.C40_floor_i_to_bulk",
    "WxVerif.Props.Layout.C40_floor_j_to_bulk",
    "WxVerif.Props.Layout.C40_floor_roundtrip",
    "WxVerif.Props.Layout.C40_to_new_floor",
    "WxVerif.Props.Layout.C40_itf_i_floor",
    "WxVerif.Props.Layout.C40_itf_j_floor",
    "WxVerif.Props.Layout.C40_to_new_cartesian",
    "WxVerif.Props.Layout.C40_to_block_cartesian",
    "WxVerif.Props.Layout.C40_roundtrip_cartesian",
    "WxVerif.Props.Layout.C40_rejects"
   ],
   "note": "Violated on the 2D sphere with one element per tile side: the interface arrays lose the axis of elements (proved). The 2D block-to-element conversion is right on square tiles only, which are the only ones the mesh builds. Missing: nothing else."
  },
  {
   "property": "C41",
   "status": "proved",
   "theorems": [
    "WxVerif.Props.Quadrature.C41_rule",
    "WxVerif.Props.Quadrature.C41_invalid"
   ],
   "note": ""
  },
  {
   "property": "C42",
   "status": "proved",
   "theorems": [
    "WxVerif.Props.Operators.C42_diffmat",
    "WxVerif.Props.Operators.C42_lagrange_eval",
    "WxVerif.Props.Operators.C42_extrapolation",
    "WxVerif.Props.Operators.C42_corrected",
    "WxVerif.Props.Operators.C42_derivative_2d",
    "WxVerif.Props.Operators.C42_derivative_3d",
    "WxVerif.Props.Operators.C42_extrap_2d",
    "WxVerif.Props.Operators.C42_extrap_3d",
    "WxVerif.Props.Operators.C42_symmetry_check",
    "WxVerif.Props.Operators.C42_check_iff",
    "WxVerif.Props.Conservation.C42_code_points"
   ],
   "note": "Operators as built without the optional filter."
  },
  {
   "property": "C43",
   "status": "proved",
   "theorems": [
    "WxVerif.Props.Conservation.C43_element",
    "WxVerif.Props.Conservation.C43_row",
    "WxVerif.Props.Conservation.C43_budget_2d",
    "WxVerif.Props.Conservation.C43_budget_cartesian",
    "WxVerif.Props.Conservation.C43_budget_3d"
   ],
   "note": "For every variable advanced in flux form with single-valued interface fluxes. The vertical momentum of the 3D model is advanced in a split non-conservative form (p times the derivative of log p) and is outside the claim."
  },
  {
   "property": "C44",
   "status": "proved",
   "theorems": [
    "WxVerif.Props.RowReduce.C44_inverse",
    "WxVerif.Props.RowReduce.C44_fails_iff"
   ],
   "note": "Exact arithmetic over any field."
  },
  {
   "property": "C45",
   "status": "partial",
   "theorems": [
    "WxVerif.Props.Flux.C45_rusanov_consistent",
    "WxVerif.Props.Flux.C45_w_split",
    "WxVerif.Props.Flux.C45_w_consistent",
    "WxVerif.Props.Flux.C45_rusanov_mirror",
    "WxVerif.Props.Flux.C45_rusanov_upwind",
    "WxVerif.Props.Flux.C45_rusanov_single_valued",
    "WxVerif.Props.Flux.C45_ausm_fv_consistent",
    "WxVerif.Props.Flux.C45_ausm_fv_mirror",
    "WxVerif.Props.Flux.C45_upwind_fv",
    "WxVerif.Props.Flux.C45_rusanov_fv",
    "WxVerif.Props.Flux.C45_rusanov_fv_dissipation",
    "WxVerif.Props.Flux.C45_shallow_i_upwind",
    "WxVerif.Props.Flux.C45_shallow_j_upwind",
    "WxVerif.Props.Flux.C45_line_consistent",
    "WxVerif.Props.Flux.C45_column_consistent",
    "WxVerif.Props.Flux.C45_pointwise_cartesian",
    "WxVerif.Props.Flux.C45_kernel_partial",
    "WxVerif.Props.Flux.C45_kernel_consistent_iff",
    "WxVerif.Props.Flux.C45_kernel_fails",
    "WxVerif.Props.Flux.C45_kernel_mirror",
    "WxVerif.Props.Flux.C45_cartesian_single_valued",
    "WxVerif.Props.Flux.C45_pointwise_shallow",
    "WxVerif.Props.Flux.C45_shallow_i_consistent",
    "WxVerif.Props.Flux.C45_shallow_j_consistent",
    "WxVerif.Props.Flux.C45_shallow_dry",
    "WxVerif.Props.Flux.C45_shallow_i_mirror",
    "WxVerif.Props.Flux.C45_shallow_j_mirror",
    "WxVerif.Props.Flux.C45_shallow_single_valued",
    "WxVerif.Props.Flux.C45_column_single_valued",
    "WxVerif.Props.Flux.C45_line_single_valued"
   ],
   "note": "Proved for the Rusanov fluxes of the cubed sphere, the finite-volume fluxes and the shallow-water fluxes. The compiled Cartesian AUSM kernel is inconsistent (C45_kernel_fails): consistent exactly when the normal momentum is zero; its other components are proved."
  },
  {
   "property": "C46",
   "status": "proved",
   "theorems": [
    "WxVerif.Props.Flux.C46_cartesian_walls",
    "WxVerif.Props.Flux.C46_no_flux",
    "WxVerif.Props.Flux.C46_wpres",
    "WxVerif.Props.Flux.C46_tile_budget"
   ],
   "note": "Cubed-sphere column and Cartesian walls; with C43, the budget of a tile has no bottom or top term."
  },
  {
   "property": "C47",
   "status": "partial",
   "theorems": [
    "WxVerif.Props.Diagnostic.C47_fails",
    "WxVerif.Props.Diagnostic.C47_components",
    "WxVerif.Props.Diagnostic.C47_partial"
   ],
   "note": "Violated: the diagnostic differentiates the wrong components, so a linear potential has a non-zero diagnosed vorticity on every grid. Proved remainder: a fluid at rest."
  },
  {
   "property": "C48",
   "status": "proved",
   "theorems": [
    "WxVerif.Props.Panels.C48_position",
    "WxVerif.Props.Panels.C48_on_sphere",
    "WxVerif.Props.Panels.C48_edges",
    "WxVerif.Props.Panels.C48_shared_edges",
    "WxVerif.Props.Panels.C48_cover",
    "WxVerif.Props.Panels.C48_disjoint",
    "WxVerif.Props.Panels.C48_tiles_cover",
    "WxVerif.Props.Panels.C48_tiles_disjoint",
    "WxVerif.Props.Panels.C48_grid_cover",
    "WxVerif.Props.Panels.C48_grid_disjoint",
    "WxVerif.Props.Panels.C48_invalid_panel",
    "WxVerif.Props.Panels.C48_tile_end",
    "WxVerif.Props.Panels.C48_documented_ranges",
    "WxVerif.Props.Panels.C48_unchecked_range_fails",
    "WxVerif.Props.Panels.C48_tiny_rotation_fails"
   ],
   "note": "For every rotation in the documented ranges (regular rotations). The range check is commented out in the code: two theorems give rotations outside for which edges do not coincide."
  },
  {
   "property": "C49",
   "status": "proved",
   "theorems": [
    "WxVerif.Props.Terrain.C49_heights",
    "WxVerif.Props.Terrain.C49_monotone",
    "WxVerif.Props.Terrain.C49_faces",
    "WxVerif.Props.Terrain.C49_block",
    "WxVerif.Props.Terrain.C49_layouts_agree",
    "WxVerif.Props.Terrain.C49_missing_floor"
   ],
   "note": "Real arithmetic; both layouts, interior points and the three kinds of faces. Outside the statement: the initialization of case 20 calls apply_topography with three of its six required arguments and raises."
  },
  {
   "property": "C50",
   "status": "partial",
   "theorems": [
    "WxVerif.Props.Multigrid.C50_rk1_exact",
    "WxVerif.Props.Multigrid.C50_rk1_missing",
    "WxVerif.Props.Multigrid.C50_rk1_correction",
    "WxVerif.Props.Multigrid.C50_rk3_exact",
    "WxVerif.Props.Multigrid.C50_rk3_missing",
    "WxVerif.Props.Multigrid.C50_rk3_correction",
    "WxVerif.Props.Multigrid.C50_ark3_exact",
    "WxVerif.Props.Multigrid.C50_ark3_missing",
    "WxVerif.Props.Multigrid.C50_ark3_correction",
    "WxVerif.Props.Multigrid.C50_kiops_exact",
    "WxVerif.Props.Multigrid.C50_kiops_missing",
    "WxVerif.Props.Multigrid.C50_kiops_correction",
    "WxVerif.Props.Multigrid.C50_kiops_zero",
    "WxVerif.Props.Multigrid.C50_exp_guard",
    "WxVerif.Props.Multigrid.C50_exp_missing",
    "WxVerif.Props.Multigrid.C50_exp_correction",
    "WxVerif.Props.Multigrid.C50_exp_scale",
    "WxVerif.Props.Multigrid.C50_exp_pseudo_time",
    "WxVerif.Props.Multigrid.C50_exp_exact_fails",
    "WxVerif.Props.Multigrid.C50_cycle_zero",
    "WxVerif.Props.Multigrid.C50_cycle_exact_partial",
    "WxVerif.Props.Multigrid.C50_apply_exact_partial",
    "WxVerif.Props.Multigrid.C50_apply_zero",
    "WxVerif.Props.Multigrid.C50_cycle_correction",
    "WxVerif.Props.Multigrid.C50_runge_kutta_cycle",
    "WxVerif.Props.Multigrid.C50_fgmres_zero",
    "WxVerif.Props.Multigrid.C50_single_level_fails",
    "WxVerif.Props.Multigrid.C50_extended_list"
   ],
   "note": "Proved for the Runge-Kutta, additive and kiops smoothers and for cycles of any depth. Violated by the exponential smoother (division by the zero spectral radius for an exact guess) and by a single level with the coarse solver (C33). The guard and the missing guess are proved for every smoother. As pinned, the class Multigrid cannot be constructed (undefined name get_rhs)."
  },
  {
   "property": "C51",
   "status": "partial",
   "theorems": [
    "WxVerif.Props.Stats.C51_rows",
    "WxVerif.Props.Stats.C51_unique",
    "WxVerif.Props.Stats.C51_no_exception",
    "WxVerif.Props.Stats.C51_timing_partial",
    "WxVerif.Props.Stats.C51_timing_fails",
    "WxVerif.Props.RhsTimes.C51_elapsed",
    "WxVerif.Props.RhsTimes.C51_columns",
    "WxVerif.Props.RhsTimes.C51_printed"
   ],
   "note": "Run ids, step ids and (step, iteration) pairs proved for any interleaving of programs on one database. The clause on timing rows holds for the first step and is violated by every later step."
  },
  {
   "property": "C52",
   "status": "partial",
   "theorems": [
    "WxVerif.Props.Advection.C52_partial",
    "WxVerif.Props.Advection.C52_fails",
    "WxVerif.Props.Advection.C52_other_cases"
   ],
   "note": "Whenever an evaluation succeeds the statement holds, but every advection-only case carries tracers and the evaluation raises (interface arrays have five variables)."
  },
  {
   "property": "C53",
   "status": "partial",
   "theorems": [
    "WxVerif.Props.RungeKutta.C53_carried_derivative_partial",
    "WxVerif.Props.RungeKutta.C53_carried_derivative_fails"
   ],
   "note": "Violated by methods that do not reuse their last stage when the right-hand side depends on time."
  },
  {
   "property": "C54",
   "status": "partial",
   "theorems": [
    "WxVerif.Props.Newton.C54_line_search",
    "WxVerif.Props.Newton.C54_objective",
    "WxVerif.Props.Newton.C54_answer",
    "WxVerif.Props.Newton.C54_first_step",
    "WxVerif.Props.Newton.C54_maxiter",
    "WxVerif.Props.Newton.C54_jacobian",
    "WxVerif.Props.Newton.C54_affine",
    "WxVerif.Props.Newton.C54_failure_reported_fails"
   ],
   "note": "Violated in one part: a solve that does not converge is reported as a success (proved). After all allowed steps the returned count is one less than the number of steps."
  },
  {
   "property": "C55",
   "status": "proved",
   "theorems": [
    "WxVerif.Props.Schemes.C55_consistent",
    "WxVerif.Props.Schemes.C55_commuting",
    "WxVerif.Props.Schemes.C55_reversible",
    "WxVerif.Props.Schemes.C55_order"
   ],
   "note": ""
  },
  {
   "property": "C56",
   "status": "proved",
   "theorems": [
    "WxVerif.Props.Srerk.C56_epi_affine",
    "WxVerif.Props.Srerk.C56_srerk_affine",
    "WxVerif.Props.Srerk.C56_stage_vectors",
    "WxVerif.Props.Srerk.C56_remainders",
    "WxVerif.Props.Srerk.C56_nodes",
    "WxVerif.Props.Srerk.C56_nodes_inside",
    "WxVerif.Props.Srerk.C56_default_nodes",
    "WxVerif.Props.Srerk.C56_stage_sizes"
   ],
   "note": ""
  },
  {
   "property": "C57",
   "status": "partial",
   "theorems": [
    "WxVerif.Props.KrylovScaling.C57_scaling",
    "WxVerif.Props.Krylov.C57_kiops_process",
    "WxVerif.Props.Krylov.C57_kiops_breakdown_partial",
    "WxVerif.Props.Krylov.C57_kiops_stale_fails",
    "WxVerif.Props.KrylovTimes.C57_kiops_inside_partial",
    "WxVerif.Props.KrylovTimes.C57_kiops_call_partial",
    "WxVerif.Props.Pmex.C57_pmex_process",
    "WxVerif.Props.Pmex.C57_pmex_last_column_fails",
    "WxVerif.Props.Pmex.C57_pmex_breakdown_fails"
   ],
   "note": "Violated by kiops after an accepted sub-step (an entry stays in the matrix) and by pmex at every breakdown (last column missing). Proved: kiops on a cleared matrix (also a whole call with several output times that needs one sub-step), the recurrence and orthonormality of pmex in every sub-step."
  },
  {
   "property": "C58",
   "status": "proved",
   "theorems": [
    "WxVerif.Props.Christoffel3D.C58_identity",
    "WxVerif.Props.Christoffel3D.C58_torsion_free",
    "WxVerif.Props.Christoffel3D.C58_divergence",
    "WxVerif.Props.Christoffel3D.C58_unique",
    "WxVerif.Props.Christoffel3D.C58_rest"
   ],
   "note": ""
  },
  {
   "property": "C59",
   "status": "proved",
   "theorems": [
    "WxVerif.Props.ShallowWater.C59_mass_conserved",
    "WxVerif.Props.ShallowWater.C59_steps_keep_mass",
    "WxVerif.Props.InitShallow.C59_williamson5"
   ],
   "note": "Over the reals; depth positive on the element sides (otherwise the x2 flux divides by zero); topography one function of the point, as read from the grid."
  },
  {
   "property": "C60",
   "status": "proved",
   "theorems": [
    "WxVerif.Props.InitShallow.C60_forcing"
   ],
   "note": "Over the reals; square elements, as the code always makes them."
  },
  {
   "property": "C61",
   "status": "proved",
   "theorems": [
    "WxVerif.Props.InitShallow.C61_case2_steady",
    "WxVerif.Props.InitShallow.C61_case5_balanced",
    "WxVerif.Props.InitShallow.C61_case5_south_steady",
    "WxVerif.Props.InitShallow.C61_case6_nondivergent",
    "WxVerif.Props.InitShallow.C61_case6_balanced",
    "WxVerif.Props.BlockNumbers.C61_slopes",
    "WxVerif.Props.References.C61_case10_steady"
   ],
   "note": "Over the reals, with exact derivatives in place of the discrete ones; off the poles, where the wind conversion divides by zero. Case 6 is stated in longitude and latitude on the formulas of the code (the conversion to contravariant components is C39), and so is the reference of case 10. The initialisation of the cases 8 and 10 raises in the pinned code."
  },
  {
   "property": "C62",
   "status": "partial",
   "theorems": [
    "WxVerif.Props.VortexSpeed.C62_vortex_speed",
    "WxVerif.Props.InitShallow.C62_case1_frozen",
    "WxVerif.Props.InitShallow.C62_tracer_fails",
    "WxVerif.Props.References.C62_bell_carried",
    "WxVerif.Props.References.C62_vortex_carried"
   ],
   "note": "The reference solutions of both cases are carried by the prescribed winds. The tendency fails in the pinned code: the velocity is stored where the right-hand side reads the momentum, so the exact tendency of the tracer is zero at every point off the poles while the reference moves. Case 0 raises before that."
  },
  {
   "property": "C63",
   "status": "proved",
   "theorems": [
    "WxVerif.Props.EulerCartesian.C63_history",
    "WxVerif.Props.EulerCartesian.C63_conserved",
    "WxVerif.Props.EulerCartesian.C63_horizontal_momentum",
    "WxVerif.Props.EulerCartesian.C63_vertical_momentum"
   ],
   "note": "Exact arithmetic; the Gauss rule is a hypothesis met by C41 for n \u2264 5 and by every Gauss rule."
  },
  {
   "property": "C64",
   "status": "partial",
   "theorems": [
    "WxVerif.Props.Invariants.C64_explicit",
    "WxVerif.Props.Invariants.C64_implicit",
    "WxVerif.Props.Invariants.C64_imex",
    "WxVerif.Props.Invariants.C64_bdf2",
    "WxVerif.Props.Invariants.C64_bdf2_run",
    "WxVerif.Props.Invariants.C64_ros2",
    "WxVerif.Props.Invariants.C64_rosexp2",
    "WxVerif.Props.Invariants.C64_splitting",
    "WxVerif.Props.Invariants.C64_runge_kutta",
    "WxVerif.Props.Invariants.C64_runge_kutta_run",
    "WxVerif.Props.Invariants.C64_newton",
    "WxVerif.Props.Invariants.C64_newton_operator",
    "WxVerif.Props.Invariants.C64_fgmres",
    "WxVerif.Props.Invariants.C64_krylov",
    "WxVerif.Props.Invariants.C64_exponential_solver",
    "WxVerif.Props.Invariants.C64_epi",
    "WxVerif.Props.Invariants.C64_srerk",
    "WxVerif.Props.Invariants.C64_jacobian",
    "WxVerif.Props.Invariants.C64_cartesian",
    "WxVerif.Props.Invariants.C64_cartesian_run",
    "WxVerif.Props.ConvergenceComplex.C64_complex_step",
    "WxVerif.Props.InvariantCalls.C64_solver_rows",
    "WxVerif.Props.InvariantCalls.C64_epi_run",
    "WxVerif.Props.InvariantCalls.C64_srerk_run",
    "WxVerif.Props.InvariantNewton.C64_fgmres_all",
    "WxVerif.Props.InvariantNewton.C64_newton_krylov",
    "WxVerif.Props.InvariantNewton.C64_implicit_run",
    "WxVerif.Props.InvariantNewton.C64_ros2_step",
    "WxVerif.Props.InvariantNewton.C64_ros2_run",
    "WxVerif.Props.InvariantGcrot.C64_gcrot_first_partial",
    "WxVerif.Props.InvariantGcrot.C64_gcrot_bound_partial",
    "WxVerif.Props.InvariantGcrot.C64_gcrot_fails"
   ],
   "note": "Fails for Ros2 with linear_solver gcrot: from the second step on, the kept solution changes the conserved quantities (negation proved); there the first step is proved exact and the later ones within the tolerance.  Everything else holds in exact arithmetic; whole runs of the exponential, implicit and Rosenbrock integrators with their solvers included; preconditioner must keep the subspace (the identity does); the option hegedus of fgmres, which no caller sets, is off."
  },
  {
   "property": "C65",
   "status": "proved",
   "theorems": [
    "WxVerif.Props.EulerSphere.C65_mass_conserved",
    "WxVerif.Props.EulerSphere.C65_theta_conserved",
    "WxVerif.Props.EulerSphere.C65_steps_keep_totals",
    "WxVerif.Props.EulerSphere.C65_conserved_by_rhs",
    "WxVerif.Props.EulerSphere.C65_integrators",
    "WxVerif.Props.EulerSphere.C65_column_height",
    "WxVerif.Props.InvariantCalls3D.C65_epi_run",
    "WxVerif.Props.InvariantCalls3D.C65_srerk_run",
    "WxVerif.Props.InvariantNewton.C65_implicit_run",
    "WxVerif.Props.InvariantNewton.C65_ros2_run"
   ],
   "note": "over the reals; a state with non-positive density gives NaN in the code (log) and a real number in the model"
  },
  {
   "property": "C66",
   "status": "partial",
   "theorems": [
    "WxVerif.Props.CartesianConsistency.C66_cartesian_partial",
    "WxVerif.Props.CartesianConsistency.C66_cartesian_fails",
    "WxVerif.Props.SphereConsistency.C66_shallow_water",
    "WxVerif.Props.SphereConsistency.C66_euler",
    "WxVerif.Props.SphereConsistency.C66_euler_vertical"
   ],
   "note": "proved for shallow water and 3D Euler; false for the normal momentum of the Cartesian equations wherever the flow crosses an element face, because the compiled AUSM kernel drops rho u^2 there"
  },
  {
   "property": "C67",
   "status": "partial",
   "theorems": [
    "WxVerif.Props.RestState.C67_rest",
    "WxVerif.Props.RestState.C67_weight_partial",
    "WxVerif.Props.RestState.C67_weight_fails",
    "WxVerif.Props.RestState.C67_one_point_fails",
    "WxVerif.Props.LakeAtRest.C67_still_water_depth",
    "WxVerif.Props.LakeAtRest.C67_still_water_velocity_fails"
   ],
   "note": "proved for the atmosphere and the depth of still water; the force of gravity is exact only for columns without the last Legendre mode and vanishes with one point per element; the velocity of still water gets a truncation error"
  },
  {
   "property": "C68",
   "status": "partial",
   "theorems": [
    "WxVerif.Props.Matvec.C68_derivative",
    "WxVerif.Props.Matvec.C68_complex_step",
    "WxVerif.Props.Matvec.C68_finite_difference",
    "WxVerif.Props.Matvec.C68_complex_quadratic",
    "WxVerif.Props.Matvec.C68_fd_quadratic",
    "WxVerif.Props.Matvec.C68_method",
    "WxVerif.Props.Matvec.C68_rational",
    "WxVerif.Props.Matvec.C68_real_states",
    "WxVerif.Props.Matvec.C68_upwind",
    "WxVerif.Props.Matvec.C68_rusanov_lost",
    "WxVerif.Props.Matvec.C68_complex_rusanov_fails"
   ],
   "note": "proved for right-hand sides that are analytic along the line; false for the 3D Euler equations, whose Rusanov flux takes the modulus of the complex wind and so loses the derivative of the dissipation"
  },
  {
   "property": "C69",
   "status": "partial",
   "theorems": [
    "WxVerif.Props.Gcrot.C69_solution",
    "WxVerif.Props.Gcrot.C69_reported",
    "WxVerif.Props.Gcrot.C69_kept",
    "WxVerif.Props.Gcrot.C69_run",
    "WxVerif.Props.Gcrot.C69_bounds",
    "WxVerif.Props.Gcrot.C69_flag_fails",
    "WxVerif.Props.Gcrot.C69_stale_fails",
    "WxVerif.Props.Gcrot.C69_local_norm_fails"
   ],
   "note": "proved except that non-convergence is reported as success, that vectors recycled from a call with another operator (every step of a nonlinear run) can prevent convergence for ever, and that the norms are local to the process"
  },
  {
   "property": "C70",
   "status": "partial",
   "theorems": [
    "WxVerif.Props.Exode.C70_equation",
    "WxVerif.Props.Exode.C70_exact",
    "WxVerif.Props.Exode.C70_call",
    "WxVerif.Props.Exode.C70_remembered",
    "WxVerif.Props.Exode.C70_first_call",
    "WxVerif.Props.Exode.C70_failure_fails",
    "WxVerif.Props.Exode.C70_sticky_fails",
    "WxVerif.Props.Exode.C70_single_vector_fails",
    "WxVerif.Props.Exode.C70_default_method_fails"
   ],
   "note": "proved for the equation, termination, end time and reuse of the step; false for failures, which are returned as answers and, at the first step, poison all later calls"
  },
  {
   "property": "C71",
   "status": "proved",
   "theorems": [
    "WxVerif.Props.Matsuno.C71_frequencies",
    "WxVerif.Props.Matsuno.C71_fields",
    "WxVerif.Props.Matsuno.C71_nontrivial",
    "WxVerif.Props.Matsuno.C71_case"
   ],
   "note": "exact real and complex arithmetic; the test case uses Earth parameters of its own whatever the planet of the run"
  },
  {
   "property": "C72",
   "status": "partial",
   "theorems": [
    "WxVerif.Props.Slopes.C72_height",
    "WxVerif.Props.Slopes.C72_slopes",
    "WxVerif.Props.Slopes.C72_sides",
    "WxVerif.Props.Slopes.C72_levels",
    "WxVerif.Props.Slopes.C72_metric_point",
    "WxVerif.Props.Slopes.C72_interface",
    "WxVerif.Props.Slopes.C72_interface_partial",
    "WxVerif.Props.Slopes.C72_interface_fails",
    "WxVerif.Props.Slopes.C72_ridge_fails",
    "WxVerif.Props.Slopes.C72_halo",
    "WxVerif.Props.Slopes.C72_metric_forcing",
    "WxVerif.Props.Slopes.C72_prescribed_wind",
    "WxVerif.Props.SlopesEdge.C72_shared_side",
    "WxVerif.Props.SlopesEdge.C72_metric_level"
   ],
   "note": "true at the solution points, on the sides of elements and between levels; the two tiles sharing a side use one gradient there; false between columns wherever X Y is not zero"
  },
  {
   "property": "C73",
   "status": "partial",
   "theorems": [
    "WxVerif.Props.Startup.C73_runs_iff",
    "WxVerif.Props.Startup.C73_refused_partial",
    "WxVerif.Props.Startup.C73_late",
    "WxVerif.Props.Startup.C73_documented_cases_fail",
    "WxVerif.Props.Startup.C73_unknown_case_fails",
    "WxVerif.Props.Startup.C73_more_processes_fails",
    "WxVerif.Props.Startup.C73_shipped_fails"
   ],
   "note": "the exact set of configurations that run is proved; the refusals are not all ValueErrors nor all at start-up: the exceptions are listed exactly"
  },
  {
   "property": "C74",
   "status": "partial",
   "theorems": [
    "WxVerif.Props.DeformationStrength.C74_deformation_strength",
    "WxVerif.Props.HadleyReturn.C74_hadley_return",
    "WxVerif.Props.InitAtmosphere.C74_pressure",
    "WxVerif.Props.InitAtmosphere.C74_isothermal",
    "WxVerif.Props.InitAtmosphere.C74_lapse_rate",
    "WxVerif.Props.InitAtmosphere.C74_lapse_rate_domain",
    "WxVerif.Props.InitAtmosphere.C74_schar_steady",
    "WxVerif.Props.InitAtmosphere.C74_gravity_wave_steady",
    "WxVerif.Props.InitAtmosphere.C74_gravity_wave_domain",
    "WxVerif.Props.InitAtmosphere.C74_perturbation",
    "WxVerif.Props.InitAtmosphere.C74_schar_deep_fails",
    "WxVerif.Props.InitAtmosphere.C74_gravity_wave_deep_fails",
    "WxVerif.Props.InitAtmosphere.C74_deformation_divergence_free",
    "WxVerif.Props.InitAtmosphere.C74_hadley_divergence_free",
    "WxVerif.Props.InitAtmosphere.C74_no_wind_through_lid",
    "WxVerif.Props.InitAtmosphere.C74_reversal",
    "WxVerif.Props.InitAtmosphere.C74_tracers",
    "WxVerif.Props.InitAtmosphere.C74_tracer_shapes",
    "WxVerif.Props.InitAtmosphere.C74_hadley_start",
    "WxVerif.Props.InitAtmosphere.C74_layer",
    "WxVerif.Props.InitAtmosphere.C74_mountains",
    "WxVerif.Props.InitAtmosphere.C74_damping",
    "WxVerif.Props.InitAtmosphere.C74_acoustic",
    "WxVerif.Props.InitAtmosphere.C74_plane_gradient",
    "WxVerif.Props.InitAtmosphere.C74_plane_isentropic",
    "WxVerif.Props.InitAtmosphere.C74_plane_stratified",
    "WxVerif.Props.InitAtmosphere.C74_bubble_partial",
    "WxVerif.Props.InitAtmosphere.C74_bubble_fails"
   ],
   "note": "exact arithmetic; the flows are balanced for the shallow atmosphere only, although the deep one is the default, and the bubble is not hydrostatic around its core"
  },
  {
   "property": "C75",
   "status": "proved",
   "theorems": [
    "WxVerif.Props.Filter.C75_mass",
    "WxVerif.Props.Filter.C75_norm",
    "WxVerif.Props.Filter.C75_smooth",
    "WxVerif.Props.Filter.C75_off",
    "WxVerif.Props.Filter.C75_derivative_conserves",
    "WxVerif.Props.Filter.C75_derivative_exact",
    "WxVerif.Props.Filter.C75_configured",
    "WxVerif.Props.Filter.C75_symmetry_check",
    "WxVerif.Props.Filter.C75_sponge",
    "WxVerif.Props.Filter.C75_uniform_fails",
    "WxVerif.Props.Filter.C75_cutoff_fails"
   ],
   "note": "exact arithmetic; for cutoffs that are not negative (mass), at most one, and strengths that are not negative (norm), differentiation filters of order at least one; the sponge formula alone, because the code around it cannot run; smoothness is that of the field times the volume element"
  },
  {
   "property": "C76",
   "status": "partial",
   "theorems": [
    "WxVerif.Props.KrylovLowSync.C76_dcgs2_loop_partial",
    "WxVerif.Props.KrylovLowSync.C76_one_reduction",
    "WxVerif.Props.KrylovLowSync.C76_one_reduction_estimate",
    "WxVerif.Props.KrylovLowSync.C76_estimate",
    "WxVerif.Props.KrylovLowSync.C76_same_update",
    "WxVerif.Props.KrylovLowSync.C76_kiops_nest",
    "WxVerif.Props.KrylovLowSync.C76_icwy_neiop_partial",
    "WxVerif.Props.KrylovLowSync.C76_breakdown_exact_partial",
    "WxVerif.Props.KrylovLowSync.C76_reduction",
    "WxVerif.Props.KrylovLowSync.C76_rowForm_inner",
    "WxVerif.Props.KrylovLowSync.C76_one_reduction_breakdown_fails",
    "WxVerif.Props.KrylovLowSync.C76_breakdown_last_fails",
    "WxVerif.Props.KrylovLowSync.C76_estimate_breakdown_fails",
    "WxVerif.Props.KrylovLowSync.C76_icwy_neiop_breakdown_fails",
    "WxVerif.Props.KrylovLowSync.C76_kiops_nest_iop_fails",
    "WxVerif.Props.KrylovLowSync.C76_icwy_neiop_iop_fails",
    "WxVerif.Props.KrylovLowSync.C76_dcgs2_unit_fails",
    "WxVerif.Props.KrylovLowSync.C76_dcgs2_scale_fails",
    "WxVerif.Props.KrylovLowSync.C76_processes_fails",
    "WxVerif.Props.KrylovLowSync.C76_kiops_nest_processes_fails",
    "WxVerif.Props.KrylovLowSync.C76_mixed_norm_fails"
   ],
   "note": "exact arithmetic, one reduction form throughout (one process, or the solvers that use the same sum everywhere); proved without a breakdown for all solvers but dcgs2, with a breakdown before the last vector for the three solvers with one sum and an estimated norm and for kiops_nest; the incomplete solvers for a single size per sub-step; what fails is proved false of the code"
  },
  {
   "property": "C77",
   "status": "partial",
   "theorems": [
    "WxVerif.Props.WriteResult.C77_output_neutral",
    "WxVerif.Props.WriteResult.C77_manual_steps",
    "WxVerif.Props.WriteResult.C77_managers",
    "WxVerif.Props.WriteResult.C77_topography_fails",
    "WxVerif.Props.WriteResult.C77_frequency_fails",
    "WxVerif.Props.WriteResult.C77_restart_fails"
   ],
   "note": "proved for every manager and grid but one; false for netCDF output of shallow water over a mountain, where every output adds the mountain to the depth of the running simulation"
  },
  {
   "property": "C78",
   "status": "partial",
   "theorems": [
    "WxVerif.Props.OutputFile.C78_shallow_water_fields",
    "WxVerif.Props.OutputFile.C78_euler_fields",
    "WxVerif.Props.OutputFile.C78_positions",
    "WxVerif.Props.OutputFile.C78_axes",
    "WxVerif.Props.OutputFile.C78_records",
    "WxVerif.Props.OutputFile.C78_fst_records",
    "WxVerif.Props.OutputFile.C78_fst_time",
    "WxVerif.Props.OutputFile.C78_times_partial",
    "WxVerif.Props.OutputFile.C78_plane_image",
    "WxVerif.Props.OutputFile.C78_topography_winds_fails",
    "WxVerif.Props.OutputFile.C78_axes_fails",
    "WxVerif.Props.OutputFile.C78_second_axis_fails",
    "WxVerif.Props.OutputFile.C78_last_time_fails",
    "WxVerif.Props.OutputFile.C78_time_unit_fails",
    "WxVerif.Props.OutputFile.C78_restart_fails",
    "WxVerif.Props.OutputFile.C78_communicator_fails",
    "WxVerif.Props.OutputFile.C78_plane_image_fails"
   ],
   "note": "fields and longitudes/latitudes proved for every number of tiles (3D winds where coordinate surfaces are level, as in C39); times proved for full steps; the rest is proved false of the code"
  },
  {
   "property": "C79",
   "status": "proved",
   "theorems": [
    "WxVerif.Props.Kernels.C79_interface_fluxes",
    "WxVerif.Props.Kernels.C79_interface_same",
    "WxVerif.Props.Kernels.C79_interface_bounds",
    "WxVerif.Props.Kernels.C79_interface_reads",
    "WxVerif.Props.Kernels.C79_point_fluxes",
    "WxVerif.Props.Kernels.C79_forcing",
    "WxVerif.Props.Kernels.C79_supported_types",
    "WxVerif.Props.Kernels.C79_other_type_fails"
   ],
   "note": "Whole property for the types double and complex double. C79_other_type_fails: arrays of another type are left unchanged on the card without an error. Launches with no block (one element in a direction) start no thread in the model; the runtime refuses them, which the code does not look at."
  },
  {
   "property": "C80",
   "status": "partial",
   "theorems": [
    "WxVerif.Props.StiffPdes.C80_laplacianDirichlet",
    "WxVerif.Props.StiffPdes.C80_laplacianNeumann",
    "WxVerif.Props.StiffPdes.C80_advectionNeumann",
    "WxVerif.Props.StiffPdes.C80_advectionDirichlet_partial",
    "WxVerif.Props.StiffPdes.C80_advectionUsquaredDir_partial",
    "WxVerif.Props.StiffPdes.C80_nonLinAdvecDirichlet_partial",
    "WxVerif.Props.StiffPdes.C80_laplacianPeriodic_partial",
    "WxVerif.Props.StiffPdes.C80_laplacianUsquared_partial",
    "WxVerif.Props.StiffPdes.C80_nonLinLapPeriodic_partial",
    "WxVerif.Props.StiffPdes.C80_advectionPeriodic_partial",
    "WxVerif.Props.StiffPdes.C80_advectionUsquared_partial",
    "WxVerif.Props.StiffPdes.C80_nonLinAdvecPeriodic_partial",
    "WxVerif.Props.StiffPdes.C80_allencahn_rhs",
    "WxVerif.Props.StiffPdes.C80_adr_rhs",
    "WxVerif.Props.StiffPdes.C80_porous_rhs_partial",
    "WxVerif.Props.StiffPdes.C80_burgers_rhs_partial",
    "WxVerif.Props.StiffPdes.C80_points",
    "WxVerif.Props.StiffPdes.C80_not_square",
    "WxVerif.Props.StiffPdes.C80_dropped_points_fails",
    "WxVerif.Props.StiffPdes.C80_one_process_fails",
    "WxVerif.Props.StiffPdes.C80_one_point_fails"
   ],
   "note": "All operators and right-hand sides, for points divided evenly with at least two by two per process, and at least four processes where the boundaries are periodic or an advection with zero values outside is used. Missing because the code does not do it: C80_one_process_fails, C80_one_point_fails, C80_dropped_points_fails."
  },
  {
   "property": "C81",
   "status": "partial",
   "theorems": [
    "WxVerif.Props.StiffPdes.C81_allencahn",
    "WxVerif.Props.StiffPdes.C81_adr",
    "WxVerif.Props.StiffPdes.C81_porous_partial",
    "WxVerif.Props.StiffPdes.C81_burgers_partial"
   ],
   "note": "Whole property for Allen-Cahn and for advection, diffusion and reaction (any number of processes, points divided evenly); porous medium and Burgers from four processes on, because with one they raise (C80_one_process_fails)."
  },
  {
   "property": "C82",
   "status": "proved",
   "theorems": [
    "WxVerif.Props.StiffPdes.C82_neighbours",
    "WxVerif.Props.StiffPdes.C82_periodic_neighbours"
   ],
   "note": "Whole property (periodic: from four processes on; with one process the exchange is not called)."
  },
  {
   "property": "C83",
   "status": "proved",
   "theorems": [
    "WxVerif.Props.Decomposition.C83_shallow_water",
    "WxVerif.Props.Decomposition.C83_coordinates",
    "WxVerif.Props.Decomposition.C83_initial",
    "WxVerif.Props.Decomposition.C83_topography",
    "WxVerif.Props.Decomposition.C83_flat",
    "WxVerif.Props.Decomposition.C83_steps",
    "WxVerif.Props.Decomposition.C83_run",
    "WxVerif.Props.Decomposition.C83_sum",
    "WxVerif.Props.Decomposition3D.C83_euler",
    "WxVerif.Props.Decomposition3D.C83_christoffel",
    "WxVerif.Props.Decomposition3D.C83_floor",
    "WxVerif.Props.Decomposition3D.C83_euler_steps",
    "WxVerif.Props.Decomposition3D.C83_euler_run"
   ],
   "note": "Whole property in real arithmetic for the explicit schemes; for the other schemes the Jacobian products and the sums they use."
  },
  {
   "property": "C84",
   "status": "partial",
   "theorems": [
    "WxVerif.Props.ProcessCount.C84_exponential_solver",
    "WxVerif.Props.ProcessCount.C84_fgmres_partial",
    "WxVerif.Props.ProcessCount.C84_one_process",
    "WxVerif.Props.ProcessCount.C84_restart_fails",
    "WxVerif.Props.ProcessCount.C84_newton_system",
    "WxVerif.Props.ProcessCount.C84_stagnation_fails",
    "WxVerif.Props.ProcessCount.C84_flags_fails",
    "WxVerif.Props.ProcessCount.C84_epi",
    "WxVerif.Props.ProcessCount.C84_srerk",
    "WxVerif.Props.ProcessCount.C84_srerk_step",
    "WxVerif.Props.ProcessCount.C84_implicit",
    "WxVerif.Props.ProcessCount.C84_initial",
    "WxVerif.Props.ProcessCount3D.C84_euler_epi",
    "WxVerif.Props.ProcessCount3D.C84_euler_srerk",
    "WxVerif.Props.ProcessCount3D.C84_euler_implicit",
    "WxVerif.Props.ProcessCountRos2.C84_ros2_partial",
    "WxVerif.Props.ProcessCountRos2.C84_euler_ros2_partial"
   ],
   "note": "Whole property for EPI, SRERK and the implicit schemes (the complex step of the Jacobian products is represented by the derivative). For FGMRES with several passes (Ros2, RosExp2) the code violates it: proved with a witness of two processes; `C84_fgmres_partial` and the runs of Ros2 assume that no process finds stagnation."
  },
  {
   "property": "C85",
   "status": "partial",
   "theorems": [
    "WxVerif.Props.BlockStats.C85_integral_fails",
    "WxVerif.Props.BlockStats.C85_energy",
    "WxVerif.Props.BlockStats.C85_enstrophy",
    "WxVerif.Props.BlockStats.C85_processes",
    "WxVerif.Props.BlockStats.C85_reference",
    "WxVerif.Props.BlockStats.C85_printed",
    "WxVerif.Props.BlockStats.C85_no_mass_drift",
    "WxVerif.Props.BlockStats.C85_after_output_fails",
    "WxVerif.Props.BlockStats.C85_errors",
    "WxVerif.Props.BlockStats.C85_errors_zero",
    "WxVerif.Props.BlockStats.C85_exact_start",
    "WxVerif.Props.BlockNumbers.C85_numbers",
    "WxVerif.Props.BlockNumbers.C85_metric"
   ],
   "note": "Energy density, errors, reference state and independence of the number of processes hold. The printed integrals are half the integrals over the sphere (`C85_integral_fails`), and with a topography and NetCDF output at the same steps the reported mass grows although it is conserved (`C85_after_output_fails`)."
  },
  {
   "property": "C86",
   "status": "partial",
   "theorems": [
    "WxVerif.Props.Machine.C86_processor_name",
    "WxVerif.Props.Machine.C86_processor_fails",
    "WxVerif.Props.Machine.C86_start_partial",
    "WxVerif.Props.Machine.C86_start_needs",
    "WxVerif.Props.Machine.C86_start_earlier",
    "WxVerif.Props.Machine.C86_nodes_fails",
    "WxVerif.Props.Machine.C86_unnamed_fails",
    "WxVerif.Props.Machine.C86_gpu_partial",
    "WxVerif.Props.Machine.C86_gpu_fails",
    "WxVerif.Props.Machine.C86_gpu_position",
    "WxVerif.Props.Machine.C86_balance_partial",
    "WxVerif.Props.Machine.C86_balance_fails"
   ],
   "note": "Holds for nodes that are alike, non-negative device numbers and consecutive processes on a node; outside of that the code violates it, with witnesses."
  },
  {
   "property": "C87",
   "status": "partial",
   "theorems": [
    "WxVerif.Props.MainScript.C87_success",
    "WxVerif.Props.MainScript.C87_root_partial",
    "WxVerif.Props.MainScript.C87_one_message",
    "WxVerif.Props.MainScript.C87_other_silent",
    "WxVerif.Props.MainScript.C87_fails",
    "WxVerif.Props.MainScript.C87_show_every",
    "WxVerif.Props.MainScript.C87_all_fail",
    "WxVerif.Props.MainScript.C87_interrupt",
    "WxVerif.Props.MainScript.C87_exit_zero",
    "WxVerif.Props.MainScript.C87_command",
    "WxVerif.Props.MainScript.C87_import",
    "WxVerif.Props.MainScript.C87_import_other",
    "WxVerif.Props.MainScript.C87_nan",
    "WxVerif.Props.MainScript.C87_solver_fails",
    "WxVerif.Props.MainScript.C87_times_partial",
    "WxVerif.Props.MainScript.C87_times_fails"
   ],
   "note": "Holds for errors of process 0, interrupts, the command line and complete runs; for errors of the other processes, solver failures and the file of times the code violates it, with witnesses."
  },
  {
   "property": "C88",
   "status": "partial",
   "theorems": [
    "WxVerif.Props.Stability.C88_affine_solvable",
    "WxVerif.Props.Stability.C88_backward_euler",
    "WxVerif.Props.Stability.C88_backward_euler_damping",
    "WxVerif.Props.Stability.C88_crank_nicolson",
    "WxVerif.Props.Stability.C88_sdirk",
    "WxVerif.Props.Stability.C88_ros2",
    "WxVerif.Props.Stability.C88_bdf2",
    "WxVerif.Props.Stability.C88_imex2_partial",
    "WxVerif.Props.Stability.C88_imex2_fails",
    "WxVerif.Props.Stability.C88_oscillation",
    "WxVerif.Props.Stability.C88_decay",
    "WxVerif.Props.Stability.C88_sdirk_stiff",
    "WxVerif.Props.Stability.C88_crank_nicolson_stiff_fails",
    "WxVerif.Props.Stability.C88_epi",
    "WxVerif.Props.Stability.C88_srerk",
    "WxVerif.Props.Stability.C88_splitting"
   ],
   "note": "IMEX2 amplifies every oscillation of the explicit part and Crank-Nicolson keeps fast decaying components; both negations are proved. Everything else holds as stated."
  },
  {
   "property": "C89",
   "status": "partial",
   "theorems": [
    "WxVerif.Props.MaxPrinciple.C89_cartesian_step",
    "WxVerif.Props.MaxPrinciple.C89_cartesian_run",
    "WxVerif.Props.MaxPrinciple.C89_cartesian_tvdrk3",
    "WxVerif.Props.MaxPrinciple.C89_cartesian_courant",
    "WxVerif.Props.MaxPrinciple.C89_cartesian_possible",
    "WxVerif.Props.MaxPrinciple.C89_two_points_fails",
    "WxVerif.Props.MaxPrincipleShallow.C89_shallow_step",
    "WxVerif.Props.MaxPrincipleShallow.C89_shallow_run",
    "WxVerif.Props.MaxPrincipleShallow.C89_shallow_run_topography_partial",
    "WxVerif.Props.MaxPrincipleShallow.C89_shallow_run_falling",
    "WxVerif.Props.MaxPrincipleShallow.C89_shallow_possible",
    "WxVerif.Props.MaxPrincipleShallow.C89_shallow_runs_exist",
    "WxVerif.Props.MaxPrincipleSphere.C89_sphere_step",
    "WxVerif.Props.MaxPrincipleSphere.C89_sphere_run",
    "WxVerif.Props.MaxPrincipleSphere.C89_sphere_possible"
   ],
   "note": "Proved for one solution point per element; the shallow-water run over a topography that rises from the middle of an element to its sides needs the sides to be under water at each step. With two points along a side the bounds are violated (negation proved)."
  },
  {
   "property": "C90",
   "status": "partial",
   "theorems": [
    "WxVerif.Props.Convergence.C90_euler1",
    "WxVerif.Props.Convergence.C90_tvdrk3",
    "WxVerif.Props.Convergence.C90_backward_euler",
    "WxVerif.Props.Convergence.C90_crank_nicolson",
    "WxVerif.Props.Convergence.C90_sdirk",
    "WxVerif.Props.Convergence.C90_imex2",
    "WxVerif.Props.Convergence.C90_adaptive",
    "WxVerif.Props.Convergence.C90_adaptive_rounded",
    "WxVerif.Props.Convergence.C90_tables",
    "WxVerif.Props.Convergence.C90_lie",
    "WxVerif.Props.Convergence.C90_strang",
    "WxVerif.Props.Convergence.C90_splitting_code",
    "WxVerif.Props.Convergence.C90_ros2",
    "WxVerif.Props.Convergence.C90_rosexp2",
    "WxVerif.Props.Convergence.C90_partrosexp2",
    "WxVerif.Props.Convergence.C90_bdf2_fails",
    "WxVerif.Props.ConvergenceComplex.C90_complex_step",
    "WxVerif.Props.ConvergenceComplex.C90_partrosexp2_complex"
   ],
   "note": "Proved in full for the listed one-step schemes and the adaptive solver. BDF2 is not second order because of its start-up (negation proved). The table DP8(7) has order 7 and F14(12) is proved up to order 8 (C28). The two schemes with an exponential take the products with the Jacobians by the complex step as in the code; their accuracy is proved for right-hand sides with a smooth complex version."
  },
  {
   "property": "C91",
   "status": "partial",
   "theorems": [
    "WxVerif.Props.SchemaFile.C91_two_forms",
    "WxVerif.Props.SchemaFile.C91_options",
    "WxVerif.Props.SchemaFile.C91_sound",
    "WxVerif.Props.SchemaFileMore.C91_expression",
    "WxVerif.Props.SchemaFileMore.C91_unknown_ignored",
    "WxVerif.Props.SchemaFileMore.C91_list_expression_fails",
    "WxVerif.Props.SchemaFileMore.C91_bool_fails",
    "WxVerif.Props.SchemaFileMore.C91_dependency_values",
    "WxVerif.Props.SchemaFileMore.C91_dependency_capitals_fails",
    "WxVerif.Props.SchemaFileMore.C91_listing",
    "WxVerif.Props.SchemaFileMore.C91_columns",
    "WxVerif.Props.SchemaFileMore.C91_shipped"
   ],
   "note": "Proved: one option per description, faithful, both forms, sound ranges, expressions for numbers, the printed table. The code differs: an expression as default of a list gives a bare number, a dependency on a value with capitals can never be active, unknown attributes are dropped (the shipped file loses the values of output_format), and truth values cannot be written as texts."
  },
  {
   "property": "C92",
   "status": "partial",
   "theorems": [
    "WxVerif.Props.EpiConvergence.C92_epi",
    "WxVerif.Props.EpiConvergence.C92_epi2",
    "WxVerif.Props.EpiConvergence.C92_constant_partial",
    "WxVerif.Props.EpiConvergence.C92_stiff_partial",
    "WxVerif.Props.EpiConvergence.C92_order_fails"
   ],
   "note": "Proved in full with the start-up calls counted in the bound. The order in the name of the methods 4, 5, 6 and of the stiff variants from 4 on is not reached, because the start-up has order two (negation proved). Steps that change by less than 1e-10 without being equal are not covered."
  },
  {
   "property": "C93",
   "status": "partial",
   "theorems": [
    "WxVerif.Props.Accuracy.C93_one_step",
    "WxVerif.Props.Accuracy.C93_with_solver",
    "WxVerif.Props.Accuracy.C93_schemes",
    "WxVerif.Props.Accuracy.C93_epi_partial",
    "WxVerif.Props.Accuracy.C93_epi2",
    "WxVerif.Props.Accuracy.C93_split",
    "WxVerif.Props.Accuracy.C93_ros2",
    "WxVerif.Props.Accuracy.C93_rosexp2",
    "WxVerif.Props.Accuracy.C93_partrosexp2"
   ],
   "note": "Runs without filters, prescribed winds and with output managers that leave the state alone. The exponential integrators 4 to 6 are bounded with order three only (see C92). BDF2 has no order two to compose (C90), the adaptive Runge-Kutta solver is not an integrator of the simulation, and the splittings with an exponential and a Rosenbrock part are not treated."
  },
  {
   "property": "C94",
   "status": "partial",
   "theorems": [
    "WxVerif.Props.Assembly.C94_columns",
    "WxVerif.Props.Assembly.C94_global",
    "WxVerif.Props.Assembly.C94_local",
    "WxVerif.Props.AssemblyFiles.C94_matrices",
    "WxVerif.Props.AssemblyFiles.C94_set",
    "WxVerif.Props.AssemblyFiles.C94_coo_fails",
    "WxVerif.Props.AssemblyFiles.C94_checked"
   ],
   "note": "Matrices in coordinate format are stored in a form that cannot be read (negation proved); complete for the compressed and diagonal formats."
  },
  {
   "property": "C95",
   "status": "partial",
   "theorems": [
    "WxVerif.Props.FieldOperators.C95_derivatives",
    "WxVerif.Props.FieldOperators.C95_extrapolations_partial",
    "WxVerif.Props.FieldOperators.C95_extrapolate_k_fails",
    "WxVerif.Props.FieldOperators.C95_slopes",
    "WxVerif.Props.FieldOperators.C95_layouts",
    "WxVerif.Props.FieldOperators.C95_gradient"
   ],
   "note": "Complete for the derivatives, the gradient, the storage orders and the values of the extrapolations; the shape returned by the extrapolation along the third direction differs from the documented one for an array of one field and for matrices of fields (negation proved)."
  },
  {
   "property": "C96",
   "status": "proved",
   "theorems": [
    "WxVerif.Props.Coordinates3D.C96_points",
    "WxVerif.Props.Coordinates3D.C96_west_east",
    "WxVerif.Props.Coordinates3D.C96_south_north",
    "WxVerif.Props.Coordinates3D.C96_vertical",
    "WxVerif.Props.Coordinates3D.C96_longitudes",
    "WxVerif.Props.Coordinates3D.C96_boundaries",
    "WxVerif.Props.Coordinates3D.C96_tiles_meet",
    "WxVerif.Props.Coordinates3D.C96_neighbours_east",
    "WxVerif.Props.Coordinates3D.C96_neighbours_north",
    "WxVerif.Props.Coordinates3D.C96_block_topography_fails"
   ],
   "note": "In exact arithmetic. The check of the terrain cases compares the two layouts for exact equality and the one of the grid with a tolerance of 1e-15: with rounding they may raise. Edges shared by two panels are treated in C48."
  },
  {
   "property": "C97",
   "status": "proved",
   "theorems": [
    "WxVerif.Props.RhsObject.C97_result",
    "WxVerif.Props.RhsObject.C97_history_independent",
    "WxVerif.Props.RhsObject.C97_complex",
    "WxVerif.Props.RhsObject.C97_real",
    "WxVerif.Props.RhsObject.C97_types"
   ],
   "note": "States of one fixed shape with five variables (cases with tracers fail, C73). The returned array is a copy, so that later calls cannot alter it: modelled as a value."
  },
  {
   "property": "C98",
   "status": "partial",
   "theorems": [
    "WxVerif.Props.StatsRadii.C98_radii",
    "WxVerif.Props.StatsDb.C98_compatible_partial",
    "WxVerif.Props.StatsDb.C98_growing_partial",
    "WxVerif.Props.StatsDb.C98_accepts_iff",
    "WxVerif.Props.StatsDb.C98_renamed_column_fails",
    "WxVerif.Props.StatsDb.C98_interrupted_creation_fails",
    "WxVerif.Props.StatsDb.C98_agreement_partial",
    "WxVerif.Props.StatsDb.C98_agreement_fails",
    "WxVerif.Props.StatsDb.C98_directory_fails",
    "WxVerif.Props.StatsDb.C98_same_row_partial",
    "WxVerif.Props.StatsDb.C98_row_determines_partial",
    "WxVerif.Props.StatsDb.C98_ark3_fails",
    "WxVerif.Props.StatsDb.C98_unused_preconditioner_fails",
    "WxVerif.Props.StatsDb.C98_factorization_fails"
   ],
   "note": "Proved for versions that only add columns, and for versions without columns besides those of a version that opened the file before, if the run that creates the file completes the creation; which tables are accepted is characterised exactly. The code violates the rest: a column renamed between versions, an interrupted creation, errors other than OperationalError, the directory, the smoother ark3, factorizations, and preconditioners that the integrator does not use."
  },
  {
   "property": "C99",
   "status": "partial",
   "theorems": [
    "WxVerif.Props.Interpolation.C99_exact_plane",
    "WxVerif.Props.Interpolation.C99_exact_space",
    "WxVerif.Props.Interpolation.C99_round_trip",
    "WxVerif.Props.Interpolation.C99_restrict_prolong",
    "WxVerif.Props.Interpolation.C99_within",
    "WxVerif.Props.Interpolation.C99_halving",
    "WxVerif.Props.Interpolation.C99_bilinear",
    "WxVerif.Props.Interpolation.C99_velocity_fails",
    "WxVerif.Props.Interpolation.C99_l2_fails",
    "WxVerif.Props.Interpolation.C99_linear_from_dg_fails",
    "WxVerif.Props.Interpolation.C99_modal_fails",
    "WxVerif.Props.Interpolation.C99_refine_fails",
    "WxVerif.Props.Interpolation.C99_fv_level_fails",
    "WxVerif.Props.Interpolation.C99_regroup_iff",
    "WxVerif.Props.Interpolation.C99_points"
   ],
   "note": "Proved for the methods lagrange and bilinear. The code violates the rest: velocities on the cubed sphere, l2-norm, modal, linear weights from spectral elements, linear refinement, and grids of finite volumes. No multigrid preconditioner can be made at this commit (C50), so the interpolator is the public class on its own."
  }
 ]
}