{
 "claims": [
  {
   "property": "C01",
   "status": "proved",
   "theorems": [
    "NNL.Props.C01_product_exact",
    "NNL.Props.C01_product_accepts"
   ],
   "note": ""
  },
  {
   "property": "C02",
   "status": "proved",
   "theorems": [
    "NNL.Props.C02_relu_exact",
    "NNL.Props.C02_relu_accepts",
    "NNL.Props.C02_relu_complete",
    "NNL.Props.C02_relu_hull"
   ],
   "note": ""
  },
  {
   "property": "C03",
   "status": "proved",
   "theorems": [
    "NNL.Props.C03_leaky_exact",
    "NNL.Props.C03_leaky_slope_one",
    "NNL.Props.C03_leaky_complete",
    "NNL.Props.C03_leaky_accepts"
   ],
   "note": "Slope exactly 1 is treated separately: there the rows force y = x only, which is still the leaky ReLU."
  },
  {
   "property": "C04",
   "status": "proved",
   "theorems": [
    "NNL.Props.C04_leaky_gradient_exact",
    "NNL.Props.C04_leaky_gradient_slope_one",
    "NNL.Props.C04_leaky_gradient_graph",
    "NNL.Props.C04_leaky_gradient_accepts"
   ],
   "note": ""
  },
  {
   "property": "C05",
   "status": "proved",
   "theorems": [
    "NNL.Props.C05_abs_accepts",
    "NNL.Props.C05_abs_sound",
    "NNL.Props.C05_abs_complete"
   ],
   "note": ""
  },
  {
   "property": "C06",
   "status": "proved",
   "theorems": [
    "NNL.Props.C06_max_sound",
    "NNL.Props.C06_max_pinned",
    "NNL.Props.C06_max_complete",
    "NNL.Props.C06_max_accepts",
    "NNL.Props.C06_max_raises_counterexample"
   ],
   "note": "Sound and complete whenever the function returns; C06_max_raises_counterexample: the code raises when exactly one entry can never be maximal."
  },
  {
   "property": "C07",
   "status": "proved",
   "theorems": [
    "NNL.Props.C07_saturation",
    "NNL.Props.C07_example"
   ],
   "note": ""
  },
  {
   "property": "C08",
   "status": "proved",
   "theorems": [
    "NNL.Props.C08_ia_sound",
    "NNL.Props.C08_ia_tight",
    "NNL.Props.C08_ia_accepts"
   ],
   "note": ""
  },
  {
   "property": "C09",
   "status": "proved",
   "theorems": [
    "NNL.Props.C09_leaky_interval_sound",
    "NNL.Props.C09_leaky_interval_tight",
    "NNL.Props.C09_leaky_interval_accepts"
   ],
   "note": ""
  },
  {
   "property": "C10",
   "status": "proved",
   "theorems": [
    "NNL.Props.C10_box_boundary",
    "NNL.Props.C10_accepts"
   ],
   "note": ""
  },
  {
   "property": "C11",
   "status": "proved",
   "theorems": [
    "NNL.Props.C11_bounds_sound",
    "NNL.Props.C11_layer_bounds_sound",
    "NNL.Props.C11_layer_bounds_accepts",
    "NNL.Props.C11_mip_oracle_exists"
   ],
   "note": "Interval arithmetic outright; LP, MIP and IA_MIP bounds under the hypothesis that the values reported by the solver bound the program handed to it."
  },
  {
   "property": "C12",
   "status": "proved",
   "theorems": [
    "NNL.Props.C12_sound",
    "NNL.Props.C12_complete",
    "NNL.Props.C12_exact",
    "NNL.Props.C12_binary_meaning",
    "NNL.Props.C12_accepts",
    "NNL.Props.C12_row_count",
    "NNL.Props.C12_returns"
   ],
   "note": ""
  },
  {
   "property": "C13",
   "status": "partial",
   "theorems": [
    "NNL.Props.C13_warmstart_partial",
    "NNL.Props.C13_warmstart_counterexample"
   ],
   "note": "The claim fails when a unit with nonnegative lower bound has input exactly 0 (C13_warmstart_counterexample); C13_warmstart_partial shows this is the only failure."
  },
  {
   "property": "C14",
   "status": "proved",
   "theorems": [
    "NNL.Props.C14_cut_valid",
    "NNL.Props.C14_cut_accepts",
    "NNL.Props.C14_strengthen_valid",
    "NNL.Props.C14_given_pts_valid",
    "NNL.Props.C14_network_cuts_valid",
    "NNL.Props.C14_vertices",
    "NNL.Props.C14_vertices_raises",
    "NNL.Props.C14_beta_range"
   ],
   "note": ""
  },
  {
   "property": "C15",
   "status": "proved",
   "theorems": [
    "NNL.Props.C15_optimal",
    "NNL.Props.C15_accepts",
    "NNL.Props.C15_none_violated",
    "NNL.Props.C15_unit_none_violated"
   ],
   "note": ""
  },
  {
   "property": "C16",
   "status": "partial",
   "theorems": [
    "NNL.Props.C16_blend_sound",
    "NNL.Props.C16_blend_sign",
    "NNL.Props.C16_blend_not_looser_partial",
    "NNL.Props.C16_blend_counterexample"
   ],
   "note": "Soundness proved in full. Never-looser fails for a positive lower bound (C16_blend_counterexample); all other cases proved."
  },
  {
   "property": "C17",
   "status": "proved",
   "theorems": [
    "NNL.Props.C17_region",
    "NNL.Props.C17_piece",
    "NNL.Props.C17_jacobian",
    "NNL.Props.C17_value",
    "NNL.Props.C17_accepts",
    "NNL.Props.C17_cover",
    "NNL.Props.C17_flags"
   ],
   "note": ""
  },
  {
   "property": "C18",
   "status": "proved",
   "theorems": [
    "NNL.Props.C18_mem",
    "NNL.Props.C18_nodup",
    "NNL.Props.C18_count"
   ],
   "note": ""
  },
  {
   "property": "C19",
   "status": "proved",
   "theorems": [
    "NNL.Props.C19_left",
    "NNL.Props.C19_right",
    "NNL.Props.C19_accepts",
    "NNL.Props.C19_index_accepts",
    "NNL.Props.C19_index_lt",
    "NNL.Props.C19_index_injective",
    "NNL.Props.C19_index_surjective",
    "NNL.Props.C19_warmstart"
   ],
   "note": ""
  },
  {
   "property": "C20",
   "status": "proved",
   "theorems": [
    "NNL.Props.C20_alpha",
    "NNL.Props.C20_gradient",
    "NNL.Props.C20_feasible",
    "NNL.Props.C20_accepts"
   ],
   "note": ""
  },
  {
   "property": "C21",
   "status": "proved",
   "theorems": [
    "NNL.Props.C21_sound",
    "NNL.Props.C21_exact",
    "NNL.Props.C21_accepts"
   ],
   "note": ""
  },
  {
   "property": "C22",
   "status": "proved",
   "theorems": [
    "NNL.Props.C22_tol",
    "NNL.Props.C22_exact",
    "NNL.Props.C22_consistent",
    "NNL.Props.C22_accepts"
   ],
   "note": ""
  },
  {
   "property": "C23",
   "status": "proved",
   "theorems": [
    "NNL.Props.C23_mem",
    "NNL.Props.C23_count",
    "NNL.Props.C23_nodup",
    "NNL.Props.C23_value",
    "NNL.Props.C23_subgradient",
    "NNL.Props.C23_accepts",
    "NNL.Props.C23_tolerance_counterexample"
   ],
   "note": ""
  },
  {
   "property": "C24",
   "status": "proved",
   "theorems": [
    "NNL.Props.C24_exact",
    "NNL.Props.C24_mem",
    "NNL.Props.C24_value",
    "NNL.Props.C24_zero"
   ],
   "note": ""
  },
  {
   "property": "C25",
   "status": "proved",
   "theorems": [
    "NNL.Props.C25_length",
    "NNL.Props.C25_row",
    "NNL.Props.C25_mem"
   ],
   "note": ""
  },
  {
   "property": "C26",
   "status": "proved",
   "theorems": [
    "NNL.Props.C26_transform_input",
    "NNL.Props.C26_transform_input_feas",
    "NNL.Props.C26_transform_input_bounds_counterexample"
   ],
   "note": "Rows and output only, as the code does: input bounds are not transformed (C26_transform_input_bounds_counterexample)."
  },
  {
   "property": "C27",
   "status": "partial",
   "theorems": [
    "NNL.Props.C27_concatenate_rows",
    "NNL.Props.C27_concatenate_output",
    "NNL.Props.C27_concatenate_no_output",
    "NNL.Props.C27_concatenate_bounds",
    "NNL.Props.C27_concatenate_conjunction",
    "NNL.Props.C27_concatenate_returns_partial",
    "NNL.Props.C27_concatenate_raises_counterexample",
    "NNL.Props.C27_concatenate_bound_length_counterexample"
   ],
   "note": "Everything the call returns is correct; C27_concatenate_returns_partial gives a sufficient condition for returning, and the counterexamples show that the wrong binary count at gurobi_torch_mip.py line 344 makes it raise or build bounds of the wrong length."
  },
  {
   "property": "C28",
   "status": "partial",
   "theorems": [
    "NNL.Props.C28_gurobi_implies_torch",
    "NNL.Props.C28_torch_implies_constraints",
    "NNL.Props.C28_torch_iff_gurobi_partial",
    "NNL.Props.C28_dictionaries",
    "NNL.Props.C28_example",
    "NNL.Props.C28_bounds_counterexample",
    "NNL.Props.C28_empty_interval_counterexample",
    "NNL.Props.C28_binary_bounds_counterexample"
   ],
   "note": "Gurobi feasibility implies the torch rows for every call history (C28_gurobi_implies_torch); torch rows imply every Gurobi linear constraint (C28_torch_implies_constraints). The converse fails for bounds set by set_var_bound, for empty intervals and for bounds on binaries (three counterexample theorems), so the equivalence is proved for histories without those."
  },
  {
   "property": "C29",
   "status": "proved",
   "theorems": [
    "NNL.Props.C29_add_constraint_set",
    "NNL.Props.C29_extends",
    "NNL.Props.C29_add_constraint_set_given",
    "NNL.Props.C29_example",
    "NNL.Props.C29_output_only_slack_counterexample",
    "NNL.Props.C29_accepts"
   ],
   "note": "Given binaries: bounds on binaries carried by the set are not imposed (stated in C29_add_constraint_set_given). A slack that only occurs in the output rows makes the call raise (C29_output_only_slack_counterexample)."
  },
  {
   "property": "C30",
   "status": "proved",
   "theorems": [
    "NNL.Props.C30_retry_returns",
    "NNL.Props.C30_retry_raises",
    "NNL.Props.C30_agrees",
    "NNL.Props.C30_active_constraints",
    "NNL.Props.C30_recomputed_objective",
    "NNL.Props.C30_returns_objective",
    "NNL.Props.C30_example"
   ],
   "note": "torch.inverse is a parameter; the full-rank hypothesis is that it inverts A^T A."
  },
  {
   "property": "C31",
   "status": "proved",
   "theorems": [
    "NNL.Props.C31_value",
    "NNL.Props.C31_values",
    "NNL.Props.C31_zero_at_equilibrium",
    "NNL.Props.C31_l1_encoding",
    "NNL.Props.C31_outside_rejected",
    "NNL.Props.C31_short_R_rejected",
    "NNL.Props.C31_derivatives"
   ],
   "note": "Value, batch values, zero at the equilibrium, exact L1 slacks for every state in the box, rejection of an equilibrium outside the box and of an R with fewer rows than columns."
  },
  {
   "property": "C32",
   "status": "proved",
   "theorems": [
    "NNL.Props.C32_program",
    "NNL.Props.C32_verdict",
    "NNL.Props.C32_equilibrium_feasible"
   ],
   "note": "Positivity program: every point has the stated objective, every state of the box is represented, verdict both ways."
  },
  {
   "property": "C33",
   "status": "proved",
   "theorems": [
    "NNL.Props.C33_program",
    "NNL.Props.C33_verdict"
   ],
   "note": "Derivative program for any dynamics constraint that satisfies the encoding contract SysEnc; three epsilon types, optional bounds on V; verdict both ways."
  },
  {
   "property": "C34",
   "status": "proved",
   "theorems": [
    "NNL.Props.C34_exponential",
    "NNL.Props.C34_exponential_sublevel",
    "NNL.Props.C34_not_faster",
    "NNL.Props.C34_asymptotic_sum",
    "NNL.Props.C34_asymptotic_tendsto",
    "NNL.Props.C34_exponential_tendsto",
    "NNL.Props.C34_error_controls_state",
    "NNL.Props.C34_states_converge"
   ],
   "note": "By induction on the trajectory; limits over the reals."
  },
  {
   "property": "C35",
   "status": "proved",
   "theorems": [
    "NNL.Props.C35_keeps_violations",
    "NNL.Props.C35_same_verdict",
    "NNL.Props.C35_derivative_program"
   ],
   "note": "For every solver whose answers INFEASIBLE are right; includes success of the pass on programs built by lyapunov_derivative_as_milp."
  },
  {
   "property": "C36",
   "status": "proved",
   "theorems": [
    "NNL.Props.C36_program",
    "NNL.Props.C36_sublevel",
    "NNL.Props.C36_attained"
   ],
   "note": "Program feasible exactly on the boundary; objective V; consequence for sub-level sets."
  },
  {
   "property": "C37",
   "status": "partial",
   "theorems": [
    "NNL.Props.C37_program",
    "NNL.Props.C37_no_exit",
    "NNL.Props.C37_tight",
    "NNL.Props.C37_invariant_partial",
    "NNL.Props.C37_one_dim",
    "NNL.Props.C37_trajectory_partial",
    "NNL.Props.C37_continuous",
    "NNL.Props.C37_corner_counterexample"
   ],
   "note": "Proved: both programs are exact (the states of the box whose successor is next to the box through one face, or that are on a face); no state below the returned level exits through one face; the level is attained or is V_upper_bound; full invariance when exits go through one face, in one dimension, and for continuous dynamics along a path below the level to a state that stays. Missing: successors that leave the box in two coordinates at once or jump beyond the larger box; for these the claim is false (C37_corner_counterexample)."
  },
  {
   "property": "C38",
   "status": "proved",
   "theorems": [
    "NNL.Props.C38_unique",
    "NNL.Props.C38_positivity",
    "NNL.Props.C38_derivative",
    "NNL.Props.C38_derivative_shapes",
    "NNL.Props.C38_barrier",
    "NNL.Props.C38_defined",
    "NNL.Props.C38_derivative_at",
    "NNL.Props.C38_derivative_at_raises",
    "NNL.Props.C38_accepts"
   ],
   "note": "Three losses, all reductions, optional positive weights."
  },
  {
   "property": "C39",
   "status": "proved",
   "theorems": [
    "NNL.Props.C39_program",
    "NNL.Props.C39_verdict",
    "NNL.Props.C39_verdict_ia",
    "NNL.Props.C39_violation",
    "NNL.Props.C39_gradients",
    "NNL.Props.C39_rates",
    "NNL.Props.C39_rates_none_raises",
    "NNL.Props.C39_eps_raises",
    "NNL.Props.C39_iaMip_raises",
    "NNL.Props.C39_relaxed_raises"
   ],
   "note": "The dynamics constraint is a parameter (SysEnc); the velocity bounds are interval bounds (rateOk_ia) or the values reported by the solver. Besides the claim: what a non-positive optimum certifies (C39_verdict), when a positive value is a violation, the list returned by lyapunov_derivative, and the inputs which raise (relaxed binaries, IA_MIP, other epsilon types, R=None in lyapunov_derivative)."
  },
  {
   "property": "C40",
   "status": "proved",
   "theorems": [
    "NNL.Props.C40_value",
    "NNL.Props.C40_value_at_star",
    "NNL.Props.C40_derivative",
    "NNL.Props.C40_decay",
    "NNL.Props.C40_safe"
   ],
   "note": "Decay bound, value at x*, safety from the three optima."
  },
  {
   "property": "C41",
   "status": "proved",
   "theorems": [
    "NNL.Props.C41_value_program",
    "NNL.Props.C41_value_verdict",
    "NNL.Props.C41_derivative_program",
    "NNL.Props.C41_derivative_verdict"
   ],
   "note": "Value program over box and region, derivative program; verdicts both ways."
  },
  {
   "property": "C42",
   "status": "proved",
   "theorems": [
    "NNL.Props.C42_exact",
    "NNL.Props.C42_controlled",
    "NNL.Props.C42_available",
    "NNL.Props.C42_dynamics",
    "NNL.Props.C42_autonomous",
    "NNL.Props.C42_auto_dynamics",
    "NNL.Props.C42_auto_available"
   ],
   "note": "The constraints of hybrid linear systems (controlled and autonomous) describe exactly the graph of the set-valued dynamics, restricted to bounds given by the caller; also as blocks of a program. The LP solver is a parameter assumed truthful (Truthful); exactLp shows such solvers exist."
  },
  {
   "property": "C43",
   "status": "proved",
   "theorems": [
    "NNL.Props.C43_mode",
    "NNL.Props.C43_mode_none",
    "NNL.Props.C43_possible",
    "NNL.Props.C43_step",
    "NNL.Props.C43_step_mode",
    "NNL.Props.C43_batch",
    "NNL.Props.C43_auto_mode",
    "NNL.Props.C43_auto_mode_none",
    "NNL.Props.C43_auto_possible",
    "NNL.Props.C43_auto_step",
    "NNL.Props.C43_auto_given",
    "NNL.Props.C43_auto_batch",
    "NNL.Props.C43_step_feasible"
   ],
   "note": "Both classes; single states and batches."
  },
  {
   "property": "C44",
   "status": "proved",
   "theorems": [
    "NNL.Props.C44_recorded",
    "NNL.Props.C44_contains",
    "NNL.Props.C44_attained",
    "NNL.Props.C44_auto_recorded",
    "NNL.Props.C44_auto_contains"
   ],
   "note": "For every sequence of add_mode calls, per mode and over all modes. The LP solver is a parameter assumed truthful. mode_derivative_bounds is modelled by its two LPs per row."
  },
  {
   "property": "C45",
   "status": "proved",
   "theorems": [
    "NNL.Props.C45_suffix_sums",
    "NNL.Props.C45_raises"
   ],
   "note": "Discrete-time simulation; the distance to the goal is compared through its square. solve_ivp (continuous time) is not modelled."
  },
  {
   "property": "C46",
   "status": "proved",
   "theorems": [
    "NNL.Props.C46_count",
    "NNL.Props.C46_cells",
    "NNL.Props.C46_only",
    "NNL.Props.C46_cover",
    "NNL.Props.C46_inside",
    "NNL.Props.C46_center",
    "NNL.Props.C46_gaps"
   ],
   "note": "For margins >= 0; C46_gaps shows that negative margins leave gaps, as documented. Exact arithmetic: the source rounds limits to single precision."
  },
  {
   "property": "C47",
   "status": "proved",
   "theorems": [
    "NNL.Props.C47_limits",
    "NNL.Props.C47_value",
    "NNL.Props.C47_equilibrium",
    "NNL.Props.C47_batch",
    "NNL.Props.C47_finite"
   ],
   "note": "compute_u for finite or infinite limits, one state and batches."
  },
  {
   "property": "C48",
   "status": "proved",
   "theorems": [
    "NNL.Props.C48_controller",
    "NNL.Props.C48_relu",
    "NNL.Props.C48_relu_equilibrium",
    "NNL.Props.C48_second_order",
    "NNL.Props.C48_residue",
    "NNL.Props.C48_all_states",
    "NNL.Props.C48_hybrid",
    "NNL.Props.C48_input_bounds_counterexample",
    "NNL.Props.C48_one_sided_raises",
    "NNL.Props.C48_one_sided_list_raises"
   ],
   "note": "Forward systems ReLU, ReLU with equilibrium, second order, residue and hybrid linear; network and linear controllers. The residue system with a linear controller: about the states of the box. Limits wider than the forward bounds exclude states: see the counterexample."
  },
  {
   "property": "C49",
   "status": "proved",
   "theorems": [
    "NNL.Props.C49_auto",
    "NNL.Props.C49_residual",
    "NNL.Props.C49_controlled",
    "NNL.Props.C49_second_order",
    "NNL.Props.C49_second_order_residue"
   ],
   "note": "All five classes with a given equilibrium, discrete and (where available) continuous time, for all weights. The second-order classes need as many positions as velocities (torch.cat fails otherwise)."
  },
  {
   "property": "C50",
   "status": "proved",
   "theorems": [
    "NNL.Props.C50_auto",
    "NNL.Props.C50_auto_equilibrium_step",
    "NNL.Props.C50_auto_equilibrium",
    "NNL.Props.C50_auto_residual",
    "NNL.Props.C50_auto_accepts",
    "NNL.Props.C50_next_bounds",
    "NNL.Props.C50_same_bounds",
    "NNL.Props.C50_controlled",
    "NNL.Props.C50_controlled_equilibrium_step",
    "NNL.Props.C50_controlled_equilibrium",
    "NNL.Props.C50_second_order_step",
    "NNL.Props.C50_second_order",
    "NNL.Props.C50_residue_step",
    "NNL.Props.C50_residue",
    "NNL.Props.C50_mic",
    "NNL.Props.C50_default_bounds"
   ],
   "note": "Exact for the three autonomous classes (all bound methods), ReLUSystem, ReLUSystemGivenEquilibrium, the second-order class and the second-order residue class (interval arithmetic), including additional input bounds and x_next interval bounds. The residue class restricts only the state coordinates fed to its network; the theorem says so."
  },
  {
   "property": "C51",
   "status": "proved",
   "theorems": [
    "NNL.Props.C51_f",
    "NNL.Props.C51_G",
    "NNL.Props.C51_dynamics",
    "NNL.Props.C51_clamp",
    "NNL.Props.C51_relu",
    "NNL.Props.C51_relu_accepts",
    "NNL.Props.C51_linear",
    "NNL.Props.C51_affine_G_raises"
   ],
   "note": "f, G, dynamics and the ReLU/linear subclasses. Finding C51_affine_G_raises: the zero block of G has nq columns where x_dim are needed, so a return for b with an input part makes torch.cat raise."
  },
  {
   "property": "C52",
   "status": "proved",
   "theorems": [
    "NNL.Props.C52_err_pos",
    "NNL.Props.C52_spd_definite",
    "NNL.Props.C52_spd_symmetric",
    "NNL.Props.C52_spd_kernel",
    "NNL.Props.C52_spd_roundtrip",
    "NNL.Props.C52_spd_roundtrip_symmetric",
    "NNL.Props.C52_spd_direct",
    "NNL.Props.C52_svd_kernel",
    "NNL.Props.C52_svd_new",
    "NNL.Props.C52_svd_wide_counterexample",
    "NNL.Props.C52_svd_roundtrip"
   ],
   "note": "np.linalg.cholesky and np.linalg.svd are parameters with their defining equation as hypothesis. C52_svd_wide_counterexample: the SVD option accepts sizes wider than tall, whose kernel is never trivial."
  },
  {
   "property": "C53",
   "status": "proved",
   "theorems": [
    "NNL.Props.C53_branches",
    "NNL.Props.C53_gradient_branches",
    "NNL.Props.C53_turns",
    "NNL.Props.C53_rotation",
    "NNL.Props.C53_gradient"
   ],
   "note": "Over the reals, with Mathlib's sin and cos."
  },
  {
   "property": "C54",
   "status": "proved",
   "theorems": [
    "NNL.Props.C54_extract_update",
    "NNL.Props.C54_roundtrip",
    "NNL.Props.C54_update_extract",
    "NNL.Props.C54_short_vector",
    "NNL.Props.C54_setup",
    "NNL.Props.C54_structure",
    "NNL.Props.C54_structure_exact",
    "NNL.Props.C54_accepts"
   ],
   "note": "Any sequence of layers. C54_short_vector: a vector that is too short can be accepted silently."
  },
  {
   "property": "C55",
   "status": "proved",
   "theorems": [
    "NNL.Props.C55_count",
    "NNL.Props.C55_grid",
    "NNL.Props.C55_inside",
    "NNL.Props.C55_nodup",
    "NNL.Props.C55_corners"
   ],
   "note": ""
  },
  {
   "property": "C56",
   "status": "proved",
   "theorems": [
    "NNL.Props.C56_logged",
    "NNL.Props.C56_train",
    "NNL.Props.C56_train_true",
    "NNL.Props.C56_train_no_positivity_raises",
    "NNL.Props.C56_train_no_derivative",
    "NNL.Props.C56_train_zero_iterations_raises",
    "NNL.Props.C56_adversarial_logged",
    "NNL.Props.C56_adversarial",
    "NNL.Props.C56_adversarial_true",
    "NNL.Props.C56_adversarial_limit",
    "NNL.Props.C56_adversarial_zero_limit",
    "NNL.Props.C56_train_certificate",
    "NNL.Props.C56_adversarial_certificate",
    "NNL.Props.C56_early_termination_counterexample",
    "NNL.Props.C56_train_convergence",
    "NNL.Props.C56_adversarial_options_raise",
    "NNL.Props.C56_perturbed"
   ],
   "note": "Over an arbitrary process state; solver calls, losses and optimiser are arbitrary functions. Findings: positivity weight None or max_iterations=0 makes train raise; a pool limit of 0 bounds nothing; a threshold of early termination below the tolerance lets True be returned without the condition (counterexample)."
  },
  {
   "property": "C57",
   "status": "partial",
   "theorems": [
    "NNL.Props.C57_runs_exist",
    "NNL.Props.C57_representatives",
    "NNL.Props.C57_total",
    "NNL.Props.C57_counts_partial",
    "NNL.Props.C57_two_clusters",
    "NNL.Props.C57_two_clusters_counterexample"
   ],
   "note": "Representatives and totals in full. Counts match the runs unless there are exactly two runs, where the code returns a single count for two states (C57_two_clusters, C57_two_clusters_counterexample)."
  },
  {
   "property": "C58",
   "status": "proved",
   "theorems": [
    "NNL.Props.C58_gd",
    "NNL.Props.C58_adam",
    "NNL.Props.C58_adam_none",
    "NNL.Props.C58_gd_armijo",
    "NNL.Props.C58_terminates",
    "NNL.Props.C58_unbound_iff",
    "NNL.Props.C58_failure_increases_loss",
    "NNL.Props.C58_slope"
   ],
   "note": ""
  },
  {
   "property": "C59",
   "status": "proved",
   "theorems": [
    "NNL.Props.C59_flag",
    "NNL.Props.C59_agree",
    "NNL.Props.C59_both",
    "NNL.Props.C59_loss1",
    "NNL.Props.C59_loss2",
    "NNL.Props.C59_emphasize1",
    "NNL.Props.C59_emphasize2",
    "NNL.Props.C59_defined",
    "NNL.Props.C59_nan_of_zero",
    "NNL.Props.C59_distribute"
   ],
   "note": "Whenever the result is a number; C59_nan_of_zero: a zero gradient yields NaN."
  },
  {
   "property": "C60",
   "status": "proved",
   "theorems": [
    "NNL.Props.C60_exact",
    "NNL.Props.C60_certificate",
    "NNL.Props.C60_continuity_raises"
   ],
   "note": "The LP solver is not modelled: the claim is about its feasible points. Finding C60_continuity_raises."
  },
  {
   "property": "C61",
   "status": "proved",
   "theorems": [
    "NNL.Props.C61_aligned",
    "NNL.Props.C61_bounded",
    "NNL.Props.C61_assertion",
    "NNL.Props.C61_init"
   ],
   "note": ""
  },
  {
   "property": "C62",
   "status": "proved",
   "theorems": [
    "NNL.Props.C62_ideal",
    "NNL.Props.C62_accepts_all",
    "NNL.Props.C62_accepts_selective"
   ],
   "note": ""
  },
  {
   "property": "C63",
   "status": "proved",
   "theorems": [
    "NNL.Props.C63_setObjective",
    "NNL.Props.C63_setObjective_accepts",
    "NNL.Props.C63_duplicate_raises",
    "NNL.Props.C63_accepts_iff"
   ],
   "note": ""
  },
  {
   "property": "C64",
   "status": "partial",
   "theorems": [
    "NNL.Props.C64_all_partial",
    "NNL.Props.C64_skips",
    "NNL.Props.C64_counterexample"
   ],
   "note": "False for discrete-time systems: C64_counterexample. C64_all_partial gives the result when no sample leaves the domain; C64_skips the documented behaviour when the simulation raises StepForwardException (continuous time)."
  },
  {
   "property": "C65",
   "status": "proved",
   "theorems": [
    "NNL.Props.C65_positivity",
    "NNL.Props.C65_derivative",
    "NNL.Props.C65_deterministic",
    "NNL.Props.C65_hybrid",
    "NNL.Props.C65_active_mode",
    "NNL.Props.C65_mode_tolerance"
   ],
   "note": "PoolOf states what is assumed of the solver: pool solutions are feasible points with their objective."
  },
  {
   "property": "C66",
   "status": "proved",
   "theorems": [
    "NNL.Props.C66_descent_best",
    "NNL.Props.C66_descent_no_increase",
    "NNL.Props.C66_descent_zero",
    "NNL.Props.C66_stops_early",
    "NNL.Props.C66_runs_all"
   ],
   "note": "Any epoch update; the optimiser is represented by the set of tensors it may change (Trains)."
  },
  {
   "property": "C67",
   "status": "partial",
   "theorems": [
    "NNL.Props.C67_networks_same",
    "NNL.Props.C67_R_rebound",
    "NNL.Props.C67_R_frozen",
    "NNL.Props.C67_trained"
   ],
   "note": "Networks: proved. R: the claim is false; C67_R_rebound/C67_R_frozen prove that the tensor of R_options is replaced by a clone, so an optimiser made before keeps R fixed for the rest of train_adversarial."
  },
  {
   "property": "C68",
   "status": "partial",
   "theorems": [
    "NNL.Props.C68_best_networks",
    "NNL.Props.C68_best_loss",
    "NNL.Props.C68_zero_epochs_raises",
    "NNL.Props.C68_R_not_restored_counterexample"
   ],
   "note": "Networks: proved (C68_best_networks); with a fixed R the loss left is the smallest. With a trainable R the claim is false (C68_R_not_restored_counterexample)."
  },
  {
   "property": "C69",
   "status": "proved",
   "theorems": [
    "NNL.Props.C69_value_true",
    "NNL.Props.C69_value_false",
    "NNL.Props.C69_value_raises"
   ],
   "note": "C69_value_raises: max_epochs = 0 raises."
  },
  {
   "property": "C70",
   "status": "partial",
   "theorems": [
    "NNL.Props.C70_raises_iff",
    "NNL.Props.C70_verified_raises",
    "NNL.Props.C70_loss_raises",
    "NNL.Props.C70_partial",
    "NNL.Props.C70_kept",
    "NNL.Props.C70_raises_counterexample"
   ],
   "note": "The claim is false: C70_verified_raises / C70_loss_raises prove that with add_adversarial_state_only both calls raise exactly when no pool solution is violating (torch.stack of an empty list). C70_partial: without the flag they return."
  },
  {
   "property": "C71",
   "status": "proved",
   "theorems": [
    "NNL.Props.C71_program",
    "NNL.Props.C71_gap"
   ],
   "note": "IsMaxOf/IsMinOf state what is assumed of the solver (exact optimum)."
  },
  {
   "property": "C72",
   "status": "proved",
   "theorems": [
    "NNL.Props.C72_total_loss",
    "NNL.Props.C72_program_losses",
    "NNL.Props.C72_current_successors",
    "NNL.Props.C72_train_successors"
   ],
   "note": ""
  },
  {
   "property": "C73",
   "status": "proved",
   "theorems": [
    "NNL.Props.C73_value_loss",
    "NNL.Props.C73_derivative_loss",
    "NNL.Props.C73_value_sets",
    "NNL.Props.C73_regions"
   ],
   "note": "The 4-norm is a relation (roots need not exist in the field)."
  },
  {
   "property": "C74",
   "status": "proved",
   "theorems": [
    "NNL.Props.C74_program",
    "NNL.Props.C74_verdict",
    "NNL.Props.C74_program2",
    "NNL.Props.C74_verdict2",
    "NNL.Props.C74_violation",
    "NNL.Props.C74_raises"
   ],
   "note": "Both programs; hypotheses HybOk (system built through the API with truthful LP answers, box of the network contains the modes)."
  },
  {
   "property": "C75",
   "status": "proved",
   "theorems": [
    "NNL.Props.C75_rates",
    "NNL.Props.C75_one_state_raises",
    "NNL.Props.C75_vdot",
    "NNL.Props.C75_loss",
    "NNL.Props.C75_loss_raises"
   ],
   "note": "With one state dimension squeeze() makes the call raise (C75_one_state_raises)."
  },
  {
   "property": "C76",
   "status": "proved",
   "theorems": [
    "NNL.Props.C76_unicycle_step",
    "NNL.Props.C76_unicycle",
    "NNL.Props.C76_thetadot_not_limited",
    "NNL.Props.C76_zero_velocity_step",
    "NNL.Props.C76_zero_velocity",
    "NNL.Props.C76_zero_velocity_program",
    "NNL.Props.C76_acceleration_car_step",
    "NNL.Props.C76_acceleration_car"
   ],
   "note": "For bounds from a solver: a solver whose values are bounds."
  },
  {
   "property": "C77",
   "status": "proved",
   "theorems": [
    "NNL.Props.C77_pole_step",
    "NNL.Props.C77_pole",
    "NNL.Props.C77_pixhawk_step",
    "NNL.Props.C77_pixhawk",
    "NNL.Props.C77_quadrotor_step",
    "NNL.Props.C77_quadrotor"
   ],
   "note": "For bounds from a solver: a solver whose values are bounds. QuadrotorReLUSystem without callback."
  },
  {
   "property": "C78",
   "status": "proved",
   "theorems": [
    "NNL.Props.C78_pendulum_step",
    "NNL.Props.C78_pendulum_constraints",
    "NNL.Props.C78_pendulum",
    "NNL.Props.C78_bounds_replaced",
    "NNL.Props.C78_quadrotor2d_step",
    "NNL.Props.C78_quadrotor2d_constraints",
    "NNL.Props.C78_quadrotor2d"
   ],
   "note": "For bounds from a solver: a solver whose values are bounds."
  },
  {
   "property": "C79",
   "status": "proved",
   "theorems": [
    "NNL.Props.C79_unicycle",
    "NNL.Props.C79_zero_velocity",
    "NNL.Props.C79_acceleration_car",
    "NNL.Props.C79_pole",
    "NNL.Props.C79_pixhawk",
    "NNL.Props.C79_quadrotor",
    "NNL.Props.C79_pendulum",
    "NNL.Props.C79_quadrotor2d"
   ],
   "note": ""
  },
  {
   "property": "C80",
   "status": "proved",
   "theorems": [
    "NNL.Props.C80_compute_u",
    "NNL.Props.C80_velocity",
    "NNL.Props.C80_program",
    "NNL.Props.C80_velocity_not_positive",
    "NNL.Props.C80_linear_controller"
   ],
   "note": "For bounds from a solver: a solver whose values are bounds."
  },
  {
   "property": "C81",
   "status": "proved",
   "theorems": [
    "NNL.Props.C81_same_program",
    "NNL.Props.C81_verdict",
    "NNL.Props.C81_accepts",
    "NNL.Props.C81_turn",
    "NNL.Props.C81_zero_turns",
    "NNL.Props.C81_not_optimal",
    "NNL.Props.C81_auto",
    "NNL.Props.C81_auto_hybrid",
    "NNL.Props.C81_relu",
    "NNL.Props.C81_relu_equilibrium",
    "NNL.Props.C81_second_order",
    "NNL.Props.C81_residue",
    "NNL.Props.C81_hybrid",
    "NNL.Props.C81_relu_closed_loop"
   ],
   "note": "For the residue system with bound method IA, as in C50."
  },
  {
   "property": "C82",
   "status": "proved",
   "theorems": [
    "NNL.Props.C82_exact",
    "NNL.Props.C82_contains",
    "NNL.Props.C82_accepts",
    "NNL.Props.C82_rejects",
    "NNL.Props.C82_interval",
    "NNL.Props.C82_tightens"
   ],
   "note": "The solver is a parameter; its answers are assumed to be correct (BoxTruthful)."
  },
  {
   "property": "C83",
   "status": "proved",
   "theorems": [
    "NNL.Props.C83_setObjective",
    "NNL.Props.C83_accepts",
    "NNL.Props.C83_unknown"
   ],
   "note": ""
  },
  {
   "property": "C84",
   "status": "partial",
   "theorems": [
    "NNL.Props.C84_recomputed_partial",
    "NNL.Props.C84_minimum_partial",
    "NNL.Props.C84_penalty_error",
    "NNL.Props.C84_guard",
    "NNL.Props.C84_cross_terms",
    "NNL.Props.C84_asymmetric"
   ],
   "note": "Proved for penalty 0, Q_r symmetric and no product of a continuous and a binary variable; the exact error of a penalty is C84_penalty_error. False otherwise: C84_cross_terms, C84_asymmetric. torch.inverse is a parameter assumed to invert."
  },
  {
   "property": "C85",
   "status": "proved",
   "theorems": [
    "NNL.Props.C85_unicycle",
    "NNL.Props.C85_pendulum",
    "NNL.Props.C85_quadrotor2d",
    "NNL.Props.C85_rocket",
    "NNL.Props.C85_rocket2",
    "NNL.Props.C85_quadrotor3d",
    "NNL.Props.C85_quadrotor3d_branches"
   ],
   "note": "Derivative means Mathlib's Fréchet derivative (Spec.IsJacobian)."
  },
  {
   "property": "C86",
   "status": "proved",
   "theorems": [
    "NNL.Props.C86_pendulum_power",
    "NNL.Props.C86_pendulum_shaping",
    "NNL.Props.C86_pendulum_equilibria",
    "NNL.Props.C86_quadrotor2d_hover",
    "NNL.Props.C86_rocket_hover",
    "NNL.Props.C86_rocket_bottom",
    "NNL.Props.C86_unicycle",
    "NNL.Props.C86_accCar",
    "NNL.Props.C86_accCar_tensor_raises",
    "NNL.Props.C86_quadrotor_wrench",
    "NNL.Props.C86_quadrotor_hover",
    "NNL.Props.C86_quadrotor_rotation",
    "NNL.Props.C86_quadrotor_newton",
    "NNL.Props.C86_hover",
    "NNL.Props.C86_hover_rest"
   ],
   "note": "The tensor branch of AccelerationCar.dynamics raises for every input (C86_accCar_tensor_raises)."
  },
  {
   "property": "C87",
   "status": "partial",
   "theorems": [
    "NNL.Props.C87_newton_partial",
    "NNL.Props.C87_newton_iff",
    "NNL.Props.C87_accepts",
    "NNL.Props.C87_cross_term"
   ],
   "note": "False in general: one mixed velocity term has the wrong sign. The law holds exactly when the product of both offsets and both velocities vanishes (C87_newton_iff); C87_cross_term gives the failure for every pole."
  },
  {
   "property": "C88",
   "status": "proved",
   "theorems": [
    "NNL.Props.C88_flight_energy",
    "NNL.Props.C88_stance_energy",
    "NNL.Props.C88_newton",
    "NNL.Props.C88_touchdown",
    "NNL.Props.C88_liftoff",
    "NNL.Props.C88_apex_map",
    "NNL.Props.C88_apex_map_accepts",
    "NNL.Props.C88_simulate",
    "NNL.Props.C88_new"
   ],
   "note": "solve_ivp is a parameter; exactness is the hypothesis ExactStance / ExactSteps."
  },
  {
   "property": "C89",
   "status": "partial",
   "theorems": [
    "NNL.Props.C89_sound",
    "NNL.Props.C89_iff_partial",
    "NNL.Props.C89_apex",
    "NNL.Props.C89_ascending"
   ],
   "note": "A returned time is right. None is right if the foot starts at or above the height of the stone, or the mass does not rise; for a foot that starts below and rises onto the stone the method returns None (C89_ascending)."
  },
  {
   "property": "C90",
   "status": "partial",
   "theorems": [
    "NNL.Props.C90_stance",
    "NNL.Props.C90_apexToTouchdown",
    "NNL.Props.C90_touchdown",
    "NNL.Props.C90_touchdownToLiftoff",
    "NNL.Props.C90_liftoff_partial",
    "NNL.Props.C90_liftoff_column",
    "NNL.Props.C90_liftoffToApex",
    "NNL.Props.C90_apexToApex",
    "NNL.Props.C90_agrees",
    "NNL.Props.C90_exact"
   ],
   "note": "liftoff_transition_gradient lacks the derivative with respect to the leg length (C90_liftoff_column); the chain apex_to_apex_gradient is complete because that length is constant at lift-off. C90_touchdownToLiftoff assumes SmoothLiftoff, that the integrated matrix is the derivative of the motion; C90_exact proves it for every exact integrator (ExactLiftoff)."
  },
  {
   "property": "C91",
   "status": "proved",
   "theorems": [
    "NNL.Props.C91_firstOrder",
    "NNL.Props.C91_feasible"
   ],
   "note": "Under the hypotheses of C90_apexToApex at the shifted apex state."
  },
  {
   "property": "C92",
   "status": "proved",
   "theorems": [
    "NNL.Props.C92_init",
    "NNL.Props.C92_connect",
    "NNL.Props.C92_grow",
    "NNL.Props.C92_nearest",
    "NNL.Props.C92_neighbours"
   ],
   "note": "neighbours compares the squared weighted distance with the radius (C92_neighbours)."
  },
  {
   "property": "C93",
   "status": "partial",
   "theorems": [
    "NNL.Props.C93_stored_partial",
    "NNL.Props.C93_cost_symmetric",
    "NNL.Props.C93_reversed_iff",
    "NNL.Props.C93_rewired_infeasible",
    "NNL.Props.StraightSolver.C93_false",
    "NNL.Props.C93_negated",
    "NNL.Props.C93_repair"
   ],
   "note": "The code contradicts the property: rewiring stores the path of the new node in reverse order with the same controls, which obeys the dynamics only if the state never changes. C93_stored_partial is what holds; with negated controls the reversed path obeys the dynamics (C93_negated, C93_repair)."
  },
  {
   "property": "C94",
   "status": "partial",
   "theorems": [
    "NNL.Props.C94_rows_partial",
    "NNL.Props.C94_misaligned",
    "NNL.Props.C94_shifted"
   ],
   "note": "The code contradicts the property: each trajectory contributes one cost more than states. Within a trajectory the rows belong together (C94_rows_partial)."
  },
  {
   "property": "C95",
   "status": "proved",
   "theorems": [
    "NNL.Props.C95_control",
    "NNL.Props.C95_equilibrium",
    "NNL.Props.C95_order",
    "NNL.Props.C95_error",
    "NNL.Props.C95_converges"
   ],
   "note": "The order is proved for one step; the bound of the error over n steps is of first order in the step."
  },
  {
   "property": "C96",
   "status": "partial",
   "theorems": [
    "NNL.Props.C96_box",
    "NNL.Props.C96_box_onto",
    "NNL.Props.C96_boundary_partial",
    "NNL.Props.C96_zero_draw",
    "NNL.Props.C96_faces"
   ],
   "note": "The code contradicts the property for one draw: if the draw that picks the face is exactly 0 (which torch.rand may return) the index is out of range and the function raises (C96_zero_draw). C96_boundary_partial assumes these draws are not 0."
  },
  {
   "property": "C97",
   "status": "proved",
   "theorems": [
    "NNL.Props.C97_columns",
    "NNL.Props.C97_quadratic",
    "NNL.Props.C97_limit"
   ],
   "note": "Arguments of an integer dtype, which truncate the perturbation, are not modelled."
  },
  {
   "property": "C98",
   "status": "proved",
   "theorems": [
    "NNL.Props.C98_cone",
    "NNL.Props.C98_bounded",
    "NNL.Props.C98_project",
    "NNL.Props.C98_nonexpansive"
   ],
   "note": "The solver is a parameter: exact status infeasible, exact minimizer. The polyhedron has a point in it (as the docstring assumes)."
  },
  {
   "property": "C99",
   "status": "proved",
   "theorems": [
    "NNL.Props.C99_row",
    "NNL.Props.C99_zero",
    "NNL.Props.C99_loss",
    "NNL.Props.C99_reparam",
    "NNL.Props.C99_anneal"
   ],
   "note": "Over the reals; the draws of torch.randn_like are independent standard normal variables."
  },
  {
   "property": "C100",
   "status": "proved",
   "theorems": [
    "NNL.Props.C100_samples",
    "NNL.Props.C100_samples_defined",
    "NNL.Props.C100_programs",
    "NNL.Props.C100_rollout",
    "NNL.Props.C100_decay",
    "NNL.Props.C100_rollout_loss"
   ],
   "note": "lyapunov_loss is modelled with lyap_loss_optimal and solutions that are optimal; the objective recomputed from them is the objective of the solution (C30)."
  },
  {
   "property": "C101",
   "status": "partial",
   "theorems": [
    "NNL.Props.C101_adversarial_partial",
    "NNL.Props.C101_adversarial_raises",
    "NNL.Props.C101_validation_partial",
    "NNL.Props.C101_reconstruction_partial",
    "NNL.Props.C101_reconstruction_first",
    "NNL.Props.C101_reconstruction_blind"
   ],
   "note": "The code contradicts the property. adversarial_samples raises (unassigned variable) when one of the decrease conditions is not violated by a solution found, in particular when it is certified (C101_adversarial_raises). rollout_validation returns the sum, not the mean (C101_validation_partial). reconstruction_loss only looks at the first image of the batch (C101_reconstruction_first, C101_reconstruction_blind)."
  },
  {
   "property": "C102",
   "status": "proved",
   "theorems": [
    "NNL.Props.C102_terminates",
    "NNL.Props.C102_fuel",
    "NNL.Props.C102_values",
    "NNL.Props.C102_policy",
    "NNL.Props.C102_index"
   ],
   "note": "Exact arithmetic; the loop is modelled with a bound on the number of passes, which is proved to be irrelevant once it is large enough."
  },
  {
   "property": "C103",
   "status": "proved",
   "theorems": [
    "NNL.Props.C103_contents",
    "NNL.Props.C103_sample"
   ],
   "note": "The rounding to float32 is not modelled."
  },
  {
   "property": "C104",
   "status": "partial",
   "theorems": [
    "NNL.Props.C104_cost_partial",
    "NNL.Props.C104_returns_partial",
    "NNL.Props.C104_none",
    "NNL.Props.C104_raises"
   ],
   "note": "The code contradicts the property: np.nonzero returns a tuple, so with two or more active inequalities the assignment raises (C104_raises). With at most one it returns the optimal cost if the active rows can be inverted and are tight (C104_cost_partial, C104_returns_partial)."
  },
  {
   "property": "C105",
   "status": "proved",
   "theorems": [
    "NNL.Props.C105_joint",
    "NNL.Props.C105_parent",
    "NNL.Props.C105_rejects",
    "NNL.Props.C105_solver_exists"
   ],
   "note": "As for C48, the state whose control is within the input bounds of the quadrotor must exist. The solver is trusted to return bounds of the programs it is given (status OPTIMAL). control_bound_prog, which is only returned, is not modelled."
  },
  {
   "property": "C106",
   "status": "proved",
   "theorems": [
    "NNL.Props.C106_gd",
    "NNL.Props.C106_descent",
    "NNL.Props.C106_group_lr_counterexample",
    "NNL.Props.C106_momentum_ascent",
    "NNL.Props.C106_options"
   ],
   "note": "With several parameter groups only the learning rate of the last one is used, for all parameters (C106_group_lr_counterexample); with momentum the direction need not be a descent direction."
  },
  {
   "property": "C107",
   "status": "proved",
   "theorems": [
    "NNL.Props.C107_adam",
    "NNL.Props.C107_bounded",
    "NNL.Props.C107_first",
    "NNL.Props.C107_ascent"
   ],
   "note": "The square root is that of the real numbers. Later steps need not go against the newest gradient (C107_ascent)."
  },
  {
   "property": "C108",
   "status": "proved",
   "theorems": [
    "NNL.Props.C108_values",
    "NNL.Props.C108_fixed",
    "NNL.Props.C108_bound",
    "NNL.Props.C108_accepts"
   ],
   "note": "The trajectory program is a parameter: value_to_optimization, which model_bounds.py imports, is not in the repository at this commit. Blocks of the wrong shape that torch would broadcast are rejected."
  },
  {
   "property": "C109",
   "status": "proved",
   "theorems": [
    "NNL.Props.C109_cost_to_go",
    "NNL.Props.C109_samples"
   ],
   "note": "solve_ivp is a parameter; IvpOk says what it is trusted for."
  },
  {
   "property": "C110",
   "status": "proved",
   "theorems": [
    "NNL.Props.C110_callback",
    "NNL.Props.C110_objVal",
    "NNL.Props.C110_verdict",
    "NNL.Props.C110_low_threshold_counterexample",
    "NNL.Props.C110_solves"
   ],
   "note": "The solver run is a parameter; RunOk says what it is trusted for."
  },
  {
   "property": "C111",
   "status": "proved",
   "theorems": [
    "NNL.Props.C111_complete",
    "NNL.Props.C111_interrupted",
    "NNL.Props.C111_saved",
    "NNL.Props.C111_returns",
    "NNL.Props.C111_history",
    "NNL.Props.C111_batch",
    "NNL.Props.C111_validation",
    "NNL.Props.C111_validation_filtered_counterexample",
    "NNL.Props.C111_repeated_step"
   ],
   "note": "Interrupts in the middle of an optimizer step or during the last save are not modelled."
  },
  {
   "property": "C112",
   "status": "proved",
   "theorems": [
    "NNL.Props.C112_verdict",
    "NNL.Props.C112_dominates",
    "NNL.Props.C112_ungraded_counterexample"
   ],
   "note": "The solver runs are parameters (RunOk)."
  },
  {
   "property": "C113",
   "status": "proved",
   "theorems": [
    "NNL.Props.C113_steps",
    "NNL.Props.C113_stuck",
    "NNL.Props.C113_train",
    "NNL.Props.C113_no_benchmark",
    "NNL.Props.C113_train_mismatch",
    "NNL.Props.C113_no_mix",
    "NNL.Props.C113_returns"
   ],
   "note": "The networks, their optimizers and the adversarial samples are parameters."
  },
  {
   "property": "C114",
   "status": "proved",
   "theorems": [
    "NNL.Props.C114_episodes",
    "NNL.Props.C114_length",
    "NNL.Props.C114_random",
    "NNL.Props.C114_batches",
    "NNL.Props.C114_updates",
    "NNL.Props.C114_returns"
   ],
   "note": "The documentation says start_steps random steps; the program takes one more."
  },
  {
   "property": "C115",
   "status": "proved",
   "theorems": [
    "NNL.Props.C115_freeze",
    "NNL.Props.C115_targets",
    "NNL.Props.C115_average",
    "NNL.Props.C115_tracks",
    "NNL.Props.C115_backup",
    "NNL.Props.C115_actions",
    "NNL.Props.C115_actor",
    "NNL.Props.C115_actor_counterexample"
   ],
   "note": "Gradients and optimizer steps are parameters."
  },
  {
   "property": "C116",
   "status": "proved",
   "theorems": [
    "NNL.Props.C116_rollout",
    "NNL.Props.C116_decode",
    "NNL.Props.C116_decay",
    "NNL.Props.C116_decode_counterexample",
    "NNL.Props.C116_loss",
    "NNL.Props.C116_recon_bce",
    "NNL.Props.C116_rollout_bce_counterexample"
   ],
   "note": "The minimum is stated for pixels whose logarithms torch does not clamp. rollout_loss swaps the arguments of the cross entropy."
  },
  {
   "property": "C117",
   "status": "proved",
   "theorems": [
    "NNL.Props.C117_rollout",
    "NNL.Props.C117_returns",
    "NNL.Props.C117_dataset",
    "NNL.Props.C117_to_rollouts",
    "NNL.Props.C117_dataset_returns",
    "NNL.Props.C117_target",
    "NNL.Props.C117_times",
    "NNL.Props.C117_consistent_counterexample",
    "NNL.Props.C117_period",
    "NNL.Props.C117_short_period",
    "NNL.Props.C117_box",
    "NNL.Props.C117_pixels",
    "NNL.Props.C117_joints",
    "NNL.Props.C117_square"
   ],
   "note": "Reading the state works for robots with exactly one joint, images must be square, and the image pairs of a rollout do not determine the next image."
  },
  {
   "property": "C118",
   "status": "proved",
   "theorems": [
    "NNL.Props.C118_complete",
    "NNL.Props.C118_duplicate",
    "NNL.Props.C118_window",
    "NNL.Props.C118_all"
   ],
   "note": "The trajectory optimization is a parameter. Independence of the place is a hypothesis of C118_duplicate."
  },
  {
   "property": "C119",
   "status": "proved",
   "theorems": [
    "NNL.Props.C119_linear",
    "NNL.Props.C119_encoder1",
    "NNL.Props.C119_encoder2",
    "NNL.Props.C119_decoder1",
    "NNL.Props.C119_decoder2",
    "NNL.Props.C119_pairs",
    "NNL.Props.C119_channels"
   ],
   "note": "Shapes only. The shape rules of the torch layers are part of the model."
  },
  {
   "property": "C120",
   "status": "proved",
   "theorems": [
    "NNL.Props.C120_round_trip",
    "NNL.Props.C120_loaded",
    "NNL.Props.C120_output_activation_counterexample",
    "NNL.Props.C120_adjacent_raises",
    "NNL.Props.C120_lyapunov",
    "NNL.Props.C120_spd_raises",
    "NNL.Props.C120_controller",
    "NNL.Props.C120_options"
   ],
   "note": "state_dict and load_state_dict are modelled (keys are positions of layers, strict). save_lyapunov_model is about fixed, SVD and free R: with SearchRwithSPDOptions it raises. Activations after the last layer are lost without an error, hence \"followed by some activations\"."
  },
  {
   "property": "C121",
   "status": "proved",
   "theorems": [
    "NNL.Props.C121_planar",
    "NNL.Props.C121_pendulum",
    "NNL.Props.C121_quadrotor",
    "NNL.Props.C121_pixhawk",
    "NNL.Props.C121_pole",
    "NNL.Props.C121_unicycle",
    "NNL.Props.C121_car",
    "NNL.Props.C121_pendulum_continuous",
    "NNL.Props.C121_planar_continuous",
    "NNL.Props.C121_affine_equilibrium",
    "NNL.Props.C121_controller",
    "NNL.Props.C121_unicycle_controller",
    "NNL.Props.C121_value",
    "NNL.Props.C121_pendulum_cost",
    "NNL.Props.C121_training",
    "NNL.Props.C121_training_raises",
    "NNL.Props.C121_affine"
   ],
   "note": "Gradients and Adam are a parameter (the step of a batch). The recorded data set of the Pixhawk example is taken to be what its comment says. Fewer than two samples raise."
  },
  {
   "property": "C122",
   "status": "proved",
   "theorems": [
    "NNL.Props.C122_pendulum",
    "NNL.Props.C122_quadrotor2d",
    "NNL.Props.C122_rocket",
    "NNL.Props.C122_quadrotor3d",
    "NNL.Props.C122_cost_to_go",
    "NNL.Props.C122_unique",
    "NNL.Props.C122_value_quadrotor2d",
    "NNL.Props.C122_value_rocket",
    "NNL.Props.C122_value_quadrotor3d",
    "NNL.Props.C122_value_pendulum",
    "NNL.Props.C122_double_integrator",
    "NNL.Props.C122_costs",
    "NNL.Props.C122_dataset"
   ],
   "note": "solve_continuous_are is a parameter: when it returns for positive definite costs, it returns a positive definite solution of the Riccati equation. Motions are assumed to exist for all times (they are shown to for the linearised plants). Instances with explicit solutions are in Props/LqrExamples.lean."
  },
  {
   "property": "C123",
   "status": "proved",
   "theorems": [
    "NNL.Props.C123_reward",
    "NNL.Props.C123_reset",
    "NNL.Props.C123_history",
    "NNL.Props.C123_optimal",
    "NNL.Props.C123_leaves",
    "NNL.Props.C123_td3",
    "NNL.Props.C123_test_agent",
    "NNL.Props.C123_run_policy"
   ],
   "note": "The integrator of next_pose is a parameter, assumed exact where motions matter; exact integration is shown to exist. C123_leaves: the observations need not stay in the observation space. C123_run_policy: with the default max_ep_len None run_policy does not end in this environment."
  },
  {
   "property": "C124",
   "status": "proved",
   "theorems": [
    "NNL.Props.C124_distances",
    "NNL.Props.C124_scan",
    "NNL.Props.C124_flow_raises",
    "NNL.Props.C124_avoids",
    "NNL.Props.C124_angles",
    "NNL.Props.C124_goal",
    "NNL.Props.C124_no_goal",
    "NNL.Props.C124_controller",
    "NNL.Props.C124_samples",
    "NNL.Props.C124_obstacles",
    "NNL.Props.C124_controller_counterexample"
   ],
   "note": "The ray test of the simulator is a parameter assumed to return the first hit; the integrator is assumed exact where motions matter. The theorem on simulate_controller is about runs which return; C124_controller_counterexample: at a goal drawn near the car it raises. C124_angles: the angles the controller assumes are not those of the sensor. C124_obstacles: obstacles may cover the start."
  },
  {
   "property": "C125",
   "status": "proved",
   "theorems": [
    "NNL.Props.C125_extend",
    "NNL.Props.C125_extend_raises",
    "NNL.Props.C125_sample",
    "NNL.Props.C125_grow",
    "NNL.Props.C125_reachable",
    "NNL.Props.C125_range",
    "NNL.Props.C125_file"
   ],
   "note": "The simulation is a parameter assumed exact (exact simulations of the unicycle are shown to exist), find_path a parameter assumed to return paths between the given states. The motions lead from the goal to the nodes; whether the stored paths lead back is C93."
  },
  {
   "property": "C126",
   "status": "proved",
   "theorems": [
    "NNL.Props.C126_lipschitz",
    "NNL.Props.C126_control",
    "NNL.Props.C126_dependence",
    "NNL.Props.C126_equilibrium",
    "NNL.Props.C126_times",
    "NNL.Props.C126_path",
    "NNL.Props.C126_verified",
    "NNL.Props.C126_unicycle"
   ],
   "note": "The solution computed by solve_ivp is a parameter; that it is an exact motion is a hypothesis where it matters. Times are exact numbers."
  },
  {
   "property": "C127",
   "status": "proved",
   "theorems": [
    "NNL.Props.C127_gradient",
    "NNL.Props.C127_linearisation",
    "NNL.Props.C127_stable",
    "NNL.Props.C127_balance",
    "NNL.Props.C127_costs"
   ],
   "note": "drake's LinearQuadraticRegulator is a parameter (a hypothesis says what it returns, when it returns), and so is automatic differentiation (exact partial derivatives)."
  },
  {
   "property": "C128",
   "status": "proved",
   "theorems": [
    "NNL.Props.C128_converged",
    "NNL.Props.C128_decrease",
    "NNL.Props.C128_not_converged",
    "NNL.Props.C128_raises",
    "NNL.Props.C128_conflict",
    "NNL.Props.C128_continuous"
   ],
   "note": "Adam is a parameter (any function of the loss and the parameters); for continuous time the integrator is a parameter with the error bound of C109."
  },
  {
   "property": "C129",
   "status": "proved",
   "theorems": [
    "NNL.Props.C129_rigid_body",
    "NNL.Props.C129_mask_raises",
    "NNL.Props.C129_label_size",
    "NNL.Props.C129_pole",
    "NNL.Props.C129_pole_complete"
   ],
   "note": "The forward dynamics of tiny_differentiable_simulator and the random draws are parameters; for the pole the dynamics are those of C87."
  },
  {
   "property": "C130",
   "status": "proved",
   "theorems": [
    "NNL.Props.C130_training",
    "NNL.Props.C130_training_raises",
    "NNL.Props.C130_log",
    "NNL.Props.C130_log_raises",
    "NNL.Props.C130_copy",
    "NNL.Props.C130_shared_curve"
   ],
   "note": "Adam and the shuffles are parameters; tensorboard writers are lists of points."
  },
  {
   "property": "C131",
   "status": "proved",
   "theorems": [
    "NNL.Props.C131_gradient",
    "NNL.Props.C131_slope",
    "NNL.Props.C131_accepts",
    "NNL.Props.C131_loss",
    "NNL.Props.C131_rates",
    "NNL.Props.C131_kink_counterexample"
   ],
   "note": "The gradient of autograd is modelled by its documented values at kinks (an inactive unit, sign zero). The derivative of the loss in the weights is not modelled."
  },
  {
   "property": "C132",
   "status": "proved",
   "theorems": [
    "NNL.Props.C132_lyapunov",
    "NNL.Props.C132_lyapunov_sets",
    "NNL.Props.C132_barrier",
    "NNL.Props.C132_barrier_sets",
    "NNL.Props.C132_history",
    "NNL.Props.C132_order",
    "NNL.Props.C132_system_fixed",
    "NNL.Props.C132_stale_counterexample",
    "NNL.Props.C132_constant_unchecked"
   ],
   "note": "The objects are references with a system; the arguments are a float, a tensor with one axis, an ROptions object or something else."
  },
  {
   "property": "C133",
   "status": "proved",
   "theorems": [
    "NNL.Props.C133_controlled",
    "NNL.Props.C133_plain",
    "NNL.Props.C133_autonomous",
    "NNL.Props.C133_second_accepts",
    "NNL.Props.C133_second",
    "NNL.Props.C133_residue",
    "NNL.Props.C133_positions_unchecked",
    "NNL.Props.C133_positions_counterexample",
    "NNL.Props.C133_states_counterexample"
   ],
   "note": "C133_autonomous assumes that the network fits the number of states, C133_second and C133_residue that there are as many positions as velocities (and that the listed indices are those of states): the constructors do not check this. The exactness of the constraints needs a hidden layer."
  },
  {
   "property": "C134",
   "status": "proved",
   "theorems": [
    "NNL.Props.C134_random",
    "NNL.Props.C134_limit",
    "NNL.Props.C134_box",
    "NNL.Props.C134_new",
    "NNL.Props.C134_state",
    "NNL.Props.C134_rows_unchecked"
   ],
   "note": "The module of the generator of adversarial samples (adversarial_sample.py) is not part of the repository: its samples are assumed to lie between the bounds. Random numbers are arbitrary in [0, 1)."
  },
  {
   "property": "C135",
   "status": "proved",
   "theorems": [
    "NNL.Props.C135_unicycle",
    "NNL.Props.C135_car",
    "NNL.Props.C135_pole",
    "NNL.Props.C135_pixhawk",
    "NNL.Props.C135_quadrotor",
    "NNL.Props.C135_pendulum",
    "NNL.Props.C135_quadrotor2d",
    "NNL.Props.C135_unchecked"
   ],
   "note": "The unchecked conditions are the hypothesis ArgsFit (and the sizes named in the statement). The additional bounds of the inputs and the solver of the bound propagation are as in C76-C78."
  },
  {
   "property": "C136",
   "status": "proved",
   "theorems": [
    "NNL.Props.C136_new_state",
    "NNL.Props.C136_new_latent",
    "NNL.Props.C136_load_state",
    "NNL.Props.C136_load_latent",
    "NNL.Props.C136_refused",
    "NNL.Props.C136_load_dtype",
    "NNL.Props.C136_steps",
    "NNL.Props.C136_trained"
   ],
   "note": "A file is the list of its pickled objects, and pickling is taken to be faithful. A crash in the middle of a save is not modelled."
  },
  {
   "property": "C137",
   "status": "proved",
   "theorems": [
    "NNL.Props.C137_auto_program",
    "NNL.Props.C137_wz_bounds",
    "NNL.Props.C137_bounds",
    "NNL.Props.C137_verdict",
    "NNL.Props.C137_auto_verdict",
    "NNL.Props.C137_wz_accepts",
    "NNL.Props.C137_accepts",
    "NNL.Props.C137_auto_accepts",
    "NNL.Props.C137_open_program",
    "NNL.Props.C137_control_program",
    "NNL.Props.C137_forward_program",
    "NNL.Props.C137_feedback_program",
    "NNL.Props.C137_feedback_verdict",
    "NNL.Props.C137_feedback_accepts"
   ],
   "note": "Bound programs are modelled for network systems without input, and for feedback systems whose forward system is added by addCtrl (the ReLU systems of relu_system.py); for other systems the theorems take a bound program that contains every state with its velocity (BoundProgOk). The solver is a parameter: SolverBounds (the reported optimum bounds the objective) and, for acceptance only, SolverTotal (it answers on feasible bounded programs); anySolve_ok shows that both can be met. Acceptance is proved with binaries only, not for the relaxation."
  },
  {
   "property": "C138",
   "status": "proved",
   "theorems": [
    "NNL.Props.C138_nearest",
    "NNL.Props.C138_nearest_defined",
    "NNL.Props.C138_nearest_self",
    "NNL.Props.C138_progress",
    "NNL.Props.C138_progress_ends",
    "NNL.Props.C138_zero_grad",
    "NNL.Props.C138_zero_grad_raises",
    "NNL.Props.C138_noise",
    "NNL.Props.C138_noise_zero",
    "NNL.Props.C138_progress_mono",
    "NNL.Props.C138_progress_half"
   ],
   "note": "Arrays with one dimension for find_nearest; NaN is not modelled; the number shown is formatted by Python with one digit, which is not modelled."
  },
  {
   "property": "C139",
   "status": "proved",
   "theorems": [
    "NNL.Props.C139_mlp",
    "NNL.Props.C139_mlp_raises",
    "NNL.Props.C139_count",
    "NNL.Props.C139_actor",
    "NNL.Props.C139_actor_raises",
    "NNL.Props.C139_q",
    "NNL.Props.C139_q_value",
    "NNL.Props.C139_actor_value"
   ],
   "note": "One observation at a time, batches are not modelled. The sigmoid is a parameter with values strictly between 0 and 1."
  }
 ]
}
