{"id": "C01", "title": "Binary-times-continuous product encoding is exact", "statement": "For every interval lo<=up accepted by replace_binary_continuous_product, and every x in [lo,up] and binary alpha, the four returned inequalities hold for (x,s,alpha) if and only if s = alpha*x. Conversely any (x,s,alpha) with binary alpha satisfying them has x in [lo,up] and s = alpha*x. lo>up is rejected.", "quantifier": "all intervals, all x, all s, both values of alpha", "why_tests_cant": "The inputs range over a continuum of real values; a test samples finitely many of them, and an encoding that is wrong only on a thin set (a boundary, a sign change) passes.", "anchors": ["neural_network_lyapunov/utils.py: replace_binary_continuous_product"]}
{"id": "C02", "title": "ReLU big-M encoding is exact", "statement": "For every lo<0<up, the rows returned by replace_relu_with_mixed_integer_constraint hold for (x,y,beta), beta binary, if and only if lo<=x<=up, y = max(x,0), and beta=1 implies x>=0 while beta=0 implies x<=0. Intervals that do not contain 0 in the interior are rejected. Even with beta relaxed to [0,1] every point is a convex combination of the two line segments (the relaxation is the convex hull).", "quantifier": "all lo<0<up, all real x, y, both binaries (and all relaxed beta)", "why_tests_cant": "The inputs range over a continuum of real values; a test samples finitely many of them, and an encoding that is wrong only on a thin set (a boundary, a sign change) passes.", "anchors": ["neural_network_lyapunov/utils.py: replace_relu_with_mixed_integer_constraint"]}
{"id": "C03", "title": "Leaky-ReLU encoding is exact for every negative slope", "statement": "For every negative slope and every lo<0<up, the rows returned by replace_leaky_relu_mixed_integer_constraint with binary beta hold if and only if y equals the leaky ReLU of x and (for slope different from 1) x lies in [lo,up] and beta indicates the sign of x.", "quantifier": "all slopes (below, at and above 1), all intervals around 0, all x,y,beta", "why_tests_cant": "The inputs range over a continuum of real values; a test samples finitely many of them, and an encoding that is wrong only on a thin set (a boundary, a sign change) passes.", "anchors": ["neural_network_lyapunov/utils.py: replace_leaky_relu_mixed_integer_constraint"]}
{"id": "C04", "title": "Gradient-times-input encoding is exact", "statement": "For every slope c and every interval lo<=up, leaky_relu_gradient_times_x's rows with binary alpha hold if and only if y = x when alpha=1 and y = c*x when alpha=0 (for x in [lo,up]).", "quantifier": "all slopes, intervals, x, y, alpha", "why_tests_cant": "The inputs range over a continuum of real values; a test samples finitely many of them, and an encoding that is wrong only on a thin set (a boundary, a sign change) passes.", "anchors": ["neural_network_lyapunov/utils.py: leaky_relu_gradient_times_x"]}
{"id": "C05", "title": "Absolute-value encoding is exact in every sign case", "statement": "For every interval lo<=up and both settings of binary_for_zero_input, the mixed-integer constraints returned by absolute_value_as_mixed_integer_constraint are feasible at x exactly when lo<=x<=up, every feasible point outputs |x|, and the binaries imply the documented sign of x.", "quantifier": "all intervals (including those touching or equal to 0), all x, all slacks and binaries", "why_tests_cant": "The inputs range over a continuum of real values; a test samples finitely many of them, and an encoding that is wrong only on a thin set (a boundary, a sign change) passes.", "anchors": ["neural_network_lyapunov/utils.py: absolute_value_as_mixed_integer_constraint"]}
{"id": "C06", "title": "Max encoding is exact", "statement": "For every nonempty vector of bounds with x_lo<=x_up, whenever max_as_mixed_integer_constraint returns, its constraints are satisfiable at every x in the box, and every feasible point outputs exactly the maximum entry of x. Binaries pinned to zero belong to entries that are never the unique maximum.", "quantifier": "all dimensions, all boxes, all x in the box", "why_tests_cant": "The inputs range over a continuum of real values; a test samples finitely many of them, and an encoding that is wrong only on a thin set (a boundary, a sign change) passes. The dimension is unbounded as well.", "anchors": ["neural_network_lyapunov/utils.py: max_as_mixed_integer_constraint"]}
{"id": "C07", "title": "Saturation encoding is exact in all six branches", "statement": "For every lower_limit<=upper_limit and every input interval, after add_saturation_as_mixed_integer_constraint the program restricted to input in [lo,up] forces output = clamp(input, lower_limit, upper_limit), and every input in [lo,up] can be completed to a feasible point; the returned binaries indicate saturation.", "quantifier": "all limits, all input bounds, all inputs", "why_tests_cant": "The inputs range over a continuum of real values; a test samples finitely many of them, and an encoding that is wrong only on a thin set (a boundary, a sign change) passes.", "anchors": ["neural_network_lyapunov/utils.py: add_saturation_as_mixed_integer_constraint"]}
{"id": "C08", "title": "Interval arithmetic through an affine map is sound and tight", "statement": "compute_range_by_IA(A,b,lo,up) returns per-output bounds which contain A x + b for every x in the box, and each bound is attained by some x in the box.", "quantifier": "all matrices of any size, all boxes, all points of the box", "why_tests_cant": "Soundness is a statement about every point of a box of any dimension.", "anchors": ["neural_network_lyapunov/mip_utils.py: compute_range_by_IA, propagate_bounds"]}
{"id": "C09", "title": "Interval image of the leaky ReLU is sound and tight", "statement": "leaky_relu_interval(slope, lo, up) contains leaky_relu(x) for every x in [lo,up], and both endpoints are attained, for any slope (also negative ones). An interval with up<=lo is rejected.", "quantifier": "all slopes, intervals, points", "why_tests_cant": "The inputs range over a continuum of real values; a test samples finitely many of them, and an encoding that is wrong only on a thin set (a boundary, a sign change) passes.", "anchors": ["neural_network_lyapunov/utils.py: leaky_relu_interval"]}
{"id": "C10", "title": "box_boundary describes exactly the boundary of the box", "statement": "A point x satisfies the mixed-integer constraints of box_boundary(lo,up) for some binaries if and only if x is in the box and at least one coordinate sits on a face.", "quantifier": "all dimensions, all boxes, all points", "why_tests_cant": "The inputs range over a continuum of real values; a test samples finitely many of them, and an encoding that is wrong only on a thin set (a boundary, a sign change) passes.", "anchors": ["neural_network_lyapunov/utils.py: box_boundary"]}
{"id": "C11", "title": "Propagated bounds hold at every neuron of every layer", "statement": "For any fully connected (leaky) ReLU network and any input box, the pre- and post-activation bounds computed with interval arithmetic contain the corresponding neuron values for every input in the box; the same holds for the output bounds.", "quantifier": "all depths, widths, weights, slopes, boxes, inputs", "why_tests_cant": "Networks of every depth and a continuum of inputs; an unsound bound in one rarely reached corner is invisible to sampling but makes every certificate void.", "anchors": ["neural_network_lyapunov/relu_to_optimization.py: _compute_layer_bound, _compute_network_output_bounds", "neural_network_lyapunov/mip_utils.py: propagate_bounds"]}
{"id": "C12", "title": "Whole-network mixed-integer encoding equals the network", "statement": "For any fully connected (leaky) ReLU network and any sound layer bounds, the constraints returned by ReLUFreePattern.output_constraint are satisfiable at every input of the box, and every feasible (input, slack, binary) assignment outputs exactly network(input).", "quantifier": "all depths, widths, weights, biases present or absent, slopes, inputs, all feasible assignments", "why_tests_cant": "Verification claims quantify over every feasible point of the MIP; tests only compare a few solver outputs.", "anchors": ["neural_network_lyapunov/relu_to_optimization.py: output_constraint, _output_constraint_given_bounds", "neural_network_lyapunov/relu_to_optimization_utils.py: _add_constraint_by_neuron, _add_constraint_by_layer"]}
{"id": "C13", "title": "Warm-start values computed from an input satisfy the encoding", "statement": "For every input in the box, the slack values and binaries returned by compute_relu_unit_outputs_and_activation form a feasible point of output_constraint.", "quantifier": "all networks, all inputs", "why_tests_cant": "Failing inputs form a measure-zero set (a pre-activation exactly 0 at a bound).", "anchors": ["neural_network_lyapunov/relu_to_optimization.py: compute_relu_unit_outputs_and_activation, output_constraint"]}
{"id": "C14", "title": "Strengthening cuts never remove a genuine network point", "statement": "For any neuron with sound input bounds, any index set and any lo-bound, the inequality produced by strengthen_relu_mip_w_indices holds at every integer-feasible point (y = leaky_relu(w x + b), beta = activation).", "quantifier": "all widths, weights, slopes in [0,1), boxes, index sets, points", "why_tests_cant": "There are 2^n index sets and a continuum of points.", "anchors": ["neural_network_lyapunov/mip_utils.py: strengthen_relu_mip_w_indices"]}
{"id": "C15", "title": "The chosen cut is the most violated one", "statement": "find_index_set_to_strengthen returns an index set whose cut has the smallest right-hand side at the given (x, beta) among all 2^n index sets.", "quantifier": "all widths, weights, points, and all competing index sets", "why_tests_cant": "Optimality ranges over exponentially many sets.", "anchors": ["neural_network_lyapunov/mip_utils.py: find_index_set_to_strengthen"]}
{"id": "C16", "title": "Blended IA/MIP bounds stay sound", "statement": "If the bounds found by optimisation are sound, the bounds used in the IA_MIP mode (a blend with the interval-arithmetic bound) are sound too and never looser than the interval bound.", "quantifier": "all layer values and bounds", "why_tests_cant": "The inputs range over a continuum of real values; a test samples finitely many of them, and an encoding that is wrong only on a thin set (a boundary, a sign change) passes.", "anchors": ["neural_network_lyapunov/relu_to_optimization.py: _compute_layer_bound"]}
{"id": "C17", "title": "Fixing an activation pattern gives the right affine piece", "statement": "For every network and activation pattern, ReLUGivenActivationPattern returns (g,h,P,q) such that P x <= q exactly when x realises the pattern (every active unit's pre-activation >= 0, every inactive one <= 0), and then network(x) = g.x + h.", "quantifier": "all networks, all patterns, all x", "why_tests_cant": "Exponentially many patterns and a continuum of x.", "anchors": ["neural_network_lyapunov/relu_to_optimization.py: ReLUGivenActivationPattern"]}
{"id": "C18", "title": "Enumerating activation patterns at a point is complete and non-redundant", "statement": "compute_all_relu_activation_patterns(network, x) returns exactly the patterns compatible with x: a unit with positive pre-activation is active, with negative inactive, and with zero both are returned; no pattern is returned twice.", "quantifier": "all networks and inputs, including inputs where any number of units is at the kink", "why_tests_cant": "The number of patterns is exponential in the number of degenerate units.", "anchors": ["neural_network_lyapunov/relu_to_optimization.py: compute_all_relu_activation_patterns"]}
{"id": "C19", "title": "Pattern flattening and alpha indexing are bijections", "statement": "relu_activation_binary_to_pattern inverts the row-major flattening of a pattern, and compute_alpha_index maps the choices of one unit per layer one-to-one onto 0..num_alpha-1.", "quantifier": "all lists of layer widths, all choices", "why_tests_cant": "Unbounded depth and width.", "anchors": ["neural_network_lyapunov/relu_to_optimization.py: relu_activation_binary_to_pattern, compute_alpha_index"]}
{"id": "C20", "title": "The linear gradient encoding represents the true gradient", "statement": "For a scalar-output ReLU network, for every activation beta, the alpha products required by output_gradient's constraints select exactly the active paths and alpha^T M equals the gradient of the affine piece for that activation.", "quantifier": "all networks, all binary activations", "why_tests_cant": "Exponential number of activations.", "anchors": ["neural_network_lyapunov/relu_to_optimization.py: output_gradient, compute_alpha_index"]}
{"id": "C21", "title": "Gradient-times-vector encoding is exact", "statement": "For every network, every binary activation beta and every vector y in the given box, the constraints of output_gradient_times_vector force the output to be (gradient of the piece selected by beta) times y, and are satisfiable at each such (beta,y).", "quantifier": "all networks, activations, vectors", "why_tests_cant": "The inputs range over a continuum of real values; a test samples finitely many of them, and an encoding that is wrong only on a thin set (a boundary, a sign change) passes.", "anchors": ["neural_network_lyapunov/relu_to_optimization.py: output_gradient_times_vector_w_bounds, output_gradient_times_vector, _compute_Wz_bounds_IA"]}
{"id": "C22", "title": "All one-sided gradients of a network are enumerated", "statement": "relu_network_gradient(network,x,zero_tol=0) returns the gradients of exactly those affine pieces whose activation pattern is compatible with x.", "quantifier": "all networks and inputs", "why_tests_cant": "Inputs at kinks have measure zero.", "anchors": ["neural_network_lyapunov/utils.py: relu_network_gradient"]}
{"id": "C23", "title": "l1_gradient enumerates the extreme points of the sub-differential", "statement": "With zero_tol=0, l1_gradient(x) returns exactly the sign vectors g with g_i = sign(x_i) where x_i is nonzero and g_i in {-1,1} where x_i = 0, each once; every one satisfies g.x = |x|_1.", "quantifier": "all dimensions and vectors", "why_tests_cant": "2^k results for k zero entries.", "anchors": ["neural_network_lyapunov/utils.py: l1_gradient"]}
{"id": "C24", "title": "l_infinity_gradient enumerates maximising coordinates", "statement": "l_infinity_gradient(x, max_tol=0) for x different from 0 returns exactly the signed unit vectors at coordinates attaining |x|_inf; each satisfies g.x = |x|_inf.", "quantifier": "all dimensions and vectors", "why_tests_cant": "Ties are measure zero.", "anchors": ["neural_network_lyapunov/utils.py: l_infinity_gradient"]}
{"id": "C25", "title": "minkowski_sum lists every pairwise sum in row-major order", "statement": "minkowski_sum(x,y) has |x|*|y| rows and row i*|y|+j is x[i]+y[j].", "quantifier": "all list lengths and dimensions", "why_tests_cant": "Unbounded sizes.", "anchors": ["neural_network_lyapunov/utils.py: minkowski_sum"]}
{"id": "C26", "title": "transform_input is substitution", "statement": "After transform_input(A,b), the constraints hold (and give output o) at x exactly when the original constraints hold (and give o) at A x + b; None fields stay consistent.", "quantifier": "all constraint sets with any combination of missing fields, all affine maps, all points", "why_tests_cant": "All combinations of absent blocks and all values.", "anchors": ["neural_network_lyapunov/gurobi_torch_mip.py: MixedIntegerConstraintsReturn.transform_input"]}
{"id": "C27", "title": "Concatenating constraint sets is conjunction", "statement": "concatenate_mixed_integer_constraints(c1,c2,same_slack,same_binary,stack_output) is satisfied at a shared input by the (concatenated or shared) slack and binary variables exactly when c1 and c2 are satisfied by their own parts, and with stack_output the output is the concatenation of the outputs.", "quantifier": "all pairs of constraint sets with any combination of missing fields and flags", "why_tests_cant": "All combinations of absent blocks.", "anchors": ["neural_network_lyapunov/gurobi_torch_mip.py: concatenate_mixed_integer_constraints"]}
{"id": "C28", "title": "Torch mirror data always describe the same program as the Gurobi model", "statement": "After any sequence of addVars / addLConstr / addMConstr / add_mixed_integer_linear_constraints calls that do not raise, an assignment satisfies the rows and bounds recorded in the torch data exactly when it satisfies the constraints and bounds of the Gurobi model.", "quantifier": "all finite sequences of API calls with all arguments", "why_tests_cant": "A statement about every history of calls.", "anchors": ["neural_network_lyapunov/gurobi_torch_mip.py: GurobiTorchMIP.addVars, addLConstr, addMConstr, get_inequality_constraints"]}
{"id": "C29", "title": "Adding a constraint set to a program restricts it by exactly that set", "statement": "add_mixed_integer_linear_constraints extends a program with fresh slack/binary variables so that an assignment is feasible afterwards iff it was feasible before, the new variables satisfy the constraint set with the given input variables, and the output variables (if given) equal the encoded output.", "quantifier": "all programs, all constraint sets, all assignments", "why_tests_cant": "All programs and all histories.", "anchors": ["neural_network_lyapunov/gurobi_torch_mip.py: GurobiTorchMIP.add_mixed_integer_linear_constraints"]}
{"id": "C30", "title": "The differentiable objective is only returned when it matches the solver", "statement": "compute_objective_from_mip_data_and_solution returns a value only if it is within objective_tol of the solver's objective; otherwise it retries with a doubled tolerance at most a fixed number of times and then raises. When the active rows have full column rank the recomputed objective equals the optimum.", "quantifier": "all tolerance/value sequences, all square or over-determined consistent active systems", "why_tests_cant": "All histories of failing attempts.", "anchors": ["neural_network_lyapunov/gurobi_torch_mip.py: compute_objective_from_mip_data_and_solution, get_active_constraints, GurobiTorchMILP.compute_objective_from_mip_data"]}
{"id": "C31", "title": "The candidate Lyapunov function vanishes at the equilibrium and its L1 term is encoded exactly", "statement": "lyapunov_value(x*,x*,lambda,R)=0 for every network, lambda, R; the slack variables added by add_state_error_l1_constraint equal |R(x-x*)| entrywise for every x in the box, and an equilibrium outside the box is rejected.", "quantifier": "all networks, lambda, R, states", "why_tests_cant": "The inputs range over a continuum of real values; a test samples finitely many of them, and an encoding that is wrong only on a thin set (a boundary, a sign change) passes.", "anchors": ["neural_network_lyapunov/lyapunov.py: lyapunov_value, add_state_error_l1_constraint"]}
{"id": "C32", "title": "The positivity MILP is a sound and complete check", "statement": "Every feasible point of lyapunov_positivity_as_milp has objective (eps-lambda)|R(x-x*)|_1 - phi(x) + phi(x*), every state in the box extends to a feasible point, hence its maximum is <= 0 iff V(x) >= eps |R(x-x*)|_1 on the whole box.", "quantifier": "all networks, boxes, R, lambda, eps, all states", "why_tests_cant": "The claim is about every state in a box.", "anchors": ["neural_network_lyapunov/lyapunov.py: lyapunov_positivity_as_milp, _lyapunov_value_as_milp"]}
{"id": "C33", "title": "The discrete-time derivative MILP objective is the Lyapunov decrease", "statement": "For every feasible point, the objective of lyapunov_derivative_as_milp equals V(x+)-V(x)+eps V(x) (ExpLower), its negation form (ExpUpper) or V(x+)-V(x)+eps|R(x-x*)|_1 (Asymp), and each state of the box whose successor lies in the box is represented by a feasible point.", "quantifier": "all systems, networks, eps types, states", "why_tests_cant": "All states and all feasible assignments.", "anchors": ["neural_network_lyapunov/lyapunov.py: LyapunovDiscreteTimeHybridSystem.lyapunov_derivative_as_milp"]}
{"id": "C34", "title": "Non-positive MILP optima certify convergence of every trajectory", "statement": "If the positivity and derivative optima are <= 0 then along every trajectory that stays in the box eps1*|R(x_n-x*)|_1 <= (1-eps2)^n V(x_0) (ExpLower), and in the Asymp case the errors are summable and tend to zero.", "quantifier": "all trajectories of any length, all systems", "why_tests_cant": "Infinite trajectories.", "anchors": ["neural_network_lyapunov/lyapunov.py: lyapunov_positivity_as_milp, lyapunov_derivative_as_milp", "neural_network_lyapunov/train_lyapunov_barrier.py: Trainer.train"]}
{"id": "C35", "title": "Binary-equality strengthening keeps every violating state", "statement": "strengthen_lyapunov_derivative_milp_binary only adds beta_i = beta_next_i when the solver proved the disagreeing sub-problem with non-negative objective infeasible, so every feasible point with objective >= 0 stays feasible and the verdict (optimum <= 0) is unchanged.", "quantifier": "all programs, all subsets of neurons, all solver outcomes", "why_tests_cant": "Depends on every solver outcome and every point.", "anchors": ["neural_network_lyapunov/lyapunov.py: strengthen_lyapunov_derivative_milp_binary"]}
{"id": "C36", "title": "The sub-level-set boundary MILP minimises V over the box boundary", "statement": "The program of _construct_milp_for_roa_boundary is feasible exactly for x on the boundary of the box and its objective is V(x); hence if the value rho is its minimum, the sub-level set {V<rho} inside the box does not touch the boundary.", "quantifier": "all boxes, networks, states", "why_tests_cant": "The inputs range over a continuum of real values; a test samples finitely many of them, and an encoding that is wrong only on a thin set (a boundary, a sign change) passes.", "anchors": ["neural_network_lyapunov/lyapunov.py: _construct_milp_for_roa_boundary"]}
{"id": "C37", "title": "compute_region_of_attraction returns a forward-invariant sub-level set", "statement": "Every state with V(x) < rho returned by compute_region_of_attraction that lies in the box has its successor in the box (so, with the derivative condition, the set is invariant).", "quantifier": "all systems, boxes, V, states", "why_tests_cant": "Corner exits (leaving through two faces at once) are rare in samples.", "anchors": ["neural_network_lyapunov/lyapunov.py: compute_region_of_attraction, _construct_milp_for_roa"]}
{"id": "C38", "title": "Sample losses vanish exactly when the condition holds at every sample", "statement": "lyapunov_positivity_loss_at_samples / lyapunov_derivative_loss_at_samples (with the next states of the system) / lyapunov_derivative_loss_at_samples_and_next_states / barrier derivative_loss_at_samples_and_next_states are non-negative, and with mean, max or 4norm reduction are zero iff the (margin-shifted) condition holds at each sample.", "quantifier": "all sample sets, reductions, margins", "why_tests_cant": "All sample sets.", "anchors": ["neural_network_lyapunov/lyapunov.py: lyapunov_positivity_loss_at_samples, lyapunov_derivative_loss_at_samples_and_next_states", "neural_network_lyapunov/barrier.py: derivative_loss_at_samples_and_next_states", "neural_network_lyapunov/utils.py: loss_reduction"]}
{"id": "C39", "title": "The continuous-time derivative MILP objective is V_dot + eps V", "statement": "For every feasible point of LyapunovContinuousTimeSystem.lyapunov_derivative_as_milp the objective equals (dphi/dx for the selected activation + lambda sum_i sign_i R_i) xdot + eps V(x), with sign_i a valid sub-gradient sign of R_i(x-x*).", "quantifier": "all systems, networks, states, activations", "why_tests_cant": "The inputs range over a continuum of real values; a test samples finitely many of them, and an encoding that is wrong only on a thin set (a boundary, a sign change) passes.", "anchors": ["neural_network_lyapunov/continuous_time_lyapunov.py: lyapunov_derivative_as_milp, _add_dl1dx_times_xdot"]}
{"id": "C40", "title": "A verified barrier keeps every trajectory safe", "statement": "If h(x+) >= (1-eps)h(x) (derivative objective <= 0) on the box with eps in [0,1], every trajectory starting with h>=0 and staying in the box keeps h>=0, so it never enters a region where h<0; and h(x*) = c > 0.", "quantifier": "all trajectories, systems, barrier networks", "why_tests_cant": "Infinite trajectories.", "anchors": ["neural_network_lyapunov/barrier.py: Barrier.value, DiscreteTimeBarrier.derivative, derivative_as_milp"]}
{"id": "C41", "title": "Barrier MILP objectives are the barrier conditions", "statement": "value_as_milp's objective is -h(x) (safe) or h(x) (unsafe) over exactly the given region, and derivative_as_milp's objective is -h(x+) + (1-eps) h(x).", "quantifier": "all networks, regions, states", "why_tests_cant": "The inputs range over a continuum of real values; a test samples finitely many of them, and an encoding that is wrong only on a thin set (a boundary, a sign change) passes.", "anchors": ["neural_network_lyapunov/barrier.py: value_as_milp, derivative_as_milp"]}
{"id": "C42", "title": "Hybrid linear system encoding equals the union of its modes", "statement": "For every (autonomous) hybrid linear system built by add_mode, the constraints of mixed_integer_constraints are satisfiable at (x,u,x+) iff some mode i has P_i[x;u] <= q_i and x+ = A_i x + B_i u + c_i.", "quantifier": "all numbers of modes, dimensions, states", "why_tests_cant": "The inputs range over a continuum of real values; a test samples finitely many of them, and an encoding that is wrong only on a thin set (a boundary, a sign change) passes.", "anchors": ["neural_network_lyapunov/hybrid_linear_system.py: HybridLinearSystem.mixed_integer_constraints, AutonomousHybridLinearSystem.mixed_integer_constraints"]}
{"id": "C43", "title": "mode, step_forward and possible_dx agree", "statement": "mode(x) returns the first mode containing x or None; step_forward applies that mode (or signals failure when there is none), and its result is always the first element of possible_dx(x), which lists exactly the results of all modes containing x.", "quantifier": "all systems and states", "why_tests_cant": "Overlapping mode boundaries.", "anchors": ["neural_network_lyapunov/hybrid_linear_system.py: mode, step_forward, possible_dx"]}
{"id": "C44", "title": "Recorded state bounds contain every mode", "statement": "After any sequence of add_mode calls, x_lo_all/x_up_all contain the domain of every mode and are attained (given exact LP answers), and for the autonomous system dx_lower/dx_upper contain the derivative of every state of every mode.", "quantifier": "all sequences of add_mode calls", "why_tests_cant": "All histories.", "anchors": ["neural_network_lyapunov/hybrid_linear_system.py: add_mode"]}
{"id": "C45", "title": "Cost-to-go samples are suffix sums", "statement": "compute_discrete_time_system_cost_to_go returns for the i-th visited state the sum of instantaneous costs from i to the end of the simulated trajectory, which follows the system dynamics and stops at the horizon or on reaching the goal.", "quantifier": "all horizons, systems, costs", "why_tests_cant": "All trajectory lengths.", "anchors": ["neural_network_lyapunov/hybrid_linear_system.py: compute_discrete_time_system_cost_to_go, generate_cost_to_go_samples"]}
{"id": "C46", "title": "State-space partition covers the box", "statement": "partition_state_input_space returns cells whose union is the whole state(-input) box.", "quantifier": "all dimensions, partitions, points", "why_tests_cant": "The inputs range over a continuum of real values; a test samples finitely many of them, and an encoding that is wrong only on a thin set (a boundary, a sign change) passes.", "anchors": ["neural_network_lyapunov/hybrid_linear_system.py: partition_state_input_space"]}
{"id": "C47", "title": "Saturated controller output always respects the limits", "statement": "compute_u(x) always lies between the input limits, equals u* at x* when u* is within the limits, and equals the unsaturated network output whenever that is within limits.", "quantifier": "all networks, limits, states", "why_tests_cant": "The inputs range over a continuum of real values; a test samples finitely many of them, and an encoding that is wrong only on a thin set (a boundary, a sign change) passes.", "anchors": ["neural_network_lyapunov/feedback_system.py: compute_u"]}
{"id": "C48", "title": "Feedback-system MIP encodes the closed loop", "statement": "With input limits inside the forward system's own input bounds (or a hybrid linear forward system), for every state in the box the feedback system's dynamics constraint is feasible with x+ = f(x, compute_u(x)), and every feasible point has this successor. With wider limits the constraint holds exactly for the states whose control is inside those bounds, and every other state of the box is infeasible.", "quantifier": "all controllers, forward systems, states", "why_tests_cant": "All states.", "anchors": ["neural_network_lyapunov/feedback_system.py: add_dynamics_mip_constraint, _add_controller_mip_constraint, _add_input_saturation_constraint"]}
{"id": "C49", "title": "Prescribed equilibria are fixed points", "statement": "Each *GivenEquilibrium ReLU system maps its equilibrium (with the equilibrium control) to itself (or to zero derivative) whatever the network weights are.", "quantifier": "all networks and equilibria", "why_tests_cant": "All weights.", "anchors": ["neural_network_lyapunov/relu_system.py: step_forward / dynamics of *GivenEquilibrium classes"]}
{"id": "C50", "title": "ReLU system MIP constraints encode step_forward", "statement": "For every ReLU system class the mixed-integer dynamics constraint holds at (x,u,x+) iff x+ = step_forward(x,u) for inputs in the bounds; for the second-order classes the position update is the trapezoid q+ = q + (v+v+)dt/2.", "quantifier": "all networks, states, inputs", "why_tests_cant": "The inputs range over a continuum of real values; a test samples finitely many of them, and an encoding that is wrong only on a thin set (a boundary, a sign change) passes.", "anchors": ["neural_network_lyapunov/relu_system.py: mixed_integer_constraints, step_forward, _add_dynamics_constraint_autonmous, _add_dynamics_mip_constraints"]}
{"id": "C51", "title": "Control-affine stacking is the second-order system", "statement": "SecondOrderControlAffineSystem's stacked constraint returns have the feasible points of the given ones and describe f=[v;a(x)] and G=[0;b(x)]; when the return for b has an input part (Aout_input not None) the stacking raises and nothing is returned. dynamics(x,u) is [v; a(x)+b(x)clamp(u)].", "quantifier": "all systems and states", "why_tests_cant": "The inputs range over a continuum of real values; a test samples finitely many of them, and an encoding that is wrong only on a thin set (a boundary, a sign change) passes.", "anchors": ["neural_network_lyapunov/control_affine_system.py: SecondOrderControlAffineSystem.mixed_integer_constraints, ControlPiecewiseAffineSystem.dynamics"]}
{"id": "C52", "title": "R parameterisations always have full column rank", "statement": "SearchRwithSPDOptions.R() has trivial kernel for every value of its variables when epsilon>0, its top block satisfies x'Rx >= epsilon|x|^2, and set_variable_value followed by R() returns the given matrix with its square top block replaced by its symmetric part (so the given matrix when that block is symmetric); SearchRwithSVDOptions.R() has trivial kernel when it has at least as many rows as columns and a>0, and set_variable_value followed by R() returns the given matrix.", "quantifier": "all variable values and sizes", "why_tests_cant": "The inputs range over a continuum of real values; a test samples finitely many of them, and an encoding that is wrong only on a thin set (a boundary, a sign change) passes.", "anchors": ["neural_network_lyapunov/r_options.py: SearchRwithSPDOptions, SearchRwithSVDOptions"]}
{"id": "C53", "title": "rpy2rotmat is a rotation and its gradient is its derivative", "statement": "For all angles rpy2rotmat returns an orthogonal matrix of determinant 1, equal to Rz(yaw)Ry(pitch)Rx(roll), and rpy2rotmat_gradient is its exact partial derivative.", "quantifier": "all angles", "why_tests_cant": "The inputs range over a continuum of real values; a test samples finitely many of them, and an encoding that is wrong only on a thin set (a boundary, a sign change) passes.", "anchors": ["neural_network_lyapunov/geometry_transform.py: rpy2rotmat, rpy2rotmat_gradient"]}
{"id": "C54", "title": "Network parameter packing round-trips", "statement": "extract_relu_parameters after update_relu_params returns the given vector and the other way round, for every network structure with or without biases.", "quantifier": "all structures and parameter vectors", "why_tests_cant": "Unbounded depth/width.", "anchors": ["neural_network_lyapunov/utils.py: update_relu_params, extract_relu_parameters, setup_relu"]}
{"id": "C55", "title": "Mesh grids enumerate the grid", "statement": "get_meshgrid_samples returns exactly the grid points, prod(mesh_size) many, all inside the box.", "quantifier": "all dimensions and mesh sizes", "why_tests_cant": "Unbounded sizes.", "anchors": ["neural_network_lyapunov/utils.py: get_meshgrid_samples"]}
{"id": "C56", "title": "Training only reports success with both optima within tolerance", "statement": "Trainer.train / train_adversarial return True only if in the last iteration the positivity and derivative objectives were within the tolerances (and then the Lyapunov function they leave satisfies both conditions on the whole box up to the tolerances, unless an early-termination threshold lies below the tolerance), run at most max_iterations, return False only after max_iterations, and with a positive limit never return an adversarial pool larger than its limit (a limit of 0 drops nothing).", "quantifier": "all sequences of solver outcomes, samples, settings", "why_tests_cant": "All histories of solver answers and updates.", "anchors": ["neural_network_lyapunov/train_lyapunov_barrier.py: Trainer.train, Trainer.train_adversarial, Trainer.total_loss"]}
{"id": "C57", "title": "Clustering adversarial states keeps a representative per run", "statement": "_cluster_adversarial_states keeps the first state of every run of states that are within the radius of their predecessor, repetition counts match the kept states one-to-one and add up to the number of input states.", "quantifier": "all lists of states and radii", "why_tests_cant": "All lists.", "anchors": ["neural_network_lyapunov/train_lyapunov_barrier.py: _cluster_adversarial_states"]}
{"id": "C58", "title": "Line search returns the loss at the parameters it leaves behind", "statement": "After line_search the parameters equal p + alpha*t*d for the last tried alpha = reduction^k, the returned loss is the loss there, and on early return Armijo's condition holds there.", "quantifier": "all losses, steps, reductions", "why_tests_cant": "All histories of trial steps.", "anchors": ["neural_network_lyapunov/line_search_gd.py: line_search", "neural_network_lyapunov/line_search_adam.py: line_search"]}
{"id": "C59", "title": "Gradient surgery never increases the protected loss to first order", "statement": "project_gradient with mode BOTH gives a direction with non-negative inner product with both gradients; LOSS1/LOSS2 gives a direction orthogonal to the other gradient when they conflict.", "quantifier": "all gradient vectors, modes", "why_tests_cant": "The inputs range over a continuum of real values; a test samples finitely many of them, and an encoding that is wrong only on a thin set (a boundary, a sign change) passes.", "anchors": ["neural_network_lyapunov/train_utils.py: project_gradient"]}
{"id": "C60", "title": "Vertex conditions certify the simple PWL Lyapunov function", "statement": "If s1 = s2 = 0 is feasible for SimplePWLLyapunov's LP then V >= eps1|x-x*|_1 and Vdot + eps2 V <= 0 on the convex hull of the given vertices of every mode; the adding methods record exactly the vertex conditions; add_continuity_constraint raises unless the number of common vertices fits the state dimension.", "quantifier": "all modes, vertex sets, points of the hull", "why_tests_cant": "The inputs range over a continuum of real values; a test samples finitely many of them, and an encoding that is wrong only on a thin set (a boundary, a sign change) passes.", "anchors": ["neural_network_lyapunov/simple_pwl_lyapunov.py: SimplePWLLyapunov"]}
{"id": "C61", "title": "Value-training buffers stay aligned", "statement": "Throughout AdversarialWithBaseline.train the adversarial and baseline buffers have equal length, data and label buffers stay aligned, and the size stays within max(initial, limit, batch).", "quantifier": "all sequences of sample batches", "why_tests_cant": "All histories.", "anchors": ["neural_network_lyapunov/train_value.py: AdversarialWithBaseline.train"]}
{"id": "C62", "title": "All cuts together give the convex hull of a unit", "statement": "With selective=False, the cuts of strengthen_relu_mip together with the four big-M rows for interval bounds describe exactly the convex hull of the integer points of the unit (the formulation is ideal).", "quantifier": "all widths, weights, slopes in [0,1), boxes, points of the relaxation", "why_tests_cant": "A statement about every point of a polytope with exponentially many facets.", "anchors": ["neural_network_lyapunov/mip_utils.py: strengthen_relu_mip, strengthen_relu_mip_w_indices"]}
{"id": "C63", "title": "setObjective records the requested linear objective", "statement": "When GurobiTorchMILP.setObjective(coeffs, vars, constant, sense) returns, the recorded c_r, c_zeta, c_constant evaluate at every assignment to the sum of coefficient times variable plus the constant, whatever the order and type of the variables; it returns whenever each variable occurs once, and raises when one occurs twice.", "quantifier": "all programs, coefficient lists, variable orders and assignments", "why_tests_cant": "Tests use a handful of orders; the claim is about every permutation and mix of continuous and binary variables.", "anchors": ["neural_network_lyapunov/gurobi_torch_mip.py: GurobiTorchMILP.setObjective"]}
{"id": "C64", "title": "Cost-to-go samples skip trajectories that leave the domain", "statement": "generate_cost_to_go_samples returns the (state, cost-to-go) pairs of exactly those samples whose trajectory stays in the domain, minus the pruned states; samples whose trajectory leaves every mode are skipped.", "quantifier": "all systems, sample lists, horizons, cost functions and pruners", "why_tests_cant": "The existing tests use samples that all stay inside the domain; whether one bad sample spoils the whole call depends on where the exception is raised.", "anchors": ["neural_network_lyapunov/hybrid_linear_system.py: generate_cost_to_go_samples, compute_discrete_time_system_cost_to_go"]}
{"id": "C65", "title": "Adversarial states added to the samples are genuine violations", "statement": "With add_adversarial_state_only, every state returned by solve_positivity_mip lies in the box and violates the positivity condition, every pair (state, successor) returned by solve_lyap_derivative_mip is a step of the dynamics inside the box (the mode being read off the binaries for a hybrid system) that violates the derivative condition, states and successors are equally many, and every violating solution among the first pool_solutions ones is returned.", "quantifier": "all networks, R, boxes, systems, convergence types and solution pools consisting of feasible points", "why_tests_cant": "All networks and pools; a wrong mode or a misaligned successor gives a plausible but wrong sample.", "anchors": ["neural_network_lyapunov/train_lyapunov_barrier.py: Trainer.solve_positivity_mip, Trainer.solve_lyap_derivative_mip"]}
{"id": "C66", "title": "Batch descent keeps the best parameters it visited", "statement": "_batch_descent_on_samples leaves parameters that it visited (the initial ones, or those after some epoch) whose loss on all the samples is minimal among all the visited ones, so the loss on all samples never increases; it stops after the first epoch that reaches parameters where both parts of the loss are zero and leaves these; otherwise it runs all the epochs and puts back the parameters of the first best state.", "quantifier": "all losses, epoch updates (any optimiser), numbers of epochs and initial parameters", "why_tests_cant": "Whether the best parameters are kept depends on the whole history of losses, including ties and a best state in the first or last epoch.", "anchors": ["neural_network_lyapunov/train_lyapunov_barrier.py: Trainer._batch_descent_on_samples, TrainLyapunovReLU helper functions for saving and restoring parameters"]}
{"id": "C67", "title": "Restoring parameters does not disconnect the optimiser", "statement": "After _batch_descent_on_samples restored the best parameters, the network, the controller and R are still the tensors that an optimiser created before the call updates, so later descents with it still train all of them.", "quantifier": "all parameters, optimisers and sequences of calls of train_adversarial", "why_tests_cant": "A tensor that is silently no longer trained keeps its value, which no assertion on the loss notices; it takes all call sequences.", "anchors": ["neural_network_lyapunov/train_lyapunov_barrier.py: Trainer._batch_descent_on_samples, Trainer.train_adversarial", "neural_network_lyapunov/r_options.py: set_variable_value"]}
{"id": "C68", "title": "train_lyapunov_on_samples restores the best epoch", "statement": "train_lyapunov_on_samples with at least one epoch leaves the parameters (networks and R) of the epoch with the smallest test loss.", "quantifier": "all losses, optimisers, numbers of epochs and initial parameters", "why_tests_cant": "Depends on the history of test losses and on which parameters are saved.", "anchors": ["neural_network_lyapunov/train_lyapunov_barrier.py: Trainer.train_lyapunov_on_samples"]}
{"id": "C69", "title": "Fitting the cost-to-go reports success exactly when the loss is within tolerance", "statement": "train_with_cost_to_go returns True exactly when the loss reaches the tolerance after fewer than max_epochs updates and then returns that loss; it returns False only after max_epochs updates, with the loss measured before the last update.", "quantifier": "all losses, updates, tolerances and epoch limits", "why_tests_cant": "All loss histories and limits, in particular the epoch limit 0 and success in the last epoch.", "anchors": ["neural_network_lyapunov/train_lyapunov_barrier.py: Trainer.train_with_cost_to_go"]}
{"id": "C70", "title": "A verified barrier derivative condition does not break the training step", "statement": "solve_barrier_derivative_mip and compute_barrier_loss return also when no solution in the pool violates the derivative condition.", "quantifier": "all solution pools, samples and weights", "why_tests_cant": "The failing case is exactly the successful one: add_adversarial_state_only together with a verified condition.", "anchors": ["neural_network_lyapunov/train_lyapunov_barrier.py: Trainer.solve_barrier_derivative_mip, Trainer.compute_barrier_loss"]}
{"id": "C71", "title": "The boundary gap is max V - min V on the boundary of the box", "statement": "solve_boundary_gap_mip always builds its programs; the two optima are the largest and smallest value of V on the boundary of the box, so the gap is non-negative, bounds V(x) - V(y) for all boundary states, and is zero exactly if V is constant on the boundary.", "quantifier": "all networks, R, lambda, equilibria and boxes", "why_tests_cant": "The boundary is a continuum of points of every dimension.", "anchors": ["neural_network_lyapunov/train_lyapunov_barrier.py: Trainer.solve_boundary_gap_mip", "neural_network_lyapunov/utils.py: box_boundary", "neural_network_lyapunov/lyapunov.py: _lyapunov_value_as_milp"]}
{"id": "C72", "title": "total_loss is the sum of its parts on aligned recent samples", "statement": "total_loss returns the sum of the two sample losses, the two program losses and the gap loss; the given samples are kept and only extended; the states of the derivative condition and their successors stay equally many; the sample losses are taken on the most recent max_sample_pool_size states (all of them for 0), zero if the weight or the set is empty.", "quantifier": "all solver answers, samples, weights and pool sizes", "why_tests_cant": "All combinations of weights, flags and pool sizes, in particular size 0 and sizes beyond the number of samples.", "anchors": ["neural_network_lyapunov/train_lyapunov_barrier.py: Trainer.total_loss, Trainer.lyapunov_sample_loss"]}
{"id": "C73", "title": "Barrier losses vanish exactly on satisfied samples", "statement": "With positive weights each part of barrier_sample_loss is non-negative and is zero exactly if h >= 0 at all safe samples, h <= 0 at all unsafe ones, h(x+) >= (1 - eps) h(x) at all derivative samples; compute_barrier_loss returns for each set with a program weight the given samples followed by the first pool_solutions solutions of every region in order and one objective per region, otherwise the given samples.", "quantifier": "all networks, samples, reductions, regions, weights and solver answers", "why_tests_cant": "All networks and sample sets and all three reductions.", "anchors": ["neural_network_lyapunov/train_lyapunov_barrier.py: Trainer.barrier_sample_loss, Trainer.compute_barrier_loss, Trainer.solve_barrier_value_mip"]}
{"id": "C74", "title": "Derivative programs of continuous-time hybrid systems are exact", "statement": "Both programs built by LyapunovContinuousTimeHybridSystem (with and without velocity variables) are built for every admissible network and hybrid system; every feasible point is a state of the mode marked by the binaries together with the velocity of that mode there, its objective is the derivative along that velocity of an affine piece of V active at the state, plus epsilon V, and the stated bounds on V hold; every state of every mode is represented by a feasible point for every active piece compatible with the fixed units. Hence if the maximum is at most zero, V decreases at rate epsilon along every velocity of every state within the bounds; where only one piece is active a positive objective is a violation. Other condition types, an R other than the identity and a wrong equilibrium dimension raise.", "quantifier": "all networks, hybrid systems, equilibria, weights, rates, bounds on V, states and modes", "why_tests_cant": "The programs quantify over all states and all activation patterns, and the states where V has a kink form a null set that samples never hit.", "anchors": ["neural_network_lyapunov/continuous_time_lyapunov.py: LyapunovContinuousTimeHybridSystem.lyapunov_derivative_as_milp, lyapunov_derivative_as_milp2, add_relu_gradient_times_dynamics, add_sign_term_times_dynamics"]}
{"id": "C75", "title": "Derivatives of continuous-time hybrid systems at states and samples", "statement": "lyapunov_derivative returns exactly the values of V-dot + epsilon V over the velocities possible at the state and the pieces of V active there; with one state dimension it raises. The derivative used in the loss is the mean of two active pieces, and that of an active piece where no coordinate is that of the equilibrium; the loss of a batch is non-negative, and zero exactly if every sample satisfies the condition with the margin; a sample in no mode raises.", "quantifier": "all networks, systems, states, equilibria, batches, margins and condition types", "why_tests_cant": "At kinks the set of pieces depends on every unit; unit tests check smooth points.", "anchors": ["neural_network_lyapunov/continuous_time_lyapunov.py: LyapunovContinuousTimeHybridSystem.lyapunov_derivative, lyapunov_derivative_loss_at_samples, lyapunov_derivative_loss_at_samples_and_next_states"]}
{"id": "C76", "title": "Programs of the car models are exact", "statement": "UnicycleReLUModel, UnicycleReLUZeroVelModel and AccelerationCarReLUModel: step_forward is the documented next state (and, for the unicycles, raises exactly when the input is outside the limits); the constraints added by add_dynamics_constraint are satisfied, for some values of the new variables, exactly by the states, inputs and next states with the network inputs within all bounds (also the additional ones) and the documented next state. The zero-velocity model keeps the position when the velocity is zero. Without thetadot_as_input the program does not limit the angular velocity although step_forward does.", "quantifier": "all networks, limits, additional bounds, bound methods, states and inputs", "why_tests_cant": "All networks and all bounds; a wrong index or sign of one row shows up only for particular weights.", "anchors": ["neural_network_lyapunov/examples/car/unicycle.py: UnicycleReLUModel, UnicycleReLUZeroVelModel (step_forward, add_dynamics_constraint)", "neural_network_lyapunov/examples/car/acceleration_car.py: AccelerationCarReLUModel.step_forward, add_dynamics_constraint"]}
{"id": "C77", "title": "Programs of the pole and quadrotor models are exact", "statement": "PoleReluSystem, QuadrotorWithPixhawkReLUSystem and QuadrotorReLUSystem: step_forward is the documented next state (velocities by the network, positions by the trapezoid rule) and the added constraints are satisfiable exactly by the states, inputs and next states with the network inputs within all bounds and this next state.", "quantifier": "all networks, limits, additional bounds, bound methods, states and inputs", "why_tests_cant": "States of up to twelve dimensions with several index permutations; all networks and bounds.", "anchors": ["neural_network_lyapunov/examples/pole/pole_relu_system.py: PoleReluSystem.step_forward, add_dynamics_constraint", "neural_network_lyapunov/examples/quadrotor3d/quadrotor.py: QuadrotorWithPixhawkReLUSystem, QuadrotorReLUSystem (step_forward, add_dynamics_constraint)"]}
{"id": "C78", "title": "Constraints of the continuous-time pendulum and planar quadrotor are exact", "statement": "mixed_integer_constraints of PendulumReluContinuousTime and QuadrotorReluContinuousTime is satisfiable exactly by the states and inputs within the bounds, its output is the derivative of step_forward, and x_next_lb, x_next_ub contain it; add_dynamics_constraint adds exactly this relation. Additional input bounds replace the limits of the system.", "quantifier": "all networks, limits, additional bounds, bound methods, states and inputs", "why_tests_cant": "All networks and all points of the box; the bounds on the derivative are claims about every state.", "anchors": ["neural_network_lyapunov/examples/pendulum/pendulum.py: PendulumReluContinuousTime", "neural_network_lyapunov/examples/quadrotor2d/quadrotor_2d.py: QuadrotorReluContinuousTime", "neural_network_lyapunov/relu_system.py: _add_forward_dynamics_mip_constraints"]}
{"id": "C79", "title": "Equilibria of the example systems are fixed points", "statement": "For each of the example network models the equilibrium state with the equilibrium input is a fixed point of step_forward (a zero of the derivative), and so is its translate to any position; with the zero-velocity unicycle every state is a fixed point for the input zero.", "quantifier": "all networks, time steps, equilibrium inputs and positions", "why_tests_cant": "Holds for every choice of weights.", "anchors": ["neural_network_lyapunov/examples/car/unicycle.py", "neural_network_lyapunov/examples/car/acceleration_car.py", "neural_network_lyapunov/examples/pole/pole_relu_system.py", "neural_network_lyapunov/examples/quadrotor3d/quadrotor.py", "neural_network_lyapunov/examples/pendulum/pendulum.py", "neural_network_lyapunov/examples/quadrotor2d/quadrotor_2d.py"]}
{"id": "C80", "title": "The unicycle controller and its program", "statement": "compute_u of UnicycleFeedbackSystem is the documented saturated law phi(x) - phi(0) + [lambda |R p|_1, 0], also for batches; the velocity is never negative, and it is positive exactly if the velocity before saturation and the upper limit are. For a controller network the added constraints are satisfiable exactly by the states within the bounds with their control, and the returned input bounds contain the control of every such state. Not as documented: the velocity need not be positive near the origin, and with a linear controller the program lacks the term lambda |R p|_1.", "quantifier": "all controller networks, limits, matrices R, lambda > 0, bound methods and states", "why_tests_cant": "All networks and states; the claims about positivity and about the linear controller concern choices no test makes.", "anchors": ["neural_network_lyapunov/examples/car/unicycle_feedback_system.py: UnicycleFeedbackSystem.compute_u, _add_network_controller_mip_constraint_given_relu_bound"]}
{"id": "C81", "title": "Strengthening the derivative program", "statement": "strengthen_lyapunov_derivative_as_milp returns a program with the variables, binary variables, objective and feasible points of lyapunov_derivative_as_milp, whatever solutions of the relaxations the solver returns and however many points are asked for; so its optimum decides the same decrease condition. Rows are added at a solution only if they cut that solution off; if a solution is not cut off, no inequality of the ideal formulation of any network (Lyapunov function at both states, forward model, controller) is violated there by more than the tolerance. The call succeeds whenever the solver solves the relaxations and all slopes are in [0, 1); it fails if a relaxation is not solved.", "quantifier": "all Lyapunov networks, systems (network systems with and without input, hybrid systems, feedback systems with network or linear controllers), numbers of points, solver answers and value bounds", "why_tests_cant": "A cut that removes a single feasible point makes the verifier report a false certificate; tests compare optimal values for a few networks.", "anchors": ["neural_network_lyapunov/lyapunov.py: LyapunovDiscreteTimeHybridSystem.strengthen_lyapunov_derivative_as_milp", "neural_network_lyapunov/relu_to_optimization.py: ReLUFreePattern.strengthen_relu_mip_at_solution", "neural_network_lyapunov/feedback_system.py: FeedbackSystem.strengthen_dynamics_constraint, strengthen_controller_mip_constraint"]}
{"id": "C82", "title": "Range of an affine map by linear programming", "statement": "compute_range_by_lp(A, b, x_lb, x_ub, C, d) returns for each row the infimum and the supremum of A[i] x + b[i] over all x with x_lb <= x <= x_ub (a missing bound is infinite) and C x <= d (if given); a finite entry is attained, an unbounded direction gives an infinite entry, an empty set gives (inf, -inf). Without C x <= d on a non-empty bounded box the result is that of compute_range_by_IA, and with it the range is never wider. Wrong shapes raise; otherwise the call returns if the solver answers every program.", "quantifier": "all matrices, bounds (finite, infinite, missing), constraint rows and correct solvers", "why_tests_cant": "A bound that is too tight for one matrix makes every later big-M constraint unsound; tests compare a few matrices with random samples.", "anchors": ["neural_network_lyapunov/mip_utils.py: compute_range_by_lp, compute_range_by_IA"]}
{"id": "C83", "title": "Quadratic objectives", "statement": "GurobiTorchMIQP.setObjective hands Gurobi the objective sum_k left_k . (quad_coeffs_k right_k) + sum_k lin_coeffs_k . lin_variables_k + constant for any assignment of the variables, whatever the mixture and order of continuous and binary variables, and records the same objective in Q_r, Q_zeta, Q_rzeta, c_r, c_zeta, c_constant. It raises if and only if two entries fall on the same coefficient (the same ordered pair, or the same pair in either order if one variable is continuous and one binary), for well-shaped terms over variables of the program; a quadratic term with an unknown variable raises.", "quantifier": "all programs, lists of quadratic and linear terms, and assignments", "why_tests_cant": "The coefficients are scattered into three matrices by the type of the variables; a wrong index only shows for some orders and mixtures.", "anchors": ["neural_network_lyapunov/gurobi_torch_mip.py: GurobiTorchMIQP.setObjective"]}
{"id": "C84", "title": "Recomputing a quadratic objective", "statement": "GurobiTorchMIQP.compute_objective_from_mip_data returns, for the given binary values and active rows, the optimal objective of the quadratic program with those rows as equations; compute_objective_from_mip_data_and_solution returns a value only if it is within objective_tol of the objective reported by Gurobi.", "quantifier": "all programs, objectives, active sets, binary values and penalties", "why_tests_cant": "The optimality conditions are a formula in the data; a missing term agrees on many test problems.", "anchors": ["neural_network_lyapunov/gurobi_torch_mip.py: GurobiTorchMIQP.compute_objective_from_mip_data, compute_objective_from_mip_data_and_solution"]}
{"id": "C85", "title": "Gradients of the example dynamics", "statement": "dynamics_gradient(x, u) of the unicycle, the pendulum, the planar quadrotor, both rockets and the quadrotor returns the derivatives of dynamics with respect to x and u; the numpy and the torch branch return the same.", "quantifier": "all states (pitch not at +-90 degrees for the quadrotor), inputs and parameters", "why_tests_cant": "A wrong entry of a Jacobian vanishes at the symmetric points tests like to use, and finite differences only sample.", "anchors": ["neural_network_lyapunov/examples/car/unicycle.py: Unicycle.dynamics_gradient", "neural_network_lyapunov/examples/pendulum/pendulum.py: Pendulum.dynamics_gradient", "neural_network_lyapunov/examples/quadrotor2d/quadrotor_2d.py: Quadrotor2D.dynamics_gradient", "neural_network_lyapunov/examples/rocket/rocket.py: Rocket.dynamics_gradient", "neural_network_lyapunov/examples/rocket/rocket.py: Rocket2.dynamics_gradient", "neural_network_lyapunov/examples/quadrotor3d/quadrotor.py: Quadrotor.dynamics_gradient"]}
{"id": "C86", "title": "Laws of the example dynamics", "statement": "Along every trajectory of dynamics: the energy of the pendulum changes by the power of torque and damping, and under energy_shaping_control the energy error decays at rate gain thetadot^2 up to damping; Rocket2 is the motion of the bottom of Rocket; the cars move along their heading with the commanded speed; the quadrotor obeys the laws of Newton and Euler with the torques of the propellers, its rotation matrix turning with the angular velocity. The equilibrium states and thrusts of the classes are equilibria.", "quantifier": "all trajectories, inputs and parameters", "why_tests_cant": "A sign error in one term gives plausible simulations; conservation has to hold along every trajectory.", "anchors": ["neural_network_lyapunov/examples/pendulum/pendulum.py: dynamics, potential_energy, kinetic_energy, energy_shaping_control", "neural_network_lyapunov/examples/quadrotor2d/quadrotor_2d.py: dynamics, u_equilibrium", "neural_network_lyapunov/examples/rocket/rocket.py: Rocket, Rocket2: dynamics, hover_thrust", "neural_network_lyapunov/examples/car/unicycle.py, acceleration_car.py: dynamics", "neural_network_lyapunov/examples/quadrotor3d/quadrotor.py: dynamics, hover_thrust"]}
{"id": "C87", "title": "Dynamics of the pole on an end effector", "statement": "Pole.dynamics returns the accelerations which Newton's laws give for the two masses connected by a rigid massless rod, gravity and the force on the end effector; it is defined whenever the sphere is above the end effector.", "quantifier": "all masses, lengths, states with the sphere above the end effector and forces", "why_tests_cant": "Tests check the code against itself or at states with zero velocity, where the Coriolis terms vanish.", "anchors": ["neural_network_lyapunov/examples/pole/pole.py: Pole.dynamics"]}
{"id": "C88", "title": "Physics of the spring loaded inverted pendulum", "statement": "Along every motion of flight_dynamics the value of flight_phase_energy is constant, and along every motion of stance_dynamics that of stance_phase_energy, whose motions obey Newton's law for gravity and the spring. touchdown_transition and liftoff_transition keep position, velocity and energy of the mass. If the integrator is exact then apex_map returns an apex state of the same energy, reached by a flight, a stance phase and a flight of the returned total duration, and every step of simulate is such a sequence.", "quantifier": "all parameters, states, leg angles, numbers of steps and exact integrators", "why_tests_cant": "Energy conservation over a hop has to hold for every state and leg angle; tests simulate a few hops with a tolerance.", "anchors": ["neural_network_lyapunov/spring_loaded_inverted_pendulum.py: SLIP.flight_dynamics, stance_dynamics, touchdown_transition, liftoff_transition, flight_phase_energy, stance_phase_energy, apex_map, simulate"]}
{"id": "C89", "title": "Time to touchdown on a stepping stone", "statement": "time_to_touchdown returns the time at which the foot of the thrown mass comes down to the height of the stone, if the foot is then on the stone, and None if this never happens.", "quantifier": "all states, leg angles and stones", "why_tests_cant": "Needs all ballistic motions, also those which start below the stone.", "anchors": ["neural_network_lyapunov/spring_loaded_inverted_pendulum.py: SLIP.time_to_touchdown, can_touch_stepping_stone"]}
{"id": "C90", "title": "Gradients of the spring loaded inverted pendulum", "statement": "stance_dynamics_gradient, apex_to_touchdown_gradient, touchdown_transition_gradient, touchdown_to_liftoff_gradient, liftoff_transition_gradient, liftoff_to_apex_gradient and apex_to_apex_gradient return the derivatives of the states and times they name, and apex_to_apex_gradient the apex and duration of apex_map.", "quantifier": "all parameters, apex states and leg angles with the foot above the ground, a leg extending at lift-off and an upward velocity after it", "why_tests_cant": "The event time depends on the state; a missing term of the implicit derivative vanishes in symmetric hops.", "anchors": ["neural_network_lyapunov/spring_loaded_inverted_pendulum.py: SLIP.stance_dynamics_gradient, apex_to_touchdown_gradient, touchdown_transition_gradient, touchdown_to_liftoff_gradient, liftoff_transition_gradient, liftoff_to_apex_gradient, apex_to_apex_gradient"]}
{"id": "C91", "title": "Linear approximation of the apex map", "statement": "apex_map_linear_approximation returns A, B, c and a_t, b_t, c_t such that A x + B u + c and a_t x + b_t u + c_t are the first order approximations of the next apex state and of the duration, and rows P [x; u] <= q which are the first order approximations of the conditions of the step: foot above the stone, upward velocity after lift-off, touchdown between the finite ends of the stone. The point of linearization satisfies the rows.", "quantifier": "all stones, apex states and leg angles", "why_tests_cant": "Heights are measured from the stone in one place and from the ground in another; tests use one stone.", "anchors": ["neural_network_lyapunov/slip_hybrid_linear_system.py: SlipHybridLinearSystem.apex_map_linear_approximation"]}
{"id": "C92", "title": "The tree of RRT* stays consistent", "statement": "After every call of connect_state_extend, update_parent and grow_tree the parents lead from each node to the goal, the children sets are those of the parents, the cost to the root is the sum of the costs along the way, and the stored path leads from the state of the node to that of its parent. connect_state_extend adds at most one node, below the neighbour that gives the least cost, and rewiring never raises the cost of a node and leaves each neighbour at most at the cost of the way through the new node; nearest_node returns the first node of least distance and neighbours those within the radius.", "quantifier": "all goals, samples, extensions, solver answers with nonnegative costs, set iteration orders and numbers of rounds", "why_tests_cant": "Rewiring moves a subtree; costs of descendants depend on the order of a queue over sets, and a cycle would loop for ever.", "anchors": ["neural_network_lyapunov/examples/car/rrt_star.py: RrtStar._add_node_with_path, update_parent, connect_state_extend, nearest_node, neighbours, grow_tree"]}
{"id": "C93", "title": "Paths stored in the tree follow the dynamics", "statement": "The path stored with each node of the tree satisfies the dynamics constraints of the trajectory optimization from the state of the node to that of its parent, and the cost to the parent is the cost of this path.", "quantifier": "all trees made by grow_tree with a solver that returns feasible points", "why_tests_cant": "Whether a path is stored forwards or in reverse depends on the history of rewirings.", "anchors": ["neural_network_lyapunov/examples/car/rrt_star.py: RrtStar.find_path, connect_state_extend, grow_tree", "neural_network_lyapunov/examples/car/unicycle_traj_opt.py: dynamics_constraint_evaluator, cost, construct_traj_opt"]}
{"id": "C94", "title": "Rows of the trajectory training set belong together", "statement": "The states, controls and costs which construct_training_set returns have the same number of rows, and row i of the costs is the sum of the squared controls from row i of its trajectory on.", "quantifier": "all sets of solved trajectories", "why_tests_cant": "The first trajectory is aligned; the shift only appears from the second one on.", "anchors": ["neural_network_lyapunov/examples/car/unicycle_traj_opt.py: construct_training_set, cost_trajectory"]}
{"id": "C95", "title": "The Runge-Kutta integrator converges to the solution", "statement": "rk4_constant_control evaluates the controller once, at the initial state, and keeps the control for all steps; an equilibrium is returned unchanged; one step agrees with the solution of the differential equation up to the fifth order in the step, and for Lipschitz dynamics the result after n steps converges to the solution as the step goes to zero, with an explicit bound of the error.", "quantifier": "all dynamics (four times continuously differentiable for the order, Lipschitz for convergence), controllers, initial states, steps and numbers of steps", "why_tests_cant": "Tests compare a few trajectories within a tolerance; the order is a statement about a limit.", "anchors": ["neural_network_lyapunov/integrator.py: rk4_constant_control"]}
{"id": "C96", "title": "Samples lie in the box and on its boundary", "statement": "uniform_sample_in_box returns points of the box, and every point of the half open box is the sample of some draws; uniform_sample_on_box_boundary returns points of the box of which at least one coordinate is at its lower or upper limit, and every face can be reached.", "quantifier": "all boxes, dimensions, numbers of samples and draws of the random generator in [0, 1)", "why_tests_cant": "Failure depends on a random draw of measure zero.", "anchors": ["neural_network_lyapunov/utils.py: uniform_sample_in_box, uniform_sample_on_box_boundary"]}
{"id": "C97", "title": "Numerical gradients are central differences", "statement": "compute_numerical_gradient returns for each argument the matrix whose columns are the central difference quotients of the function in the entries of this argument, the other entries unchanged; for functions quadratic in an entry the quotient is the derivative, and for differentiable functions it converges to the derivative as the perturbation goes to zero.", "quantifier": "all functions, numbers and sizes of arguments, perturbations", "why_tests_cant": "The loop perturbs entries in place; a missed restoration would spoil later columns only.", "anchors": ["neural_network_lyapunov/utils.py: compute_numerical_gradient"]}
{"id": "C98", "title": "Boundedness of polyhedra and projection", "statement": "is_polyhedron_bounded is true exactly if zero is the only solution of P x <= 0, and then, for every q with a solution, exactly if the polyhedron P x <= q is bounded; project_to_polyhedron returns the unique nearest point of the polyhedron, the point itself if it is in it, and does not increase distances.", "quantifier": "all matrices, right-hand sides and points, with a solver whose status and minimizers are exact", "why_tests_cant": "Boundedness is about points arbitrarily far away.", "anchors": ["neural_network_lyapunov/utils.py: is_polyhedron_bounded, project_to_polyhedron"]}
{"id": "C99", "title": "The variational loss is the divergence of the latent distribution", "statement": "kl_loss is the weight times the mean over the batch of the Kullback-Leibler divergence of the normal distribution with the predicted means and log variances from the standard normal distribution; a row contributes zero exactly if its means and log variances are zero; reparam maps standard normal draws to samples of that distribution; the annealed weight stays strictly between its limits and increases from the lower to the upper.", "quantifier": "all batches, latent dimensions, means, log variances, weights, annealing limits, centers and widths", "why_tests_cant": "The closed form is compared to nothing in a test; a divergence is an integral over all samples.", "anchors": ["neural_network_lyapunov/dynamics_learning.py: LatentSpaceDynamicsLearning.kl_loss, reparam", "neural_network_lyapunov/utils.py: SigmoidAnneal"]}
{"id": "C100", "title": "Losses and rollouts of the learned dynamics", "statement": "Each of the three losses of lyapunov_loss_at_samples is nonnegative and zero exactly if all samples in the given box satisfy the positivity condition, respectively the lower and the upper bound of the decrease; the losses of lyapunov_loss, with programs solved to optimality, are at most zero exactly if the condition holds on the whole box; rollout returns the iterates of step_forward with the values of the Lyapunov function; where the losses of the decrease vanish along a rollout, the values lie between the two exponential bounds; rollout_loss is zero everywhere exactly if the given rollout follows the dynamics.", "quantifier": "all networks, dynamics, options with positive weights, boxes, batches of samples, initial states and numbers of steps", "why_tests_cant": "The equivalence of a zero loss and the condition must hold for every batch; the bounds for every length of the rollout.", "anchors": ["neural_network_lyapunov/dynamics_learning.py: DynamicsLearning.lyapunov_loss, lyapunov_loss_at_samples, StateSpaceDynamicsLearning.rollout, rollout_loss"]}
{"id": "C101", "title": "Adversarial samples, validation and reconstruction losses", "statement": "adversarial_samples returns the states of the solutions found that violate the positivity condition, the lower and the upper bound of the decrease; rollout_validation returns the mean of the losses of the rollouts; reconstruction_loss is the mean of the squared differences over the batch.", "quantifier": "all networks, dynamics, solution pools, lists of rollouts and batches", "why_tests_cant": "Whether a variable is assigned depends on what the solver finds; batches in tests have one image.", "anchors": ["neural_network_lyapunov/dynamics_learning.py: DynamicsLearning.adversarial_samples, rollout_validation, LatentSpaceDynamicsLearning.reconstruction_loss"]}
{"id": "C102", "title": "Value iteration converges to the optimal discounted cost", "statement": "value_iteration terminates; the value of a state from which every infinite path contains a transition of infinite cost is infinite, the value of every other state is within discount * epsilon / (1 - discount) of the infimum of the discounted costs of the infinite paths from it; following the transitions whose controls form the policy costs at most twice this bound more than any other path; the flat index of a grid point and its three indices determine each other.", "quantifier": "all numbers of states, matrices of costs with real or infinite entries, thresholds > 0 and discounts in (0, 1)", "why_tests_cant": "Termination and the error bound are statements about all paths of infinite length; the updates are done in place during a pass.", "anchors": ["neural_network_lyapunov/examples/car/value_iteration.py: value_iteration, flat_to_3d, threeD_to_flat"]}
{"id": "C103", "title": "The replay buffer holds the latest transitions", "statement": "After storing k transitions in a ReplayBuffer of size S the buffer has min(k, S) rows that can be sampled, which are exactly the latest transitions stored, and the observation, action, reward, next observation and done flag of a row belong to the same transition; sample_batch returns such rows and raises for an empty buffer.", "quantifier": "all sizes S > 0, histories of stored transitions and draws of indices", "why_tests_cant": "The rows are overwritten cyclically: errors show up only after wrapping around, for some numbers of transitions.", "anchors": ["neural_network_lyapunov/examples/rl/td3.py: ReplayBuffer"]}
{"id": "C104", "title": "The cost of a linear program from its active rows", "statement": "linear_program_cost returns the optimal cost of the linear program, None if the program has no optimal solution.", "quantifier": "all linear programs and solutions of the solver", "why_tests_cant": "The rows that are active depend on the program; the tests run programs with one active inequality.", "anchors": ["neural_network_lyapunov/utils.py: linear_program_cost"]}
{"id": "C105", "title": "The closed loop of the quadrotor with jointly computed bounds", "statement": "The constraints added by QuadrotorFeedbackSystem.add_dynamics_mip_constraint admit a state and a next state if and only if the state is in the box, the saturated control is within the input bounds of the quadrotor and the next state is that of step_forward under this control, although the bounds of the units of the dynamics network are only valid for inputs that the controller produces; IA_MIP without IA is rejected.", "quantifier": "all controller and dynamics networks of matching shapes, limits, boxes, bound propagation methods, programs to which the constraints are added, and solvers whose answers are bounds for the programs given to them", "why_tests_cant": "The bounds computed with the controller in the program are not valid on the whole box of network inputs: whether a reachable transition is cut off depends on all states at once.", "anchors": ["neural_network_lyapunov/examples/quadrotor3d/quadrotor_feedback_system.py: QuadrotorFeedbackSystem.add_dynamics_mip_constraint"]}
{"id": "C106", "title": "Steps of gradient descent with momentum over any history", "statement": "After any number of calls of LineSearchGD.step with any gradients, a parameter without gradient is untouched, and every coordinate of a parameter with gradient has moved by one common trial fraction of the learning rate (that of the last group) against: its newest gradient with weight decay; or, with momentum μ and dampening δ, μ^(T-1) g_1 + (1-δ) Σ μ^(T-k) g_k over all gradients it has seen; or Nesterov's combination. p.grad has the weight decay added in place. Without momentum an accepted step decreases the loss by at least the Armijo amount.", "quantifier": "all numbers of parameters, groups and steps, all gradients (also missing ones), closures, losses and options", "why_tests_cant": "The direction depends on the whole history of gradients, and which parameters had one, through the buffers kept in the state.", "anchors": ["neural_network_lyapunov/line_search_gd.py: LineSearchGD.step"]}
{"id": "C107", "title": "Steps of Adam over any history", "statement": "After any number of calls of LineSearchAdam.step with any gradients, a parameter without gradient is untouched, and every coordinate of a parameter with gradient has moved by one common trial fraction of the learning rate of its group times the weighted average (weights β1^k) of all gradients it has seen over the root of the weighted average (weights β2^k) of their squares plus ε; with amsgrad the largest second moment replaces the newest. No step moves a coordinate by more than lr √((1-β1)/(1-β2)). The first step goes against the gradient.", "quantifier": "all numbers of parameters, groups and steps, all gradients (also missing ones), closures, losses and accepted options (for the bound β1 ≤ β2 and ε > 0)", "why_tests_cant": "The moments and bias corrections depend on the whole history of gradients; the bound must hold for every sequence.", "anchors": ["neural_network_lyapunov/line_search_adam.py: LineSearchAdam.step, LineSearchAdam.step_direction"]}
{"id": "C108", "title": "The program of epsilon_opt is cost-to-go minus network", "statement": "For a network with one output and a trajectory optimisation program, the values that the program returned by ModelBounds.epsilon_opt takes at a state x are exactly the trajectory costs from x minus the network output at x, and it has points only at states of the box. Hence minimising at a fixed x gives V(x) - η(x); any lower bound e of the program with x free shows that the network is nowhere in the box above V by more than -e; the minimum is attained at a state of the box.", "quantifier": "all networks with a hidden layer and one output, trajectory programs of all sizes, boxes and states", "why_tests_cant": "The program must be right at every state and for every choice of the binaries of both parts; a test solves it at a few states.", "anchors": ["neural_network_lyapunov/model_bounds.py: ModelBounds.epsilon_opt"]}
{"id": "C109", "title": "Simulated cost-to-go of a continuous-time system", "statement": "If the ODE integrator is accurate up to δ, the states returned by compute_continuous_time_system_cost_to_go are up to δ the points of one trajectory of the piecewise affine system from x0, which runs until T or until it is 1e-3 away from the goal; the total cost is the integral of the instantaneous cost up to δ; and entry i of the cost-to-go is up to 2δ the integral of the cost along a trajectory that starts at the i-th state and runs for the remaining time, with the last entry 0. generate_cost_to_go_samples with discrete_time_flag=False returns exactly these pairs for the samples whose simulation succeeds, without the pruned ones.", "quantifier": "all piecewise affine systems, initial states, horizons, cost functions, goals, accuracies and integrators", "why_tests_cant": "The statement is about integrals along trajectories of arbitrary systems; tests compare a few numbers.", "anchors": ["neural_network_lyapunov/hybrid_linear_system.py: compute_continuous_time_system_cost_to_go, generate_cost_to_go_samples"]}
{"id": "C110", "title": "Early termination does not change the verdict", "statement": "A maximisation that is stopped by the callback of get_gurobi_terminate_if_callback(threshold) reports an ObjVal that is the objective of a feasible point and is above the threshold; one that is not stopped reports the maximum. So if the threshold is not below the tolerance, the test ObjVal <= tolerance succeeds exactly if no feasible point exceeds the tolerance, as without early termination. If the threshold is below the tolerance, the test can succeed although some feasible point has an arbitrarily large objective.", "quantifier": "all programs, solver runs, thresholds and tolerances", "why_tests_cant": "It depends on when the solver finds which incumbent, which differs between runs, machines and solver versions.", "anchors": ["neural_network_lyapunov/utils.py: get_gurobi_terminate_if_callback", "neural_network_lyapunov/train_lyapunov_barrier.py: solve_positivity_mip, solve_lyap_derivative_mip"]}
{"id": "C111", "title": "Training of the dynamics survives interrupts", "statement": "DynamicsLearning.train descends every batch of every epoch once and in order under consecutive step numbers, descends the losses of the programs at exactly the steps divisible by lyap_loss_freq (with the sample losses of that batch as thresholds), and saves after the epochs divisible by save_rate and at the end. Whenever a KeyboardInterrupt arrives between two actions, the same holds for the batches handled so far, the counter is behind by at most one batch, and the networks as they are have been saved. Over any history of interrupted calls no step number is skipped and the programs are never missed when due; a step number can be used twice. The logged validation losses are means over all validation samples, however they are batched, unless samples are filtered out.", "quantifier": "all numbers of epochs, batches, learners, options, interrupt points and histories of calls", "why_tests_cant": "It is a statement about every interrupt point and every history of calls.", "anchors": ["neural_network_lyapunov/dynamics_learning.py: DynamicsLearning.train"]}
{"id": "C112", "title": "Losses from stopped programs", "statement": "lyapunov_loss, also without lyap_loss_optimal and whenever the solver is stopped, returns in each component a number that is at most zero exactly if the condition holds at every state of the box, if the thresholds are not negative. With the losses at the samples as thresholds, as in train, the violation found by a program is at least the loss at the samples (weights at most 1, samples and successors in the box). If no gradient can be computed for the solution at which the solver was stopped, the loss is 0 whatever was found.", "quantifier": "all networks, systems, options, samples, solver runs and thresholds", "why_tests_cant": "It depends on which incumbent the solver has when it is stopped.", "anchors": ["neural_network_lyapunov/dynamics_learning.py: DynamicsLearning.lyapunov_loss, DynamicsLearning.train"]}
{"id": "C113", "title": "Training the value networks", "statement": "A call of train or train_no_benchmark of the value learner that returns has carried out exactly num_iter_desired training steps and one round of sampling per num_steps_between_sampling steps; the samples stay next to their labels and the buffers within their bound, and both calls return if values are defined and enough samples are drawn. train_no_benchmark leaves the baseline buffers alone, so after it train always raises on a learner whose baseline buffer was empty. With num_steps_between_sampling = 0 no call with num_iter_desired > 0 returns.", "quantifier": "all options, buffers, draws, value functions and sequences of the two calls", "why_tests_cant": "The number of rounds and the buffers depend on the options, on what is drawn and on the calls made before.", "anchors": ["neural_network_lyapunov/train_value.py: AdversarialWithBaseline.train, AdversarialWithBaseline.train_no_benchmark"]}
{"id": "C114", "title": "The TD3 loop feeds real experience to its updates", "statement": "td3 steps the environment once per pass; what it stores is the sequence of episodes of the environment, each at most max_ep_len long, with done recorded only for episodes that end by themselves. Every batch of an update consists of transitions among the latest replay_size stored by then. After T steps the number of Q updates differs from T - update_after by less than update_every, and each block updates policy and targets ceil(update_every / policy_delay) times. Actions are random in exactly the first start_steps + 1 steps. With positive sizes no step raises.", "quantifier": "all environments, networks, optimizers, options, draws and numbers of steps", "why_tests_cant": "The experience depends on the environment, the draws and all earlier updates.", "anchors": ["neural_network_lyapunov/examples/rl/td3.py: td3, ReplayBuffer"]}
{"id": "C115", "title": "Targets, backups and actions of TD3", "statement": "After any history of updates each parameter of a target network is the exponentially weighted average of its initial value and the values of its network after the policy steps, so it stays within their bounds; policy steps do not influence the Q functions or their optimizer although they are not frozen. The Bellman backup is pessimistic, a contraction in the targets, bounded by R/(1-gamma), and ignores the targets after a terminal transition. Actions taken and target actions respect the limits. The policy returns the equilibrium action at the equilibrium; its output, which its loss uses, need not respect the limits.", "quantifier": "all histories of updates, gradients, optimizers, noises and parameters", "why_tests_cant": "Targets depend on the whole history of updates.", "anchors": ["neural_network_lyapunov/examples/rl/td3.py: td3, MLPActor.forward"]}
{"id": "C116", "title": "Rollouts in latent space", "statement": "LatentSpaceDynamicsLearning.rollout without decode_intermediate returns the trajectory of the latent system from the encoded image, the Lyapunov values along it, and the given images followed by the decoded ones, N+2 in all; where the decrease is certified and the trajectory stays in the region, the values decay exponentially. With decode_intermediate each latent state is one step from the encoding of the last two images, and the values may grow. rollout_loss has one entry per image and compares the first two images with themselves. With cross entropy, reconstruction_loss has its only minimum at the expected image; rollout_loss has not.", "quantifier": "all encoders, decoders, latent systems, Lyapunov functions, noises, images and numbers of steps", "why_tests_cant": "It holds for every learned model and length of the rollout.", "anchors": ["neural_network_lyapunov/dynamics_learning.py: LatentSpaceDynamicsLearning.rollout, rollout_loss, vae_forward, reconstruction_loss"]}
{"id": "C117", "title": "Generated data are trajectories of the simulator", "statement": "PybulletSampleGenerator.generate_dataset writes every row: row i*N+n holds period n of the trajectory from the i-th initial state, its successor, two images and the next one, and the target that training builds from a row is the image pair of the following row. A period is 2*int(dt/(2*timestep)) simulation steps, at most dt and less than two steps short. Initial states lie in the box and pixels in [0,1]. data_to_rollouts returns the rollout of each given state. The images of a rollout are taken after 0, 1/2, 1, 2, 3, ... periods, so that equal image pairs can have different successors.", "quantifier": "all simulators, initial states, draws, periods, lengths and numbers of rollouts", "why_tests_cant": "It concerns every row of every data set and any simulator.", "anchors": ["neural_network_lyapunov/pybullet_data_generation.py: PybulletSampleGenerator.generate_sample, generate_rollout, generate_dataset, data_to_rollouts"]}
{"id": "C118", "title": "Costs between grid points", "statement": "calculate_r_complete enters for each ordered pair of different grid points within the window the result of the trajectory optimization between them, and infinity for all others. If the optimization does not depend on the place in the plane, calculate_r_duplicate, which solves only from the four corners, returns the same arrays. The window contains every pair that differs by at most the reach along each axis, so no pair that can be connected is lost.", "quantifier": "all grids, window sizes and solvers", "why_tests_cant": "It concerns every pair of points of every grid and the order of the loops that overwrite each other.", "anchors": ["neural_network_lyapunov/examples/car/value_iteration.py: calculate_r_complete, calculate_r_duplicate"]}
{"id": "C119", "title": "Encoders and decoders fit the images", "statement": "LinearEncoder1 and LinearDecoder1 work for every image size. CNNEncoder1 can be built exactly for sizes of at least 4, CNNEncoder2 for at least 33; for images of the given size they return a mean and a logarithm of the variance of the latent dimension. CNNDecoder1 and CNNDecoder2 return images whose sizes are rounded down to multiples of 4. A convolutional encoder and its decoder fit together exactly if both sizes are multiples of 4, and for the second pair at least 36.", "quantifier": "all latent dimensions, image widths and heights, gray or coloured", "why_tests_cant": "It ranges over all image sizes.", "anchors": ["neural_network_lyapunov/encoders.py: Encoder, Decoder, LinearEncoder1, LinearDecoder1, CNNEncoder1, CNNDecoder1, CNNEncoder2, CNNDecoder2"]}
{"id": "C120", "title": "Model files", "statement": "A feedforward network of linear layers with matching widths, all with or all without bias, and a (leaky) ReLU of one slope between two of them, saved with save_second_order_forward_model, save_lyapunov_model or save_controller_model and rebuilt from the file the way the demos do (setup_relu with the stored structure, then load_state_dict), is the same function, and the other entries are as saved; in particular the Lyapunov function is the same. Whatever network a file was written for, if it can be loaded at all, the linear layers are those that were saved and the saved network is the loaded one followed by some activations.", "quantifier": "all networks, parameters, options for R and random initial parameters of the rebuilt network", "why_tests_cant": "Tests save and load one network; the claim is about every structure the savers accept.", "anchors": ["neural_network_lyapunov/utils.py: save_second_order_forward_model, save_lyapunov_model, save_controller_model, extract_relu_structure, setup_relu", "neural_network_lyapunov/r_options.py: extract_params", "neural_network_lyapunov/examples/car/train_unicycle_demo.py"]}
{"id": "C121", "title": "What is fitted is what is verified", "statement": "In every example the loss minimised when the forward model is trained is the mean squared one-step prediction error of the system class that is then verified (for the components that the network determines), and the fitted function vanishes at the equilibrium. The fitted controller is the control that the feedback system applies before its limits, and the fitted value function is the candidate Lyapunov function. train_approximator uses, in every epoch, each sample of a training set of 80 percent of the data exactly once, and no other sample.", "quantifier": "all networks, equilibria, data sets, batches, random splits and shuffles", "why_tests_cant": "The fitted function and the verified one are written twice, in different files; tests compare neither, and agreement is needed for all networks and states.", "anchors": ["neural_network_lyapunov/utils.py: train_approximator", "neural_network_lyapunov/examples/quadrotor2d/train_quadrotor_2d_demo.py: train_forward_model", "neural_network_lyapunov/examples/rocket/train_rocket_demo.py: train_forward_model", "neural_network_lyapunov/examples/pendulum/train_pendulum_demo.py: train_forward_model, train_controller_approximator, train_cost_approximator", "neural_network_lyapunov/examples/quadrotor3d/train_quadrotor_demo.py: train_forward_model", "neural_network_lyapunov/examples/quadrotorpx4/train_quadrotor_px4_demo.py: train_forward_model", "neural_network_lyapunov/examples/pole/learn_relu_dynamics.py: learn_relu_dynamics", "neural_network_lyapunov/examples/car/train_unicycle_demo.py: train_forward_model, train_controller_approximator", "neural_network_lyapunov/examples/car/train_acceleration_car_demo.py: train_forward_model", "neural_network_lyapunov/control_affine_system.py: train_control_affine_forward_model"]}
{"id": "C122", "title": "The linear quadratic regulators of the examples", "statement": "The gain that lqr_control returns (and the gains computed in the rocket and three-dimensional quadrotor demos), applied as the demos apply it, makes the equilibrium of the actual nonlinear plant exponentially stable, locally. The quadratic form of the matrix S, which the Lyapunov function is fitted to, is the least total cost over all continuous inputs for the linearised plant, from every state, and the regulator attains it. S does not depend on the solver. The swing-up controller of the pendulum data set is stabilising too, and the recorded costs are costs to go.", "quantifier": "all plants with mass (and length), all positive definite costs, all hovering positions, all motions and inputs, all states", "why_tests_cant": "Stability and optimality are statements about all motions over an infinite time; tests check the residual of one Riccati equation. A wrong sign of the gain, of its application, or of a derivative makes them false.", "anchors": ["neural_network_lyapunov/examples/pendulum/pendulum.py: Pendulum.lqr_control", "neural_network_lyapunov/examples/quadrotor2d/quadrotor_2d.py: Quadrotor2D.lqr_control", "neural_network_lyapunov/examples/rocket/train_rocket_demo.py", "neural_network_lyapunov/examples/quadrotor3d/train_quadrotor_demo.py", "neural_network_lyapunov/examples/quadrotor2d/train_quadrotor_2d_demo.py: train_lqr_value_approximator, train_lqr_control_approximator", "neural_network_lyapunov/examples/pendulum/train_pendulum_demo.py: generate_controller_dataset", "neural_network_lyapunov/test/double_integrator.py: double_integrator_lqr"]}
{"id": "C123", "title": "The quadrotor environment rewards hovering", "statement": "In Quadrotor2DEnv the reward of a step is minus the quadratic cost of the state it leads to and of the deviation of the thrusts from hovering: never positive, and zero exactly for hovering thrusts which lead to the origin. Hence no policy has a positive discounted return, and only hovering at the origin has the return zero. Each observation is where the plant is 0.01 s after the one before, the clock counts the steps since the reset, resets draw from the box of the observation space, and an episode is never ended by the environment. td3 thus resets it exactly every max_ep_len steps, the value logged by test_agent is the average return of episodes of that length, and run_policy plots such episodes.", "quantifier": "all states, actions, sequences of actions, policies, discount factors, draws, numbers and lengths of episodes", "why_tests_cant": "The claims are about all actions and all histories; a wrong sign or an indefinite weight shows only for particular deviations.", "anchors": ["neural_network_lyapunov/examples/quadrotor2d/quadrotor2d_env.py: Quadrotor2DEnv", "neural_network_lyapunov/examples/rl/td3.py: test_agent", "neural_network_lyapunov/examples/rl/test_policy.py: run_policy"]}
{"id": "C124", "title": "The simulated car sees what is there and steers away from it", "statement": "getDistances returns for every ray how far the car sees in its direction, up to the radius of the sensor, and a full scan leaves out only the ray that occurs twice. The optical-flow control drives forward and turns away from the side on which less is free; mirroring the view mirrors the turn. With a goal the control has length one and, where obstacles do not turn the car, turns towards the goal; if the view is not clear it only avoids obstacles. In the data of simulate_controller control, scan and state of a row belong together and each state is where the control of the row before leads, by at most 0.01; in the data of simulate_random_sample states are free of collision and within the limits, and the next state is where the control leads.", "quantifier": "all sets of obstacles, states, scans, goals, draws, numbers of rays, horizons and environments", "why_tests_cant": "The claims are about all obstacles and scans and about whole runs; a wrong sign of an angle still steers, towards other obstacles.", "anchors": ["neural_network_lyapunov/examples/car/utils_simulation.py: getDistances", "neural_network_lyapunov/examples/car/utils_simulation.py: compute_optical_flow_control, compute_optical_flow_control_goal", "neural_network_lyapunov/examples/car/car.py: simulate_controller, simulate_random_sample"]}
{"id": "C125", "title": "What RRT* puts into its tree", "statement": "extend_node returns where the plant gets from the node in the given time with one of its sampled controls, all of which respect the limits, and no other sample gets closer to the wanted state. sample_state draws exactly from the box. The tree which grow_tree makes is consistent, and the plant can drive from the goal to the state of node i in at most i motions of 0.05 s with admissible controls; so node i of a car is at most 0.05 i times the largest speed away from the goal. Loading a saved tree gives the tree, whatever it is loaded into.", "quantifier": "all plants, limits, draws, planners, numbers of rounds and nodes, trees", "why_tests_cant": "Reachability is an invariant of all rounds for all draws; a sampled run shows only a few.", "anchors": ["neural_network_lyapunov/examples/car/rrt_star.py: RrtStar.extend_node, RrtStar.sample_state, RrtStar.grow_tree", "neural_network_lyapunov/examples/car/rrt_star.py: RrtStar.save_tree, RrtStar.load_tree"]}
{"id": "C126", "title": "Simulations show the verified closed loop", "statement": "The control in simulate_plant_with_controller is that of the feedback system with the same controller, equilibrium and limits: the network output relative to the equilibrium, cut off at the limits. Network controllers are Lipschitz continuous, hence for plants that are Lipschitz for admissible controls, such as the unicycle, exact simulations are unique and depend continuously on the start, and one that starts at an equilibrium stays there. States are returned every 0.01 from the start time on, up to at most 0.01 before the end time. The path of step_system has the start and one successor for each step, and for a system whose Lyapunov programs have optima that are not positive it approaches the equilibrium at the proved rate while it stays in the box.", "quantifier": "all networks, linear controllers, plants, equilibria, limits, starts, time spans, numbers of steps", "why_tests_cant": "Continuity and rates are statements about all states and all times; simulations give finitely many numbers.", "anchors": ["neural_network_lyapunov/utils.py: simulate_plant_with_controller", "neural_network_lyapunov/utils.py: step_system"]}
{"id": "C127", "title": "The LQR controller of the pole simulation balances the pole", "statement": "Pole.gradient returns the derivatives of Pole.dynamics at every state with the ball above the plate. The balanced state is an equilibrium under u_eq, and the linear model there is e a = f - (m g / l) p for the plate (mass e) and e l p\" = (m + e) g p - l f for the offset p of the ball (mass m). With the gain of LQRController, the force -K x + u_eq stabilises Pole.dynamics locally and exponentially; and two bodies joined by a rod which move by Newton's laws, under the force that CalculateController computes from their poses and velocities, converge to the balanced state from every state close enough to it, at an exponential rate (although Pole.dynamics differs from Newton's laws, C87).", "quantifier": "all masses, lengths, gravities, positive definite costs, all states, all motions of the two bodies", "why_tests_cant": "A simulation follows one motion for a finite time; the claim is about every motion for all times, and about the bodies rather than the dynamics the code uses.", "anchors": ["neural_network_lyapunov/examples/pole/pole.py: Pole.gradient, Pole.dynamics", "neural_network_lyapunov/examples/pole/simulation/pole_balancing_sim.py: LQRController"]}
{"id": "C128", "title": "A value network reported as trained fits the simulated costs", "statement": "If TrainValueApproximator.train returns True, the mean squared error it returns is at most convergence_tolerance, and at every state of every simulation that was not pruned the function network(x) - network(x*) + λ|R(x-x*)|₁ differs from the cost of the rest of that simulation by at most the square root of (number of states) times the tolerance; so along the simulations the function decreases by the cost of each step, up to twice that error. For continuous-time systems the cost is the integral along the solution, up to the error of the integrator. It returns False only if the loss was above the tolerance in every epoch. It raises exactly if R has the wrong shape, a simulation fails, every state is pruned, or max_epochs is 0. If one state occurs with two costs the loss is bounded from below whatever the network.", "quantifier": "all systems, networks, optimizers, costs, samples, horizons, pruners, tolerances", "why_tests_cant": "A test trains one network; the claim is for every system, sample and behaviour of the optimizer.", "anchors": ["neural_network_lyapunov/train_lyapunov_barrier.py: TrainValueApproximator", "neural_network_lyapunov/hybrid_linear_system.py: generate_cost_to_go_samples"]}
{"id": "C129", "title": "Data sets of simulated transitions hold only consistent rows", "statement": "The data set that learn_ca_dyn.generate_dataset returns has one row per draw: a point of the configured box split into positions, velocities and control, with the label velocities and accelerations computed for exactly these positions, velocities and generalized forces, where the forces are the control on the actuated joints in order and zero elsewhere, whatever earlier samples left in the reused buffers. It raises if the mask does not fit the joints of the model. The label has the size of the network that get_models builds exactly if the model has as many positions as velocities. Every row of the data set of the pole has its state and force in the sampled boxes and its pole within 45 degrees of upright, its label is one Runge-Kutta step of the pole dynamics, and at all four stages the ball is within reach of the rod; every draw with these properties is kept.", "quantifier": "all robot models, masks, boxes, random draws, previous buffer contents, pole parameters, time steps", "why_tests_cant": "The buffers are reused between samples, so a leak shows only for particular orders of samples; a test sees one random data set.", "anchors": ["neural_network_lyapunov/examples/tinydiffsim/learn_ca_dyn.py: generate_dataset, get_models", "neural_network_lyapunov/examples/pole/learn_relu_dynamics.py: generate_dataset"]}
{"id": "C130", "title": "train_model and the training log", "statement": "utils.train_model returns exactly if there are data and the batch size is positive. In each epoch it takes ceil(n / batch_size) optimizer steps on batches that contain every sample exactly once and are full except for the last; at fixed parameters the losses of an epoch add up to the squared error of all data divided by the batch size. A last batch that is not full weighs less than its mean. A TrainingLog keeps the losses in the order of the calls, plots the s-th training loss at step s and each validation loss at the number of training losses before it, in its own writer only; a call raises exactly if the number of losses is wrong or the first is wanted of none. A copy starts with the losses of the log; without keep_writer calls on it leave the plots of the log alone, with keep_writer and the same prefix both write to the same steps of the same curve.", "quantifier": "all models, optimizers, shuffles, data, batch sizes, numbers of epochs; all sequences of calls on logs and copies", "why_tests_cant": "The batches depend on random shuffles and the log on the history of calls; tests look at one.", "anchors": ["neural_network_lyapunov/utils.py: train_model", "neural_network_lyapunov/training_log.py: TrainingLog"]}
{"id": "C131", "title": "The sampled loss of the continuous-time derivative condition", "statement": "LyapunovContinuousTimeSystem.lyapunov_derivative_loss_at_samples_and_next_states accepts exactly batches of states and velocities of equal shape with the convergence type ExpLower. The loss is non-negative for positive weights and zero exactly if dV/dx xdot + eps V + margin <= 0 at every sample, where dV/dx is the gradient autograd returns: away from kinks the gradient of V, at kinks the mean of the gradients of two affine pieces active there. So the loss is zero if every value lyapunov_derivative lists at the samples meets the condition, and a zero loss means that at each sample some listed value meets it, and all of them away from the kinks. At a kink a zero loss does not exclude that V increases, for any zero_tol.", "quantifier": "all networks, matrices R, batches, weights, margins, reductions", "why_tests_cant": "Kinks have measure zero, so sampled tests do not meet them; the relation to the enumerated derivatives must hold at every sample.", "anchors": ["neural_network_lyapunov/continuous_time_lyapunov.py: LyapunovContinuousTimeSystem.lyapunov_derivative_loss_at_samples_and_next_states", "neural_network_lyapunov/lyapunov.py: LyapunovHybridLinearSystem._lyapunov_gradient_batch"]}
{"id": "C132", "title": "What a trainer holds after add_lyapunov and add_barrier", "statement": "add_lyapunov returns exactly if its system is the one of the barrier function given before (if any), V_lambda is a float, x_equilibrium is a tensor of the size of the state within the bounds of the system and R_options is an ROptions object; add_barrier returns exactly if its system is the one of the Lyapunov function given before (if any), c and barrier_epsilon are floats and barrier_epsilon >= 0. Then the arguments are stored and nothing else changes. After any history of calls, rejected ones included, in which the last call of each kind returned, both functions are complete, have one system, and the equilibrium lies in the box of its states. On a new trainer the order of the two calls does not matter. A call that raises has already stored the new function: a following accepted add_barrier can leave a trainer whose equilibrium is outside the box of the system. c <= 0 is accepted although every loss of the barrier function then raises.", "quantifier": "all sequences of calls with any arguments, including calls that raise", "why_tests_cant": "The stored attributes depend on the whole history of calls and on where a rejected call stopped.", "anchors": ["neural_network_lyapunov/train_lyapunov_barrier.py: Trainer.add_lyapunov, Trainer.add_barrier", "neural_network_lyapunov/lyapunov.py: LyapunovHybridLinearSystem.validate_x_equilibrium"]}
{"id": "C133", "title": "What the constructors of the network systems guarantee", "statement": "ReLUSystem and ReLUSystemGivenEquilibrium are constructed exactly for ordered bounds of states and inputs, a network from states and inputs to states and (the latter) an equilibrium state and input within the bounds; the second-order systems exactly for a network from states (or the listed states) and inputs to velocities, an equilibrium position for the remaining states that is within the bounds with zero velocities, an equilibrium input within the bounds and a positive step. From a constructed system on, without further assumptions, the constraints can be added for every usable pair of bounds of the inputs, hold exactly for the successors, and the equilibrium is a fixed point (in continuous time: has zero velocity) within the bounds. The checks of two constructors are not enough: a second-order system with another number of positions than velocities is constructed but never returns its constraints, and an autonomous system is constructed although its network does not fit the number of states.", "quantifier": "all arguments of the constructors with networks whose layers fit each other, all bounds of the inputs, states, inputs and successors", "why_tests_cant": "The constructor accepts infinitely many arguments, and the constraints have to be exact for each of them.", "anchors": ["neural_network_lyapunov/relu_system.py: AutonomousReLUSystem.__init__, AutonomousReLUSystemGivenEquilibrium.__init__, AutonomousResidualReLUSystemGivenEquilibrium.__init__, ReLUSystem.__init__, ReLUSystemGivenEquilibrium.__init__, ReLUSecondOrderSystemGivenEquilibrium.__init__, ReLUSecondOrderResidueSystemGivenEquilibrium.__init__"]}
{"id": "C134", "title": "The states in the buffers of the value trainer", "statement": "AdversarialWithBaseline is constructed exactly if both or none of initial states and labels are given, with rows of the size of the state and of size one. get_random_x0 returns exactly the states at or above x0_lo and below x0_up; get_limit_x0 a state between the bounds whose chosen entry is at one of them. After any number of calls of train and train_no_benchmark with any options all states in the buffers lie between the bounds, if the initial ones and those of the generator of adversarial samples do. If states and labels match, get_state returns and every loss is the squared difference of the label of a state and the value of the model there. The number of initial states is not compared with that of the labels: one label is then silently compared with every state.", "quantifier": "all bounds, random numbers, options, sequences of calls, models, buffers and logs", "why_tests_cant": "The buffers depend on all random draws and calls so far.", "anchors": ["neural_network_lyapunov/train_value.py: AdversarialWithBaseline.__init__, AdversarialWithBaseline.get_random_x0, AdversarialWithBaseline.get_limit_x0, AdversarialWithBaseline.train, AdversarialWithBaseline.train_no_benchmark, AdversarialWithBaseline.get_state"]}
{"id": "C135", "title": "What the constructors of the example systems guarantee", "statement": "Once UnicycleReLUModel, UnicycleReLUZeroVelModel, AccelerationCarReLUModel, PoleReluSystem, QuadrotorWithPixhawkReLUSystem, QuadrotorReLUSystem, PendulumReluContinuousTime or QuadrotorReluContinuousTime is constructed, its program for the dynamics can be added and is exact, and its equilibrium state and input (with the given hover thrust or vertical force) are a fixed point, whatever the weights are, given what the constructors do not check: ordered bounds of the state of one size and a hidden layer, for the pole the sizes of the limits of the input, for the planar quadrotor the size of its equilibrium input. The unicycle is constructed with bounds that no state satisfies, the pole with a negative time step and limits of the input of different sizes.", "quantifier": "all arguments of the constructors, all additional bounds of the inputs, states, inputs and successors", "why_tests_cant": "The constructors accept infinitely many arguments, and the program has to be exact for each of them.", "anchors": ["neural_network_lyapunov/examples/car/unicycle.py: UnicycleReLUModel.__init__, UnicycleReLUZeroVelModel.__init__", "neural_network_lyapunov/examples/car/acceleration_car.py: AccelerationCarReLUModel.__init__", "neural_network_lyapunov/examples/pole/pole_relu_system.py: PoleReluSystem.__init__", "neural_network_lyapunov/examples/quadrotor3d/quadrotor.py: QuadrotorWithPixhawkReLUSystem.__init__, QuadrotorReLUSystem.__init__", "neural_network_lyapunov/examples/pendulum/pendulum.py: PendulumReluContinuousTime.__init__", "neural_network_lyapunov/examples/quadrotor2d/quadrotor_2d.py: QuadrotorReluContinuousTime.__init__"]}
{"id": "C136", "title": "Building, saving and loading the learners of the dynamics", "statement": "Constructing a learner succeeds exactly for candidates of the right classes and, in a latent space, with no decoded equilibrium or one of two or six channels of the size in the options. After any history of saves to any directories, loading from a directory gives what was saved there last: the candidate with its system and, in a latent space, the encoder, the decoder and the decoded equilibrium. Nothing else is kept: the optimizer, the number of steps and the adversarial states start afresh. Both classes write the same file: a learner in the state space can be loaded from what a latent one saved, not the other way round. With another type in the options the encoder and the decoder are converted and the other networks are not. Steps of the optimizer change exactly the networks it was given: after reset_optimizer(lyapunov_only=True) only the Lyapunov network, otherwise, as after loading, all of them.", "quantifier": "all histories of saves by both classes, directories, options, candidates, networks and updates", "why_tests_cant": "The property is about every order of saves and loads and every number of steps.", "anchors": ["neural_network_lyapunov/dynamics_learning.py: DynamicsLearning.__init__, reset_optimizer, StateSpaceDynamicsLearning.save, load, LatentSpaceDynamicsLearning.__init__, save, load"]}
{"id": "C137", "title": "Bounds computed by the solver from the bound program", "statement": "With method MIP or LP, the derivative program of LyapunovContinuousTimeSystem computes the ranges of the inputs of every unit along the velocity and of R xdot by solving programs built on the bound program of the system. For every answer of a solver that reports valid bounds of the programs it is given, the computed ranges contain, for every state of the box and its velocity, the values they bound, so that the derivative program built from them is exact and a non-positive optimum certifies the decrease of V. With binaries (MIP), bounded velocities and a solver that answers on bounded feasible programs, the computation returns.", "quantifier": "every network, box, R, equilibrium, network system without input or closed loop with a network or linear controller and any methods of both (or other bound program that contains the graph of the dynamics), solver with valid answers, state of the box", "why_tests_cant": "The programs are chained: each is built from the answers to the earlier ones, and a wrong range cuts off states silently. Tests compare one network on sampled states.", "anchors": ["neural_network_lyapunov/continuous_time_lyapunov.py: lyapunov_derivative_as_milp, _add_dl1dx_times_xdot", "neural_network_lyapunov/relu_to_optimization.py: _compute_Wz_bounds_optimization", "neural_network_lyapunov/relu_system.py: _add_dynamics_constraint_autonmous", "neural_network_lyapunov/relu_system.py: _add_forward_dynamics_mip_constraints", "neural_network_lyapunov/feedback_system.py: _add_controller_mip_constraint, _add_network_controller_mip_constraint"]}
{"id": "C138", "title": "Helpers for arrays, progress, gradients and noise", "statement": "find_nearest returns an entry of its array such that no entry is nearer to the value and every earlier one is strictly further away; it answers exactly for non-empty arrays, and returns the value itself if it is present. update_progress prints a bar of forty characters for every argument, filled within half a character of the fraction clamped to [0, 1], full from 1 on and empty up to 0; more progress never shows a shorter bar, and a fraction in the middle between two lengths shows the even one. network_zero_grad on a network of linear, ReLU and leaky ReLU layers leaves every stored gradient zero with its shape and every absent one absent; with another layer it raises, having reset exactly the gradients in front of the first such layer. add_noise adds to each entry its draw times the given fraction of the mean magnitude of its column, and returns the data as it is if all fractions are zero.", "quantifier": "every array with one dimension and value, progress argument (other than NaN), list of layers with any gradients, dataset with one row per sample, fractions and draws", "why_tests_cant": "The claims range over all arrays, all numbers, all layer lists with any subset of gradients present, and all draws of the noise; tests look at single ones.", "anchors": ["neural_network_lyapunov/utils.py: update_progress, find_nearest, network_zero_grad", "neural_network_lyapunov/pybullet_data_generation.py: add_noise"]}
{"id": "C139", "title": "Networks of the TD3 agent", "statement": "mlp(sizes, act, out) answers exactly for inputs with sizes[0] entries; the value behind every layer has the requested size and is W v + b followed by act, or by out behind the last linear layer. count_vars gives the sum of (s_j + 1) s_(j+1). The policy MLPActor answers, for every observation of the right size, an action with as many entries as the equilibrium action, each off it by less than the width of its limits, and answers the equilibrium action itself at the equilibrium, whatever its weights; the action is the equilibrium action plus the difference of the network outputs at the observation and at the equilibrium, scaled with the width of the limits; an observation of another size raises. MLPQFunction answers with a number exactly if observation and action together have the right number of entries, and applies no activation to that number.", "quantifier": "every list of sizes, all weights, activations, sigmoid with values between 0 and 1, limits, equilibrium, observation and action", "why_tests_cant": "The claims hold for all weights the training may reach, all sizes and all observations.", "anchors": ["neural_network_lyapunov/examples/rl/td3.py: mlp, count_vars, MLPActor, MLPQFunction"]}
