# Design of the formal model

Subject: `StanfordASL/neural-network-lyapunov` (source in `/repo`, read as text only).
The model and the proofs are a Lean 4 project in `lean/`.

## 1. Trusted base

* Lean's kernel and the Lean 4.33 / Mathlib sources that are imported.
* Axioms: every property theorem depends on at most `propext`, `Classical.choice` and
  `Quot.sound` (checked with `#print axioms`; see section 6). No axiom is declared in this project.
* The hand translation from Python to Lean. Each model definition cites the file and lines it
  models and says where it simplifies.
* Exact arithmetic. Python floats are modelled by an arbitrary linearly ordered field `K`
  (instantiated by `ℚ` in the examples and by `ℝ` where limits or trigonometry are needed). Rounding, NaN and overflow are not modelled.
  `±inf` bounds are modelled by `Option` (absent bound).
* The Gurobi / LP / SVD / Cholesky solvers are not modelled. Where the code consumes their answer, the answer is a
  parameter and the assumption made about it (for example "the returned bound is a true bound",
  "`INFEASIBLE` is only reported for an infeasible program") is an explicit hypothesis of the theorem.
* torch autograd, random number generation, printing/logging, file I/O, wandb are not modelled.

## 2. Modelling conventions

* Tensors: vectors are `List K`, matrices are `List (List K)` (rows). `dot` truncates to the shorter list where torch
  would raise a shape error; theorems carry shape hypotheses (or prove them) wherever this matters.
* `None` is `Option.none`. `assert`/`raise` is `none` (or `Except.error`) of the modelled function.
* `MixedIntegerConstraintsReturn` is the structure `MIC`; its meaning is `MIC.Holds c x s z` (all
  inequality and equality rows) and `MIC.out c x s z`. Both are given in `Verif/Model/Mic.lean` and are the
  reading of the class docstring (gurobi_torch_mip.py 10-25).
* `GurobiTorchMIP` is a state (`Mip`) with a Gurobi side (variables, bounds, rows) and a torch side
  (sparse triples). API calls are functions `Mip → Option Mip`-like; histories are lists of operations.
* Specifications (`Verif/Spec/*.lean`) define ReLU, network evaluation, boxes, norms, trajectories, ...
  with no reference to the encodings. Property theorems live in `Verif/Props/*.lean`, helper lemmas in
  `Verif/Lemmas/*.lean` or next to the model, and each property theorem is followed by an `example` that instantiates its
  hypotheses on a concrete non-trivial case.

## 3. Plan per property

| id | what is modelled | how it is proved |
|----|------------------|------------------|
| C01-C04 | the four-row coefficient lists returned by the scalar encoders | case split on the binary, linear arithmetic over an ordered field |
| C05 | all branches of the absolute-value encoder, including the misspelt field | branch by branch |
| C06 | the n-dimensional max encoder incl. the `squeeze().tolist()` behaviour | index reasoning on rows; the one-index `TypeError` branch is an explicit failure |
| C07 | the six branches of the saturation encoder as operations on a program | branch by branch using C02 |
| C08-C09 | `compute_range_by_IA`, `leaky_relu_interval` | induction on the row; attained at explicit corner points |
| C10 | `box_boundary` rows | index reasoning |
| C11, C16 | layer-bound propagation, IA_MIP blend | induction over layers |
| C12, C13 | `_output_constraint_given_bounds` (by-neuron rows), `compute_relu_unit_outputs_and_activation` | induction over layers; boundary counterexample for C13, `_partial` positive theorem |
| C14, C15 | cut coefficients and index choice | sums split per index |
| C17-C19 | pattern functions | induction over layers, mixed radix induction |
| C20, C21 | gradient encodings | path expansion by induction over layers |
| C22-C25 | gradient enumerations, Minkowski sum | induction on lists |
| C26, C27 | `transform_input`, `concatenate_mixed_integer_constraints` | row algebra; the wrong-count bug of the bounds is a negative theorem |
| C28-C30 | `Mip` state machine, retry loop | invariant by induction over operation lists |
| C31-C38 | discrete-time Lyapunov programs, losses, ROA | composition of C12/C05/C29; induction over time; ROA negative witness in 2-D and `_partial` |
| C39 | continuous-time derivative program | composition of C21 and C01 |
| C40, C41 | barrier | composition; induction over time |
| C42-C46 | hybrid systems | row algebra, induction over operation lists |
| C47-C51 | controllers and ReLU systems | composition |
| C52, C53 | R options, rotations | matrix algebra over ℝ, `HasDerivAt` |
| C54, C55 | parameter packing, mesh grid | list induction |
| C57-C61 | clustering, line search, projection, PWL LP, buffers | invariants over iteration, convexity |
| C62 | all cuts of one unit together | exhibit a convex combination of graph points for every point satisfying all cuts |
| C63 | `setObjective` | unfold the recorded terms |
| C64 | skipping of trajectories which leave the domain | counterexample for discrete time; `_partial` |
| C56, C65-C70, C72 | the three training loops over an arbitrary process state; optimiser, solver and losses are functions | invariant over iterations; identity of tensors modelled by a heap of named tensors (C66-C68) |
| C71, C73 | boundary gap, barrier losses | composition of C36/C41 and C38 |
| C74, C75 | continuous-time hybrid programs (both formulations), derivatives and losses at samples | encodings composed block by block (C20, C21, C42); slopes of V along rays |
| C76-C79 | network models in `examples/`: cars, pole, quadrotors, pendulum | exactness of the network block (C12), rows of the increments and of the trapezoid rule; steps compared with the documented next states |
| C80 | `UnicycleFeedbackSystem` | network block, absolute values and saturation composed; counterexamples for the documented positivity and the linear controller |
| C81 | the loop of `strengthen_lyapunov_derivative_as_milp`, with the networks of the returned constraints | every call on a program commutes with removing the relaxation, so the final program is the binary one plus rows; the rows are cuts of C14, which hold wherever the slacks are the network values |
| C82 | `compute_range_by_lp` with the solver as a parameter | each entry is the exact infimum or supremum by the meaning of the answers; on a box it is unique, hence equal to interval arithmetic, which is tight |
| C83 | the loops of `GurobiTorchMIQP.setObjective` and the objective built from the recorded data | invariant of the loop: the recorded form plus the terms that are left; collisions of positions characterised |
| C84 | `compute_objective_from_mip_data` of the MIQP with `torch.inverse` as a parameter | the equations of the code are the optimality conditions if `Q_r` is symmetric and `Q_rzeta` vanishes; counterexamples otherwise |
| C85 | `dynamics` and `dynamics_gradient` of the physical examples over `ℝ` | each entry is a Fréchet derivative, by the rules of calculus |
| C86 | the same, with the energies, controls and hover thrusts of the classes | derivatives along trajectories; the specification states momentum, torque, energy and the bottom of the rod independently |
| C87 | `Pole.dynamics`, the linear solve as inverse of `M` | `M` is positive definite (kinetic energy); the rows are compared with Newton's laws for a rod |
| C88 | `SLIP` dynamics, transitions, energies, `apex_map`, `simulate`; `solve_ivp` a parameter | energies are constant along motions (derivative zero); transitions by trigonometry; induction on the steps |
| C89 | `time_to_touchdown` with stones with possibly infinite ends | the height of the foot is a quadratic polynomial of time |
| C90 | the gradients of `SLIP` | Fréchet derivatives; implicit differentiation of the lift-off time; chain rule; the variational equation gives the derivative of the flow by Grönwall's inequality |
| C91 | `apex_map_linear_approximation` | the affine functions have the value and the derivative of C90 |
| C92 | the tree of `RrtStar` | an invariant of parents, children and costs; termination of the queue by the number of nodes below it |
| C93 | stored paths, `construct_traj_opt` | an invariant of stored paths and costs; the trapezoid rule read backwards; a tree as counterexample |
| C94 | `construct_training_set` | lengths and suffix sums of lists |
| C95 | `rk4_constant_control` | expansions of the flow and of the step compared to the fourth order; Gronwall for the error over n steps |
| C96 | box samplers, draws as parameters | each coordinate is a convex combination; the face moved to its limit |
| C97 | `compute_numerical_gradient` | entries set and restored; the limit of the quotient |
| C98 | `is_polyhedron_bounded`, `project_to_polyhedron`, the solver a parameter | compactness of the unit sphere; the obtuse angle at the nearest point |
| C99 | `kl_loss`, `reparam`, `SigmoidAnneal` over the reals | divergence of product measures with Gaussian densities; maps of Gaussian measures |
| C100 | `lyapunov_loss`, `lyapunov_loss_at_samples`, `rollout`, `rollout_loss` | C32, C33 and C38 for each component; induction over the steps |
| C101 | `adversarial_samples`, `rollout_validation`, `reconstruction_loss` | soundness of the programs; counterexamples |
| C102 | `value_iteration`, index maps | contraction of a pass with in-place updates; infinite values persist; telescoping sums along paths |
| C103 | `ReplayBuffer` | invariant over the history: row m mod S holds transition m |
| C104 | `linear_program_cost` | the active rows determine the solution; counterexample |
| C105 | `QuadrotorFeedbackSystem` | the program of the callback contains every state of the box with its control (also with relaxed binaries), so the bounds hold at every transition of the closed loop |
| C106, C107 | `Optim.run gdRule`, `Optim.run adamRule` | a history of steps is a fold over the gradients seen by each parameter; the buffers are exponentially weighted sums by induction on the history; Cauchy-Schwarz for the bound |
| C108 | `epsilonOpt` | row blocks split; the network part by C12, the padded quadratic forms by splitting the vectors |
| C109 | `contCostToGo`, `contSamples` | a solution of the augmented system [x, V] is a trajectory with its running cost; additivity and translation of the integral |
| C110 | `terminateIf`, `SolverRun.optimize` | the first event that stops the solver has an incumbent above the threshold; C110_solves discharges the solver assumption of C56 |
| C111 | `dynTrain` with a budget of actions before the interrupt | a postcondition for finished, interrupted and failed outcomes that composes over batches, epochs and calls |
| C112 | `programLoss`, `lyapunovLoss` | C110 for the programs of C32 and C33; a mean of violations is at most their maximum |
| C113 | `valueInner`, `valueRounds`, `valueTrain`, `Buffers.iterNB` | induction on the rounds, with C61 for the buffers |
| C114 | `td3Step`, `td3Loop`, `Episodes` | one-pass specification, then induction on the passes; C103 for the batches; counting of multiples |
| C115 | `td3Update`, `polyakAvg`, `bellmanBackup`, `smoothAct`, `actorOut` | induction on the history of updates |
| C116 | `LatentNet`, `rollout`, `rolloutLoss`, `bce` | induction on the steps; Gibbs inequality for the cross entropy |
| C117 | `PbWorld`, `sample`, `rollout`, `dataset` | induction on steps and rollouts; counterexamples |
| C118 | `rComplete`, `rDuplicate`, `windowSize` | invariants of the nested loops; ceiling |
| C119 | `ImgLayer.out`, encoders and decoders | arithmetic of the shape rules |
| C120 | `stateDict`, `loadStateDict`, `saveNet`, `loadNet`, `saveLyapunov`, ... | induction on the layers; inversion of loading |
| C121 | `Fit`, `planarFit`, ..., `trainApproximator` | equality of residuals per sample, lifted to batches; induction on the batches of an epoch and on epochs |
| C122 | `Planar.lqrControl`, `Pendulum.lqrControl`, `Planar.rocketLqr`, `Quad3.lqr`, `lqrU`, `lqrV`, `costsToGo`, `doubleIntegratorLqr` | completing the square; quadratic Lyapunov function of the linearisation, comparison of its decrease with an exponential; fundamental theorem of calculus for the cost identity, matrix exponential for the existence of the optimal motion |
| C123 | `quadEnvStep`, `quadEnvReset`, `testAgent`, `runPolicyLoop` | positive definiteness of the two weights; induction over the actions; the equations of hovering are solved component by component; induction over episodes |
| C124 | `getDistances`, `opticalFlow`, `opticalFlowGoal`, `controllerLoop`, `carSampleLoop` | a ray is a line of sight, reparametrized; the sums over both halves are compared term by term; norms of `unit2`; mean value inequality for the motion; induction over the steps |
| C125 | `extendNode`, `sampleState`, `growTreeSim`, `saveTree`, `loadTree` | reachability is an invariant of the rounds, each node is one motion after the node it was extended from; induction over motions for the range |
| C126 | `simControl`, `simDyn`, `simulatePlant`, `stepSystem` | layer by layer for the Lipschitz constant; Gronwall; induction over the steps of a path |
| C127 | `PoleDyn.gradient`, `PoleDyn.lqrGain`, `PoleDyn.lqrForce` | the dynamics at `u_eq` are `H(x) x` with `H` continuous (continuity of the inverse mass matrix); the quadratic Lyapunov function of C122; Newton's laws determine the accelerations |
| C128 | `fitLoss`, `fitSamples`, `fitDiscrete`, `fitCont` | each squared error is at most the sum; samples from C45, C64, C109; the loop from C69 |
| C129 | `copyInto`, `forceLoop`, `bodyDataset`; `PoleDyn.label`, `PoleDyn.dataset` | induction over the loops that fill the buffers; the four stages unfolded |
| C130 | `trainModel`, `TrainLog` | batches of a permutation as in the training of the approximators (`batchesOf_flatten`); induction over the calls |
| C131 | `Lyap.autoGradient`, `Lyap.contHinges`, `Lyap.ContRateLoss` | `torch.sign` as the mean of two sign vectors (C75), gradient of the pattern (C17), slope along a ray (C39), reductions (C38) |
| C132 | `TrainerSetup.addLyapunov`, `TrainerSetup.addBarrier` (assignments in the order of the source) | cases on the arguments; induction on the history with the outcome of the last call of each kind |
| C133 | `AutoRelu.new`, `AutoRelu.newEq`, `CtrlRelu.new`, `CtrlRelu.newEq`, `SecondRelu.new` | cases on the checks give the hypotheses of C49 and C50 |
| C134 | `randomX0`, `limitX0`, `Buffers.new`, `sqErrors`, `Buffers.getState`, on top of `valueTrain` | invariance of membership through trims, appends and rounds; induction on the history of calls |
| C135 | `ExArgs.unicycle`, `.car`, `.pole`, `.pixhawk`, `.quadrotor`, `.pendulum`, `.quadrotor2d` | the assertions give the hypotheses of C76-C79 |
| C136 | `DynLearner.new`, `LatentLearner.new`, `.reset`, `.startTrain`, `.step`, `SaveCall.run`, `loadState`, `loadLatent` | induction over the saves after the last one in the directory, and over the steps of the optimizer |
| C137 | `autoBoundProg`, `Feedback.ctrlBoundProg`, `openBoundProg`, `fwdBoundProg`, `Mip.rangeBy`, `varRanges`, `rowRanges`, `wzUnits`, `wzHidden`, `wzBoundsOpt`, `Lyap.optBounds` | induction over units and layers: each program is a relaxation of the pairs (state, velocity, pattern), and the new variables of a layer can be filled in for each of them |
| C138 | `findNearest`, `clampProgress`, `pyRound`, `progressBar`, `networkZeroGrad`, `addNoise` | induction over the array and over the layers; rounding is within one half, so the block lies in 0..40 |
| C139 | `AgentLayer`, `agentEval`, `mlp`, `countVars`, `Actor.new`, `Actor.forward`, `qLayers`, `qForward` | induction over the index of the loop in `mlp`: the value behind the layers so far exists and has the requested size |

A property whose code contradicts it gets a theorem with a concrete witness plus a `_partial` theorem with the missing hypothesis.

## 4. What is modelled and what is not

Coverage by file of `/repo/neural_network_lyapunov` ("model" names the module under `lean/Verif/Model`). Functions not
named here are not modelled.

| file | modelled | model | not modelled |
|------|----------|-------|--------------|
| utils.py | scalar encoders, `max_as_mixed_integer_constraint`, `box_boundary`, `l1/l_infinity_gradient`, `minkowski_sum`, `relu_network_gradient`, parameter packing, mesh grids, `compute_bounds_from_polytope`, `loss_reduction`, box samplers (draws as parameters), `step_system`, `simulate_plant_with_controller`, `compute_numerical_gradient`, `is_polyhedron_bounded`, `project_to_polyhedron`, `SigmoidAnneal`, model files, `linear_program_cost`, `get_gurobi_terminate_if_callback`, `update_progress`, `find_nearest`, `network_zero_grad` | ScalarEnc, Encoders, Norm, Pattern, Params, Grid, Hybrid, Losses, Sampling, NumericalGradient, Polyhedron, Variational, LpCost, Callback, ModelFiles, SmallUtils | plotting, other samplers, device transfer |
| mip_utils.py | all cut functions, interval arithmetic, `compute_range_by_lp`, `compute_range_by_MIP` as a parameter | Cuts, Encoders, Saturation, NetEnc, RangeLp | the solver call itself |
| gurobi_torch_mip.py | `MixedIntegerConstraintsReturn` and its operations, `GurobiTorchMIP`, `GurobiTorchMILP`, `GurobiTorchMIQP` | Mic, Mip, Miqp | the solver |
| relu_to_optimization.py, relu_to_optimization_utils.py | encodings, patterns, bounds, gradients, warm starts | NetEnc, Pattern, Cuts, Strengthen | |
| lyapunov.py | values, L1 term, positivity, derivative, bounds, strengthening, boundary, ROA, losses | Lyapunov, LyapStrengthen, Strengthen, Losses | cost-to-go plotting |
| continuous_time_lyapunov.py | both classes: programs, derivatives at states, sample losses | ContinuousLyap, HybridRate, BoundProg | |
| barrier.py | discrete-time barrier | Barrier | the abstract class |
| hybrid_linear_system.py | both classes, partition, cost-to-go samples of discrete and continuous systems | Hybrid, Grid, Rollout, ContCostToGo | `solve_ivp` (a parameter) |
| relu_system.py, feedback_system.py, control_affine_system.py, geometry_transform.py, r_options.py | all system classes, controllers, `rpy2rotmat` | ReluSystem, BoundProg, FeedbackBound, Feedback, Strengthen, ControlAffine, Geometry, ROptions | training of forward models |
| train_lyapunov.py, train_lyapunov_barrier.py, train_value.py, train_utils.py, line_search_*.py | decision logic, losses, pools, buffers, line searches, optimizer steps, gradient projection | Trainer, TrainBarrier, TrainUtil, TrainValue, Optimizer, Losses | logging, wandb, torch.optim, autograd |
| simple_pwl_lyapunov.py | the LP | SimplePwl | the LP solver |
| examples/car/unicycle.py, acceleration_car.py, examples/pole/pole_relu_system.py, examples/quadrotor3d/quadrotor.py, examples/pendulum/pendulum.py, examples/quadrotor2d/quadrotor_2d.py | the network models: `step_forward`, `mixed_integer_constraints`, `add_dynamics_constraint`; `unicycle_feedback_system.py`; physical `dynamics` and `dynamics_gradient` (also of rocket/rocket.py, pole/pole.py) over `ℝ`, a division by 0 being 0 as in Lean ; `lqr_control` and the LQR code of the demos | ExampleSystems, UnicycleFeedback, Physics, Lqr | the solver of the Riccati equation (a parameter), drawing, batches of states |
| examples/car/rrt_star.py, unicycle_traj_opt.py | the tree, `connect_state_extend`, `update_parent`, `extend_node`, `sample_state`, `grow_tree`, `save_tree`, `load_tree`, the constraints and cost of the program, the training set | RrtStar, RrtGrow, UnicycleTrajOpt | the solver, `solve_ivp` (parameters), plotting |
| examples/car/car.py, utils_simulation.py | `getDistances`, the controls, `simulate_controller`, `simulate_random_sample` | CarSim | pybullet (a parameter), saving and plotting |
| integrator.py | `rk4_constant_control` | Integrator | |
| examples/car/value_iteration.py | `value_iteration`, `flat_to_3d`, `threeD_to_flat`, `calculate_r_complete`, `calculate_r_duplicate` | ValueIteration, GridCosts | the trajectory optimization, plotting |
| examples/rl/td3.py, test_policy.py, examples/quadrotor2d/quadrotor2d_env.py | `ReplayBuffer`, losses, updates, main loop and testing of `td3`; `run_policy`; `Quadrotor2DEnv`; `mlp`, `count_vars`, `MLPActor`, `MLPQFunction` | ReplayBuffer, Td3, Td3Nets, QuadEnv | gradients, Adam, logging, rendering |
| examples/quadrotor3d/quadrotor_feedback_system.py | `add_dynamics_mip_constraint` | QuadFeedback | `control_bound_prog` |
| spring_loaded_inverted_pendulum.py, slip_hybrid_linear_system.py | dynamics, transitions, energies, `apex_map`, `simulate`, stones, gradients, the linear approximation | Slip | `solve_ivp` (a parameter), the list of stones |
| dynamics_learning.py | `lyapunov_loss`, `lyapunov_loss_at_samples`, `adversarial_samples`, `rollout`, `rollout_loss`, `rollout_validation`, `kl_loss`, `reparam`, `reconstruction_loss`, `train`, and `vae_forward`, `rollout`, `rollout_loss` in latent space | DynamicsLearning, Variational, DynTrain, DynLoss, Latent | writing files, devices, image networks |
| model_bounds.py | `ModelBounds.epsilon_opt` | `Model/ModelBounds` | the value function that supplies the trajectory program (missing in the repository) |
| pybullet_data_generation.py | `generate_sample`, `generate_rollout`, `generate_dataset`, `data_to_rollouts`, `add_noise` | PbData, SmallUtils | the simulator, drawing |
| encoders.py | shapes of all encoders and decoders | ImageNets | weights |
| test/, drawing and simulation scripts | none | | scripts: nothing to state beyond what torch does |

The exact lines are in the comment of each definition; `properties.jsonl` has the anchors of each property.

## 5. Findings: where the code and the expected property disagree

Each is a theorem about the model, named in the manifest.

* C05: the encoder writes a field under a misspelt name in one branch; the property holds with the fields that are read.
* C06: `max_as_mixed_integer_constraint` raises when exactly one entry can never be maximal (`squeeze().tolist()` gives an int).
* C13: the warm start values violate the rows when a unit with lower bound `>= 0` has input exactly 0.
* C16: the blend can be looser than the interval bound when the lower bound is positive.
* C26: `transform_input` leaves the input bounds untransformed.
* C27: `concatenate_mixed_integer_constraints` uses a wrong count for the bounds of the binaries.
* C28: `set_var_bound`, empty intervals and bounds on binaries make the torch data weaker than the Gurobi model.
* C37: states which leave the box through an edge (two faces at once) are seen by neither program of `compute_region_of_attraction`.
* C51: the zero block of `G` has the wrong width.
* C52: the SVD option accepts wide sizes.
* C54: a parameter vector that is too short can be accepted.
* C56: the early termination threshold can return success without the condition.
* C57: exactly two clusters give one count for two states.
* C60: `add_continuity_constraint` raises.
* C64: discrete-time samples which leave the domain are not skipped.
* C67, C68: restoring parameters replaces the tensor of `R`, which the optimiser no longer updates.
* C70: the barrier loss raises when no pool solution is violating.
* C75: `lyapunov_derivative` of a continuous-time hybrid system raises when there is one state (`squeeze`); the sample loss uses sign 0 for coordinates equal to the equilibrium, the mean of two pieces.
* C76: without `thetadot_as_input` the program of a unicycle does not limit the angular velocity while `step_forward` raises (`C76_thetadot_not_limited`).
* C76, C77: `FeedbackSystem.add_dynamics_mip_constraint` (feedback_system.py 347-378) passes `binary_var_type` and `u_input_prog` to the forward system; `UnicycleReLUModel.add_dynamics_constraint` accepts neither, and those of `UnicycleReLUZeroVelModel`, `AccelerationCarReLUModel`, `PoleReluSystem` and `QuadrotorWithPixhawkReLUSystem` do not accept `u_input_prog`: a `TypeError`.
* C78: with `_add_forward_dynamics_mip_constraints` (relu_system.py 1007-1056) additional input bounds replace the limits of the system (`C78_bounds_replaced`); the other systems intersect them.
* C78: the documentation of `PendulumReluContinuousTime` (pendulum.py 135) subtracts `phi(0, 0, 0)`, the code `phi(pi, 0, 0)` (lines 152-153, 184-185).
* C80: `UnicycleFeedbackSystem` documents that the velocity is strictly positive around the origin; it can be zero at every state (`C80_velocity_not_positive`).
* C80: `UnicycleFeedbackSystem` overrides the program of controller networks only; for a `torch.nn.Linear` controller the inherited program lacks the term `lambda |R p|_1`, so that it does not agree with `compute_u` (`C80_linear_controller`).
* C83: a full square coefficient matrix over a list with both continuous and binary variables makes `GurobiTorchMIQP.setObjective` raise, since `r ζ` and `ζ r` share a coefficient (`C83_accepts`).
* C84: the optimality conditions in `GurobiTorchMIQP.compute_objective_from_mip_data` lack `Q_rzeta ζ` (`C84_cross_terms`) and use `2 Q_r` where `Q_r` need not be symmetric (`C84_asymmetric`).
* C86: `AccelerationCar.dynamics` raises for tensors: `torch.cat` of 0-dimensional tensors (`C86_accCar_tensor_raises`).
* C87: `Pole.dynamics` has the wrong sign in the mixed velocity term of the vertical acceleration (`C87_newton_iff`, `C87_cross_term`).
* C89: `time_to_touchdown` returns None for a foot which starts below the stone and rises above it before it lands (`C89_ascending`). `SLIP.__init__` accepts `g = 0`, by which the apex functions divide.
* C90: `liftoff_transition_gradient` lacks the derivative with respect to the leg length: it is complete only if the leg does not turn (`C90_liftoff_column`).
* C91: the documented order of the returned values (`A, B, c, P, q, a_t, b_t, c_t`) is not the actual order.
* C92: `neighbours` compares the squared weighted distance with `radius` (the docstring says distance).
* C93: `connect_state_extend` stores the path to a rewired neighbour reversed in time but with the same controls (`np.fliplr`): it obeys the dynamics only if the state never changes (`C93_reversed_iff`, `C93_false`); the controls have to be negated, which the limits `[-3, 6]` on the speed may forbid.
* C94: `construct_training_set` returns one more row of costs than of states per trajectory.
* C96: `uniform_sample_on_box_boundary` raises an index error when the draw that picks the face is exactly 0.
* C101: `adversarial_samples` raises when a decrease condition is not violated, because `z_adv_der_lo`/`z_adv_der_up` are then unassigned.
* C101: `rollout_validation` returns the sum of the losses, not the documented mean.
* C101: `reconstruction_loss` (L2) uses the first image of the batch only.
* C104: `linear_program_cost` raises when two or more inequalities are active, because `np.nonzero` returns a tuple.
* line_search_gd.py 166: `lr` is the variable left over from the loop over the groups, so with several parameter groups all parameters move with the learning rate of the last one (C106_group_lr_counterexample). line_search_adam.py keeps the step sizes apart.
* model_bounds.py 3: `value_to_optimization` does not exist in the repository, so importing model_bounds.py fails at this commit; the argument `model` of `epsilon_opt` is unused (the network of the constructor counts).
* C111: the validation losses at samples weight each batch by all its samples although only those in the region of interest count; after an interrupt the same step number can be used again.
* C112: when `IncorrectActiveConstraint` is raised for a solution at which the solver was stopped, the loss is 0 although a violation was found.
* C113: `train` after `train_no_benchmark` always raises, since only one pair of buffers was filled.
* C114: `td3` takes `start_steps + 1` random steps, one more than documented.
* C115: `q_params` is an iterator that the optimizer uses up, so the Q functions are never frozen; this has no effect on the parameters. The loss of the policy uses actions outside the limits.
* C116: `rollout_loss` calls the cross entropy with the expected image as the input and the prediction as the target. The loss is linear in the prediction: at a pixel of 1/2 it is log 2 whatever is predicted, and above 1/2 a white prediction has a smaller loss than the right one. The documentation says that `rollout` returns N+1 images; it returns N+2.
* C117: the two images of row 0 of a rollout are half a period apart, those of row 2 and later a whole period, so the data contain equal image pairs with different successors. `dt` is rounded down to a multiple of two simulation steps; below that nothing is simulated. In joint space `generate_sample` slices the state of the first joint, which raises unless the robot has exactly one joint. Images that are not square raise.
* C118: the test `[i0, i1] not in i01` in `calculate_r_duplicate` compares a list with integers and is always true, so the corners are overwritten too; `i01s` was meant. This is harmless if the solutions do not depend on the place.
* C119: the convolutional decoders return images of another size than the given one unless both sizes are multiples of 4; `layers_output_shape` ignores its argument.
* C120: `SearchRwithSPDOptions.extract_params` reads attributes that do not exist (`R_epsilon`, `R_variables`), so `save_lyapunov_model` raises for these options. A network that ends with an activation is saved and loaded without error, but the activation is lost.
* `run_policy` (test_policy.py 31-50): with its default `max_ep_len=None` it never ends in an environment which never ends an episode, such as `Quadrotor2DEnv` (`C123_run_policy`). The observations of that environment are not kept in its observation space (`C123_leaves`).
* `compute_optical_flow_control_goal` (utils_simulation.py) returns `[0, 0]` at a goal in clear view, which `simulate_controller` unpacks to the control `0` and the yaw `0`, and the dynamics then index a number: goals are not kept away from the car, so the simulation can raise at its first step (`C124_controller_counterexample`).
* `compute_optical_flow_control` assumes the rays at `k/(mid-1)` of the half angle, the sensor has them at `(2k+1)/(2 mid-1)`: the distances ahead are right only for the outermost rays (`C124_angles`). The obstacles of `car.py` are drawn without regard to the start of the car (`C124_obstacles`).
* pole_balancing_sim.py 128-131: the `IiwaController` between the LQR and the arm ignores the force at its input and outputs zero torques, so in `run_sim` the regulator of C127 has no effect on the arm.
* continuous_time_lyapunov.py 257-260: `zero_tol` is documented as considering both one-sided derivatives near kinks, but the loss only checks its sign; at a kink the loss can be zero although `V` increases (C131_kink_counterexample).
* train_lyapunov_barrier.py 201-224: `add_lyapunov` and `add_barrier` store the new function before the checks, so a call that raises leaves it with the old attributes (C132_stale_counterexample); the sign of `c` is not checked (C132_constant_unchecked).
* relu_system.py 116-118, 666-671: `AutonomousReLUSystem` does not compare the network with the number of states (C133_states_counterexample); the second-order systems do not require as many positions as velocities, without which `torch.cat` raises in every later call (C133_positions_unchecked, C133_positions_counterexample).
* train_value.py 1 imports `neural_network_lyapunov.adversarial_sample`, which is not in the repository. train_value.py 75-86: the numbers of initial states and labels are not compared (C134_rows_unchecked).
* The constructors of the example systems do not check that the bounds of the state are ordered; unicycle.py 101-102 and acceleration_car.py do not check the size of `x_up`; pole_relu_system.py 37-41 checks neither the sizes of `u_lo`, `u_up` nor the sign of `dt` (C135_unchecked).
* dynamics_learning.py 538-560, 669-704: the optimizer is not saved, so a learner that was reset for the Lyapunov function only trains all networks once it is saved, loaded and trained; both learners write `dyn_learner.pkl`, and one in the state space overwrites a latent one with a file that LatentSpaceDynamicsLearning.load refuses; loading with another `dtype` converts the encoder and the decoder only (C136).

## 6. Axioms

`#print axioms` was run on every theorem of `MANIFEST.json`. Each depends on a subset of `propext`, `Classical.choice`
and `Quot.sound`. There is no `sorry`, `admit`, `native_decide`, `bv_decide`, `axiom` or `opaque` in the project.

## 7. Tests of the theorems

`seeded/LOG.jsonl` lists the edits made to the model definitions in a scratch copy, one per line, with the theorems which
stopped proving. An edit that left every theorem standing led to a tighter theorem or is explained in its line
(the edited program still satisfies the claim).
