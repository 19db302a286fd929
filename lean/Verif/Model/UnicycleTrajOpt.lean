import Verif.Model.Physics

/-!
# `examples/car/unicycle_traj_opt.py`

The program of `construct_traj_opt`; `x` and `u` are lists of columns. The solver is not modelled.
-/

namespace NNL.Model

/-- unicycle_traj_opt.py 9-17 `dynamics_constraint_evaluator`. -/
noncomputable def trajResidual (xc xn : Fin 3 → ℝ) (uc un : Fin 2 → ℝ) (dt : ℝ) : Fin 3 → ℝ :=
  fun i => xn i - xc i - (unicycleDyn xn un i + unicycleDyn xc uc i) / 2 * dt

/-- unicycle_traj_opt.py 20-23 `cost_trajectory`. -/
def costTrajectory (u : List (Fin 2 → ℝ)) : List ℝ := u.map fun c => c 0 ^ 2 + c 1 ^ 2

/-- unicycle_traj_opt.py 26-31 `delta_cost_trajectory`. -/
def deltaCostTrajectory (u : List (Fin 2 → ℝ)) : List ℝ :=
  List.zipWith (fun a b : Fin 2 → ℝ => 200 * (b 0 - a 0) ^ 2 + 800 * (b 1 - a 1) ^ 2) u u.tail

/-- unicycle_traj_opt.py 34-36 `cost`. -/
def trajCost (u : List (Fin 2 → ℝ)) : ℝ := (costTrajectory u).sum + (deltaCostTrajectory u).sum

/-- unicycle_traj_opt.py 45-62: the constraints of `construct_traj_opt`, with the bounds `x0` and `xT` of the initial and of the
final state. -/
structure TrajFeasible (nT : ℕ) (uLo uUp : Fin 2 → ℝ) (dtMin dtMax : ℝ) (x0 xT : Fin 3 → ℝ) (x : List (Fin 3 → ℝ))
    (u : List (Fin 2 → ℝ)) (dt : List ℝ) : Prop where
  lenX : x.length = nT
  lenU : u.length = nT
  lenDt : dt.length + 1 = nT
  steps : ∀ d ∈ dt, dtMin ≤ d ∧ d ≤ dtMax
  dynamics : ∀ i, i + 1 < nT → trajResidual (x.getD i 0) (x.getD (i + 1) 0) (u.getD i 0) (u.getD (i + 1) 0) (dt.getD i 0) = 0
  control : ∀ c ∈ u, (uLo 0 ≤ c 0 ∧ c 0 ≤ uUp 0) ∧ uLo 1 ≤ c 1 ∧ c 1 ≤ uUp 1
  initial : x.head? = some x0
  final : x.getLast? = some xT

/-- `np.cumsum(a[::-1])[::-1]`: the sums of the entries from each index on. -/
def suffixSums : List ℝ → List ℝ
  | [] => []
  | a :: as => (a :: as).sum :: suffixSums as

/-- unicycle_traj_opt.py 79-102: the lists `states`, `controls` and `costs` of blocks of rows that `construct_training_set` returns,
for the solutions `(x, u)` that the solver finds. -/
def trainingSet (sols : List (List (Fin 3 → ℝ) × List (Fin 2 → ℝ))) :
    List (List (Fin 3 → ℝ)) × List (List (Fin 2 → ℝ)) × List (List ℝ) :=
  ([0] :: sols.map (·.1.dropLast), [0] :: sols.map (·.2.dropLast), [0] :: sols.map fun s => suffixSums (costTrajectory s.2))

end NNL.Model
