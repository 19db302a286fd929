import Verif.Model.Rollout
import Mathlib.Analysis.SpecialFunctions.Sqrt

/-!
# Simulated cost-to-go of continuous-time systems (hybrid_linear_system.py 713-778)
-/

namespace NNL.Model

open NNL NNL.Spec

/-- hybrid_linear_system.py 751-758 `ivp_fun`: the derivative of `[x, V]`; `none` is `StepForwardException` of
`step_forward` (588-605), which uses the first mode that contains the state. -/
noncomputable def ivpFun (S : AutoHybrid ℝ) (cost : Vec ℝ → ℝ) (y : Vec ℝ) : Option (Vec ℝ) :=
  (firstSucc S (y.take S.xdim)).map fun d => d ++ [cost (y.take S.xdim)]

/-- hybrid_linear_system.py 764-765 `reach_goal`: distance of the state part to the goal minus `1e-3`. -/
noncomputable def goalEvent (goal : Vec ℝ) (y : Vec ℝ) : ℝ :=
  Real.sqrt (((vsub y.dropLast goal).map fun a => a * a).sum) - 1 / 1000

/-- `scipy.integrate.solve_ivp(f, (0, T), y0, events=...)`: the times and the points of the solution (`sol.t`,
columns of `sol.y`), or the exception raised by `f`. -/
abbrev IvpSolver := (Vec ℝ → Option (Vec ℝ)) → ℝ → Vec ℝ → Option (Vec ℝ → ℝ) →
  Except SimExc (List (ℝ × Vec ℝ))

/-- hybrid_linear_system.py 746-778 `compute_continuous_time_system_cost_to_go` (without `sol`). -/
noncomputable def contCostToGo (solve : IvpSolver) (S : AutoHybrid ℝ) (x0 : Vec ℝ) (T : ℝ)
    (cost : Vec ℝ → ℝ) (goal : Option (Vec ℝ)) : Except SimExc (ℝ × List (Vec ℝ) × List ℝ) :=
  if T ≥ 0 ∧ x0.length = S.xdim then
    match solve (ivpFun S cost) T (x0 ++ [0]) (goal.map goalEvent) with
    | .error e => .error e
    | .ok sol =>
      let total := (sol.map fun p => p.2.getLastD 0).getLastD 0
      .ok (total, sol.map fun p => p.2.dropLast, sol.map fun p => total - p.2.getLastD 0)
  else .error .assertion

/-- hybrid_linear_system.py 826-829: the continuous-time simulation from one sample. -/
noncomputable def contSim (solve : IvpSolver) (S : AutoHybrid ℝ) (T : ℝ) (cost : Vec ℝ → ℝ)
    (goal : Option (Vec ℝ)) (x0 : Vec ℝ) : Except SimExc (List (Vec ℝ × ℝ)) :=
  match contCostToGo solve S x0 T cost goal with
  | .ok r => .ok (r.2.1.zip r.2.2)
  | .error e => .error e

/-- hybrid_linear_system.py 781-836 `generate_cost_to_go_samples` with `discrete_time_flag=False`. -/
noncomputable def contSamples (solve : IvpSolver) (S : AutoHybrid ℝ) (x0s : List (Vec ℝ)) (T : ℝ)
    (cost : Vec ℝ → ℝ) (goal : Option (Vec ℝ)) (pruner : Option (Vec ℝ → Bool)) :
    Except SimExc (List (Vec ℝ × ℝ)) :=
  sampleLoop (contSim solve S T cost goal) pruner x0s

end NNL.Model
