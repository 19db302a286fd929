import Verif.Model.Callback
import Verif.Model.DynamicsLearning

/-!
# `lyapunov_loss` with early termination (dynamics_learning.py 194-325)
-/

namespace NNL.Model

variable {K : Type*} [Field K] [LinearOrder K]

/-- dynamics_learning.py 228-245, 266-283, 304-321: the loss from one program. `r` is the run of the solver on it; `graded`
says that `compute_objective_from_mip_data_and_solution` does not raise `IncorrectActiveConstraint`, and then it is the objective of the
solution (C30). With `lyap_loss_optimal` the exception is not caught, so there `graded` is not read: a run that raises is not modelled. -/
def programLoss (optimal : Bool) (threshold : K) (graded : Bool) (r : SolverRun K) : K :=
  if optimal then r.optimize none
  else if graded then r.optimize (some threshold) else 0

/-- dynamics_learning.py 194-325 `lyapunov_loss`: the three losses with their weights `w`; `r1`, `r2`, `r3` are the runs on the three
programs. -/
def lyapunovLoss (optimal : Bool) (w thr : K × K × K) (g : Bool × Bool × Bool) (r1 r2 r3 : SolverRun K) : K × K × K :=
  (w.1 * programLoss optimal thr.1 g.1 r1, w.2.1 * programLoss optimal thr.2.1 g.2.1 r2,
    w.2.2 * programLoss optimal thr.2.2 g.2.2 r3)

end NNL.Model
