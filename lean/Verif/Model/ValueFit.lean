import Verif.Model.ContCostToGo
import Verif.Model.Trainer
import Verif.Model.Losses

/-!
# Fitting a network to the simulated cost-to-go (train_lyapunov_barrier.py 1365-1450), and the derivative loss at
samples (lyapunov.py 929-988)

The parameters of the network, together with the state of Adam, are an arbitrary type `W`; `net w` is the network
with parameters `w`, and `adam f w` the parameters after one step of Adam on the function `f` of the parameters.
-/

namespace NNL.Model

open NNL NNL.Spec

variable {K : Type} [Field K] [LinearOrder K] {W : Type}

/-- train_lyapunov_barrier.py 1393-1398: `MSELoss` of `network(x) - network(x*) + λ |R (x - x*)|₁` against the
costs. The broadcast of `relu_output.squeeze()` (1396) is that of a network with one output. -/
def fitLoss (net : Net K) (R : Mat K) (lam : K) (xe : Vec K) (ps : List (Vec K × K)) : K :=
  vmean (ps.map fun p => ((net.eval p.1).getD 0 0 - (net.eval xe).getD 0 0 + lam * l1err R xe p.1 - p.2) ^ 2)

/-- train_lyapunov_barrier.py 1377-1403 `train_with_cost_to_go`: `torch.stack` (1386) raises for no samples. A
given `R` must have as many columns as the state (1397; checked here by `getR`). -/
def fitSamples (net : W → Net K) (adam : (W → K) → W → W) (ps : List (Vec K × K)) (lam : K) (xe : Vec K)
    (R : Option (Tensor2 K)) (tol : K) (epochs : ℕ) (w : W) : Option (Bool × K × W) :=
  match getR R xe.length with
  | none => none
  | some R' =>
    if ps = [] then none
    else
      let loss := fun w => fitLoss (net w) R' lam xe ps
      trainValue loss (adam loss) tol epochs w

/-- train_lyapunov_barrier.py 1405-1450 `train` with `discrete_time_flag=True`. -/
def fitDiscrete (net : W → Net K) (adam : (W → K) → W → W) (S : AutoHybrid K) (lam : K) (xe : Vec K)
    (cost : Vec K → K) (x0s : List (Vec K)) (N : ℕ) (R : Option (Tensor2 K)) (goal : Option (Vec K))
    (pruner : Option (Vec K → Bool)) (tol : K) (epochs : ℕ) (w : W) : Option (Bool × K × W) :=
  if xe.length = S.xdim then
    match discreteSamples S x0s N cost goal pruner with
    | .error _ => none
    | .ok ps => fitSamples net adam ps lam xe R tol epochs w
  else none

/-- train_lyapunov_barrier.py 1405-1450 `train` with `discrete_time_flag=False`. -/
noncomputable def fitCont (solve : IvpSolver) (net : W → Net ℝ) (adam : (W → ℝ) → W → W) (S : AutoHybrid ℝ)
    (lam : ℝ) (xe : Vec ℝ) (cost : Vec ℝ → ℝ) (x0s : List (Vec ℝ)) (T : ℝ) (R : Option (Tensor2 ℝ))
    (goal : Option (Vec ℝ)) (pruner : Option (Vec ℝ → Bool)) (tol : ℝ) (epochs : ℕ) (w : W) :
    Option (Bool × ℝ × W) :=
  if xe.length = S.xdim then
    match contSamples solve S x0s T cost goal pruner with
    | .error _ => none
    | .ok ps => fitSamples net adam ps lam xe R tol epochs w
  else none

/-- lyapunov.py 929-988 `lyapunov_derivative_loss_at_samples`: the next states are those of the system, whose
`step_forward` is `step` on every row of the batch. -/
def Lyap.DerivativeLossAt (L : Lyap K) (step : Vec K → Option (Vec K)) (xs : List (Vec K)) (xe : Vec K)
    (lam eps : K) (et : EpsType) (R : Option (Tensor2 K)) (margin : K) (red : Reduction) (weight : Option (Vec K))
    (r : K) : Prop :=
  (∀ x ∈ xs, x.length = L.dim) ∧ ∃ xn, xs.mapM step = some xn ∧
    L.DerivativeLoss xs xn xe lam eps et R margin red weight r

end NNL.Model
