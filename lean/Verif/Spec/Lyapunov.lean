import Verif.Spec.Network
import Verif.Spec.Norm

/-!
# Lyapunov functions, trajectories, boxes
-/

set_option linter.unusedSectionVars false

namespace NNL.Spec

open NNL

variable {K : Type*} [Field K] [LinearOrder K]

/-- The first output of a network (the value of a scalar network). -/
def Net.val (net : Net K) (x : Vec K) : K := (net.eval x).getD 0 0

/-- `|R (x - x*)|_1`. -/
def err (R : Mat K) (xe x : Vec K) : K := norm1 (matVec R (vsub x xe))

/-- The candidate Lyapunov function `V(x) = φ(x) - φ(x*) + λ |R (x - x*)|_1`. -/
def lyapV (net : Net K) (R : Mat K) (lam : K) (xe x : Vec K) : K :=
  net.val x - net.val xe + lam * err R xe x

/-- `x` lies in the box and on one of its faces. -/
def OnBoundary (lo up x : Vec K) : Prop :=
  InBox lo up x ∧ ∃ i, i < x.length ∧ (x.getD i 0 = lo.getD i 0 ∨ x.getD i 0 = up.getD i 0)

/-- A discrete-time trajectory of the (possibly set-valued) dynamics `step`. -/
def Traj (step : Vec K → Vec K → Prop) (x : ℕ → Vec K) : Prop := ∀ n, step (x n) (x (n + 1))

end NNL.Spec
