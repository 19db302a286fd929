import Verif.Model.PbData

/-!
Trajectories and images of a simulated robot, for C117.
-/

namespace NNL.Spec

open NNL.Model

variable {X P I : Type}

/-- A trajectory of the robot: `h` simulation steps between two states. -/
structure PbTraj (W : PbWorld X P I) (h : ℕ) (x0 : X) (N : ℕ) (t : ℕ → X) : Prop where
  start : t 0 = x0
  next : ∀ n < N, W.read (W.sim^[h] (W.reset (t n))) = some (t (n + 1))

/-- The images of a rollout: two of the first sample, half a period apart, then one at the end of every period. -/
def pbImage (W : PbWorld X P I) (k : ℕ) (t : ℕ → X) : ℕ → I
  | 0 => W.cam (W.reset (t 0))
  | 1 => W.cam (W.sim^[k] (W.reset (t 0)))
  | n + 2 => W.cam (W.sim^[2 * k] (W.reset (t n)))

end NNL.Spec
