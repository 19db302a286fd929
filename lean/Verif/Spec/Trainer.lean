import Verif.Model.Trainer

/-!
# Observing a training run

`logged env` is the environment `env` that also records every solved program.
-/

namespace NNL.Spec

open NNL NNL.Model

variable {K : Type} [Field K] [LinearOrder K] {W : Type}

/-- The solved programs, in order. -/
structure Log (K : Type) where
  pos : List (Solve K)
  der : List (Solve K)

/-- The same calls, recorded. -/
def logged (env : Env W K) : Env (W × Log K) K where
  sys := ⟨fun w => env.sys.step w.1, env.sys.stepMode.map fun f w => f w.1, env.sys.feedback⟩
  solvePos := fun w => (env.solvePos w.1).map fun r => (r.1, (r.2, ⟨w.2.pos ++ [r.1], w.2.der⟩))
  solveDer := fun w => (env.solveDer w.1).map fun r => (r.1, (r.2, ⟨w.2.pos, w.2.der ++ [r.1]⟩))
  posMipObj := fun w => env.posMipObj w.1
  derMipObj := fun w => env.derMipObj w.1
  gap := fun w => env.gap w.1
  posLoss := fun w => env.posLoss w.1
  derLoss := fun w => env.derLoss w.1
  update := fun w l => (env.update w.1 l, w.2)

/-- The last `n` elements. -/
def lastN {α : Type*} (n : ℕ) (l : List α) : List α := l.drop (l.length - n)

end NNL.Spec
