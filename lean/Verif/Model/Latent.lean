import Mathlib.Analysis.SpecialFunctions.Log.Basic
import Mathlib.Data.List.Basic

/-!
# `LatentSpaceDynamicsLearning`: forward pass, rollouts and their losses (dynamics_learning.py)

An image is a pair of blocks of `num_channels` channels, of type `I`; a latent state has type `Z`.
-/

namespace NNL.Model

/-- The encoder (mean and logarithm of the variance), the decoder, `step_forward`, `reparam` with its draw, `lyapunov_value`, and the option
`use_variational`. -/
structure LatentNet (I Z Eps K : Type) where
  enc : I × I → Z × Z
  dec : Z → I × I
  step : Z → Z
  reparam : Z → Z → Eps → Z
  V : Z → K
  variational : Bool

variable {I Z Eps K : Type}

/-- dynamics_learning.py 730-734, 747-751: the latent state of an image. -/
def LatentNet.latent (L : LatentNet I Z Eps K) (x : I × I) (e : Eps) : Z :=
  if L.variational then L.reparam (L.enc x).1 (L.enc x).2 e else (L.enc x).1

/-- dynamics_learning.py 718-739 `vae_forward`, for a batch of one: the decoded image, the decoded prediction, the mean, the logarithm of the
variance and the next latent state. -/
def LatentNet.vaeForward (L : LatentNet I Z Eps K) (x : I × I) (e : Eps) : (I × I) × (I × I) × Z × Option Z × Z :=
  let z := L.latent x e
  (L.dec z, L.dec (L.step z), (L.enc x).1, if L.variational then some (L.enc x).2 else none, L.step z)

/-- dynamics_learning.py 843-868: one round of the loop of `rollout`; the state is `x_traj` as far as it is filled, `V_traj` and `z_traj`. -/
def LatentNet.rolloutStep (L : LatentNet I Z Eps K) (decode : Bool) (e : ℕ → Eps) (s : List I × List K × List Z) (n : ℕ) :
    Option (List I × List K × List Z) :=
  if decode then do
    let a ← s.1[n]?
    let b ← s.1[n + 1]?
    let r := L.vaeForward (a, b) (e n)
    some (s.1 ++ [r.2.1.2], s.2.1 ++ [L.V r.2.2.2.2], s.2.2 ++ [r.2.2.2.2])
  else do
    let z0 ← s.2.2.getLast?
    let z := L.step z0
    some (s.1 ++ [(L.dec z).2], s.2.1 ++ [L.V z], s.2.2 ++ [z])

/-- dynamics_learning.py 814-871 `rollout`: `x_traj`, `V_traj` and `z_traj`. -/
def LatentNet.rollout (L : LatentNet I Z Eps K) (decode : Bool) (e : ℕ → Eps) (x : I × I) (N : ℕ) :
    Option (List I × List K × List Z) :=
  (List.range N).foldlM (L.rolloutStep decode e) ([x.1, x.2], [L.V (L.enc x).1], [(L.enc x).1])

/-- dynamics_learning.py 873-890 `rollout_loss`; `loss` is the loss of one image, with the expected one first. -/
def LatentNet.rolloutLoss (L : LatentNet I Z Eps K) (loss : I → I → K) (decode : Bool) (e : ℕ → Eps) (expected : List I) :
    Option (List K) := do
  let a ← expected[0]?
  let b ← expected[1]?
  let r ← L.rollout decode e (a, b) (expected.length - 2)
  some (List.zipWith loss expected r.1)

/-- dynamics_learning.py 790-793: the target of the prediction, for data whose second part has half of the channels. -/
def nextTarget (x : I × I) (next : I) : I × I := (x.2, next)

/-- `torch.nn.BCELoss`: logarithms are clamped to be at least -100. -/
noncomputable def clampLog (x : ℝ) : ℝ := if x ≤ 0 then -100 else max (Real.log x) (-100)

/-- `torch.nn.BCELoss` for one pixel, `input` and `target`. -/
noncomputable def bce (input target : ℝ) : ℝ := -(target * clampLog input + (1 - target) * clampLog (1 - input))

/-- dynamics_learning.py 779: the loss of one pixel in `reconstruction_loss`. -/
noncomputable def reconBce (expected pred : ℝ) : ℝ := bce pred expected

/-- dynamics_learning.py 886-887: the loss of one pixel in `rollout_loss`. -/
noncomputable def rolloutBce (expected pred : ℝ) : ℝ := bce expected pred

end NNL.Model
