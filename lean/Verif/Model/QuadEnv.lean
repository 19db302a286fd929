import Verif.Model.Td3
import Verif.Model.Physics
import Mathlib.LinearAlgebra.Matrix.Notation
import Mathlib.Data.Matrix.Mul

/-!
# The quadrotor environment (examples/quadrotor2d/quadrotor2d_env.py) and the loops which run a policy in an environment

The integrator of `next_pose` (quadrotor_2d.py 95-102) and the draws of `torch.rand` are parameters. Conversions between `numpy` and `torch`
and between precisions are the identity.
-/

namespace NNL.Model

open Matrix

/-- The variables of a `Quadrotor2DEnv`; `used` is the number of calls of `torch.rand` so far. -/
structure QuadEnvSt where
  x : Fin 6 → ℝ
  t : ℝ
  used : ℕ

/-- quadrotor2d_env.py 14-15: `x_lo`; `x_up` is its negative (16). -/
noncomputable def quadEnvLo : Fin 6 → ℝ := ![-0.3, -0.3, -Real.pi * 0.3, -1.5, -1.5, -0.9]

/-- quadrotor2d_env.py 28-30: `lqr_Q`. -/
noncomputable def quadEnvQ : Matrix (Fin 6) (Fin 6) ℝ := Matrix.diagonal ![10, 10, 10, 1, 1, Planar.quad.length / 2 / Real.pi]

/-- quadrotor2d_env.py 31: `lqr_R`. -/
noncomputable def quadEnvR : Matrix (Fin 2) (Fin 2) ℝ := !![0.1, 0.05; 0.05, 0.1]

/-- quadrotor2d_env.py 10-31 `__init__`: the state (26-27). -/
def quadEnvInit : QuadEnvSt := ⟨0, 0, 0⟩

/-- quadrotor2d_env.py 33-47 `step`, with `dt` = 0.01 (13). `obs_equ` is zero (24), `act_equ` the thrust of hovering (25). -/
noncomputable def quadEnvStep (next : (Fin 6 → ℝ) → (Fin 2 → ℝ) → ℝ → Fin 6 → ℝ) (s : QuadEnvSt) (action : Fin 2 → ℝ) :
    ((Fin 6 → ℝ) × ℝ × Bool) × QuadEnvSt :=
  let xNext := next s.x action 0.01
  let actDelta := action - Planar.quad.quadHover
  let obsDelta := xNext - 0
  let reward := -(actDelta ⬝ᵥ quadEnvR *ᵥ actDelta) - obsDelta ⬝ᵥ quadEnvQ *ᵥ obsDelta
  ((xNext, reward, false), { s with x := xNext, t := s.t + 0.01 })

/-- quadrotor2d_env.py 49-54 `reset`. `draw k` is what the `k`-th call of `torch.rand` returns. -/
noncomputable def quadEnvReset (draw : ℕ → Fin 6 → ℝ) (s : QuadEnvSt) : (Fin 6 → ℝ) × QuadEnvSt :=
  let x := fun i => draw s.used i * (-quadEnvLo i - quadEnvLo i) + quadEnvLo i
  (x, ⟨x, 0, s.used + 1⟩)

/-- The environment. -/
noncomputable def quadEnv (next : (Fin 6 → ℝ) → (Fin 2 → ℝ) → ℝ → Fin 6 → ℝ) (draw : ℕ → Fin 6 → ℝ) :
    GymEnv QuadEnvSt (Fin 6 → ℝ) (Fin 2 → ℝ) ℝ where
  reset := quadEnvReset draw
  step := quadEnvStep next

section Loops

variable {K E O A : Type} [Field K]

/-- td3.py 326-330: the rest of an episode of `test_agent`; `k` is `max_ep_len - ep_len`, which is not negative. -/
def testEpisode (G : GymEnv E O A K) (pol : O → A) : ℕ → E → O → Bool → K → K × E
  | 0, e, _, _, ret => (ret, e)
  | k + 1, e, o, d, ret =>
    if d then (ret, e)
    else
      let r := G.step e (pol o)
      testEpisode G pol k r.2 r.1.1 r.1.2.2 (ret + r.1.2.1)

/-- td3.py 324-331: the episodes of `test_agent`. -/
def testEpisodes (G : GymEnv E O A K) (pol : O → A) (maxLen : ℕ) : ℕ → E → K → K × E
  | 0, e, mean => (mean, e)
  | j + 1, e, mean =>
    let z := G.reset e
    let r := testEpisode G pol maxLen z.2 z.1 false 0
    testEpisodes G pol maxLen j r.2 (mean + r.1)

/-- td3.py 322-334 `test_agent`: the average which is logged. With no episode the division raises. -/
def testAgent (G : GymEnv E O A K) (pol : O → A) (maxLen num : ℕ) (e : E) : Option K :=
  if num = 0 then none else some ((testEpisodes G pol maxLen num e 0).1 / num)

/-- The variables of `run_policy`. -/
structure RunPolicySt (E O A : Type) where
  env : E
  obs : O
  epLen : ℕ
  n : ℕ
  episodes : List (List O)
  actions : List (List A)

/-- `episodes[-1].append(o)`. -/
def appendLast {α : Type} : List (List α) → α → List (List α)
  | [], _ => []
  | [l], a => [l ++ [a]]
  | l :: ls, a => l :: appendLast ls a

/-- test_policy.py 33-35: before the loop. -/
def runPolicyInit (G : GymEnv E O A K) (e : E) : RunPolicySt E O A :=
  let z := G.reset e
  ⟨z.2, z.1, 0, 0, [[]], [[]]⟩

/-- test_policy.py 37-50: one pass. `maxLen` is `none` for `None`. Rendering and printing are left out. -/
def runPolicyStep (G : GymEnv E O A K) (pol : O → A) (maxLen : Option ℕ) (s : RunPolicySt E O A) : RunPolicySt E O A :=
  let a := pol s.obs
  let r := G.step s.env a
  let epLen := s.epLen + 1
  let eps := appendLast s.episodes r.1.1
  let acts := appendLast s.actions a
  if r.1.2.2 || decide (some epLen = maxLen) then
    let z := G.reset r.2
    ⟨z.2, z.1, 0, s.n + 1, eps ++ [[]], acts ++ [[]]⟩
  else ⟨r.2, r.1.1, epLen, s.n, eps, acts⟩

/-- test_policy.py 36-50: the loop; `none` if it has not ended after `fuel` passes. -/
def runPolicyLoop (G : GymEnv E O A K) (pol : O → A) (maxLen : Option ℕ) (num : ℕ) : ℕ → RunPolicySt E O A → Option (RunPolicySt E O A)
  | fuel, s =>
    if s.n < num then
      match fuel with
      | 0 => none
      | fuel + 1 => runPolicyLoop G pol maxLen num fuel (runPolicyStep G pol maxLen s)
    else some s

/-- test_policy.py 52-53: the rollouts which are plotted. -/
def plotted (s : RunPolicySt E O A) : List (List O) := s.episodes.take (s.episodes.length - 1)

end Loops

end NNL.Model
