import Verif.Model.Losses

/-!
# `DynamicsLearning` and `StateSpaceDynamicsLearning` (dynamics_learning.py)

The system is given by its function `step_forward`. Devices, logging, saving and the optimizer are not modelled.
-/

set_option linter.unusedSectionVars false

namespace NNL.Model

open NNL NNL.Spec

variable {K : Type*} [Field K] [LinearOrder K]

/-- The options of `DynamicsLearningOptions` (dynamics_learning.py 14-32) that are read below. -/
structure DynOptions (K : Type*) where
  lam : K
  epsPos : K
  epsLo : K
  epsUp : K
  R : Option (Tensor2 K)
  wPos : K
  wLo : K
  wUp : K

/-- dynamics_learning.py 336-337: the samples with all entries at most `x_up`, among them those with all entries at least `x_lo`. -/
def keepSamples (lo up : Vec K) (xs : List (Vec K)) : List (Vec K) :=
  (xs.filter fun x => decide (∀ i < up.length, x.getD i 0 ≤ up.getD i 0)).filter fun x =>
    decide (∀ i < lo.length, lo.getD i 0 ≤ x.getD i 0)

/-- dynamics_learning.py 327-365 `lyapunov_loss_at_samples`; `r` are the three weighted losses. -/
def Lyap.SampleLosses (L : Lyap K) (step : Vec K → Vec K) (xe : Vec K) (o : DynOptions K) (xs : List (Vec K)) (lo up : Vec K)
    (r : K × K × K) : Prop :=
  let x := keepSamples lo up xs
  if x.length = 0 then r = (0, 0, 0)
  else ∃ p l u, L.PositivityLoss x xe o.lam o.epsPos o.R 0 .mean none p ∧
    L.DerivativeLoss x (x.map step) xe o.lam o.epsLo .expLower o.R 0 .mean none l ∧
    L.DerivativeLoss x (x.map step) xe o.lam o.epsUp .expUpper o.R 0 .mean none u ∧
    r = (o.wPos * p, o.wLo * l, o.wUp * u)

/-- dynamics_learning.py 126-134, 154-162, 182-190: the states of the solutions of positive objective. -/
def poolStates (m : Mip K) (x : List ℕ) (pool : List (ℕ → K)) : List (Vec K) :=
  (pool.filter fun v => decide (m.objVal v > 0)).map fun v => x.map v

/-- dynamics_learning.py 103-192 `adversarial_samples`; `p1`, `p2`, `p3` are the solution pools of the three programs. `z_adv_der_lo` and
`z_adv_der_up` are only assigned if there is a solution of positive objective: otherwise the `return` raises. -/
def Lyap.adversarialSamples (L : Lyap K) (sys : SysConstr K) (xe : Vec K) (o : DynOptions K) (p1 p2 p3 : List (ℕ → K)) :
    Option (List (Vec K) × List (Vec K) × List (Vec K)) := do
  let P ← L.positivity xe o.lam o.epsPos o.R
  let D ← L.derivative sys xe o.lam o.epsLo .expLower o.R none none .binary
  let E ← L.derivative sys xe o.lam o.epsUp .expUpper o.R none none .binary
  let pos := poolStates P.1 P.2 p1
  let lo := poolStates D.m D.x p2
  let up := poolStates E.m E.x p3
  if lo.length > 0 ∧ up.length > 0 then some (pos, lo, up) else none

/-- dynamics_learning.py 194-325 `lyapunov_loss` with `lyap_loss_optimal`: `v1`, `v2`, `v3` are the solutions of the three programs. The
warm start does not change the programs. `compute_objective_from_mip_data_and_solution` is taken to be the objective of the solution (C30). -/
def Lyap.programLosses (L : Lyap K) (sys : SysConstr K) (xe : Vec K) (o : DynOptions K) (w : K × K × K) (v1 v2 v3 : ℕ → K) :
    Option (K × K × K) := do
  let P ← L.positivity xe o.lam o.epsPos o.R
  let D ← L.derivative sys xe o.lam o.epsLo .expLower o.R none none .binary
  let E ← L.derivative sys xe o.lam o.epsUp .expUpper o.R none none .binary
  some (w.1 * P.1.objVal v1, w.2.1 * D.m.objVal v2, w.2.2 * E.m.objVal v3)

/-- dynamics_learning.py 599-606: one round of the loop of `rollout`. -/
def Lyap.rolloutStep (L : Lyap K) (step : Vec K → Vec K) (xe : Vec K) (o : DynOptions K) (s : List (Vec K) × Vec K) (n : ℕ) :
    Option (List (Vec K) × Vec K) := do
  let x ← s.1[n]?
  let y := step x
  let v ← L.value y xe o.lam o.R
  some (s.1 ++ [y], s.2 ++ [v])

/-- dynamics_learning.py 579-608 `StateSpaceDynamicsLearning.rollout`: `x_traj` (row by row as it is filled) and `V_traj`. -/
def Lyap.rollout (L : Lyap K) (step : Vec K → Vec K) (xe : Vec K) (o : DynOptions K) (x0 : Vec K) (N : ℕ) :
    Option (List (Vec K) × Vec K) :=
  if x0.length = L.dim then do
    let v ← L.value x0 xe o.lam o.R
    (List.range N).foldlM (L.rolloutStep step xe o) ([x0], [v])
  else none

/-- The mean of the squared differences of two vectors. -/
def meanSq (a b : Vec K) : K := vmean ((vsub a b).map fun e => e ^ 2)

/-- dynamics_learning.py 610-620 `rollout_loss`; line 619 raises if the two trajectories differ in length. -/
def Lyap.rolloutLoss (L : Lyap K) (step : Vec K → Vec K) (xe : Vec K) (o : DynOptions K) (expected : List (Vec K)) : Option (Vec K) := do
  let x0 ← expected[0]?
  let t ← L.rollout step xe o x0 (expected.length - 1)
  if expected.length = t.1.length then some (List.zipWith meanSq expected t.1) else none

/-- dynamics_learning.py 367-384 `rollout_validation`; adding losses of another length raises. -/
def rolloutValidation (loss : List (Vec K) → Option (Vec K)) (rollouts : List (List (Vec K))) : Option (Vec K) := do
  let first ← rollouts[0]?
  rollouts.foldlM (fun acc r => do
    let l ← loss r
    if l.length = acc.length then some (List.zipWith (· + ·) acc l) else none) (List.replicate first.length 0)

/-- dynamics_learning.py 771-782 `reconstruction_loss` without `use_bce`: images are flattened; the mean over all dimensions but the
first gives one number per image, of which `[0]` is returned. -/
def reconstructionLoss (x decoded : List (Vec K)) : Option K :=
  if x.length = decoded.length then (List.zipWith meanSq x decoded)[0]? else none

end NNL.Model
