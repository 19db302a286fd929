import Verif.Model.Grid
import Verif.Model.Physics
import Mathlib.Analysis.SpecialFunctions.Complex.Arg
import Mathlib.Analysis.SpecialFunctions.Pow.NNReal

/-!
# The simulation of the car (examples/car/utils_simulation.py, examples/car/car.py)

PyBullet enters through the ray test (`cast`) and the collision test of the sphere around the car (`free`), the integrator of `next_pose`
(unicycle.py 61-69) through `next`; everything drawn is a parameter. Drawing, printing and the counts of crashes and of goals are left out.
-/

namespace NNL.Model

open Real

/-! ## Sensors -/

/-- utils_simulation.py 317-319: `raysFrom`, one row. -/
noncomputable def rayFrom (h : ℝ) (s : Fin 3 → ℝ) : Fin 3 → ℝ := ![s 0, s 1, h]

/-- utils_simulation.py 325-328: `raysTo`, one row. -/
noncomputable def rayTo (h R : ℝ) (s : Fin 3 → ℝ) (ψ : ℝ) : Fin 3 → ℝ :=
  let theta := -s 2 + ψ
  ![s 0 + R * cos theta, s 1 - R * sin theta, h]

/-- utils_simulation.py 297-349 `getDistances`, for `numRays` = the length of `psi_nominal` (the shapes differ otherwise). -/
noncomputable def getDistances (cast : (Fin 3 → ℝ) → (Fin 3 → ℝ) → ℝ) (h R : ℝ) (psi : List ℝ) (data : Bool) (s : Fin 3 → ℝ) : List ℝ :=
  let dists := psi.map fun ψ => R * cast (rayFrom h s) (rayTo h R s ψ)
  if data then dists.dropLast else dists

/-- utils_simulation.py 29-32: `psi_nominal`, for the number of rays and the angle of the caller's parameters (13, 20-21). -/
noncomputable def psiNominal (n : ℕ) (psiMax : ℝ) : List ℝ := linspace (-psiMax) psiMax n

/-- utils_simulation.py 35-37: `psi_nominal_full`. -/
noncomputable def psiFull (n : ℕ) : List ℝ := linspace (-π) π n

/-- utils_simulation.py 155-161, 161: the position and the radius of an obstacle, for three draws. -/
noncomputable def obstacleAt (r0 r1 r2 : ℝ) : ℝ × ℝ × ℝ :=
  (-10 + (10 - -10) * r0, 2 + -10 + (10 - -10 - 2) * r1, (0.25 - 0.1) * r2 + 0.1)

/-! ## Controllers -/

/-- car.py 14-39 `compute_optical_flow_control`. -/
noncomputable def opticalFlow (numRays : ℕ) (psiMax : ℝ) (y : List ℝ) : Option (ℝ × ℝ) :=
  if numRays ≠ y.length then none
  else
    let mid := numRays / 2
    if 2 * mid ≠ numRays then none
    else if ¬psiMax < π / 2 then none
    else
      let psi := linspace 0 psiMax mid
      let mRight := List.zipWith (fun d ψ => 1 / (d * cos ψ)) (y.drop mid) psi
      let mLeft := List.zipWith (fun d ψ => 1 / (d * cos ψ)) (y.take mid) psi.reverse
      some (0.7, 1 * (mRight.sum - mLeft.sum))

/-- `u / np.linalg.norm(u)`. -/
noncomputable def unit2 (u : ℝ × ℝ) : ℝ × ℝ := (u.1 / sqrt (u.1 ^ 2 + u.2 ^ 2), u.2 / sqrt (u.1 ^ 2 + u.2 ^ 2))

/-- `np.arctan2`. -/
noncomputable def arctan2 (y x : ℝ) : ℝ := Complex.arg ⟨x, y⟩

/-- What `compute_optical_flow_control_goal` returns: a control and a yaw, or the list `[0, 0]`. -/
inductive GoalControl where
  | pair (u : ℝ × ℝ) (yaw : ℝ)
  | zeros

/-- car.py 63-70: the yaw of the goal. -/
noncomputable def yawGoal (goal : ℝ × ℝ) (s : Fin 3 → ℝ) (prev : ℝ) : ℝ :=
  let yaw := arctan2 (goal.2 - s 1) (goal.1 - s 0)
  if yaw < -0 then if prev > π / 2 then yaw + 2 * π else yaw else yaw

/-- `np.linalg.norm(goal_pos[0:2] - state[0:2])`. -/
noncomputable def goalDist (goal : ℝ × ℝ) (s : Fin 3 → ℝ) : ℝ := sqrt ((goal.1 - s 0) ^ 2 + (goal.2 - s 1) ^ 2)

/-- car.py 42-79 `compute_optical_flow_control_goal`. `goal` is `none` for `None`; `np.min` of no rays raises. -/
noncomputable def opticalFlowGoal (numRays : ℕ) (psiMax thr : ℝ) (y : List ℝ) (goal : Option (ℝ × ℝ)) (s : Fin 3 → ℝ) (prev : ℝ) :
    Option GoalControl :=
  (opticalFlow numRays psiMax y).bind fun u =>
    match goal with
    | none => some (.pair (unit2 u) prev)
    | some g => y.min?.bind fun m =>
      if m > 0.8 then
        let yaw := yawGoal g s prev
        if goalDist g s < thr then some .zeros
        else some (.pair (unit2 (u.1, u.2 + 7.5 * (yaw - s 2))) yaw)
      else some (.pair (unit2 u) prev)

/-! ## Data -/

/-- The parameters of a simulation (utils_simulation.py 8-43). -/
structure CarParams where
  raysControl : ℕ
  raysData : ℕ
  psiMax : ℝ
  senseRadius : ℝ
  height : ℝ
  thr : ℝ
  horizon : ℕ

/-- utils_simulation.py 8-43 `get_parameters`. -/
noncomputable def CarParams.default : CarParams := ⟨30, 101, π / 3, 100, 0.15 / 2, 0.2, 2000⟩

/-- The obstacles as PyBullet presents them. -/
structure CarWorld where
  cast : (Fin 3 → ℝ) → (Fin 3 → ℝ) → ℝ
  free : ℝ × ℝ → Bool

/-- car.py 135-144, 224-236: candidates are drawn until one is free; `none` if none of them is. Returns the candidates left. -/
def drawFree {α : Type} (free : α → Bool) : List α → Option (α × List α)
  | [] => none
  | c :: cs => if free c then some (c, cs) else drawFree free cs

/-- A row of the data: `u_data`, `depth_data`, `state_data`. -/
structure CarRow where
  u : ℝ × ℝ
  depth : List ℝ
  state : Fin 3 → ℝ

/-- car.py 162-236: the loop over time, `k` steps of which are left. A control `[0, 0]` unpacks to the control `0`, which the dynamics
cannot index. -/
noncomputable def controllerLoop (next : (Fin 3 → ℝ) → (Fin 2 → ℝ) → ℝ → Fin 3 → ℝ) (P : CarParams) (W : CarWorld) :
    ℕ → (Fin 3 → ℝ) → ℝ → ℝ × ℝ → List (ℝ × ℝ) → Option (List CarRow)
  | 0, _, _, _, _ => some []
  | k + 1, s, yaw, goal, cands =>
    let yRay := getDistances W.cast P.height P.senseRadius (psiNominal P.raysControl P.psiMax) false s
    let depth := getDistances W.cast P.height P.senseRadius (psiFull P.raysData) true s
    (opticalFlowGoal P.raysControl P.psiMax P.thr yRay (some goal) s yaw).bind fun
      | .zeros => none
      | .pair u yaw' =>
        let s' := next s ![u.1, u.2] 0.01
        (if goalDist goal s' < P.thr then drawFree W.free cands else some (goal, cands)).bind fun g =>
          (controllerLoop next P W k s' yaw' g.1 g.2).map fun rows => ⟨u, depth, s⟩ :: rows

/-- car.py 105-245 `simulate_controller`: for each environment its obstacles and the goals drawn. -/
noncomputable def simulateController (next : (Fin 3 → ℝ) → (Fin 2 → ℝ) → ℝ → Fin 3 → ℝ) (P : CarParams) :
    List (CarWorld × List (ℝ × ℝ)) → Option (List (List CarRow))
  | [] => some []
  | w :: ws => (drawFree w.1.free w.2).bind fun g =>
      (controllerLoop next P w.1 P.horizon ![0, 1, π / 2] 0 g.1 g.2).bind fun rows =>
        (simulateController next P ws).map fun rest => rows :: rest

/-- A row of the data of `simulate_random_sample`. -/
structure CarSample where
  u : ℝ × ℝ
  depth : List ℝ
  state : Fin 3 → ℝ
  nextDepth : List ℝ
  nextState : Fin 3 → ℝ

/-- car.py 277-372: the loop over time of `simulate_random_sample`: for each step the candidates of the state and the draws of the
control, all from `[0, 1)`. -/
noncomputable def carSampleLoop (next : (Fin 3 → ℝ) → (Fin 2 → ℝ) → ℝ → Fin 3 → ℝ) (P : CarParams) (W : CarWorld) :
    List (List (ℝ × ℝ × ℝ) × ℝ × ℝ) → Option (List CarSample)
  | [] => some []
  | d :: ds =>
    let cands : List (Fin 3 → ℝ) := d.1.map fun r => ![-8 + (8 - -8) * r.1, -8 + (8 - -8) * r.2.1, -1.5 * π + (1.5 * π - -1.5 * π) * r.2.2]
    (drawFree (fun s : Fin 3 → ℝ => W.free (s 0, s 1)) cands).bind fun c =>
      let s := c.1
      let u := (-2 + (5 - -2) * d.2.1, -0.5 + (0.5 - -0.5) * d.2.2)
      let s' := next s ![u.1, u.2] 0.01
      (carSampleLoop next P W ds).map fun rest =>
        ⟨u, getDistances W.cast P.height P.senseRadius (psiFull P.raysData) true s, s,
          getDistances W.cast P.height P.senseRadius (psiFull P.raysData) true s', s'⟩ :: rest

end NNL.Model
