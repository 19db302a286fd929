import Mathlib.Analysis.SpecialFunctions.Trigonometric.Basic
import Mathlib.Data.EReal.Basic
import Mathlib.LinearAlgebra.Matrix.Notation

/-!
# The spring loaded inverted pendulum

`spring_loaded_inverted_pendulum.py` and `slip_hybrid_linear_system.py`, with real numbers and exact trigonometric functions.
Arrays of a fixed shape are functions on `Fin n`; a matrix filled entry by entry is written as a literal.  `(None, ..., None)`
is `none`.  The integrator `solve_ivp` is a parameter.
-/

namespace NNL.Model

open Real Matrix

/-- spring_loaded_inverted_pendulum.py 19-22: the attributes of `SLIP`. -/
structure Slip where
  mass : ℝ
  l0 : ℝ
  k : ℝ
  g : ℝ

open Classical in
/-- spring_loaded_inverted_pendulum.py 23-35 `SLIP.__init__`. -/
noncomputable def Slip.init (mass l0 k g : ℝ) : Option Slip := if 0 ≤ g then some ⟨mass, l0, k, g⟩ else none

/-- spring_loaded_inverted_pendulum.py 6-11: the attributes of `SteppingStone`; the ends may be infinite. -/
structure Stone where
  left : EReal
  right : EReal
  height : ℝ

open Classical in
/-- spring_loaded_inverted_pendulum.py 12-16 `SteppingStone.__init__`. -/
noncomputable def Stone.init (left right : EReal) (height : ℝ) : Option Stone :=
  if left < right then some ⟨left, right, height⟩ else none

namespace Slip

variable (P : Slip)

/-- spring_loaded_inverted_pendulum.py 37-45 `SLIP.flight_dynamics`. -/
def flight (s : Fin 4 → ℝ) : Fin 4 → ℝ := ![s 2, s 3, 0, -P.g]

/-- spring_loaded_inverted_pendulum.py 47-64 `SLIP.stance_dynamics`. -/
noncomputable def stance (s : Fin 5 → ℝ) : Fin 5 → ℝ :=
  let rdd := s 0 * s 3 ^ 2 - P.g * cos (s 1) + P.k * (P.l0 - s 0) / P.mass
  let tdd := P.g / s 0 * sin (s 1) - 2 * s 2 * s 3 / s 0
  ![s 2, s 3, rdd, tdd, 0]

/-- spring_loaded_inverted_pendulum.py 66-72 `SLIP.touchdown_guard`. -/
noncomputable def tdGuard (s : Fin 4 → ℝ) (θ : ℝ) : ℝ := s 1 - P.l0 * cos θ

/-- spring_loaded_inverted_pendulum.py 74-80 `SLIP.liftoff_guard`. -/
def loGuard (s : Fin 5 → ℝ) : ℝ := s 0 - P.l0

/-- spring_loaded_inverted_pendulum.py 88-105 `SLIP.touchdown_transition`. -/
noncomputable def touchdown (s : Fin 4 → ℝ) (θ : ℝ) : Fin 5 → ℝ :=
  ![P.l0, θ, -s 2 * sin θ + s 3 * cos θ, (-s 2 * cos θ - s 3 * sin θ) / P.l0, s 0 + P.l0 * sin θ]

/-- spring_loaded_inverted_pendulum.py 107-126 `SLIP.liftoff_transition`. -/
noncomputable def liftoff (s : Fin 5 → ℝ) : Fin 4 → ℝ :=
  ![s 4 - P.l0 * sin (s 1), P.l0 * cos (s 1), -s 0 * cos (s 1) * s 3 - s 2 * sin (s 1),
    -s 0 * sin (s 1) * s 3 + s 2 * cos (s 1)]

/-- spring_loaded_inverted_pendulum.py 128-133 `SLIP.flight_phase_energy`. -/
noncomputable def flightEnergy (s : Fin 4 → ℝ) : ℝ := 0.5 * P.mass * (s 2 ^ 2 + s 3 ^ 2) + P.mass * P.g * s 1

/-- spring_loaded_inverted_pendulum.py 135-142 `SLIP.stance_phase_energy`. -/
noncomputable def stanceEnergy (s : Fin 5 → ℝ) : ℝ :=
  0.5 * P.mass * ((s 0 * s 3) ^ 2 + s 2 ^ 2) + 0.5 * P.k * (P.l0 - s 0) ^ 2 + P.mass * s 0 * cos (s 1) * P.g

/-- The last state and the time of the first event of `solve_ivp` on the stance dynamics with the events lift-off and the
mass on the ground, if the lift-off event has happened; `none` if not. -/
abbrev StanceOde := (Fin 5 → ℝ) → Option ((Fin 5 → ℝ) × ℝ)

open Classical in
/-- spring_loaded_inverted_pendulum.py 144-210 `SLIP.apex_map`. -/
noncomputable def apexMap (ode : StanceOde) (posX apexHeight velX θ : ℝ) : Option (ℝ × ℝ × ℝ × ℝ) :=
  if apexHeight - P.l0 * cos θ < 0 then none
  else if velX > 0 ∧ θ < 0 then none
  else if velX < 0 ∧ θ > 0 then none
  else do
    let tTd := √(2 * (apexHeight - P.l0 * cos θ) / P.g)
    let preTd : Fin 4 → ℝ := ![posX + velX * tTd, P.l0 * cos θ, velX, -P.g * tTd]
    let postTd := P.touchdown preTd θ
    let sol ← ode postTd
    let postLo := P.liftoff sol.1
    if postLo 3 < 0 then none
    else
      let tA := postLo 3 / P.g
      some (postLo 0 + postLo 2 * tA, postLo 1 + P.g / 2 * tA ^ 2, postLo 2, tTd + sol.2 + tA)

/-- A solution of `solve_ivp`: the first and last time and state. -/
structure Seg (n : ℕ) where
  t0 : ℝ
  x0 : Fin n → ℝ
  t1 : ℝ
  x1 : Fin n → ℝ

open Classical in
/-- spring_loaded_inverted_pendulum.py 231-285: the loop of `SLIP.simulate`; `odeF θ t x` and `odeS t x` are the last time and
state of `solve_ivp` in the flight and in the stance phase. A flight phase and its stance phase are one pair of the list. -/
noncomputable def simLoop (odeF : ℝ → ℝ → (Fin 4 → ℝ) → ℝ × (Fin 4 → ℝ)) (odeS : ℝ → (Fin 5 → ℝ) → ℝ × (Fin 5 → ℝ)) :
    List ℝ → ℝ → (Fin 4 → ℝ) → List (Seg 4 × Seg 5)
  | [], _, _ => []
  | θ :: θs, t, x =>
    if x 1 ≤ P.l0 * cos θ then []
    else
      let a := odeF θ t x
      let y := P.touchdown a.2 θ
      let b := odeS a.1 y
      let seg := (⟨t, x, a.1, a.2⟩, ⟨a.1, y, b.1, b.2⟩)
      if b.2 1 + π / 2 < 1e-5 then [seg]
      else if π / 2 - b.2 1 < 1e-5 then [seg]
      else
        let z := P.liftoff b.2
        let tA := z 3 / P.g
        seg :: simLoop odeF odeS θs (b.1 + tA) ![z 0 + z 2 * tA, z 1 + z 3 ^ 2 / (2 * P.g), z 2, 0]

open Classical in
/-- spring_loaded_inverted_pendulum.py 212-286 `SLIP.simulate`; `theta_step[0]` raises on an empty list. -/
noncomputable def simulate (odeF : ℝ → ℝ → (Fin 4 → ℝ) → ℝ × (Fin 4 → ℝ))
    (odeS : ℝ → (Fin 5 → ℝ) → ℝ × (Fin 5 → ℝ)) (x0 : Fin 4 → ℝ) (thetas : List ℝ) : Option (List (Seg 4 × Seg 5)) := do
  let θ ← thetas.head?
  if x0 1 > P.l0 * cos θ then some (P.simLoop odeF odeS thetas 0 x0) else none

open Classical in
/-- spring_loaded_inverted_pendulum.py 288-312 `SLIP.time_to_touchdown`. -/
noncomputable def timeToTouchdown (s : Fin 4 → ℝ) (S : Stone) (θ : ℝ) : Option ℝ :=
  let z0 := s 1 - P.l0 * cos θ
  if S.height > z0 then none
  else
    let t := (√(s 3 ^ 2 + 2 * P.g * (z0 - S.height)) + s 3) / P.g
    let fx := s 0 + P.l0 * sin θ + s 2 * t
    if (fx : EReal) ≥ S.left ∧ (fx : EReal) ≤ S.right then some t else none

/-- spring_loaded_inverted_pendulum.py 314-321 `SLIP.can_touch_stepping_stone`. -/
noncomputable def canTouch (s : Fin 4 → ℝ) (S : Stone) (θ : ℝ) : Bool := (P.timeToTouchdown s S θ).isSome

/-- The result of `apex_to_touchdown_gradient`. -/
structure TdGrad where
  dxApex : Matrix (Fin 4) (Fin 3) ℝ
  dxLeg : Fin 4 → ℝ
  x : Fin 4 → ℝ
  dtApex : Fin 3 → ℝ
  dtLeg : ℝ
  t : ℝ

/-- spring_loaded_inverted_pendulum.py 323-391 `SLIP.apex_to_touchdown_gradient`. -/
noncomputable def apexToTouchdownGrad (a : Fin 3 → ℝ) (θ : ℝ) : Option TdGrad := do
  let ground ← Stone.init ⊥ ⊤ 0
  let t ← P.timeToTouchdown ![a 0, a 1, a 2, 0] ground θ
  let dh := √(2 / P.g) * 0.5 / √(a 1 - P.l0 * cos θ)
  let dl := √(2 / P.g) * P.l0 * sin θ / (2 * √(a 1 - P.l0 * cos θ))
  some {
    dxApex := !![1, a 2 * dh, t; 0, 0, 0; 0, 0, 1; 0, -P.g * dh, 0]
    dxLeg := ![a 2 * dl, -P.l0 * sin θ, 0, -P.g * dl]
    x := ![a 0 + a 2 * t, P.l0 * cos θ, a 2, -P.g * t]
    dtApex := ![0, dh, 0]
    dtLeg := dl
    t := t }

/-- spring_loaded_inverted_pendulum.py 393-412 `SLIP.stance_dynamics_gradient`. -/
noncomputable def stanceGrad (x : Fin 5 → ℝ) : Matrix (Fin 5) (Fin 5) ℝ :=
  !![0, 0, 1, 0, 0;
     0, 0, 0, 1, 0;
     -P.k / P.mass + x 3 ^ 2, P.g * sin (x 1), 0, 2 * x 0 * x 3, 0;
     -(P.g * sin (x 1) - 2 * x 2 * x 3) / (x 0 ^ 2), P.g / x 0 * cos (x 1), -2 * x 3 / x 0, -2 * x 2 / x 0, 0;
     0, 0, 0, 0, 0]

/-- spring_loaded_inverted_pendulum.py 437-444 `gradient_dynamics`: the state and the matrix of its derivatives. -/
noncomputable def gradDynamics (y : (Fin 5 → ℝ) × Matrix (Fin 5) (Fin 5) ℝ) : (Fin 5 → ℝ) × Matrix (Fin 5) (Fin 5) ℝ :=
  (P.stance y.1, P.stanceGrad y.1 * y.2)

/-- The last state, the last matrix and the time of the first event of `solve_ivp` on `gradient_dynamics` from a state and
the identity, if the lift-off event has happened. -/
abbrev GradOde := (Fin 5 → ℝ) → Option ((Fin 5 → ℝ) × Matrix (Fin 5) (Fin 5) ℝ × ℝ)

/-- spring_loaded_inverted_pendulum.py 414-481 `SLIP.touchdown_to_liftoff_gradient`. -/
noncomputable def touchdownToLiftoffGrad (ode : GradOde) (x0 : Fin 5 → ℝ) :
    Option (Matrix (Fin 5) (Fin 5) ℝ × (Fin 5 → ℝ) × (Fin 5 → ℝ) × ℝ) := do
  let sol ← ode x0
  let xd := P.stance sol.1
  let dg : Fin 5 → ℝ := ![1, 0, 0, 0, 0]
  let dt : Fin 5 → ℝ := (-1 / (dg ⬝ᵥ xd)) • (dg ᵥ* sol.2.1)
  some (sol.2.1 + vecMulVec xd dt, sol.1, dt, sol.2.2)

open Classical in
/-- spring_loaded_inverted_pendulum.py 483-523 `SLIP.liftoff_to_apex_gradient`. -/
noncomputable def liftoffToApexGrad (s : Fin 4 → ℝ) : Option (Matrix (Fin 3) (Fin 4) ℝ × (Fin 3 → ℝ) × (Fin 4 → ℝ) × ℝ) :=
  if s 3 < 0 then none
  else
    let t := s 3 / P.g
    some (!![1, 0, s 3 / P.g, s 2 / P.g; 0, 1, 0, s 3 / P.g; 0, 0, 1, 0],
      ![s 0 + s 2 * t, s 1 + s 3 ^ 2 / (2 * P.g), s 2], ![0, 0, 0, 1 / P.g], t)

/-- spring_loaded_inverted_pendulum.py 525-555 `SLIP.touchdown_transition_gradient`. -/
noncomputable def touchdownGrad (s : Fin 4 → ℝ) (θ : ℝ) : Matrix (Fin 5) (Fin 4) ℝ × (Fin 5 → ℝ) :=
  (!![0, 0, 0, 0;
      0, 0, 0, 0;
      0, 0, -sin θ, cos θ;
      0, 0, -cos θ / P.l0, -sin θ / P.l0;
      1, 0, 0, 0],
   ![0, 1, -s 2 * cos θ - s 3 * sin θ, (s 2 * sin θ - s 3 * cos θ) / P.l0, P.l0 * cos θ])

/-- spring_loaded_inverted_pendulum.py 557-586 `SLIP.liftoff_transition_gradient`. -/
noncomputable def liftoffGrad (s : Fin 5 → ℝ) : Matrix (Fin 4) (Fin 5) ℝ :=
  !![0, -P.l0 * cos (s 1), 0, 0, 1;
     0, -P.l0 * sin (s 1), 0, 0, 0;
     0, P.l0 * sin (s 1) * s 3 - s 2 * cos (s 1), -sin (s 1), -P.l0 * cos (s 1), 0;
     0, -P.l0 * cos (s 1) * s 3 - s 2 * sin (s 1), cos (s 1), -P.l0 * sin (s 1), 0]

/-- The result of `apex_to_apex_gradient`. -/
structure ApexGrad where
  dxApex : Matrix (Fin 3) (Fin 3) ℝ
  dxLeg : Fin 3 → ℝ
  x : Fin 3 → ℝ
  dtApex : Fin 3 → ℝ
  dtLeg : ℝ
  t : ℝ
  dTdApex : Matrix (Fin 4) (Fin 3) ℝ
  dTdLeg : Fin 4 → ℝ
  xTd : Fin 4 → ℝ
  dLoApex : Matrix (Fin 4) (Fin 3) ℝ
  dLoLeg : Fin 4 → ℝ
  xLo : Fin 4 → ℝ

/-- spring_loaded_inverted_pendulum.py 588-670 `SLIP.apex_to_apex_gradient`. -/
noncomputable def apexToApexGrad (ode : GradOde) (a : Fin 3 → ℝ) (θ : ℝ) : Option ApexGrad := do
  let td ← P.apexToTouchdownGrad a θ
  let post := P.touchdownGrad td.x θ
  let postLeg := post.2 + post.1 *ᵥ td.dxLeg
  let xPostTd := P.touchdown td.x θ
  let lo ← P.touchdownToLiftoffGrad ode xPostTd
  let dLo := P.liftoffGrad lo.2.1
  let xLo := P.liftoff lo.2.1
  let ap ← P.liftoffToApexGrad xLo
  let dNextTd := ap.1 * (dLo * lo.1)
  let dPostApex := post.1 * td.dxApex
  let dLoApex := dLo * (lo.1 * dPostApex)
  let dLoLeg := dLo *ᵥ (lo.1 *ᵥ postLeg)
  some {
    dxApex := dNextTd * (post.1 * td.dxApex)
    dxLeg := dNextTd *ᵥ postLeg
    x := ap.2.1
    dtApex := td.dtApex + lo.2.2.1 ᵥ* dPostApex + ap.2.2.1 ᵥ* dLoApex
    dtLeg := td.dtLeg + lo.2.2.1 ⬝ᵥ postLeg + ap.2.2.1 ⬝ᵥ dLoLeg
    t := td.t + lo.2.2.2 + ap.2.2.2
    dTdApex := td.dxApex
    dTdLeg := td.dxLeg
    xTd := td.x
    dLoApex := dLoApex
    dLoLeg := dLoLeg
    xLo := xLo }

/-- The result of `apex_map_linear_approximation`: the map, the duration, and the rows `P [x; u] <= q`, each with its four
coefficients and its right-hand side. -/
structure ApexLin where
  A : Matrix (Fin 3) (Fin 3) ℝ
  B : Fin 3 → ℝ
  c : Fin 3 → ℝ
  at' : Fin 3 → ℝ
  bt : ℝ
  ct : ℝ
  rows : List ((Fin 4 → ℝ) × ℝ)

open Classical in
/-- slip_hybrid_linear_system.py 25-107 `SlipHybridLinearSystem.apex_map_linear_approximation`. -/
noncomputable def apexLinear (ode : GradOde) (a : Fin 3 → ℝ) (S : Stone) (θ : ℝ) : Option ApexLin :=
  if P.canTouch ![a 0, a 1, a 2, 0] S θ then do
    let G ← P.apexToApexGrad ode ![a 0, a 1 - S.height, a 2] θ
    let row1 : (Fin 4 → ℝ) × ℝ := (![0, -1, 0, -P.l0 * sin θ], -P.l0 * cos θ - S.height - P.l0 * sin θ * θ)
    let row2 : (Fin 4 → ℝ) × ℝ := (![-G.dLoApex 3 0, -G.dLoApex 3 1, -G.dLoApex 3 2, -G.dLoLeg 3],
      G.xLo 3 - (∑ j, G.dLoApex 3 j * a j) - G.dLoLeg 3 * θ)
    let rowL : List ((Fin 4 → ℝ) × ℝ) := if S.left = ⊥ then [] else
      [(![-G.dTdApex 0 0, -G.dTdApex 0 1, -G.dTdApex 0 2, -G.dTdLeg 0 - P.l0 * cos θ],
        G.xTd 0 + P.l0 * sin θ - S.left.toReal + (∑ j, -G.dTdApex 0 j * a j) + (-G.dTdLeg 0 - P.l0 * cos θ) * θ)]
    let rowR : List ((Fin 4 → ℝ) × ℝ) := if S.right = ⊤ then [] else
      [(![G.dTdApex 0 0, G.dTdApex 0 1, G.dTdApex 0 2, G.dTdLeg 0 + P.l0 * cos θ],
        S.right.toReal - G.xTd 0 - P.l0 * sin θ + (∑ j, G.dTdApex 0 j * a j) + (G.dTdLeg 0 + P.l0 * cos θ) * θ)]
    some {
      A := G.dxApex
      B := G.dxLeg
      c := G.x + (-(G.dxApex *ᵥ a) - θ • G.dxLeg + ![0, S.height, 0])
      at' := G.dtApex
      bt := G.dtLeg
      ct := G.t + (-(G.dtApex ⬝ᵥ a) - G.dtLeg * θ)
      rows := row1 :: row2 :: (rowL ++ rowR) }
  else none

end Slip

end NNL.Model
