import Verif.Model.ReluSystem

/-!
# Network models of cars, the pole, quadrotors and the pendulum (`neural_network_lyapunov/examples`)

Simplifications: the constructors assert the dimensions, so that lists of variables and bounds have the asserted
lengths (a list that is too short is not an exception here but reads the default of `getD`); batches of states are not
modelled; `binary_var_type` is `BINARY`. The keyword arguments that `FeedbackSystem` passes are described in DESIGN.md.
-/

set_option linter.unusedSectionVars false

namespace NNL.Model

open NNL NNL.Spec

variable {K : Type*} [Field K] [LinearOrder K]

/-- `l[a:b]`. -/
def seg {α : Type*} (l : List α) (a b : ℕ) : List α := (l.drop a).take (b - a)

/-- The fields shared by the models: `x_lo`, `x_up`, `u_lo`, `u_up`, `dynamics_relu`, `u_equilibrium`, `dt`.
`x_equilibrium` is zero unless stated otherwise. -/
structure ExSys (K : Type*) where
  xLo : Vec K
  xUp : Vec K
  uLo : Vec K
  uUp : Vec K
  net : Net K
  uEq : Vec K
  dt : K
  /-- the bound propagation method passed to `output_constraint` -/
  method : Method K

/-- All rows of the constraint `I · next - I · now - A · slack = rhs`. -/
def incRows (p : ℕ) (A : Tensor2 K) : List (Tensor2 K) :=
  [⟨p, eye p⟩, ⟨p, (eye p).map vneg⟩, ⟨A.cols, A.rows.map vneg⟩]

/-- All rows of the constraint `I · next - I · now - dt/2 · I · vnext - dt/2 · I · vnow`. -/
def trapRows (p : ℕ) (dt : K) : List (Tensor2 K) :=
  [⟨p, eye p⟩, ⟨p, (eye p).map vneg⟩, ⟨p, (eye p).map (vsmul (-dt / 2))⟩, ⟨p, (eye p).map (vsmul (-dt / 2))⟩]

/-! ### Unicycle -/

/-- unicycle.py 153-158, 219-226, 233-236: `[θ, vel, θ̇]` or `[θ, vel]`, from a state and an input, their bounds or
their variables. -/
def uniIn {α : Type*} (d : α) (flag : Bool) (x u : List α) : List α :=
  if flag then [x.getD 2 d, u.getD 0 d, u.getD 1 d] else [x.getD 2 d, u.getD 0 d]

/-- unicycle.py 320-328, 394-404: `[θ, 0, θ̇]` or `[θ, 0]`. -/
def uniIn0 {α : Type*} (d z : α) (flag : Bool) (x u : List α) : List α :=
  if flag then [x.getD 2 d, z, u.getD 1 d] else [x.getD 2 d, z]

/-- Number of network inputs. -/
def uniSize (flag : Bool) : ℕ := if flag then 3 else 2

/-- `torch.all(u <= u_up)` and `torch.all(u >= u_lo)`. -/
def inLimits (uLo uUp u : Vec K) : Prop :=
  (∀ p ∈ List.zip u uUp, p.1 ≤ p.2) ∧ ∀ p ∈ List.zip u uLo, p.2 ≤ p.1

instance (uLo uUp u : Vec K) : Decidable (inLimits uLo uUp u) := inferInstanceAs (Decidable (_ ∧ _))

/-- unicycle.py 135-166 `UnicycleReLUModel.step_forward` for one state; `flag` is `thetadot_as_input`. -/
def ExSys.uniStep (S : ExSys K) (flag : Bool) (x u : Vec K) : Option (Vec K) :=
  if inLimits S.uLo S.uUp u then
    some (vadd (seg x 0 2) (vsub (S.net.eval (uniIn 0 flag x u)) (S.net.eval (zeros (uniSize flag)))) ++
      [x.getD 2 0 + u.getD 1 0 * S.dt])
  else none

/-- unicycle.py 193-268 `UnicycleReLUModel.add_dynamics_constraint`. -/
def ExSys.uniAdd (S : ExSys K) (flag : Bool) : CtrlConstr K := fun m x xn u aLo aUp => do
  let lo ← tightenU max S.uLo aLo
  let up ← tightenU min S.uUp aUp
  let r ← outputConstraint S.net (uniSize flag) (uniIn 0 flag S.xLo lo) (uniIn 0 flag S.xUp up) S.method
  let t ← m.addMIC r.mic (uniIn 0 flag x u) none .fresh .binary
  let A ← r.mic.Aout_slack
  let C ← r.mic.Cout
  let m ← t.1.addMConstr (incRows 2 A) [seg xn 0 2, seg x 0 2, t.2.1] .eq (vsub C (S.net.eval (zeros (uniSize flag))))
  let m ← m.addLConstr [[1, -1, -S.dt]] [[xn.getD 2 0, x.getD 2 0, u.getD 1 0]] .eq 0
  some (m, t.2.1, t.2.2)

/-- unicycle.py 301-345 `UnicycleReLUZeroVelModel.step_forward` for one state. -/
def ExSys.zeroStep (S : ExSys K) (flag : Bool) (x u : Vec K) : Option (Vec K) :=
  if inLimits S.uLo S.uUp u then
    some (vadd (seg x 0 2) (vsub (S.net.eval (uniIn 0 flag x u)) (S.net.eval (uniIn0 0 0 flag x u))) ++
      [x.getD 2 0 + u.getD 1 0 * S.dt])
  else none

/-- unicycle.py 361-461 `UnicycleReLUZeroVelModel.add_dynamics_constraint`: a variable fixed to zero is the velocity of
the second copy of the network; the slacks and binaries of the first copy are returned. -/
def ExSys.zeroAdd (S : ExSys K) (flag : Bool) : CtrlConstr K := fun m x xn u aLo aUp => do
  let lo ← tightenU max S.uLo aLo
  let up ← tightenU min S.uUp aUp
  let r ← outputConstraint S.net (uniSize flag) (uniIn 0 flag S.xLo lo) (uniIn 0 flag S.xUp up) S.method
  let r0 ← outputConstraint S.net (uniSize flag) (uniIn0 0 0 flag S.xLo lo) (uniIn0 0 0 flag S.xUp up) S.method
  let w ← m.addVars 1 [some 0] [some 0] .continuous
  let t ← w.1.addMIC r.mic (uniIn 0 flag x u) none .fresh .binary
  let t0 ← t.1.addMIC r0.mic (uniIn0 0 (w.2.getD 0 0) flag x u) none .fresh .binary
  let A ← r.mic.Aout_slack
  let C ← r.mic.Cout
  let A0 ← r0.mic.Aout_slack
  let C0 ← r0.mic.Cout
  let m ← t0.1.addMConstr (incRows 2 A ++ [A0]) [seg xn 0 2, seg x 0 2, t.2.1, t0.2.1] .eq (vsub C C0)
  let m ← m.addLConstr [[1, -1, -S.dt]] [[xn.getD 2 0, x.getD 2 0, u.getD 1 0]] .eq 0
  some (m, t.2.1, t.2.2)

/-! ### Car with acceleration -/

/-- acceleration_car.py 117-133 `step_forward` for one state `[x, y, θ, v]` and input `[θ̇, a]`. -/
def ExSys.carStep (S : ExSys K) (x u : Vec K) : Vec K :=
  vadd (seg x 0 2) (vsub (S.net.eval [x.getD 2 0, x.getD 3 0, u.getD 0 0, u.getD 1 0])
      (S.net.eval (seg (zeros 4) 2 4 ++ zeros 2))) ++
    [x.getD 2 0 + u.getD 0 0 * S.dt, x.getD 3 0 + u.getD 1 0 * S.dt]

/-- acceleration_car.py 153-224 `add_dynamics_constraint`. -/
def ExSys.carAdd (S : ExSys K) : CtrlConstr K := fun m x xn u aLo aUp => do
  let lo ← tightenU max S.uLo aLo
  let up ← tightenU min S.uUp aUp
  let r ← outputConstraint S.net 4 [S.xLo.getD 2 0, S.xLo.getD 3 0, lo.getD 0 0, lo.getD 1 0]
    [S.xUp.getD 2 0, S.xUp.getD 3 0, up.getD 0 0, up.getD 1 0] S.method
  let t ← m.addMIC r.mic [x.getD 2 0, x.getD 3 0, u.getD 0 0, u.getD 1 0] none .fresh .binary
  let A ← r.mic.Aout_slack
  let C ← r.mic.Cout
  let m ← t.1.addMConstr (incRows 2 A) [seg xn 0 2, seg x 0 2, t.2.1] .eq (vsub C (S.net.eval (zeros 4)))
  let m ← m.addLConstr [[1, -1, -S.dt]] [[xn.getD 2 0, x.getD 2 0, u.getD 0 0]] .eq 0
  let m ← m.addLConstr [[1, -1, -S.dt]] [[xn.getD 3 0, x.getD 3 0, u.getD 1 0]] .eq 0
  some (m, t.2.1, t.2.2)

/-! ### Pole -/

/-- pole_relu_system.py 63-73 `step_forward` for one state of dimension 7. -/
def ExSys.poleStep (S : ExSys K) (x u : Vec K) : Vec K :=
  let e : Vec K := zeros 7
  let vNext := vsub (vadd (seg x 2 7) (S.net.eval (seg x 0 2 ++ seg x 5 7 ++ u)))
    (S.net.eval (seg e 0 2 ++ seg e 5 7 ++ S.uEq))
  vadd (seg x 0 2) (vsmul (S.dt / 2) (vadd (vNext.drop (vNext.length - 2)) (x.drop (x.length - 2)))) ++ vNext

/-- pole_relu_system.py 89-150 `add_dynamics_constraint`. -/
def ExSys.poleAdd (S : ExSys K) : CtrlConstr K := fun m x xn u aLo aUp => do
  let lo ← tightenU max S.uLo aLo
  let up ← tightenU min S.uUp aUp
  let r ← outputConstraint S.net 7 (seg S.xLo 0 2 ++ S.xLo.drop (S.xLo.length - 2) ++ lo)
    (seg S.xUp 0 2 ++ S.xUp.drop (S.xUp.length - 2) ++ up) S.method
  let t ← m.addMIC r.mic (seg x 0 2 ++ x.drop (x.length - 2) ++ u) none .fresh .binary
  let A ← r.mic.Aout_slack
  let C ← r.mic.Cout
  let e : Vec K := zeros 7
  let m ← t.1.addMConstr (incRows 5 A) [xn.drop 2, x.drop 2, t.2.1] .eq
    (vsub C (S.net.eval (seg e 0 2 ++ e.drop (e.length - 2) ++ S.uEq)))
  let m ← m.addMConstr (trapRows 2 S.dt)
    [seg xn 0 2, seg x 0 2, xn.drop (xn.length - 2), x.drop (x.length - 2)] .eq [0, 0]
  some (m, t.2.1, t.2.2)

/-! ### Quadrotors -/

/-- quadrotor.py 252-274 `QuadrotorWithPixhawkReLUSystem.step_forward` for one state `[pos, rpy, vel]`. -/
def ExSys.pixStep (S : ExSys K) (x u : Vec K) : Vec K :=
  let pos := seg x 0 3
  let rpy := seg x 3 6
  let vel := seg x 6 9
  let d := vsub (S.net.eval (rpy ++ u)) (S.net.eval (zeros 3 ++ S.uEq))
  let velNext := vadd vel (seg d 0 3)
  let rpyNext := vadd rpy (d.drop 3)
  vadd pos (vsmul S.dt (vsmul (1 / 2) (vadd velNext vel))) ++ rpyNext ++ velNext

/-- quadrotor.py 295-365 `QuadrotorWithPixhawkReLUSystem.add_dynamics_constraint`. -/
def ExSys.pixAdd (S : ExSys K) : CtrlConstr K := fun m x xn u aLo aUp => do
  let lo ← tightenU max S.uLo aLo
  let up ← tightenU min S.uUp aUp
  let r ← outputConstraint S.net 7 (seg S.xLo 3 6 ++ lo) (seg S.xUp 3 6 ++ up) .ia
  let t ← m.addMIC r.mic (seg x 3 6 ++ u) none .fresh .binary
  let A ← r.mic.Aout_slack
  let C ← r.mic.Cout
  let m ← t.1.addMConstr (incRows 6 A) [seg xn 6 9 ++ seg xn 3 6, seg x 6 9 ++ seg x 3 6, t.2.1] .eq
    (vsub C (S.net.eval (zeros 3 ++ S.uEq)))
  let m ← m.addMConstr (trapRows 3 S.dt) [seg xn 0 3, seg x 0 3, seg xn 6 9, seg x 6 9] .eq (zeros 3)
  some (m, t.2.1, t.2.2)

/-- quadrotor.py 426-450 `QuadrotorReLUSystem.step_forward` for one state `[pos, rpy, posdot, ω]`. -/
def ExSys.quadStep (S : ExSys K) (x u : Vec K) : Vec K :=
  let e : Vec K := zeros 12
  let d := vsub (S.net.eval (seg x 3 6 ++ seg x 9 12 ++ u)) (S.net.eval (seg e 3 6 ++ seg e 9 12 ++ S.uEq))
  let posdotNext := vadd (seg x 6 9) (seg d 3 6)
  let posNext := vadd (seg x 0 3) (vsmul S.dt (vsmul (1 / 2) (vadd (seg x 6 9) posdotNext)))
  posNext ++ seg d 0 3 ++ posdotNext ++ seg d 6 9

/-- quadrotor.py 497-498: `posdot_curr_coeff`. -/
def posdotCoeff : Tensor2 K := ⟨3, zerosM 3 3 ++ (eye 3).map vneg ++ zerosM 3 3⟩

/-- quadrotor.py 474-570 `QuadrotorReLUSystem.add_dynamics_constraint` with the bounds of the units computed by `bound`
(lines 561-565). The bounds of the network output, which `output_constraint` would compute in addition, are not used. -/
def ExSys.quadAddB (S : ExSys K) (bound : Vec K → Vec K → Option (LayerBounds K)) : CtrlConstr K :=
  fun m x xn u aLo aUp => do
  let lo ← tightenU max S.uLo aLo
  let up ← tightenU min S.uUp aUp
  let inLo := seg S.xLo 3 6 ++ seg S.xLo 9 12 ++ lo
  let inUp := seg S.xUp 3 6 ++ seg S.xUp 9 12 ++ up
  let b ← bound inLo inUp
  let c ← outputConsGivenBounds S.net 10 b.preLo b.preUp inLo inUp
  let t ← m.addMIC c (seg x 3 6 ++ seg x 9 12 ++ u) none .fresh .binary
  let A ← c.Aout_slack
  let C ← c.Cout
  let e : Vec K := zeros 12
  let m ← t.1.addMConstr [⟨9, eye 9⟩, posdotCoeff, ⟨A.cols, A.rows.map vneg⟩] [seg xn 3 12, seg x 6 9, t.2.1] .eq
    (vsub C (S.net.eval (seg e 3 6 ++ seg e 9 12 ++ S.uEq)))
  let m ← m.addMConstr (trapRows 3 S.dt) [seg xn 0 3, seg x 0 3, seg xn 6 9, seg x 6 9] .eq (zeros 3)
  some (m, t.2.1, t.2.2)

/-- quadrotor.py 474-570 `QuadrotorReLUSystem.add_dynamics_constraint`, without the callback (`None`). -/
def ExSys.quadAdd (S : ExSys K) : CtrlConstr K := S.quadAddB (layerBound S.method S.net.hidden)

/-! ### Continuous time -/

/-- relu_system.py 1007-1056 `_add_forward_dynamics_mip_constraints` with the given `mixed_integer_constraints`
(without the programs for bounding the next state): the additional bounds of the input are passed on as they are. -/
def addForward (c : Option (Vec K) → Option (Vec K) → Option (ReluMIC K)) : CtrlConstr K :=
  fun m x xn u aLo aUp => do
    let r ← c aLo aUp
    m.addMIC r.mic (x ++ u) (some xn) .fresh .binary

/-- pendulum.py 167-206 `PendulumReluContinuousTime.mixed_integer_constraints`; `xEq` is `x_equilibrium`, which is
`[np.pi, 0]`. -/
def ExSys.pendMic (S : ExSys K) (xEq : Vec K) (uLo uUp : Option (Vec K)) : Option (ReluMIC K) := do
  let r ← outputConstraint S.net 3 (S.xLo ++ uLo.getD S.uLo) (S.xUp ++ uUp.getD S.uUp) S.method
  let e := S.net.eval (xEq ++ S.uEq)
  let C ← r.mic.Cout
  let A ← r.mic.Aout_slack
  let B : Tensor2 K := match r.mic.Aout_binary with
    | none => ⟨r.mic.numBinary, zerosM 2 r.mic.numBinary⟩
    | some B => ⟨B.cols, zerosM 1 r.mic.numBinary ++ B.rows⟩
  some { r with mic := { r.mic with
    Cout := some (0 :: e.map fun v => C.getD 0 0 - v)
    Aout_input := some ⟨3, [[0, 1, 0], [0, 0, 0]]⟩
    Aout_slack := some ⟨A.cols, zerosM 1 r.mic.numSlack ++ A.rows⟩
    Aout_binary := some B } }

/-- pendulum.py 200-205: `x_next_lb` and `x_next_ub`. -/
def ExSys.pendNextBounds (S : ExSys K) (xEq : Vec K) (r : ReluMIC K) : Vec K × Vec K :=
  let e := S.net.eval (xEq ++ S.uEq)
  ([S.xLo.getD 1 0, r.nnOutputLo.getD 0 0 - e.getD 0 0], [S.xUp.getD 1 0, r.nnOutputUp.getD 0 0 - e.getD 0 0])

/-- pendulum.py 208-213 `PendulumReluContinuousTime.step_forward` for one state. -/
def ExSys.pendStep (S : ExSys K) (xEq x u : Vec K) : Vec K :=
  let a := vsub (S.net.eval (x ++ u)) (S.net.eval (xEq ++ S.uEq))
  [x.getD 1 0, a.getD 0 0]

/-- quadrotor_2d.py 211-223 `QuadrotorReluContinuousTime.step_forward` for one state. -/
def ExSys.quad2Step (S : ExSys K) (x u : Vec K) : Vec K :=
  x.drop 3 ++ vsub (S.net.eval (seg x 2 3 ++ u)) (S.net.eval ([0] ++ S.uEq))

/-- quadrotor_2d.py 239-242: `A_transform`. -/
def quad2Transform : Tensor2 K := ⟨8, [eyeRow 8 2, eyeRow 8 6, eyeRow 8 7]⟩

/-- quadrotor_2d.py 267-271: `Ain_input_additional`. -/
def quad2Box : Mat K :=
  (List.range 2).map (fun i => eyeRow 8 i) ++ (List.range 2).map (fun i => vneg (eyeRow 8 i)) ++
    (List.range 3).map (fun i => eyeRow 8 (3 + i)) ++ (List.range 3).map fun i => vneg (eyeRow 8 (3 + i))

/-- `torch.cat((M, rows), dim=0)`; raises for `None` and for different numbers of columns. -/
def catTo (M : Option (Tensor2 K)) (cols : ℕ) (rows : Mat K) : Option (Tensor2 K) :=
  match M with
  | none => none
  | some A => if A.cols = cols then some ⟨A.cols, A.rows ++ rows⟩ else none

/-- quadrotor_2d.py 225-290 `QuadrotorReluContinuousTime.mixed_integer_constraints` (without `x_next_lb`, `x_next_ub`,
see `ExSys.quad2NextBounds`). -/
def ExSys.quad2Mic (S : ExSys K) (uLo uUp : Option (Vec K)) : Option (ReluMIC K) := do
  let r ← outputConstraint S.net 3 (seg S.xLo 2 3 ++ uLo.getD S.uLo) (seg S.xUp 2 3 ++ uUp.getD S.uUp) S.method
  let t ← r.mic.transformInput quad2Transform (zeros 3)
  let e := S.net.eval ([0] ++ S.uEq)
  let C ← t.Cout
  let A ← t.Aout_slack
  if t.Aout_input.isSome then none
  else
    let t : MIC K := { t with
      Cout := some (zeros 3 ++ vsub C e)
      Aout_input := some ⟨8, (List.range 3).map (fun i => eyeRow 8 (3 + i)) ++ zerosM 3 8⟩
      Aout_slack := some ⟨A.cols, zerosM 3 t.numSlack ++ A.rows⟩
      Aout_binary := t.Aout_binary.map fun B => ⟨B.cols, zerosM 3 t.numBinary ++ B.rows⟩ }
    let Ai ← catTo t.Ain_input 8 quad2Box
    let As ← catTo t.Ain_slack t.numSlack (zerosM 10 t.numSlack)
    let Ab ← catTo t.Ain_binary t.numBinary (zerosM 10 t.numBinary)
    let rhs ← t.rhs_in
    some { r with mic := { t with
      Ain_input := some Ai
      Ain_slack := some As
      Ain_binary := some Ab
      rhs_in := some (rhs ++ (seg S.xUp 0 2 ++ vneg (seg S.xLo 0 2) ++ seg S.xUp 3 6 ++ vneg (seg S.xLo 3 6))) } }

/-- quadrotor_2d.py 286-289: `x_next_lb` and `x_next_ub`. -/
def ExSys.quad2NextBounds (S : ExSys K) (r : ReluMIC K) : Vec K × Vec K :=
  let e := S.net.eval ([0] ++ S.uEq)
  (S.xLo.drop 3 ++ vsub r.nnOutputLo e, S.xUp.drop 3 ++ vsub r.nnOutputUp e)

end NNL.Model
