import Verif.Model.Feedback
import Verif.Model.ExampleSystems

/-!
# `QuadrotorFeedbackSystem` (examples/quadrotor3d/quadrotor_feedback_system.py)

The answers of the solver for the programs of `create_prog_callback` are a parameter. `control_bound_prog` (lines 95-118), which is
only returned, is not modelled.
-/

set_option linter.unusedSectionVars false

namespace NNL.Model

open NNL NNL.Spec

variable {K : Type*} [Field K] [LinearOrder K]

/-- quadrotor_feedback_system.py 59-77 and feedback_system.py 115-119: the constraints of the controller network and the bounds of its
output. -/
def Feedback.ctrlCons (S : Feedback K) (N : Net K) (method : Method K) : Option (MIC K × Vec K × Vec K) := do
  let b ← layerBound method N.hidden S.xLo S.xUp
  let o ← outputBounds method N b.preLo b.preUp
  let c ← outputConsGivenBounds N S.xLo.length b.preLo b.preUp S.xLo S.xUp
  some (c, o.1, o.2)

/-- quadrotor_feedback_system.py 139-165 `create_prog_callback`: a program with the state, the input and the controller, and the
variables of the input of the forward network. `lp`: the bounds of the controller are computed by LP. -/
def Feedback.quadProg (S : Feedback K) (F : ExSys K) (N : Net K) (c : MIC K × Vec K × Vec K) (lo up : Vec K) (lp : Bool) :
    Option (Mip K × List ℕ) := do
  let x ← Mip.empty.addVars 12 (F.xLo.map some) (F.xUp.map some) .continuous
  let u ← x.1.addVars 4 (lo.map some) (up.map some) .continuous
  let t ← S.addNetCtrlGiven N c.1 c.2.1 c.2.2 u.1 x.2 u.2 (if lp then .continuous else .binary)
  some (t.1, seg x.2 3 6 ++ seg x.2 9 12 ++ u.2)

/-- quadrotor_feedback_system.py 47-174: both methods are `LP` or `MIP`. `cb p lo up` are the answers of the solver for the programs
that start with `p`, with the input of the forward network in the box `lo`, `up`. -/
def Feedback.quadJoint (S : Feedback K) (F : ExSys K) (N : Net K) (method : Method K) (lp : Bool)
    (cb : Mip K × List ℕ → Vec K → Vec K → Opt K) : SysConstr K := fun m x xn => do
  let u ← m.addVars S.uDim (noBound S.uDim) (noBound S.uDim) .continuous
  let c ← S.ctrlCons N method
  let t ← S.addNetCtrlGiven N c.1 c.2.1 c.2.2 u.1 x u.2 .binary
  let lo := List.zipWith max F.uLo t.2.2.2.1
  let up := List.zipWith min F.uUp t.2.2.2.2
  let bound := fun inLo inUp => (S.quadProg F N c lo up lp).bind fun p =>
    layerBound (.opt (cb p inLo inUp) false) F.net.hidden inLo inUp
  let f ← F.quadAddB bound t.1 x xn u.2 (some t.2.2.2.1) (some t.2.2.2.2)
  some (f.1, u.2 ++ f.2.1 ++ t.2.1, f.2.2 ++ t.2.2.1)

/-- quadrotor_feedback_system.py 21-174 `add_dynamics_mip_constraint`. A linear controller has no bound propagation (its method is left at
the default, `IA`). With `IA_MIP` and no `IA` the assertions of lines 48-53 fail. -/
def Feedback.quadFbAdd (S : Feedback K) (F : ExSys K) (lp : Bool) (cb : Mip K × List ℕ → Vec K → Vec K → Opt K) :
    SysConstr K :=
  match S.ctrl, F.method with
  | .lin _, _ => S.addDynamics F.quadAdd
  | .net _ .ia, _ => S.addDynamics F.quadAdd
  | .net _ (.opt _ _), .ia => S.addDynamics F.quadAdd
  | .net N (.opt o false), .opt _ false => S.quadJoint F N (.opt o false) lp cb
  | .net _ (.opt _ _), .opt _ _ => fun _ _ _ => none

end NNL.Model
