import Verif.Model.NetEnc
import Verif.Model.Mip
import Verif.Model.Lyapunov

/-!
# Systems whose dynamics is a network (relu_system.py)

The programs kept for computing bounds of the next state by optimisation (`x_next_bound_prog`) are in BoundProg
(relu_system.py 76-93) and FeedbackBound (1028-1055). Simplification:
one-element tensors are not broadcast (a length mismatch is an exception).
-/

set_option linter.unusedSectionVars false

namespace NNL.Model

open NNL NNL.Spec

variable {K : Type*} [Field K] [LinearOrder K]

/-- `result.Cout += v`. -/
def addCout (c : MIC K) (v : Vec K) : Option (MIC K) :=
  match c.Cout with
  | some w => if w.length = v.length then some { c with Cout := some (vadd w v) } else none
  | none => none

/-! ### Without input -/

/-- The fields of `AutonomousReLUSystem` (relu_system.py 104-126), and with an equilibrium of
`AutonomousReLUSystemGivenEquilibrium` (193-227) and `AutonomousResidualReLUSystemGivenEquilibrium`
(301-335). -/
structure AutoRelu (K : Type*) where
  xLo : Vec K
  xUp : Vec K
  net : Net K
  /-- `x_equilibrium` (not a field of `AutonomousReLUSystem`) -/
  xEq : Vec K
  /-- `discrete_time_flag` (not a field of `AutonomousReLUSystem`) -/
  discrete : Bool
  /-- `network_bound_propagate_method` -/
  method : Method K

/-- relu_system.py 136-150 `AutonomousReLUSystem.mixed_integer_constraints`. The number of inputs of the
network equals `x_dim` (asserted when its bounds are computed). -/
def AutoRelu.mic (S : AutoRelu K) : Option (ReluMIC K) :=
  outputConstraint S.net S.xLo.length S.xLo S.xUp S.method

/-- relu_system.py 157-159 `AutonomousReLUSystem.step_forward`. -/
def AutoRelu.step (S : AutoRelu K) (x : Vec K) : Vec K := S.net.eval x

/-- relu_system.py 231-249 `AutonomousReLUSystemGivenEquilibrium.mixed_integer_constraints`. -/
def AutoRelu.micEq (S : AutoRelu K) : Option (ReluMIC K) := do
  let r ← outputConstraint S.net S.xLo.length S.xLo S.xUp S.method
  let c ← addCout r.mic
    (if S.discrete then vadd (vneg (S.net.eval S.xEq)) S.xEq else vneg (S.net.eval S.xEq))
  some { r with mic := c }

/-- relu_system.py 256-263 `AutonomousReLUSystemGivenEquilibrium.step_forward`. -/
def AutoRelu.stepEq (S : AutoRelu K) (x : Vec K) : Vec K :=
  if S.discrete then vadd (vsub (S.net.eval x) (S.net.eval S.xEq)) S.xEq
  else vsub (S.net.eval x) (S.net.eval S.xEq)

/-- relu_system.py 339-360 `AutonomousResidualReLUSystemGivenEquilibrium.mixed_integer_constraints`. The
output of the network constraint has no `Aout_input`. -/
def AutoRelu.micRes (S : AutoRelu K) : Option (ReluMIC K) := do
  let r ← outputConstraint S.net S.xLo.length S.xLo S.xUp S.method
  let c ← addCout r.mic (vneg (S.net.eval S.xEq))
  if S.discrete then
    let A : Tensor2 K := match c.Aout_input with
      | none => ⟨S.xLo.length, eye S.xLo.length⟩
      | some A => ⟨A.cols, List.zipWith vadd A.rows (eye S.xLo.length)⟩
    some { r with mic := { c with Aout_input := some A } }
  else some { r with mic := c }

/-- relu_system.py 367-374 `AutonomousResidualReLUSystemGivenEquilibrium.step_forward`. -/
def AutoRelu.stepRes (S : AutoRelu K) (x : Vec K) : Vec K :=
  if S.discrete then vadd (vsub (S.net.eval x) (S.net.eval S.xEq)) x
  else vsub (S.net.eval x) (S.net.eval S.xEq)

/-- relu_system.py 49-69 `_add_dynamics_constraint_autonmous`: the program, slacks, binaries. -/
def addAuto (c : Option (ReluMIC K)) (bt : VType := .binary) : SysConstr K := fun m x xn => do
  let r ← c
  m.addMIC r.mic x (some xn) .fresh bt

/-- relu_system.py 172-176: `x_next_lb_IA`, `x_next_ub_IA` of `AutonomousReLUSystem`. -/
def AutoRelu.nextBounds (r : ReluMIC K) : Vec K × Vec K := (r.nnOutputLo, r.nnOutputUp)

/-- relu_system.py 276-283: the bounds of `AutonomousReLUSystemGivenEquilibrium`. -/
def AutoRelu.nextBoundsEq (S : AutoRelu K) (r : ReluMIC K) : Vec K × Vec K :=
  let e := S.net.eval S.xEq
  if S.discrete then
    (vadd (vsub r.nnOutputLo e) S.xEq, vadd (vsub r.nnOutputUp e) S.xEq)
  else (vsub r.nnOutputLo e, vsub r.nnOutputUp e)

/-- relu_system.py 384-393: the bounds of `AutonomousResidualReLUSystemGivenEquilibrium`. -/
def AutoRelu.nextBoundsRes (S : AutoRelu K) (r : ReluMIC K) : Vec K × Vec K :=
  let e := S.net.eval S.xEq
  if S.discrete then
    (vadd (vsub r.nnOutputLo e) S.xLo, vadd (vsub r.nnOutputUp e) S.xUp)
  else (vsub r.nnOutputLo e, vsub r.nnOutputUp e)

/-! ### With input -/

/-- `add_dynamics_constraint(mip, x, x_next, u, ..., additional_u_lo, additional_u_up)` of a system with
input: the program, slacks, binaries. -/
abbrev CtrlConstr (K : Type*) :=
  Mip K → List ℕ → List ℕ → List ℕ → Option (Vec K) → Option (Vec K) → Option (Mip K × List ℕ × List ℕ)

/-- relu_system.py 974-977: `torch.max(u_lo, additional_u_lo)` (`f = max`) and
`torch.min(u_up, additional_u_up)` (`f = min`). -/
def tightenU (f : K → K → K) (u : Vec K) (a : Option (Vec K)) : Option (Vec K) :=
  match a with
  | none => some u
  | some a => if a.length = u.length then some (List.zipWith f u a) else none

/-- The fields of `ReLUSystem` (relu_system.py 413-444) and with an equilibrium of
`ReLUSystemGivenEquilibrium` (518-560). -/
structure CtrlRelu (K : Type*) where
  xLo : Vec K
  xUp : Vec K
  uLo : Vec K
  uUp : Vec K
  net : Net K
  xEq : Vec K
  uEq : Vec K
  discrete : Bool

/-- relu_system.py 454-474 `ReLUSystem.mixed_integer_constraints(u_lo, u_up)`. -/
def CtrlRelu.mic (S : CtrlRelu K) (uLo uUp : Option (Vec K)) : Option (ReluMIC K) :=
  outputConstraint S.net (S.xLo.length + S.uLo.length) (S.xLo ++ uLo.getD S.uLo) (S.xUp ++ uUp.getD S.uUp) .ia

/-- relu_system.py 476-479 `ReLUSystem.step_forward`. -/
def CtrlRelu.step (S : CtrlRelu K) (x u : Vec K) : Vec K := S.net.eval (x ++ u)

/-- relu_system.py 570-590 `ReLUSystemGivenEquilibrium.mixed_integer_constraints(u_lo, u_up)`. -/
def CtrlRelu.micEq (S : CtrlRelu K) (uLo uUp : Option (Vec K)) : Option (ReluMIC K) := do
  let r ← outputConstraint S.net (S.xLo.length + S.uLo.length) (S.xLo ++ uLo.getD S.uLo)
    (S.xUp ++ uUp.getD S.uUp) .ia
  let c ← addCout r.mic (vneg (S.net.eval (S.xEq ++ S.uEq)))
  let c ← if S.discrete then addCout c S.xEq else some c
  some { r with mic := c }

/-- relu_system.py 592-600 `ReLUSystemGivenEquilibrium.step_forward`. -/
def CtrlRelu.stepEq (S : CtrlRelu K) (x u : Vec K) : Vec K :=
  let xn := vsub (S.net.eval (x ++ u)) (S.net.eval (S.xEq ++ S.uEq))
  if S.discrete then vadd xn S.xEq else xn

/-- relu_system.py 964-986 `_add_dynamics_mip_constraints` for a system with input bounds `uLo`, `uUp` and
the given `mixed_integer_constraints`. -/
def addCtrl (uLo uUp : Vec K) (c : Option (Vec K) → Option (Vec K) → Option (ReluMIC K))
    (bt : VType := .binary) : CtrlConstr K :=
  fun m x xn u aLo aUp => do
    let lo ← tightenU max uLo aLo
    let up ← tightenU min uUp aUp
    let r ← c (some lo) (some up)
    m.addMIC r.mic (x ++ u) (some xn) .fresh bt

/-! ### Second order -/

/-- The fields of `ReLUSecondOrderSystemGivenEquilibrium` (relu_system.py 637-685) and of
`ReLUSecondOrderResidueSystemGivenEquilibrium` (798-852). -/
structure SecondRelu (K : Type*) where
  xLo : Vec K
  xUp : Vec K
  uLo : Vec K
  uUp : Vec K
  net : Net K
  qEq : Vec K
  uEq : Vec K
  dt : K
  /-- `network_input_x_indices` (residue only); negative indices are not modelled -/
  idx : List ℕ := []
  /-- `network_bound_propagate_method` (residue only) -/
  method : Method K := .ia

/-- relu_system.py 667, 829 -/
def SecondRelu.nv (S : SecondRelu K) : ℕ := S.net.last.W.length
/-- relu_system.py 668, 830 -/
def SecondRelu.nq (S : SecondRelu K) : ℕ := S.xLo.length - S.nv
/-- relu_system.py 675-676, 837-838 -/
def SecondRelu.xEq (S : SecondRelu K) : Vec K := S.qEq ++ zeros S.nv

/-- relu_system.py 726-742: the output of the second-order system from that of the network (its two new
matrices and the new constant); `torch.cat` needs `nq = nv`. -/
def SecondRelu.secondOut (S : SecondRelu K) (A : Tensor2 K) (C : Vec K) :
    Option (Tensor2 K × Tensor2 K × Vec K) :=
  if S.nq = S.nv then some
    (⟨S.xLo.length + S.uLo.length,
      (List.range S.nq).map (fun i =>
        eyeRow S.nq i ++ vsmul (S.dt / 2) (eyeRow S.nv i) ++ zeros S.uLo.length) ++
      zerosM S.nv (S.xLo.length + S.uLo.length)⟩,
     ⟨A.cols, A.rows.map (fun r => vsmul (S.dt / 2) r) ++ A.rows⟩,
     vsmul (S.dt / 2) C ++ C)
  else none

/-- relu_system.py 696-742 `ReLUSecondOrderSystemGivenEquilibrium.mixed_integer_constraints(u_lo, u_up)`. -/
def SecondRelu.mic (S : SecondRelu K) (uLo uUp : Option (Vec K)) : Option (ReluMIC K) := do
  let r ← outputConstraint S.net (S.xLo.length + S.uLo.length) (S.xLo ++ uLo.getD S.uLo)
    (S.xUp ++ uUp.getD S.uUp) .ia
  let c ← addCout r.mic (vneg (S.net.eval (S.xEq ++ S.uEq)))
  let A ← c.Aout_slack
  let C ← c.Cout
  let o ← S.secondOut A C
  some { r with mic := { c with Aout_input := some o.1, Aout_slack := some o.2.1, Cout := some o.2.2 } }

/-- relu_system.py 744-761 `ReLUSecondOrderSystemGivenEquilibrium.step_forward` for one state. -/
def SecondRelu.step (S : SecondRelu K) (x u : Vec K) : Vec K :=
  let vNext := vsub (S.net.eval (x ++ u)) (S.net.eval (S.xEq ++ S.uEq))
  let qNext := vadd (x.take S.nq) (vsmul (S.dt / 2) (vadd (x.drop S.nq) vNext))
  qNext ++ vNext

/-- `x[indices]`. -/
def pick (x : Vec K) (idx : List ℕ) : Option (Vec K) :=
  if ∀ i ∈ idx, i < x.length then some (idx.map fun i => x.getD i 0) else none

/-- relu_system.py 861-887 `ReLUSecondOrderResidueSystemGivenEquilibrium.step_forward` for one state. -/
def SecondRelu.stepRes (S : SecondRelu K) (x u : Vec K) : Option (Vec K) := do
  let xs ← pick x S.idx
  let es ← pick S.xEq S.idx
  let q := x.take S.nq
  let v := x.drop S.nq
  let vNext := vsub (vadd v (S.net.eval (xs ++ u))) (S.net.eval (es ++ S.uEq))
  let qNext := vadd q (vsmul (S.dt / 2) (vadd v vNext))
  some (qNext ++ vNext)

/-- relu_system.py 894-961 `ReLUSecondOrderResidueSystemGivenEquilibrium.add_dynamics_constraint`. -/
def SecondRelu.addResidue (S : SecondRelu K) (bt : VType := .binary) : CtrlConstr K := fun m x xn u aLo aUp =>
  if ∀ i ∈ S.idx, i < x.length then do
    let lo ← tightenU max S.uLo aLo
    let up ← tightenU min S.uUp aUp
    let xl ← pick S.xLo S.idx
    let xu ← pick S.xUp S.idx
    let r ← outputConstraint S.net (S.idx.length + S.uLo.length) (xl ++ lo) (xu ++ up) S.method
    let t ← m.addMIC r.mic ((S.idx.map fun i => x.getD i 0) ++ u) none .fresh bt
    let A ← r.mic.Aout_slack
    let C ← r.mic.Cout
    let es ← pick S.xEq S.idx
    let m ← t.1.addMConstr
      [⟨S.nv, eye S.nv⟩, ⟨S.nv, (eye S.nv).map vneg⟩, ⟨A.cols, A.rows.map vneg⟩]
      [xn.drop S.nq, x.drop S.nq, t.2.1] .eq (vsub C (S.net.eval (es ++ S.uEq)))
    let m ← m.addMConstr
      [⟨S.nq, eye S.nq⟩, ⟨S.nq, (eye S.nq).map vneg⟩, ⟨S.nv, (eye S.nv).map (vsmul (-S.dt / 2))⟩,
        ⟨S.nv, (eye S.nv).map (vsmul (-S.dt / 2))⟩]
      [xn.take S.nq, x.take S.nq, xn.drop S.nq, x.drop S.nq] .eq (zeros S.nv)
    some (m, t.2.1, t.2.2)
  else none

end NNL.Model
