import Verif.Model.ReluSystem

/-!
# The constructors of the systems whose dynamics is a network (relu_system.py)

A constructor that raises is `none`. The type of the arguments (`isinstance`) and `dtype` are not modelled; the layers of
a network are those of `torch.nn.Sequential`. `ReLUFreePattern(dynamics_relu, dtype)` keeps the network.
-/

set_option linter.unusedSectionVars false

namespace NNL.Model

open NNL NNL.Spec

variable {K : Type*} [Field K] [LinearOrder K]

/-- `dynamics_relu[0].in_features`. -/
def _root_.NNL.Spec.Net.inFeatures (net : Net K) : ℕ :=
  match net.hidden with
  | [] => net.last.inF
  | (l, _) :: _ => l.inF

/-- `dynamics_relu[-1].out_features`. -/
def _root_.NNL.Spec.Net.outFeatures (net : Net K) : ℕ := net.last.W.length

/-- `torch.all(a <= b)` for tensors of the same shape. -/
def allLe (a b : Vec K) : Prop := ∀ i, i < a.length → a.getD i 0 ≤ b.getD i 0

instance (a b : Vec K) : Decidable (allLe a b) := by unfold allLe; infer_instance

/-- relu_system.py 104-126 `AutonomousReLUSystem.__init__`; the fields that it does not have are filled. -/
def AutoRelu.new (xLo xUp : Vec K) (net : Net K) (method : Method K) : Option (AutoRelu K) :=
  if xLo.length = xUp.length ∧ allLe xLo xUp ∧ net.inFeatures = net.outFeatures then
    some ⟨xLo, xUp, net, zeros xLo.length, true, method⟩
  else none

/-- relu_system.py 193-221 `AutonomousReLUSystemGivenEquilibrium.__init__` and 301-329
`AutonomousResidualReLUSystemGivenEquilibrium.__init__`. -/
def AutoRelu.newEq (xLo xUp : Vec K) (net : Net K) (xEq : Vec K) (discrete : Bool) (method : Method K) :
    Option (AutoRelu K) :=
  if xLo.length = xUp.length ∧ allLe xLo xUp ∧ net.inFeatures = net.outFeatures ∧ xEq.length = xLo.length then
    some ⟨xLo, xUp, net, xEq, discrete, method⟩
  else none

/-- relu_system.py 413-444 `ReLUSystem.__init__`; the fields that it does not have are filled. -/
def CtrlRelu.new (xLo xUp uLo uUp : Vec K) (net : Net K) : Option (CtrlRelu K) :=
  if xLo.length = xUp.length ∧ allLe xLo xUp ∧ uLo.length = uUp.length ∧ allLe uLo uUp ∧
      net.inFeatures = xLo.length + uLo.length ∧ net.outFeatures = xLo.length then
    some ⟨xLo, xUp, uLo, uUp, net, zeros xLo.length, zeros uLo.length, true⟩
  else none

/-- relu_system.py 517-560 `ReLUSystemGivenEquilibrium.__init__`. -/
def CtrlRelu.newEq (xLo xUp uLo uUp : Vec K) (net : Net K) (xEq uEq : Vec K) (discrete : Bool) : Option (CtrlRelu K) :=
  if xLo.length = xUp.length ∧ allLe xLo xUp ∧ uLo.length = uUp.length ∧ allLe uLo uUp ∧
      net.inFeatures = xLo.length + uLo.length ∧ net.outFeatures = xLo.length ∧
      xEq.length = xLo.length ∧ allLe xLo xEq ∧ allLe xEq xUp ∧ uEq.length = uLo.length ∧ allLe uLo uEq ∧ allLe uEq uUp then
    some ⟨xLo, xUp, uLo, uUp, net, xEq, uEq, discrete⟩
  else none

/-- relu_system.py 637-686 `ReLUSecondOrderSystemGivenEquilibrium.__init__` (`idx = none`) and 798-851
`ReLUSecondOrderResidueSystemGivenEquilibrium.__init__` (`idx` the indices of the inputs of the network). A negative
`nq` is the shape of no tensor. -/
def SecondRelu.new (xLo xUp uLo uUp : Vec K) (net : Net K) (qEq uEq : Vec K) (dt : K) (idx : Option (List ℕ)) :
    Option (SecondRelu K) :=
  let xEq := qEq ++ zeros net.outFeatures
  if xUp.length = xLo.length ∧ uUp.length = uLo.length ∧
      net.inFeatures = (match idx with | none => xLo.length | some l => l.length) + uLo.length ∧
      net.outFeatures ≤ xLo.length ∧ qEq.length = xLo.length - net.outFeatures ∧ allLe xLo xEq ∧ allLe xEq xUp ∧
      uEq.length = uLo.length ∧ allLe uLo uEq ∧ allLe uEq uUp ∧ dt > 0 then
    some ⟨xLo, xUp, uLo, uUp, net, qEq, uEq, dt, idx.getD [], .ia⟩
  else none

end NNL.Model
