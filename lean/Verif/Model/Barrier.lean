import Verif.Model.Losses

/-!
# Barrier functions (barrier.py)

A `Barrier` has the same data as a `LyapunovHybridLinearSystem`: the bounds of the system, a network with one
output and a bound propagation method; the structure `Lyap` is reused.
-/

set_option linter.unusedSectionVars false

namespace NNL.Model

open NNL NNL.Spec

variable {K : Type*} [Field K] [LinearOrder K]

/-- barrier.py 58-68 `value` for one state; `c > 0` is asserted. -/
def Lyap.barrier (L : Lyap K) (x xs : Vec K) (c : K) : Option K :=
  if c > 0 then some (L.phi x - L.phi xs + c) else none

/-- `Aout_slack.squeeze(0)` used as a vector. -/
def squeezeRow0 (A : Option (Tensor2 K)) : Option (Vec K) :=
  match A with
  | some ⟨_, [r]⟩ => some r
  | _ => none

/-- The network constraints added in barrier.py 114-128 and 179-192: program, slacks, binaries,
`Aout_slack.squeeze(0)`, `Cout.squeeze()`. -/
def Lyap.addNet (L : Lyap K) (m : Mip K) (x : List ℕ) (bt : VType) : Option (ReluOut K) := do
  let r ← outputConstraint L.net L.dim L.xLo L.xUp L.method
  let t ← m.addMIC r.mic x none .fresh bt
  let a ← squeezeRow0 r.mic.Aout_slack
  let b ← squeezeScalar r.mic.Cout
  some ⟨t.1, t.2.1, t.2.2, a, b, r⟩

/-- barrier.py 129-140: coefficients and constant of the objective of `value_as_milp`. -/
def barrierObj (safe : Bool) (a : Vec K) (const : K) : Vec K × K :=
  if safe then (vneg a, const * -1) else (a, const)

/-- barrier.py 70-141 `value_as_milp`: the program and `x`. `c > 0` is not asserted here. -/
def Lyap.barrierValueMilp (L : Lyap K) (xs : Vec K) (c : K) (region : MIC K) (safe : Bool) :
    Option (Mip K × List ℕ) := do
  let tx ← (Mip.empty : Mip K).addVars L.dim (noBound L.dim) (noBound L.dim) .continuous
  let g ← tx.1.addMIC region tx.2 none .fresh .binary
  let t ← L.addNet g.1 tx.2 .binary
  let o := barrierObj safe t.a (t.b - L.phi xs + c)
  let m ← t.m.setObjective [o.1] [t.z] o.2 true
  some (m, tx.2)

/-- barrier.py 148-155 `derivative` at a state with successor `xn`. -/
def Lyap.barrierDerivative (L : Lyap K) (x xn xs : Vec K) (c eps : K) : Option K := do
  let vn ← L.barrier xn xs c
  let v ← L.barrier x xs c
  some (-vn + (1 - eps) * v)

/-- barrier.py 157-210 `derivative_as_milp`. -/
def Lyap.barrierDerivMilp (L : Lyap K) (sys : SysConstr K) (xs : Vec K) (c eps : K) (bt : VType) :
    Option (DerivRet K) := do
  let tx ← (Mip.empty : Mip K).addVars L.dim (noBound L.dim) (noBound L.dim) .continuous
  let tn ← tx.1.addVars L.dim (noBound L.dim) (noBound L.dim) .continuous
  let d ← sys tn.1 tx.2 tn.2
  let t ← L.addNet d.1 tx.2 bt
  let u ← L.addNet t.m tn.2 bt
  let m ← u.m.setObjective [vsmul (1 - eps) t.a, vneg t.a] [t.z, u.z] (eps * (-t.b + L.phi xs - c)) true
  some ⟨m, tx.2, tn.2, d.2.1, d.2.2, t.z, u.z, t.beta, u.beta, t.ret, u.ret⟩

/-- barrier.py 230-234: the hinge losses of the samples. Shapes: the code relies on torch to reject batches
of different sizes (a batch of one state would be broadcast; here it is rejected too). -/
def Lyap.barrierHinge (L : Lyap K) (xs xn : List (Vec K)) (xstar : Vec K) (c eps margin : K) :
    Option (Vec K) :=
  if c > 0 ∧ xs.length = xn.length then
    some ((List.zipWith (fun x x' => -(-(L.phi x' - L.phi xstar + c)
      + (1 - eps) * (L.phi x - L.phi xstar + c))) xs xn).map (hinge margin))
  else none

/-- barrier.py 212-235 `derivative_loss_at_samples_and_next_states`. -/
def Lyap.BarrierLoss (L : Lyap K) (xs xn : List (Vec K)) (xstar : Vec K) (c eps margin : K)
    (red : Reduction) (r : K) : Prop :=
  ∃ h, L.barrierHinge xs xn xstar c eps margin = some h ∧ Reduces red none h r

end NNL.Model
