import Verif.Model.Cuts
import Verif.Model.Feedback

/-!
# Strengthening the derivative program with the cuts of its networks (lyapunov.py 865-927)

Simplifications: solver parameters are dropped; a list of values of the variables (`v.x`) is a function from
variables to numbers, which stays available during one turn of the loop.
-/

set_option linter.unusedSectionVars false

namespace NNL.Model

open NNL NNL.Spec

variable {K : Type*} [Field K] [LinearOrder K]

/-- A (leaky) ReLU network in a program: its input, slack and binary variables, and the bounds of the inputs of
its linear layers (`linear_inputs_lo`, `linear_inputs_up`). -/
structure NetAt (K : Type*) where
  net : Net K
  x : List ℕ
  s : List ℕ
  z : List ℕ
  lo : Vec K
  up : Vec K

/-- `model[0].in_features`. -/
def netInF (N : Net K) : ℕ :=
  match N.hidden with
  | [] => N.last.inF
  | (l, _) :: _ => l.inF

/-- relu_to_optimization.py 373-411 `strengthen_relu_mip_at_solution`, feedback_system.py 325-345
`strengthen_controller_mip_constraint` and 405-431 (the forward network): add the rows of
`strengthen_mip_at_point` at the values `v` of the variables, if there are any. -/
def Mip.strengthenNet (m : Mip K) (v : ℕ → K) (a : NetAt K) : Option (Mip K) := do
  let n := numUnits a.net.hidden
  let rows ← strengthenAt (netInF a.net) n ((a.x ++ a.s).map v) (a.z.map v) a.lo a.up true 0 0 0 a.net.hidden
  if rows.isEmpty then some m else
    m.addMConstr [⟨netInF a.net, rows.map LRow.x⟩, ⟨n, rows.map LRow.s⟩, ⟨n, rows.map LRow.z⟩]
      [a.x, a.s, a.z] .le (rows.map LRow.rhs)

/-- lyapunov.py 908-923: strengthen the networks one after the other at one solution. -/
def Mip.strengthenNets (v : ℕ → K) : List (NetAt K) → Mip K → Option (Mip K)
  | [], m => some m
  | a :: as, m => do
    let m ← m.strengthenNet v a
    Mip.strengthenNets v as m

/-- lyapunov.py 900-923: the loop. `solve` is the LP solver: the values of the variables, or none if the status
is not OPTIMAL (an assertion). -/
def strengthenPts (solve : Mip K → Option (ℕ → K)) (nets : List (NetAt K)) : ℕ → Mip K → Option (Mip K)
  | 0, m => some m
  | n + 1, m => do
    let v ← solve m
    let m ← Mip.strengthenNets v nets m
    strengthenPts solve nets n m

/-- `_add_system_constraint(system, milp, x, x_next, binary_var_type)`, and the networks that
`strengthen_dynamics_constraint` strengthens (none unless the system is a `FeedbackSystem`,
lyapunov.py 918). -/
abbrev SysNets (K : Type*) := Mip K → List ℕ → List ℕ → Option (Mip K × List ℕ × List ℕ × List (NetAt K))

/-- The system constraint without the networks. -/
def SysNets.constr (sys : SysNets K) : SysConstr K := fun m x xn =>
  (sys m x xn).map fun t => (t.1, t.2.1, t.2.2.1)

/-- A system that is not a `FeedbackSystem`. -/
def plainSys (sys : SysConstr K) : SysNets K := fun m x xn => (sys m x xn).map fun t => (t.1, t.2.1, t.2.2, [])

/-- lyapunov.py 575-782 `lyapunov_derivative_as_milp` as `Lyap.derivative`, with the networks in
`system_constraint_return`. -/
def Lyap.derivativeNets (L : Lyap K) (sys : SysNets K) (xe : Vec K) (lam eps : K) (et : EpsType)
    (R : Option (Tensor2 K)) (lower upper : Option K) (bt : VType) : Option (DerivRet K × List (NetAt K)) :=
  if xe.length = L.dim then do
    let R' ← getR R L.dim
    let tn ← (Mip.empty : Mip K).addVars L.dim (noBound L.dim) (noBound L.dim) .continuous
    let tx ← tn.1.addVars L.dim (noBound L.dim) (noBound L.dim) .continuous
    let d ← sys tx.1 tx.2 tn.2
    let t ← L.addRelu d.1 tx.2 bt
    let q ← L.addL1 t.m xe tx.2 (some ⟨L.dim, R'⟩) false bt
    let qn ← L.addL1 q.1 xe tn.2 (some ⟨L.dim, R'⟩) false bt
    let m ← qn.1.addVBounds lower upper t.a t.b lam t.z (L.phi xe) q.2.1
    let u ← L.addRelu m tn.2 bt
    let o := derivObj et t.a t.b lam eps (L.phi xe) R'.length
    let m ← u.m.setObjective o.1 [u.z, t.z, qn.2.1, q.2.1] o.2 true
    some (⟨m, tx.2, tn.2, d.2.1, d.2.2.1, t.z, u.z, t.beta, u.beta, t.ret, u.ret⟩, d.2.2.2)
  else none

/-- lyapunov.py 909-917: the network of the Lyapunov function at `x` and at `x_next`. -/
def Lyap.lyapNets (L : Lyap K) (D : DerivRet K) : List (NetAt K) :=
  [⟨L.net, D.x, D.z, D.beta, D.ret.nnInputLo ++ D.ret.reluOutputLo, D.ret.nnInputUp ++ D.ret.reluOutputUp⟩,
   ⟨L.net, D.xNext, D.zNext, D.betaNext, D.retNext.nnInputLo ++ D.retNext.reluOutputLo,
     D.retNext.nnInputUp ++ D.retNext.reluOutputUp⟩]

/-- lyapunov.py 865-927 `strengthen_lyapunov_derivative_as_milp(..., num_strengthen_pts)`. -/
def Lyap.strengthenMilp (L : Lyap K) (sys : VType → SysNets K) (xe : Vec K) (lam eps : K) (et : EpsType)
    (solve : Mip K → Option (ℕ → K)) (num : ℕ) (R : Option (Tensor2 K)) (lower upper : Option K) :
    Option (DerivRet K) := do
  let t ← L.derivativeNets (sys .relax) xe lam eps et R lower upper .relax
  let m ← strengthenPts solve (L.lyapNets t.1 ++ t.2) num t.1.m
  some { t.1 with m := m.removeRelaxation }

/-! ### The networks of a feedback system -/

/-- The network of the forward system in `ReLUDynamicsConstraintReturn` (relu_system.py 32-46): from the
variables `x`, `u`, the additional bounds of `u`, the slacks and the binaries. -/
abbrev FwdNets (K : Type*) := List ℕ → List ℕ → Option (Vec K) → Option (Vec K) → List ℕ → List ℕ →
  Option (List (NetAt K))

/-- A forward system whose `add_dynamics_constraint` does not return a `ReLUDynamicsConstraintReturn`
(feedback_system.py 401-402). -/
def noNets : FwdNets K := fun _ _ _ _ _ _ => some []

/-- relu_system.py 974-986 `_add_dynamics_mip_constraints` of a system with the network `N` (`addCtrl`): what it
returns. -/
def ctrlNets (N : Net K) (uLo uUp : Vec K) (c : Option (Vec K) → Option (Vec K) → Option (ReluMIC K)) :
    FwdNets K := fun x u aLo aUp s z => do
  let lo ← tightenU max uLo aLo
  let up ← tightenU min uUp aUp
  let r ← c (some lo) (some up)
  some [⟨N, x ++ u, s, z, r.nnInputLo ++ r.reluOutputLo, r.nnInputUp ++ r.reluOutputUp⟩]

/-- relu_system.py 894-961 `add_dynamics_constraint` (`SecondRelu.addResidue`): what it returns. -/
def SecondRelu.residueNets (S : SecondRelu K) : FwdNets K := fun x u aLo aUp s z => do
  let lo ← tightenU max S.uLo aLo
  let up ← tightenU min S.uUp aUp
  let xl ← pick S.xLo S.idx
  let xu ← pick S.xUp S.idx
  let r ← outputConstraint S.net (S.idx.length + S.uLo.length) (xl ++ lo) (xu ++ up) S.method
  some [⟨S.net, (S.idx.map fun i => x.getD i 0) ++ u, s, z, r.nnInputLo ++ r.reluOutputLo,
    r.nnInputUp ++ r.reluOutputUp⟩]

/-- feedback_system.py 325-332, 434-440: the controller network, if the controller is a network. -/
def Feedback.ctrlNets (S : Feedback K) (x s z : List ℕ) : Option (List (NetAt K)) :=
  match S.ctrl with
  | .net N method => do
    let r ← outputConstraint N S.xLo.length S.xLo S.xUp method
    some [⟨N, x, s, z, S.xLo ++ r.reluOutputLo, S.xUp ++ r.reluOutputUp⟩]
  | .lin _ => some []

/-- feedback_system.py 347-378 `add_dynamics_mip_constraint` as `Feedback.addDynamics`, with the networks in the
order in which `strengthen_dynamics_constraint` (380-439) strengthens them. -/
def Feedback.addDynamicsNets (S : Feedback K) (fwd : VType → CtrlConstr K) (nets : FwdNets K) (bt : VType) :
    SysNets K := fun m x xn => do
  let u ← m.addVars S.uDim (noBound S.uDim) (noBound S.uDim) .continuous
  let c ← S.addCtrl u.1 x u.2 bt
  let f ← fwd bt c.1 x xn u.2 (some c.2.2.2.1) (some c.2.2.2.2)
  let a ← nets x u.2 (some c.2.2.2.1) (some c.2.2.2.2) f.2.1 f.2.2
  let b ← S.ctrlNets x c.2.1 c.2.2.1
  some (f.1, u.2 ++ f.2.1 ++ c.2.1, f.2.2 ++ c.2.2.1, a ++ b)

end NNL.Model
