import Verif.Model.Lyapunov
import Verif.Model.Pattern
import Verif.Model.Norm

/-!
# The derivative condition of a continuous-time system (continuous_time_lyapunov.py 17-302)

The class `LyapunovContinuousTimeSystem`. Names and warm starts are dropped. The dynamics constraint is a
parameter, as in `Model/Lyapunov`; its return value also carries bounds of `xdot` (interval arithmetic) or a
program from which the solver computes bounds. Those bounds are the parameter `RateBounds`.
-/

set_option linter.unusedSectionVars false

namespace NNL.Model

open NNL NNL.Spec

variable {K : Type*} [Field K] [LinearOrder K]

/-- What the derivative program takes from `system_constraint_return` to bound `xdot`: `x_next_lb_IA`,
`x_next_ub_IA`, or the values which the solver reports for `Wz` (relu_to_optimization.py 1210-1328) and for
`R xdot` (continuous_time_lyapunov.py 197-222). -/
inductive RateBounds (K : Type*) where
  | ia (lo up : Vec K) : RateBounds K
  | opt (wz : List (Vec K × Vec K)) (rlo rup : Vec K) : RateBounds K

/-- continuous_time_lyapunov.py 130-151: the bounds of `W_i z_i`. `IA_MIP` raises NotImplementedError. -/
def Lyap.wzBounds (L : Lyap K) (B : RateBounds K) : Option (List (Vec K × Vec K)) :=
  match L.method, B with
  | .ia, .ia lo up =>
    if lo.length = L.dim ∧ up.length = L.dim then wzBoundsIA L.net.hidden lo up else none
  | .opt _ false, .opt wz _ _ => some wz
  | _, _ => none

/-- continuous_time_lyapunov.py 197-222: the bounds of `R xdot`. -/
def Lyap.rateRange (L : Lyap K) (R : Mat K) (B : RateBounds K) : Option (Vec K × Vec K) :=
  match L.method, B with
  | .ia, .ia lo up => rangeIA L.dim R (zeros R.length) lo up
  | .opt _ false, .opt _ rlo rup => some (rlo, rup)
  | _, _ => none

/-- continuous_time_lyapunov.py 223-235: the loop over the rows of `R`; `sl` are the slacks, `al` the
binaries of the L1 norm. -/
def dl1Loop (n : ℕ) (xdot : List ℕ) : Mat K → Vec K → Vec K → List ℕ → List ℕ → Mip K → Option (Mip K)
  | r :: R, l :: lb, u :: ub, s :: sl, a :: al, m => do
    let p ← replaceBinaryContinuousProduct l u
    let m ← m.addMConstr [⟨n, p.Ax.map fun c => vsmul c r⟩, colT p.As, colT p.Aa] [xdot, [s], [a]] .le p.rhs
    dl1Loop n xdot R lb ub sl al m
  | [], _, _, _, _, m => some m
  | _, _, _, _, _, _ => none

/-- `torch.sum(R, dim=0)`. -/
def colSums (n : ℕ) (R : Mat K) : Vec K := (List.range n).map fun j => (R.map fun r => r.getD j 0).sum

/-- continuous_time_lyapunov.py 191-240 `_add_dl1dx_times_xdot`: the program, the coefficients, the
variables. -/
def Lyap.addDl1 (L : Lyap K) (m : Mip K) (lam : K) (R : Mat K) (al xdot : List ℕ) (B : RateBounds K) :
    Option (Mip K × Vec K × List ℕ) := do
  let b ← L.rateRange R B
  let t ← m.addVars R.length (noBound R.length) (noBound R.length) .continuous
  let m ← dl1Loop L.dim xdot R b.1 b.2 t.2 al t.1
  some (m, fullVec R.length (2 * lam) ++ vsmul (-lam) (colSums L.dim R), t.2 ++ xdot)

/-- continuous_time_lyapunov.py 119-123: the lower bound on `V`. -/
def Mip.addVLowerC (m : Mip K) (lower : Option K) (a : Vec K) (lam vc : K) (z s : List ℕ) (k : ℕ) :
    Option (Mip K) :=
  match lower with
  | none => some m
  | some l => m.addLConstr [a, fullVec k lam] [z, s] .ge (l - vc)

/-- continuous_time_lyapunov.py 124-128: the upper bound on `V`. -/
def Mip.addVUpperC (m : Mip K) (upper : Option K) (a : Vec K) (lam vc : K) (z s : List ℕ) (k : ℕ) :
    Option (Mip K) :=
  match upper with
  | none => some m
  | some u => m.addLConstr [a, fullVec k lam] [z, s] .le (u - vc)

/-- The first row of `Aout_slack`, which is `Aout_slack.reshape((-1, ))` when there is one row. -/
def outRow (A : Option (Tensor2 K)) : Option (Vec K) :=
  match A with
  | some ⟨_, [r]⟩ => some r
  | _ => none

/-- The named tuple returned by `lyapunov_derivative_as_milp` (continuous_time_lyapunov.py 182-189); the
slacks are returned as well. -/
structure RateRet (K : Type*) where
  m : Mip K
  x : List ℕ
  beta : List ℕ
  al : List ℕ
  xdot : List ℕ

/-- continuous_time_lyapunov.py 66-189 `lyapunov_derivative_as_milp`. The network is always encoded with
binaries (line 95 does not pass on `binary_var_type`). Any other type of epsilon than `ExpLower` fails the
assertion. -/
def Lyap.rate (L : Lyap K) (sys : SysConstr K) (B : RateBounds K) (xe : Vec K) (lam eps : K) (et : EpsType)
    (R : Option (Tensor2 K)) (lower upper : Option K) (bt : VType) : Option (RateRet K) :=
  if xe.length = L.dim ∧ et = .expLower then do
    let R' ← getR R L.dim
    let tx ← (Mip.empty : Mip K).addVars L.dim (noBound L.dim) (noBound L.dim) .continuous
    let td ← tx.1.addVars L.dim (noBound L.dim) (noBound L.dim) .continuous
    let d ← sys td.1 tx.2 td.2
    let t ← L.addRelu d.1 tx.2 .binary
    let q ← L.addL1 t.m xe tx.2 (some ⟨L.dim, R'⟩) false bt
    let vc := t.b - L.phi xe
    let m ← q.1.addVLowerC lower t.a lam vc t.z q.2.1 R'.length
    let m ← m.addVUpperC upper t.a lam vc t.z q.2.1 R'.length
    let wz ← L.wzBounds B
    let c ← gradTimesVecBounds L.net L.dim wz
    let g ← m.addMIC c td.2 none (.given t.beta) bt
    let ga ← outRow c.Aout_slack
    let al := q.2.2.map fun a => a.getD 0 0
    let e ← L.addDl1 g.1 lam R' al td.2 B
    let m ← e.1.setObjective [vsmul eps t.a, vsmul eps (fullVec R'.length lam), ga, e.2.1]
      [t.z, q.2.1, g.2.1, e.2.2] (vc * eps) true
    some ⟨m, tx.2, t.beta, al, td.2⟩
  else none

/-- lyapunov.py 492-505 `_lyapunov_gradient`: all the one-sided gradients of `V`. The network has one
output, so `squeeze(1)` of the Jacobians are their first rows. -/
def Lyap.gradients (L : Lyap K) (x xe : Vec K) (lam : K) (R : Mat K) (tol : K) : Option (Mat K) :=
  if x.length = L.dim then do
    let ds ← reluNetworkGradient tol L.net L.dim x
    let gs ← l1Gradient tol none (matVec R (vsub x xe))
    some (minkowskiSum (ds.map fun D => D.getD 0 []) (gs.map fun g => vsmul lam (vecMat L.dim g R)))
  else none

/-- continuous_time_lyapunov.py 44-64 `lyapunov_derivative`: the list of values; `xdot` is
`system.step_forward(x)`. `R` is used as it is, without `_get_R`: `None @ x` raises. -/
def Lyap.rates (L : Lyap K) (x xdot xe : Vec K) (lam eps : K) (R : Option (Tensor2 K)) (tol : K) :
    Option (Vec K) := do
  let R0 ← R
  let R' ← getR (some R0) L.dim
  let gs ← L.gradients x xe lam R' tol
  let v ← L.value x xe lam R
  some (gs.map fun g => dot g xdot + eps * v)

end NNL.Model
