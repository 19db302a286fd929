import Verif.Model.Mip
import Verif.Model.NetEnc
import Verif.Spec.Norm

/-!
# Lyapunov functions and their mixed-integer programs (lyapunov.py)

`LyapunovHybridLinearSystem` and `LyapunovDiscreteTimeHybridSystem`. Warm starts only set Gurobi's `Start`
attributes and are dropped; so are names. The dynamics constraint of the system is a parameter (see
`Model/Systems`): every class of systems has its own function.
-/

set_option linter.unusedSectionVars false

namespace NNL.Model

open NNL NNL.Spec

variable {K : Type*} [Field K] [LinearOrder K]

/-- lyapunov.py 19-31 `ConvergenceEps`. -/
inductive EpsType where
  | expUpper | expLower | asymp
deriving DecidableEq

/-- lyapunov.py 35-62: a `LyapunovHybridLinearSystem`: the bounds `system.x_lo_all`, `system.x_up_all`, the
network and the bound propagation method. -/
structure Lyap (K : Type*) where
  xLo : Vec K
  xUp : Vec K
  net : Net K
  method : Method K := .ia

/-- `self.system.x_dim`. -/
def Lyap.dim (L : Lyap K) : ℕ := L.xLo.length

/-- lyapunov.py 1262-1271 `_get_R`. -/
def getR (R : Option (Tensor2 K)) (n : ℕ) : Option (Mat K) :=
  match R with
  | none => some (eye n)
  | some R => if R.cols = n then some R.rows else none

/-- `lyapunov_relu.forward(x)` of a network with one output, as a scalar. -/
def Lyap.phi (L : Lyap K) (x : Vec K) : K := (L.net.eval x).getD 0 0

/-- `torch.norm(R @ (x - x_equilibrium), p=1)`. -/
def l1err (R : Mat K) (xe x : Vec K) : K := ((matVec R (vsub x xe)).map fun a => |a|).sum

/-- lyapunov.py 160-186 `lyapunov_value` for a single state. -/
def Lyap.value (L : Lyap K) (x xe : Vec K) (lam : K) (R : Option (Tensor2 K)) : Option K :=
  (getR R L.dim).map fun R => L.phi x - L.phi xe + lam * l1err R xe x

/-- lyapunov.py 160-186 `lyapunov_value` for a batch of states. -/
def Lyap.values (L : Lyap K) (xs : List (Vec K)) (xe : Vec K) (lam : K) (R : Option (Tensor2 K)) :
    Option (Vec K) :=
  (getR R L.dim).map fun R => xs.map fun x => L.phi x - L.phi xe + lam * l1err R xe x

/-- What `add_lyap_relu_output_constraint` returns, with the new program. -/
structure ReluOut (K : Type*) where
  m : Mip K
  z : List ℕ
  beta : List ℕ
  a : Vec K
  b : K
  ret : ReluMIC K

/-- `Aout_slack.squeeze()` as it is used afterwards, namely as a vector of coefficients: a 1 x 1 tensor
becomes 0-dimensional and indexing it raises; a tensor with several rows is not a vector. The exception is
raised by the use of the result; the model raises it here, and all callers use the result. -/
def squeezeRow (A : Option (Tensor2 K)) : Option (Vec K) :=
  match A with
  | some ⟨n, [r]⟩ => if n = 1 then none else some r
  | _ => none

/-- `Cout.squeeze()` used as a scalar. -/
def squeezeScalar (c : Option (Vec K)) : Option K :=
  match c with
  | some [b] => some b
  | _ => none

/-- lyapunov.py 64-90 `add_lyap_relu_output_constraint`. -/
def Lyap.addRelu (L : Lyap K) (m : Mip K) (x : List ℕ) (bt : VType) : Option (ReluOut K) := do
  let r ← outputConstraint L.net L.dim L.xLo L.xUp L.method
  let t ← m.addMIC r.mic x none .fresh bt
  let a ← squeezeRow r.mic.Aout_slack
  let b ← squeezeScalar r.mic.Cout
  some ⟨t.1, t.2.1, t.2.2, a, b, r⟩

/-- lyapunov.py 138-157: the loop over the rows of `R`. -/
def l1Loop (n : ℕ) (xe : Vec K) (x : List ℕ) (flag : Bool) (bt : VType) :
    Mat K → Vec K → Vec K → Mip K → Option (Mip K × List ℕ × List (List ℕ))
  | r :: R, l :: lb, u :: ub, m => do
    let c ← absEnc l u flag
    let c ← c.transformInput ⟨n, [r]⟩ [dot (vneg r) xe]
    let t ← m.addMIC c x none .fresh bt
    let q ← l1Loop n xe x flag bt R lb ub t.1
    if t.2.1.length = 1 then some (q.1, t.2.1.getD 0 0 :: q.2.1, t.2.2 :: q.2.2) else none
  | _, _, _, m => some (m, [], [])

/-- lyapunov.py 92-158 `add_state_error_l1_constraint`. The result is the program, `s` and `alpha` (one list
of binaries for each entry of `s`). -/
def Lyap.addL1 (L : Lyap K) (m : Mip K) (xe : Vec K) (x : List ℕ) (R : Option (Tensor2 K)) (flag : Bool)
    (bt : VType) : Option (Mip K × List ℕ × List (List ℕ)) :=
  if (∀ i, i < L.dim → L.xLo.getD i 0 ≤ xe.getD i 0) ∧ (∀ i, i < L.dim → L.xUp.getD i 0 ≥ xe.getD i 0)
  then do
    let R ← getR R L.dim
    if R.length ≥ L.dim then do
      let b ← rangeIA L.dim R (matVec (R.map vneg) xe) L.xLo L.xUp
      l1Loop L.dim xe x flag bt R b.1 b.2 m
    else none
  else none

/-- `c * torch.ones((n,))`. -/
def fullVec (n : ℕ) (c : K) : Vec K := List.replicate n c

/-- lyapunov.py 188-221 `_lyapunov_value_as_milp`: `(V_coeff, V_vars, V_constant, s)` and the program. -/
def Lyap.valueMilp (L : Lyap K) (m : Mip K) (x : List ℕ) (xe : Vec K) (lam : K) (R : Option (Tensor2 K)) :
    Option (Mip K × List (Vec K) × List (List ℕ) × K × List ℕ) :=
  if x.length = L.dim then do
    let t ← L.addRelu m x .binary
    let q ← L.addL1 t.m xe x R false .binary
    some (q.1, [t.a, fullVec q.2.1.length lam], [t.z, q.2.1], t.b - L.phi xe, q.2.1)
  else none

/-- lyapunov.py 223-303 `lyapunov_positivity_as_milp`: the program and `x`. -/
def Lyap.positivity (L : Lyap K) (xe : Vec K) (lam eps : K) (R : Option (Tensor2 K)) :
    Option (Mip K × List ℕ) :=
  if xe.length = L.dim then do
    let tx ← (Mip.empty : Mip K).addVars L.dim (noBound L.dim) (noBound L.dim) .continuous
    let t ← L.addRelu tx.1 tx.2 .binary
    let q ← L.addL1 t.m xe tx.2 R false .binary
    let m ← q.1.setObjective [vneg t.a, fullVec q.2.1.length (eps - lam)] [t.z, q.2.1]
      (-t.b + L.phi xe) true
    some (m, tx.2)
  else none

/-- lyapunov.py 393-399: the lower bound. -/
def Mip.addVLower (m : Mip K) (lower : Option K) (a : Vec K) (b lam : K) (z : List ℕ) (phiE : K)
    (s : List ℕ) : Option (Mip K) :=
  match lower with
  | none => some m
  | some l => m.addLConstr [a, fullVec s.length lam] [z, s] .ge (l - b + phiE)

/-- lyapunov.py 400-406: the upper bound. -/
def Mip.addVUpper (m : Mip K) (upper : Option K) (a : Vec K) (b lam : K) (z : List ℕ) (phiE : K)
    (s : List ℕ) : Option (Mip K) :=
  match upper with
  | none => some m
  | some u => m.addLConstr [a, fullVec s.length lam] [z, s] .le (u - b + phiE)

/-- lyapunov.py 368-406 `add_lyapunov_bounds_constraint`. -/
def Mip.addVBounds (m : Mip K) (lower upper : Option K) (a : Vec K) (b lam : K) (z : List ℕ) (phiE : K)
    (s : List ℕ) : Option (Mip K) := do
  let m ← m.addVLower lower a b lam z phiE s
  m.addVUpper upper a b lam z phiE s

/-- lyapunov.py 408-480 `_construct_milp_for_roa_boundary`. -/
def Lyap.roaBoundary (L : Lyap K) (lam : K) (R : Option (Tensor2 K)) (xe : Vec K) :
    Option (Mip K × List ℕ) := do
  let n := L.dim
  let tx ← (Mip.empty : Mip K).addVars n (L.xLo.map some) (L.xUp.map some) .continuous
  let t ← L.addRelu tx.1 tx.2 .binary
  let zl ← t.m.addVars n (scalarBound n 0) (noBound n) .binary
  let zu ← zl.1.addVars n (scalarBound n 0) (noBound n) .binary
  let m ← zu.1.addLConstr [fullVec n 1, fullVec n 1] [zl.2, zu.2] .eq 1
  let m ← m.addMConstr [⟨n, eye n⟩, ⟨n, diagM (vsub L.xLo L.xUp)⟩] [tx.2, zu.2] .ge L.xLo
  let m ← m.addMConstr [⟨n, eye n⟩, ⟨n, diagM (vsub L.xUp L.xLo)⟩] [tx.2, zl.2] .le L.xUp
  let q ← L.addL1 m xe tx.2 R false .binary
  let m ← q.1.setObjective [t.a, fullVec q.2.1.length lam] [t.z, q.2.1] (t.b - L.phi xe) false
  some (m, tx.2)

/-- The dynamics constraint of a system: `_add_system_constraint(system, milp, x, x_next)`
(dynamic_system.py 8-53) returns the program, the slacks and the binaries. -/
abbrev SysConstr (K : Type*) := Mip K → List ℕ → List ℕ → Option (Mip K × List ℕ × List ℕ)

/-- The objective of lyapunov.py 733-762: coefficients, constant. The variables are
`[z_next, z, s_x_next_norm, s_x_norm]`. -/
def derivObj (et : EpsType) (a : Vec K) (b lam eps phiE : K) (sd : ℕ) : List (Vec K) × K :=
  match et with
  | .expLower =>
    ([a, vsmul (eps - 1) a, fullVec sd lam, fullVec sd ((eps - 1) * lam)], eps * (b - phiE))
  | .expUpper =>
    ([vneg a, vneg (vsmul (eps - 1) a), vneg (fullVec sd lam), vneg (fullVec sd ((eps - 1) * lam))],
      -(eps * (b - phiE)))
  | .asymp => ([a, vneg a, fullVec sd lam, fullVec sd (eps - lam)], 0)

/-- The variables returned by `lyapunov_derivative_as_milp` (lyapunov.py 765-782). -/
structure DerivRet (K : Type*) where
  m : Mip K
  x : List ℕ
  xNext : List ℕ
  s : List ℕ
  gamma : List ℕ
  z : List ℕ
  zNext : List ℕ
  beta : List ℕ
  betaNext : List ℕ
  ret : ReluMIC K
  retNext : ReluMIC K

/-- lyapunov.py 575-782 `lyapunov_derivative_as_milp`. -/
def Lyap.derivative (L : Lyap K) (sys : SysConstr K) (xe : Vec K) (lam eps : K) (et : EpsType)
    (R : Option (Tensor2 K)) (lower upper : Option K) (bt : VType) : Option (DerivRet K) :=
  if xe.length = L.dim then do
    let R' ← getR R L.dim
    let tn ← (Mip.empty : Mip K).addVars L.dim (noBound L.dim) (noBound L.dim) .continuous
    let tx ← tn.1.addVars L.dim (noBound L.dim) (noBound L.dim) .continuous
    let d ← sys tx.1 tx.2 tn.2
    let t ← L.addRelu d.1 tx.2 bt
    let q ← L.addL1 t.m xe tx.2 (some ⟨L.dim, R'⟩) false bt
    let qn ← L.addL1 q.1 xe tn.2 (some ⟨L.dim, R'⟩) false bt
    let m ← qn.1.addVBounds lower upper t.a t.b lam t.z (L.phi xe) q.2.1
    let u ← L.addRelu m tn.2 bt
    let o := derivObj et t.a t.b lam eps (L.phi xe) R'.length
    let m ← u.m.setObjective o.1 [u.z, t.z, qn.2.1, q.2.1] o.2 true
    some ⟨m, tx.2, tn.2, d.2.1, d.2.2, t.z, u.z, t.beta, u.beta, t.ret, u.ret⟩
  else none

/-- lyapunov.py 551-573 `lyapunov_derivative`: one value for each possible next state. -/
def Lyap.derivatives (L : Lyap K) (possible : List (Vec K)) (x xe : Vec K) (lam eps : K)
    (R : Option (Tensor2 K)) : Option (Vec K) := do
  let vn ← L.values possible xe lam R
  let v ← L.value x xe lam R
  some (vn.map fun w => w - v + eps * v)

/-! ### Region of attraction (lyapunov.py 1078-1259) -/

/-- lyapunov.py 1207-1216: lower and upper corner of the `i`-th of the `2 * x_dim` boxes next to the
verified box. -/
def roaBox (lo up loL upL : Vec K) (i : ℕ) : Vec K × Vec K :=
  if i < lo.length then (lo.set i (up.getD i 0), up.set i (upL.getD i 0))
  else (lo.set (i - lo.length) (loL.getD (i - lo.length) 0),
        up.set (i - lo.length) (lo.getD (i - lo.length) 0))

/-- lyapunov.py 1202-1230: the loop over the boxes; returns the program and the variables `t_slack`. -/
def roaLoop (lo up loL upL : Vec K) (zeta : List ℕ) : List ℕ → Mip K → Option (Mip K × List (List ℕ))
  | [], m => some (m, [])
  | i :: is, m => do
    let n := lo.length
    let t ← m.addVars n (noBound n) (noBound n) .continuous
    let b := roaBox lo up loL upL i
    let m ← t.1.addMConstr [colT b.1, ⟨n, negEye n⟩] [[zeta.getD i 0], t.2] .le (zeros n)
    let m ← m.addMConstr [⟨n, eye n⟩, colT (vneg b.2)] [t.2, [zeta.getD i 0]] .le (zeros n)
    let q ← roaLoop lo up loL upL zeta is m
    some (q.1, t.2 :: q.2)

/-- lyapunov.py 1163-1172: `x_lo <= x[n+1] <= x_up`, only when `x[n]` is outside of the box. -/
def Lyap.roaNext (L : Lyap K) (inBox : Bool) (m : Mip K) (xn : List ℕ) : Option (Mip K) :=
  if inBox then some m else do
    let m ← m.addMConstr [⟨L.dim, eye L.dim⟩] [xn] .le L.xUp
    m.addMConstr [⟨L.dim, negEye L.dim⟩] [xn] .le (vneg L.xLo)

/-- lyapunov.py 1133-1259 `_construct_milp_for_roa`: the program, `x_curr`, `x_next`. -/
def Lyap.roaMilp (L : Lyap K) (sys : SysConstr K) (lam : K) (R : Option (Tensor2 K)) (xe loL upL : Vec K)
    (inBox : Bool) : Option (Mip K × List ℕ × List ℕ) := do
  let n := L.dim
  let tx ← (Mip.empty : Mip K).addVars n (noBound n) (noBound n) .continuous
  let tn ← tx.1.addVars n (noBound n) (noBound n) .continuous
  let d ← sys tn.1 tx.2 tn.2
  let m ← L.roaNext inBox d.1 tn.2
  let t ← L.addRelu m tx.2 .binary
  let bz ← t.m.addVars (2 * n) (noBound (2 * n)) (noBound (2 * n)) .binary
  let m ← bz.1.addLConstr [fullVec (2 * n) 1] [bz.2] .eq 1
  let ts ← roaLoop L.xLo L.xUp loL upL bz.2 (List.range (2 * n)) m
  let m ← ts.1.addMConstr (⟨n, eye n⟩ :: List.replicate (2 * n) ⟨n, negEye n⟩)
    ((if inBox then tn.2 else tx.2) :: ts.2) .eq (zeros n)
  let q ← L.addL1 m xe tx.2 R false .binary
  let m ← q.1.setObjective [t.a, fullVec q.2.1.length lam] [t.z, q.2.1] (t.b - L.phi xe) false
  some (m, tx.2, tn.2)

/-- `np.min` of two extended numbers (`none` is `np.inf`). -/
def minInf (a b : Option K) : Option K :=
  match a, b with
  | none, b => b
  | a, none => a
  | some a, some b => some (min a b)

/-- lyapunov.py 1078-1131 `compute_region_of_attraction`: `o1`, `o2` are `ObjVal` if the status is OPTIMAL
and `np.inf` (`none`) otherwise. -/
def roaValue (o1 o2 vUpper : Option K) : Option K := minInf (minInf o1 o2) vUpper

end NNL.Model
