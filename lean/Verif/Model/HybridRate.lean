import Verif.Model.ContinuousLyap
import Verif.Model.Hybrid
import Verif.Model.Losses

/-!
# The derivative condition of a continuous-time hybrid linear system (continuous_time_lyapunov.py 305-1264)

The class `LyapunovContinuousTimeHybridSystem`. The system is an `AutonomousHybridLinearSystem`
(`Model/Hybrid`). Names and warm starts are dropped.
-/

set_option linter.unusedSectionVars false

namespace NNL.Model

open NNL NNL.Spec

variable {K : Type*} [Field K] [LinearOrder K]

/-- continuous_time_lyapunov.py 347-350, 832-834, 1018-1020, 1160-1162, 1232-1234: `R` must be `None` or the
identity, otherwise an exception is raised. -/
def isIdR (n : ℕ) (R : Option (Tensor2 K)) : Prop :=
  match R with
  | none => True
  | some R => R.cols = n ∧ R.rows = eye n

instance (n : ℕ) (R : Option (Tensor2 K)) : Decidable (isIdR n R) := by
  unfold isIdR
  split <;> infer_instance

/-- The common part of `add_relu_gradient_times_Aisi` (continuous_time_lyapunov.py 465-493),
`add_relu_gradient_times_xdot` (524-542) and `add_relu_gradient_times_gigammai` (581-602): the slacks `z` are
new variables and the rows of `mip_cnstr_return` are added for the given binaries `beta`, where `Ax` are
the coefficients of the variables `x`. Returned are the program, `z` and the coefficients `A_out`. -/
def Mip.addGradRows (m : Mip K) (c : MIC K) (Ax : Tensor2 K) (x beta : List ℕ) :
    Option (Mip K × List ℕ × Vec K) := do
  let ga ← outRow c.Aout_slack
  let As ← c.Ain_slack
  let Ab ← c.Ain_binary
  let rhs ← c.rhs_in
  let t ← m.addVars As.cols (noBound As.cols) (noBound As.cols) .continuous
  let m ← t.1.addMConstr [Ax, As, Ab] [x, t.2, beta] .le rhs
  some (m, t.2, ga)

/-- `M @ A` for the matrix `M` of coefficients. -/
def mulRight (k : ℕ) (M : Tensor2 K) (A : Mat K) : Tensor2 K := ⟨k, M.rows.map fun r => vecMat k r A⟩

/-- continuous_time_lyapunov.py 495-542 `add_relu_gradient_times_xdot`. -/
def Lyap.addGradXdot (L : Lyap K) (m : Mip K) (xdot beta : List ℕ) (lo up : Vec K) :
    Option (Mip K × List ℕ × Vec K) := do
  let c ← gradTimesVec L.net L.dim lo up
  let A ← c.Ain_input
  m.addGradRows c A xdot beta

/-- continuous_time_lyapunov.py 732-778 `add_sign_state_error_times_xdot`, the loop: `sl` are the slacks. -/
def signXdotLoop : List ℕ → Vec K → Vec K → List ℕ → List ℕ → Mip K → Option (Mip K)
  | d :: xdot, l :: lo, u :: up, s :: sl, a :: al, m => do
    let p ← replaceBinaryContinuousProduct l u
    let m ← m.addMConstr [colT p.Ax, colT p.As, colT p.Aa] [[d], [s], [a]] .le p.rhs
    signXdotLoop xdot lo up sl al m
  | [], _, _, _, _, m => some m
  | _, _, _, _, _, _ => none

/-- continuous_time_lyapunov.py 732-778 `add_sign_state_error_times_xdot`: the program, `z`, `z_coeff` and
`xdot_coeff`. -/
def Lyap.addSignXdot (L : Lyap K) (m : Mip K) (xdot al : List ℕ) (lo up : Vec K) :
    Option (Mip K × List ℕ × Vec K × Vec K) :=
  if xdot.length = L.dim ∧ al.length = L.dim then do
    let t ← m.addVars L.dim (noBound L.dim) (noBound L.dim) .continuous
    let m ← signXdotLoop xdot lo up t.2 al t.1
    some (m, t.2, fullVec L.dim 2, fullVec L.dim (-1))
  else none

/-- The named tuple returned by the programs (continuous_time_lyapunov.py 953-955, 1118-1120). The velocity
variables are returned as well; they do not exist in the second program. -/
structure HRateRet (K : Type*) where
  m : Mip K
  x : List ℕ
  beta : List ℕ
  gamma : List ℕ
  xdot : List ℕ := []

/-- continuous_time_lyapunov.py 957-1120 `lyapunov_derivative_as_milp`. The binary of each entry of the L1
norm is the only element of its list (lyapunov.py 154-155). -/
def Lyap.hybridRate (L : Lyap K) (S : AutoHybrid K) (xe : Vec K) (lam eps : K) (et : EpsType)
    (R : Option (Tensor2 K)) (lower upper : Option K) : Option (HRateRet K) :=
  if xe.length = L.dim ∧ et = .expLower ∧ isIdR L.dim R then do
    let tx ← (Mip.empty : Mip K).addVars L.dim (noBound L.dim) (noBound L.dim) .continuous
    let td ← tx.1.addVars L.dim (noBound L.dim) (noBound L.dim) .continuous
    let d ← S.addDynamics .binary td.1 tx.2 td.2
    let t ← L.addRelu d.1 tx.2 .binary
    let q ← L.addL1 t.m xe tx.2 none false .binary
    let al := q.2.2.map fun a => a.getD 0 0
    let m ← q.1.addVBounds lower upper t.a t.b lam t.z (L.phi xe) q.2.1
    let dlo ← finVec S.dxLo
    let dup ← finVec S.dxUp
    let g ← L.addGradXdot m td.2 t.beta dlo dup
    let e ← L.addSignXdot g.1 td.2 al dlo dup
    let m ← e.1.setObjective
      [g.2.2, vsmul lam e.2.2.1, vsmul lam e.2.2.2, vsmul eps t.a, fullVec L.dim (eps * lam)]
      [g.2.1, e.2.1, td.2, t.z, q.2.1] (eps * t.b - eps * L.phi xe) true
    some ⟨m, tx.2, t.beta, d.2.2, td.2⟩
  else none

/-! ### The program without velocity variables -/

/-- continuous_time_lyapunov.py 401-418 `__compute_Aisi_bounds` for one mode: the bounds of `A_i x`
(hybrid_linear_system.py 647-656 `mode_derivative_bounds`), widened to contain zero. -/
def aisiBounds (S : AutoHybrid K) (i : ℕ) : Option (Vec K × Vec K) := do
  let lo ← S.axLo[i]?
  let up ← S.axUp[i]?
  let lo ← finVec lo
  let up ← finVec up
  some (lo.map fun a => min a 0, up.map fun a => max a 0)

/-- continuous_time_lyapunov.py 420-435 `__compute_gigammai_bounds` for one mode. -/
def gigammaiBounds (md : AMode K) : Vec K × Vec K := (md.g.map fun a => min 0 a, md.g.map fun a => max 0 a)

/-- A loop over the modes which adds variables and constraints for each of them; `f` returns the program, the
new variables and coefficients. -/
def modeLoop (f : ℕ → AMode K → Mip K → Option (Mip K × List ℕ × Vec K)) :
    ℕ → List (AMode K) → Mip K → Option (Mip K × List (List ℕ) × List (Vec K))
  | _, [], m => some (m, [], [])
  | i, md :: mds, m => do
    let t ← f i md m
    let r ← modeLoop f (i + 1) mds t.1
    some (r.1, t.2.1 :: r.2.1, t.2.2 :: r.2.2)

/-- The variables `s_i`: `s[i * x_dim : (i + 1) * x_dim]`. -/
def modeSlack (n : ℕ) (s : List ℕ) (i : ℕ) : List ℕ := (s.drop (i * n)).take n

/-- continuous_time_lyapunov.py 437-493 `add_relu_gradient_times_Aisi`, one mode. -/
def Lyap.gradAisi (L : Lyap K) (S : AutoHybrid K) (s beta : List ℕ) (i : ℕ) (md : AMode K) (m : Mip K) :
    Option (Mip K × List ℕ × Vec K) := do
  let b ← aisiBounds S i
  let c ← gradTimesVec L.net L.dim b.1 b.2
  let A ← c.Ain_input
  m.addGradRows c (mulRight L.dim A md.A) (modeSlack L.dim s i) beta

/-- continuous_time_lyapunov.py 544-602 `add_relu_gradient_times_gigammai`, one mode. -/
def Lyap.gradGigammai (L : Lyap K) (gamma beta : List ℕ) (i : ℕ) (md : AMode K) (m : Mip K) :
    Option (Mip K × List ℕ × Vec K) := do
  let b := gigammaiBounds md
  let c ← gradTimesVec L.net L.dim b.1 b.2
  let A ← c.Ain_input
  m.addGradRows c (colT (matVec A.rows md.g)) [gamma.getD i 0] beta

/-- continuous_time_lyapunov.py 604-666 `add_sign_state_error_times_Aisi`, one mode; the coefficients are
`s_coeff`. -/
def Lyap.signAisi (L : Lyap K) (S : AutoHybrid K) (s al : List ℕ) (i : ℕ) (md : AMode K) (m : Mip K) :
    Option (Mip K × List ℕ × Vec K) := do
  let b ← aisiBounds S i
  let t ← m.addVars L.dim (noBound L.dim) (noBound L.dim) .continuous
  let m ← dl1Loop L.dim (modeSlack L.dim s i) md.A b.1 b.2 t.2 al t.1
  some (m, t.2, vneg (colSums L.dim md.A))

/-- continuous_time_lyapunov.py 718-729: the loop over the entries of `g_i`; `y` is the binary of the mode. -/
def signGammaLoop (y : ℕ) : Vec K → Vec K → Vec K → List ℕ → List ℕ → Mip K → Option (Mip K)
  | g :: gs, l :: lo, u :: up, s :: sl, a :: al, m => do
    let p ← replaceBinaryContinuousProduct l u
    let m ← m.addMConstr [colT (p.Ax.map fun c => c * g), colT p.As, colT p.Aa] [[y], [s], [a]] .le p.rhs
    signGammaLoop y gs lo up sl al m
  | [], _, _, _, _, m => some m
  | _, _, _, _, _, _ => none

/-- continuous_time_lyapunov.py 668-730 `add_sign_state_error_times_gigammai`, one mode; the coefficients are
`gamma_coeff`. -/
def Lyap.signGigammai (L : Lyap K) (gamma al : List ℕ) (i : ℕ) (md : AMode K) (m : Mip K) :
    Option (Mip K × List ℕ × Vec K) := do
  let b := gigammaiBounds md
  let t ← m.addVars L.dim (noBound L.dim) (noBound L.dim) .continuous
  let m ← signGammaLoop (gamma.getD i 0) md.g b.1 b.2 t.2 al t.1
  some (m, t.2, [-md.g.sum])

/-- continuous_time_lyapunov.py 780-955 `lyapunov_derivative_as_milp2`. The dynamics are added without output
variables. The factor of `z4` is the one of `z3` (line 912), which is the same number. -/
def Lyap.hybridRate2 (L : Lyap K) (S : AutoHybrid K) (xe : Vec K) (lam eps : K) (et : EpsType)
    (R : Option (Tensor2 K)) (lower upper : Option K) : Option (HRateRet K) :=
  if xe.length = L.dim ∧ et = .expLower ∧ isIdR L.dim R then do
    let tx ← (Mip.empty : Mip K).addVars L.dim (noBound L.dim) (noBound L.dim) .continuous
    let cd ← S.mic none none
    let d ← tx.1.addMIC cd tx.2 none .fresh .binary
    let t ← L.addRelu d.1 tx.2 .binary
    let q ← L.addL1 t.m xe tx.2 none false .binary
    let al := q.2.2.map fun a => a.getD 0 0
    let m ← q.1.addVBounds lower upper t.a t.b lam t.z (L.phi xe) q.2.1
    let z1 ← modeLoop (L.gradAisi S d.2.1 t.beta) 0 S.modes m
    let z2 ← modeLoop (L.gradGigammai d.2.2 t.beta) 0 S.modes z1.1
    if d.2.1.length = L.dim * S.modes.length ∧ al.length = L.dim then do
      let z3 ← modeLoop (L.signAisi S d.2.1 al) 0 S.modes z2.1
      let z4 ← modeLoop (L.signGigammai d.2.2 al) 0 S.modes z3.1
      let two := fun _ : List ℕ => vsmul lam (fullVec L.dim 2)
      let m ← z4.1.setObjective
        (z1.2.2 ++ z2.2.2 ++ z3.2.1.map two ++ z4.2.1.map two ++
          [(z3.2.2.map (vsmul lam)).flatten, (z4.2.2.map (vsmul lam)).flatten, vsmul eps t.a,
            fullVec L.dim (eps * lam)])
        (z1.2.1 ++ z2.2.1 ++ z3.2.1 ++ z4.2.1 ++ [d.2.1, d.2.2, t.z, q.2.1])
        (eps * t.b - eps * L.phi xe) true
      some ⟨m, tx.2, t.beta, d.2.2, []⟩
    else none
  else none

/-! ### Values at a state -/

/-- continuous_time_lyapunov.py 361-382: the queue of signs; the entries where `x = x*` have both. -/
def signQueue : Vec K → Vec K → List (Vec K) → List (Vec K)
  | a :: x, b :: xe, q =>
    signQueue x xe (q.flatMap fun l =>
      if a > b then [l ++ [1]] else if a < b then [l ++ [-1]] else [l ++ [1], l ++ [-1]])
  | _, _, q => q

/-- continuous_time_lyapunov.py 322-399 `lyapunov_derivative`. With one state, `squeeze()` makes the gradients
0-dimensional and `@` raises (unless there is nothing to multiply). -/
def Lyap.hybridRates (L : Lyap K) (S : AutoHybrid K) (x xe : Vec K) (lam eps : K) (R : Option (Tensor2 K)) :
    Option (Vec K) :=
  if x.length = L.dim ∧ xe.length = L.dim ∧ isIdR L.dim R then do
    let v ← L.value x xe lam R
    let xds ← S.possibleDx x
    let ds ← (allPatterns L.net.hidden x).mapM fun pat =>
      (reluGivenPattern L.net L.dim pat).map fun p => p.gT.getD 0 []
    if L.dim = 1 ∧ xds ≠ [] then none
    else
      let dV := ds.flatMap fun D => (signQueue x xe [[]]).map fun g => vadd D (vsmul lam g)
      some ((dV.flatMap fun g => xds.map fun d => dot g d).map fun r => r + eps * v)
  else none

/-! ### Losses at samples -/

/-- The units whose derivative `torch.autograd.grad` takes as active (continuous_time_lyapunov.py 1239-1247): the
derivative of `relu` at zero is zero, that of `leaky_relu` is its slope. -/
def strictPattern : List (Lin K × Act K) → Vec K → List (List Bool)
  | [], _ => []
  | (l, a) :: hs, x => (l.eval x).map (fun y => decide (y > 0)) :: strictPattern hs ((l.eval x).map a.f)

/-- `torch.sign`. -/
def torchSign (a : K) : K := if a > 0 then 1 else if a < 0 then -1 else 0

/-- continuous_time_lyapunov.py 1239-1251: `Vdot` of one sample. The gradient of the network is taken as the
gradient of its affine piece. -/
def Lyap.sampleVdot (L : Lyap K) (x xd xe : Vec K) (lam : K) : Option K :=
  (reluGivenPattern L.net L.dim (strictPattern L.net.hidden x)).map fun p =>
    dot (vadd (p.gT.getD 0 []) (vsmul lam ((vsub x xe).map torchSign))) xd

/-- continuous_time_lyapunov.py 1254-1262: the value which is penalised. -/
def rateVal (et : EpsType) (eps vd v e : K) : K :=
  match et with
  | .expLower => vd + eps * v
  | .expUpper => -(vd + eps * v)
  | .asymp => vd + eps * e

/-- One term of the loss. -/
def Lyap.sampleHinge (L : Lyap K) (xe : Vec K) (lam eps : K) (et : EpsType) (R : Option (Tensor2 K)) (margin : K)
    (t : Vec K × Vec K) : Option K := do
  let vd ← L.sampleVdot t.1 t.2 xe lam
  let v ← L.value t.1 xe lam R
  some (hinge margin (-rateVal et eps vd v (l1err (eye L.dim) xe t.1)))

/-- continuous_time_lyapunov.py 1187-1264 `lyapunov_derivative_loss_at_samples_and_next_states` (`reduction` must be
`"mean"`; `weight` is not used). Without samples `torch.stack` raises. -/
def Lyap.rateLoss (L : Lyap K) (xs xds : List (Vec K)) (xe : Vec K) (lam eps : K) (et : EpsType)
    (R : Option (Tensor2 K)) (margin : K) : Option K :=
  if xs ≠ [] ∧ xs.length = xds.length ∧ (∀ x ∈ xs, x.length = L.dim) ∧ (∀ x ∈ xds, x.length = L.dim) ∧
      isIdR L.dim R then
    ((xs.zip xds).mapM (L.sampleHinge xe lam eps et R margin)).map vmean
  else none

/-- continuous_time_lyapunov.py 1122-1185 `lyapunov_derivative_loss_at_samples`: the velocity is that of the first
mode which contains the sample; a sample in no mode raises. -/
def Lyap.rateLossAt (L : Lyap K) (S : AutoHybrid K) (xs : List (Vec K)) (xe : Vec K) (lam eps : K) (et : EpsType)
    (R : Option (Tensor2 K)) (margin : K) : Option K := do
  let xds ← xs.mapM fun x => S.stepForward x
  L.rateLoss xs xds xe lam eps et R margin

end NNL.Model
