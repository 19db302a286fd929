import Verif.Model.ReluSystem
import Verif.Model.Saturation
import Verif.Model.Hybrid

/-!
# `feedback_system.py`
-/

set_option linter.unusedSectionVars false

namespace NNL.Model

open NNL NNL.Spec

variable {K : Type*} [Field K] [LinearOrder K]

/-- The controller network: a `torch.nn.Sequential` (with the bound propagation method of the feedback system)
or a single `torch.nn.Linear` (feedback_system.py 77-89). -/
inductive Controller (K : Type*)
  | net (N : Net K) (method : Method K)
  | lin (l : Lin K)

/-- `controller_network(x)`. -/
def Controller.eval : Controller K → Vec K → Vec K
  | .net N _, x => N.eval x
  | .lin l, x => l.eval x

/-- The fields of `FeedbackSystem` (feedback_system.py 72-107) apart from the forward system, of which only
`x_lo_all`, `x_up_all`, `u_dim` appear. The limits may be infinite. -/
structure Feedback (K : Type*) where
  ctrl : Controller K
  xLo : Vec K
  xUp : Vec K
  uDim : ℕ
  xEq : Vec K
  uEq : Vec K
  uLower : List (Ext K)
  uUpper : List (Ext K)

/-- feedback_system.py 447-448: the control before saturation. -/
def Feedback.preSat (S : Feedback K) (x : Vec K) : Vec K :=
  vadd (vsub (S.ctrl.eval x) (S.ctrl.eval S.xEq)) S.uEq

/-- feedback_system.py 442-460 `compute_u` for one state: `max(min(u_pre_sat, u_upper_limit), u_lower_limit)`. -/
def Feedback.computeU (S : Feedback K) (x : Vec K) : List (Ext K) :=
  List.zipWith max (List.zipWith min ((S.preSat x).map Ext.fin) S.uUpper) S.uLower

/-- feedback_system.py 442-448, 454-460 `compute_u` for a batch of states: the same limits for every row. -/
def Feedback.computeUBatch (S : Feedback K) (X : Mat K) : List (List (Ext K)) :=
  X.map fun x => List.zipWith max (List.zipWith min ((S.preSat x).map Ext.fin) S.uUpper) S.uLower

/-- feedback_system.py 466-472 `step_forward` for a forward system with `step_forward = f`. An infinite control
is not modelled (`none`). -/
def Feedback.stepForward (S : Feedback K) (f : Vec K → Vec K → Vec K) (x : Vec K) : Option (Vec K) := do
  let u ← finVec (S.computeU x)
  some (f x u)

/-- `np.isinf`. -/
def isInf (a : Ext K) : Prop := a = ⊥ ∨ a = ⊤

instance (a : Ext K) : Decidable (isInf a) := inferInstanceAs (Decidable (_ ∨ _))

/-- feedback_system.py 496-509: one turn of the loop over the inputs. -/
def satTurn (u pre : ℕ) (lower upper : Ext K) (preLo preUp : K) (m : Mip K) (bt : VType := .binary) :
    Option (Mip K) :=
  if isInf lower ∧ isInf upper then m.addLConstr [[1, -1]] [[u, pre]] .eq 0
  else
    match lower.toFin, upper.toFin with
    | some l, some h => (m.addSaturation pre u l h preLo preUp bt).map Prod.fst
    | _, _ => none

/-- feedback_system.py 496-509: the loop over the inputs. -/
def satLoop (bt : VType) : List ℕ → List ℕ → List (Ext K) → List (Ext K) → Vec K → Vec K → Mip K → Option (Mip K)
  | [], _, _, _, _, _, m => some m
  | u :: us, pre :: pres, l :: ls, h :: hs, a :: as, b :: bs, m => do
    let m ← satTurn u pre l h a b m bt
    satLoop bt us pres ls hs as bs m
  | _, _, _, _, _, _, _ => none

/-- feedback_system.py 478-511 `_add_input_saturation_constraint`: the program and the bounds of the input after
saturation. -/
def addInputSat (m : Mip K) (u pre : List ℕ) (lower upper : List (Ext K)) (preLo preUp : Vec K)
    (bt : VType := .binary) : Option (Mip K × Vec K × Vec K) :=
  if (∀ p ∈ List.zip lower upper, p.1 ≤ p.2) ∧ (∀ p ∈ List.zip preLo preUp, p.1 ≤ p.2) then do
    let m ← satLoop bt u pre lower upper preLo preUp m
    let lo ← finVec (List.zipWith min (List.zipWith max lower (preLo.map Ext.fin)) upper)
    let up ← finVec (List.zipWith max (List.zipWith min upper (preUp.map Ext.fin)) lower)
    if ∀ p ∈ List.zip lo up, p.1 ≤ p.2 then some (m, lo, up) else none
  else none

/-- feedback_system.py 109-163 `_add_network_controller_mip_constraint_given_relu_bound`, given the constraints `c` of the
network and the bounds of its output; the result is the program, the slacks, the binaries of the network and the bounds
of the input. -/
def Feedback.addNetCtrlGiven (S : Feedback K) (N : Net K) (c : MIC K) (outLo outUp : Vec K) (m : Mip K) (x u : List ℕ)
    (bt : VType := .binary) : Option (Mip K × List ℕ × List ℕ × Vec K × Vec K) := do
  let t ← m.addMIC c x none .fresh bt
  let p ← t.1.addVars S.uDim (noBound S.uDim) (noBound S.uDim) .continuous
  let e := N.eval S.xEq
  let A ← c.Aout_slack
  let C ← c.Cout
  let m ← p.1.addMConstr [A, ⟨S.uDim, (eye S.uDim).map vneg⟩] [t.2.1, p.2] .eq (vsub (vsub e S.uEq) C)
  let b ← addInputSat m u p.2 S.uLower S.uUpper (vadd (vsub outLo e) S.uEq) (vadd (vsub outUp e) S.uEq) bt
  some (b.1, t.2.1, t.2.2, b.2.1, b.2.2)

/-- feedback_system.py 165-219 `_add_network_controller_mip_constraint`: the bounds of the layers and of the output are the
ones computed by `output_constraint`. (The program `control_bound_prog`, which
is returned but not used here, is in FeedbackBound.) -/
def Feedback.addNetCtrl (S : Feedback K) (N : Net K) (method : Method K) (m : Mip K) (x u : List ℕ)
    (bt : VType := .binary) : Option (Mip K × List ℕ × List ℕ × Vec K × Vec K) := do
  let r ← outputConstraint N S.xLo.length S.xLo S.xUp method
  S.addNetCtrlGiven N r.mic r.nnOutputLo r.nnOutputUp m x u bt

/-- feedback_system.py 221-261 `_add_linear_controller_mip_constraint`. -/
def Feedback.addLinCtrl (S : Feedback K) (l : Lin K) (m : Mip K) (x u : List ℕ) (bt : VType := .binary) :
    Option (Mip K × List ℕ × List ℕ × Vec K × Vec K) := do
  let p ← m.addVars S.uDim (noBound S.uDim) (noBound S.uDim) .continuous
  let e := l.eval S.xEq
  let bias := l.bias.getD (zeros S.uDim)
  let m ← p.1.addMConstr [⟨S.uDim, (eye S.uDim).map vneg⟩, ⟨l.inF, l.W⟩] [p.2, x] .eq
    (vsub (vadd (vneg S.uEq) e) bias)
  let o ← propagateLin l S.xLo S.xUp
  let b ← addInputSat m u p.2 S.uLower S.uUpper (vadd (vsub o.1 e) S.uEq) (vadd (vsub o.2 e) S.uEq) bt
  some (b.1, [], [], b.2.1, b.2.2)

/-- feedback_system.py 263-302 `_add_controller_mip_constraint`. -/
def Feedback.addCtrl (S : Feedback K) (m : Mip K) (x u : List ℕ) (bt : VType := .binary) :
    Option (Mip K × List ℕ × List ℕ × Vec K × Vec K) :=
  match S.ctrl with
  | .net N method => S.addNetCtrl N method m x u bt
  | .lin l => S.addLinCtrl l m x u bt

/-- feedback_system.py 347-378 `add_dynamics_mip_constraint` for a forward system `fwd`; the slacks and binaries
are combined as in dynamic_system.py 35-46. -/
def Feedback.addDynamics (S : Feedback K) (fwd : CtrlConstr K) (bt : VType := .binary) : SysConstr K := fun m x xn => do
  let u ← m.addVars S.uDim (noBound S.uDim) (noBound S.uDim) .continuous
  let c ← S.addCtrl u.1 x u.2 bt
  let f ← fwd c.1 x xn u.2 (some c.2.2.2.1) (some c.2.2.2.2)
  some (f.1, u.2 ++ f.2.1 ++ c.2.1, f.2.2 ++ c.2.2.1)

/-- hybrid_linear_system.py 273-295: `HybridLinearSystem.add_dynamics_constraint` ignores the additional bounds of
the input. -/
def Hybrid.asForward (S : Hybrid K) (bt : VType := .binary) : CtrlConstr K := fun m x xn u _ _ =>
  S.addDynamics m x xn u bt

end NNL.Model
