import Verif.Model.Feedback
import Verif.Model.ExampleSystems

/-!
# `examples/car/unicycle_feedback_system.py`
-/

set_option linter.unusedSectionVars false

namespace NNL.Model

open NNL NNL.Spec

variable {K : Type*} [Field K] [LinearOrder K]

/-- unicycle_feedback_system.py 19-32: the fields of `UnicycleFeedbackSystem`; `fb` are those of the base class (with
`x_equilibrium` and `u_equilibrium` zero), `R` is `Ru_options.R()`. -/
structure UniFeedback (K : Type*) where
  fb : Feedback K
  lam : K
  R : Mat K

/-- unicycle_feedback_system.py 19-32 (the assertions about the values). -/
def UniFeedback.Accepted (U : UniFeedback K) : Prop :=
  U.fb.xEq = zeros 3 ∧ U.fb.uEq = zeros 2 ∧ U.fb.uLower.getD 0 ⊥ = Ext.fin 0 ∧ 0 < U.lam

/-- unicycle_feedback_system.py 37-41: the control before saturation. -/
def UniFeedback.preSat (U : UniFeedback K) (x : Vec K) : Vec K :=
  vadd (vsub (U.fb.ctrl.eval x) (U.fb.ctrl.eval (zeros 3)))
    [U.lam * ((matVec U.R (seg x 0 2)).map fun a => |a|).sum, 0]

/-- unicycle_feedback_system.py 34-44 `compute_u` for one state. -/
def UniFeedback.computeU (U : UniFeedback K) (x : Vec K) : List (Ext K) :=
  List.zipWith max (List.zipWith min ((U.preSat x).map Ext.fin) U.fb.uUpper) U.fb.uLower

/-- unicycle_feedback_system.py 45-56 `compute_u` for a batch of states. -/
def UniFeedback.computeUBatch (U : UniFeedback K) (X : Mat K) : List (List (Ext K)) :=
  X.map fun x => List.zipWith max (List.zipWith min ((vadd (vsub (U.fb.ctrl.eval x) (U.fb.ctrl.eval (zeros 3)))
    [U.lam * ((matVec U.R (seg x 0 2)).map fun a => |a|).sum, 0]).map Ext.fin) U.fb.uUpper) U.fb.uLower

/-- unicycle_feedback_system.py 88-99: the absolute values of the entries of `Ru * [p_x, p_y]`. -/
def uniAbsLoop (x : List ℕ) : Mat K → Vec K → Vec K → Mip K → Option (Mip K × List ℕ)
  | [], _, _, m => some (m, [])
  | r :: R, l :: lb, u :: ub, m => do
    let c ← absEnc l u false
    let c ← c.transformInput ⟨2, [r]⟩ [0]
    let t ← m.addMIC c x none .fresh .binary
    match t.2.1, t.2.2 with
    | [s], [_] => do
      let q ← uniAbsLoop x R lb ub t.1
      some (q.1, s :: q.2)
    | _, _ => none
  | _, _, _, _ => none

/-- unicycle_feedback_system.py 101-108: the bounds of one absolute value. -/
def absBounds (l u : K) : K × K :=
  if l < 0 ∧ 0 < u then (0, max (-l) u)
  else if 0 ≤ l then (l, u)
  else if u ≤ 0 then (-u, -l)
  else (0, 0)

/-- unicycle_feedback_system.py 58-139 `_add_network_controller_mip_constraint_given_relu_bound`, with the bounds of
`feedback_system.py` 165-219 (as in `Feedback.addNetCtrl`). -/
def UniFeedback.addNetCtrl (U : UniFeedback K) (N : Net K) (method : Method K) (m : Mip K) (x u : List ℕ) :
    Option (Mip K × List ℕ × List ℕ × Vec K × Vec K) := do
  let r ← outputConstraint N U.fb.xLo.length U.fb.xLo U.fb.xUp method
  let t ← m.addMIC r.mic x none .fresh .binary
  let b ← rangeIA 2 U.R (zeros U.R.length) (seg U.fb.xLo 0 2) (seg U.fb.xUp 0 2)
  let s ← uniAbsLoop (seg x 0 2) U.R b.1 b.2 t.1
  let sLo := (List.zipWith absBounds b.1 b.2).map Prod.fst
  let sUp := (List.zipWith absBounds b.1 b.2).map Prod.snd
  let p ← s.1.addVars U.fb.uDim (noBound U.fb.uDim) (noBound U.fb.uDim) .continuous
  let e := N.eval (zeros 3)
  let A ← r.mic.Aout_slack
  let C ← r.mic.Cout
  let m ← p.1.addMConstr [⟨2, eye 2⟩, ⟨A.cols, A.rows.map vneg⟩,
      ⟨U.R.length, [List.replicate U.R.length 1, zeros U.R.length].map (vsmul (-U.lam))⟩] [p.2, t.2.1, s.2] .eq
    (vsub C e)
  let b ← addInputSat m u p.2 U.fb.uLower U.fb.uUpper (vadd (vsub r.nnOutputLo e) [U.lam * sLo.sum, 0])
    (vadd (vsub r.nnOutputUp e) [U.lam * sUp.sum, 0])
  some (b.1, t.2.1, t.2.2, b.2.1, b.2.2)

/-- feedback_system.py 263-302 `_add_controller_mip_constraint`, with the method for networks overridden and that for
linear controllers inherited. -/
def UniFeedback.addCtrl (U : UniFeedback K) (m : Mip K) (x u : List ℕ) :
    Option (Mip K × List ℕ × List ℕ × Vec K × Vec K) :=
  match U.fb.ctrl with
  | .net N method => U.addNetCtrl N method m x u
  | .lin l => U.fb.addLinCtrl l m x u

end NNL.Model
