import Verif.Model.BoundProg
import Verif.Model.Feedback

/-!
# Bound programs of feedback systems (feedback_system.py, relu_system.py)

The program from which bounds of the next state (or velocity) of a closed loop are computed when the forward system
does not use interval arithmetic.
-/

set_option linter.unusedSectionVars false

namespace NNL.Model

open NNL NNL.Spec

variable {K : Type*} [Field K] [LinearOrder K]

/-- feedback_system.py 189-208 and 275-292: `control_bound_prog` with its `x_var` and `u_var`. `lc` is the method of
the controller: `none` for IA, otherwise whether it is LP. The bounds of the layers are the ones that `addCtrl` computes
(lines 165-180). -/
def Feedback.ctrlBoundProg (S : Feedback K) (lc : Option Bool) : Option (Mip K × List ℕ × List ℕ) := do
  let tx ← (Mip.empty : Mip K).addVars S.xLo.length (noBound S.xLo.length) (noBound S.xLo.length) .continuous
  let tu ← tx.1.addVars S.uDim (noBound S.uDim) (noBound S.uDim) .continuous
  match lc with
  | none => some (tu.1, tx.2, tu.2)
  | some lp => do
    let t ← S.addCtrl tu.1 tx.2 tu.2 (boundType lp)
    some (t.1, tx.2, tu.2)

/-- relu_system.py 1029-1034: the program when the caller passes none: states and inputs without constraints. -/
def openBoundProg (n k : ℕ) : Option (Mip K × List ℕ × List ℕ) := do
  let tx ← (Mip.empty : Mip K).addVars n (noBound n) (noBound n) .continuous
  let tu ← tx.1.addVars k (noBound k) (noBound k) .continuous
  some (tu.1, tx.2, tu.2)

/-- relu_system.py 1039-1047 (in `_add_forward_dynamics_mip_constraints`): the forward dynamics is added to the program
`U` with its states and inputs. `lp` says that the method of the forward system is LP. -/
def fwdBoundProg (uLo uUp : Vec K) (c : Option (Vec K) → Option (Vec K) → Option (ReluMIC K)) (n : ℕ)
    (U : Mip K × List ℕ × List ℕ) (aLo aUp : Option (Vec K)) (lp : Bool) : Option (BoundProg K) := do
  let tn ← U.1.addVars n (noBound n) (noBound n) .continuous
  let t ← addCtrl uLo uUp c (boundType lp) tn.1 U.2.1 tn.2 U.2.2 aLo aUp
  some ⟨t.1, U.2.1, tn.2⟩

end NNL.Model
