import Verif.Model.TrainerSetup

/-!
# What the trainer relies on when it is trained
-/

namespace NNL.Spec

open NNL NNL.Model

variable {K : Type*} [Field K] [LinearOrder K]

/-- The Lyapunov function given is complete, and its equilibrium is a state in the box of its own system. -/
def LyapReady (box : ℕ → StateBox K) (T : TrainerSetup K) : Prop :=
  ∀ L, T.lyap = some L → T.vLambda ≠ none ∧ T.rOpt ≠ none ∧ ∃ x, T.xEq = some x ∧ x.length = (box L.sys).dim ∧
    ∀ i, i < (box L.sys).dim → (box L.sys).lo.getD i ⊥ ≤ Ext.fin (x.getD i 0) ∧
      Ext.fin (x.getD i 0) ≤ (box L.sys).up.getD i ⊤

/-- The barrier function given is complete, with a rate that is not negative. -/
def BarrierReady (T : TrainerSetup K) : Prop :=
  ∀ B, T.barrier = some B → T.xStar ≠ none ∧ T.c ≠ none ∧ ∃ e, T.eps = some e ∧ 0 ≤ e

/-- Both are functions of the states of one system. -/
def OneSystem (T : TrainerSetup K) : Prop :=
  ∀ L B, T.lyap = some L → T.barrier = some B → L.sys = B.sys

/-- A history of calls from the state `T` (exceptions are caught), with the state that is reached; `a` and `b` tell
whether the last call of `add_lyapunov` and the last call of `add_barrier` returned (`True` if there was none). -/
inductive History (box : ℕ → StateBox K) : List (SetupCall K) → TrainerSetup K → Bool → Bool → Prop
  | new : History box [] {} true true
  | lyapunov {cs T a b L lam xe R} (h : History box cs T a b) :
      History box (cs ++ [.lyapunov L lam xe R]) (T.addLyapunov box L lam xe R).2 (T.addLyapunov box L lam xe R).1 b
  | barrier {cs T a b B xs c e} (h : History box cs T a b) :
      History box (cs ++ [.barrier B xs c e]) (T.addBarrier B xs c e).2 a (T.addBarrier B xs c e).1

end NNL.Spec
