import Verif.Model.Td3
import Verif.Spec.Network

/-!
# The networks of the TD3 agent (examples/rl/td3.py 23-80)

Batches of observations are not modelled: a network gets one observation.
-/

set_option linter.unusedSectionVars false

namespace NNL.Model

open NNL NNL.Spec

variable {K : Type} [Field K] [LinearOrder K]

/-- A layer of the networks of td3.py: a linear one or an activation function applied to every entry. -/
inductive AgentLayer (K : Type) where
  | lin (l : Lin K)
  | act (f : K → K)

/-- Calling one layer; a linear layer raises for an input with another number of entries. -/
def AgentLayer.eval : AgentLayer K → Vec K → Option (Vec K)
  | .lin l, x => if x.length = l.inF then some (l.eval x) else none
  | .act f, x => some (x.map f)

/-- Calling `nn.Sequential`. -/
def agentEval : List (AgentLayer K) → Vec K → Option (Vec K)
  | [], x => some x
  | l :: ls, x => (l.eval x).bind (agentEval ls)

/-- td3.py 26-27: the two layers which the loop adds for the index `j`. `init j a b` is the new `nn.Linear(a, b)`. -/
def mlpStep (sizes : List ℕ) (init : ℕ → ℕ → ℕ → Lin K) (act out : K → K) (j : ℕ) : List (AgentLayer K) :=
  [.lin (init j (sizes.getD j 0) (sizes.getD (j + 1) 0)), .act (if j < sizes.length - 2 then act else out)]

/-- td3.py 23-28 `mlp`. -/
def mlp (sizes : List ℕ) (init : ℕ → ℕ → ℕ → Lin K) (act out : K → K) : List (AgentLayer K) :=
  (List.range (sizes.length - 1)).flatMap (mlpStep sizes init act out)

/-- td3.py 31-32 `count_vars`: activations have no parameters. -/
def countVars (ls : List (AgentLayer K)) : ℕ :=
  (ls.map fun l => match l with
    | .lin l => l.W.length * l.inF + (match l.bias with | none => 0 | some b => b.length)
    | .act _ => 0).sum

/-- The attributes of `MLPActor`. -/
structure Actor (K : Type) where
  pi : List (AgentLayer K)
  low : Vec K
  high : Vec K
  obsEq : Vec K
  actEq : Vec K

/-- td3.py 36-44 `MLPActor.__init__`; `sigmoid` is a parameter. -/
def Actor.new (low high obsEq actEq : Vec K) (hidden : List ℕ) (init : ℕ → ℕ → ℕ → Lin K) (act sigmoid : K → K) :
    Actor K :=
  ⟨mlp (obsEq.length :: hidden ++ [actEq.length]) init act sigmoid, low, high, obsEq, actEq⟩

/-- td3.py 46-50 `MLPActor.forward`; the limits have as many entries as the action. -/
def Actor.forward (a : Actor K) (obs : Vec K) : Option (Vec K) := do
  let pEq ← agentEval a.pi a.obsEq
  let p ← agentEval a.pi obs
  some ((List.range a.actEq.length).map fun i =>
    actorOut (a.low.getD i 0) (a.high.getD i 0) (a.actEq.getD i 0) (p.getD i 0) (pEq.getD i 0))

/-- td3.py 54-57: the layers of `MLPQFunction`. -/
def qLayers (obsDim actDim : ℕ) (hidden : List ℕ) (init : ℕ → ℕ → ℕ → Lin K) (act : K → K) : List (AgentLayer K) :=
  mlp ((obsDim + actDim) :: hidden ++ [1]) init act id

/-- td3.py 59-61 `MLPQFunction.forward`: `squeeze` turns the vector with one entry into a number. -/
def qForward (q : List (AgentLayer K)) (obs act : Vec K) : Option K :=
  (agentEval q (obs ++ act)).bind fun v => match v with
    | [y] => some y
    | _ => none

end NNL.Model
