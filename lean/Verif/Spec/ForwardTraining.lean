import Verif.Basic.Vec

/-!
Specification for C121: the mean squared prediction error.
-/

namespace NNL.Spec

open NNL

variable {K : Type*} [Field K]

/-- One recorded transition: state, input and next state (or derivative of the state). -/
structure Transition (K : Type*) where
  x : Vec K
  u : Vec K
  next : Vec K

/-- The dimensions of the recorded data. -/
def Transition.Dims (n k : ℕ) (t : Transition K) : Prop := t.x.length = n ∧ t.u.length = k ∧ t.next.length = n

/-- The mean of the squares of all entries. -/
def meanSquare (es : List (Vec K)) : K := (es.flatten.map fun e => e ^ 2).sum / (es.flatten.length : K)

/-- The mean squared error of the predictions of the entries `idx` of the next state. -/
def predictionMse (pred : Vec K → Vec K → Vec K) (idx : List ℕ) (data : List (Transition K)) : K :=
  meanSquare (data.map fun t => idx.map fun i => (pred t.x t.u).getD i 0 - t.next.getD i 0)

end NNL.Spec
