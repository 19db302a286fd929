import Verif.Model.TrainValue
import Verif.Basic.Vec

/-!
# The object `AdversarialWithBaseline`: its constructor, the states it draws and `get_state`

train_value.py 75-94, 117-132, 374-413. A number drawn by `torch.rand` is a parameter; so is the index drawn by
`np.random.choice` and the outcome of the comparison with 1/2. A model is a function from a state to a number. `clone` and
`deepcopy` are the identity.
-/

set_option linter.unusedSectionVars false

namespace NNL.Model

open NNL

variable {K : Type} [Field K] [LinearOrder K]

/-- train_value.py 117-122 `get_random_x0`, from `torch.rand`. -/
def randomX0 (lo up u : Vec K) : Vec K := vadd (List.zipWith (· * ·) u (vsub up lo)) lo

/-- train_value.py 124-132 `get_limit_x0`; `low` if the second number is at least 1/2. -/
def limitX0 (lo up u : Vec K) (dim : ℕ) (low : Bool) : Vec K :=
  (randomX0 lo up u).set dim (if low then lo.getD dim 0 else up.getD dim 0)

/-- train_value.py 75-94 of `__init__`: the buffers. The arguments have two axes: a list of rows. `x_samples_init.shape[1]`
is the common length of the rows. The label rows are lists as well. -/
def Buffers.new (dim : ℕ) (xs : Option (List (Vec K))) (vs : Option (List (Vec K))) : Option (Buffers (Vec K) (Vec K)) :=
  match xs, vs with
  | none, none => some ⟨[], [], [], []⟩
  | some x, some v =>
    if (∀ r ∈ x, r.length = dim) ∧ ∀ r ∈ v, r.length = 1 then some ⟨x, v, x, v⟩ else none
  | _, _ => none

/-- train_value.py 387-389, 390-393, 397-400, 401-404, 406-411: `torch.pow(label.squeeze() - model(x).squeeze(), 2)`. After
`squeeze` a single number is broadcast; other different sizes raise. -/
def sqErrors (label pred : Vec K) : Option (Vec K) :=
  if label.length = pred.length then some (List.zipWith (fun l p => (l - p) ^ 2) label pred)
  else if label.length = 1 then some (pred.map fun p => (label.getD 0 0 - p) ^ 2)
  else if pred.length = 1 then some (label.map fun l => (l - pred.getD 0 0) ^ 2)
  else none

/-- The losses in what `get_state` returns (train_value.py 374-413). -/
structure ValueState (K : Type) where
  robustBuffer : Vec K
  robustVal : Vec K
  baselineBuffer : Vec K
  baselineVal : Vec K
  advLog : List (List (Vec K) × Vec K)

/-- train_value.py 374-413 `get_state`: the losses. The labels have one entry each. -/
def Buffers.getState (b : Buffers (Vec K) (Vec K)) (robust baseline : Vec K → K) (xVal : List (Vec K)) (vVal : Vec K)
    (log : List (List (Vec K) × Vec K)) : Option (ValueState K) := do
  let rb ← sqErrors (b.advLabel.map fun r => r.getD 0 0) (b.advData.map robust)
  let rv ← sqErrors vVal (xVal.map robust)
  let bb ← sqErrors (b.randLabel.map fun r => r.getD 0 0) (b.randData.map baseline)
  let bv ← sqErrors vVal (xVal.map baseline)
  let al ← log.mapM fun e => (sqErrors e.2 (e.1.map robust)).map fun l => (e.1, l)
  some ⟨rb, rv, bb, bv, al⟩

end NNL.Model
