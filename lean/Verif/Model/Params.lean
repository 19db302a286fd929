import Verif.Spec.Network

/-!
# Parameters of networks as one vector (utils.py 951-1086)
-/

set_option linter.unusedSectionVars false

namespace NNL.Model

open NNL NNL.Spec

variable {K : Type*} [Field K] [LinearOrder K]

/-- A layer of `torch.nn.Sequential`. -/
inductive Layer (K : Type*) where
  | lin (l : Lin K)
  | act (a : Act K)

/-- The layers of a network. -/
def layersOf (net : Net K) : List (Layer K) :=
  (net.hidden.flatMap fun p => [.lin p.1, .act p.2]) ++ [.lin net.last]

/-- `v.reshape((r, c))`; raises unless there are `r * c` entries. -/
def reshape (r c : ℕ) (v : Vec K) : Option (Mat K) :=
  if v.length = r * c then some ((List.range r).map fun i => (v.drop (i * c)).take c) else none

/-- utils.py 1005-1014: one linear layer; the remaining parameters are returned. Slices of a tensor that is too
short are shorter: this raises for the weight but not for the bias. The source stores views of `params`. -/
def updateLin (l : Lin K) (params : Vec K) : Option (Lin K × Vec K) := do
  let W ← reshape l.W.length l.inF (params.take (l.inF * l.W.length))
  let rest := params.drop (l.inF * l.W.length)
  match l.bias with
  | none => some (⟨l.inF, W, none⟩, rest)
  | some _ => some (⟨l.inF, W, some (rest.take l.W.length)⟩, rest.drop l.W.length)

/-- utils.py 998-1014 `update_relu_params`; parameters left over are ignored. -/
def updateParams : List (Layer K) → Vec K → Option (List (Layer K))
  | [], _ => some []
  | .act a :: ls, params => do
    let r ← updateParams ls params
    some (.act a :: r)
  | .lin l :: ls, params => do
    let q ← updateLin l params
    let r ← updateParams ls q.2
    some (.lin q.1 :: r)

/-- utils.py 1025-1027: the parameters of a linear layer. -/
def extractLin (l : Lin K) : Vec K := l.W.flatten ++ l.bias.getD []

/-- utils.py 1017-1028 `extract_relu_parameters` (`torch.cat` of an empty list would raise). -/
def extractParams : List (Layer K) → Vec K
  | [] => []
  | .act _ :: ls => extractParams ls
  | .lin l :: ls => extractLin l ++ extractParams ls

/-- utils.py 963-974: a new linear layer with the given parameters. -/
def setupLin (inF outF : ℕ) (bias : Bool) (params : Vec K) : Option (Lin K × Vec K) := do
  let W ← reshape outF inF (params.take (inF * outF))
  let rest := params.drop (inF * outF)
  if bias then some (⟨inF, W, some (rest.take outF)⟩, rest.drop outF) else some (⟨inF, W, none⟩, rest)

/-- utils.py 951-995 `setup_relu` with `params` given. Fewer than two widths raise. -/
def setupRelu (slope : K) (bias : Bool) : List ℕ → Vec K → Option (List (Layer K))
  | [], _ => none
  | [_], _ => none
  | [a, b], params => do
    let q ← setupLin a b bias params
    some [.lin q.1]
  | a :: b :: c :: ws, params => do
    let q ← setupLin a b bias params
    let r ← setupRelu slope bias (b :: c :: ws) q.2
    some (.lin q.1 :: .act (.leaky slope) :: r)

/-- The local variables of `extract_relu_structure`. -/
structure Structure (K : Type*) where
  widths : List ℕ
  slope : Option K
  bias : Option Bool
deriving DecidableEq

/-- utils.py 1060-1086: one layer. -/
def structureStep (s : Structure K) : Layer K → Option (Structure K)
  | .lin l =>
    let ws := if s.widths.length = 0 then s.widths ++ [l.inF, l.W.length] else s.widths ++ [l.W.length]
    if s.bias = none ∨ s.bias = some l.bias.isSome then some ⟨ws, s.slope, some l.bias.isSome⟩ else none
  | .act .relu =>
    match s.slope with
    | none => some { s with slope := some 0 }
    | some v => if v = 0 then some s else none
  | .act (.leaky a) =>
    match s.slope with
    | none => some { s with slope := some a }
    | some v => if v = a then some s else none

/-- utils.py 1053-1086 `extract_relu_structure`: widths, negative slope, bias flag. -/
def extractStructure (ls : List (Layer K)) : Option (Structure K) :=
  ls.foldlM structureStep ⟨[], none, none⟩

end NNL.Model
