import Verif.Spec.Scalar

/-!
# Fully connected (leaky) ReLU networks

Data types for `torch.nn.Linear`, `torch.nn.ReLU`, `torch.nn.LeakyReLU` and the alternating
`torch.nn.Sequential` networks used all over the project, with the meaning PyTorch documents.
-/

set_option linter.unusedSectionVars false

namespace NNL.Spec

open NNL

/-- `torch.nn.Linear(in_features, out_features, bias=...)`; `out_features` is the number of rows. -/
structure Lin (K : Type*) where
  /-- `in_features` -/
  inF : ℕ
  /-- `weight` -/
  W : Mat K
  /-- `bias`, possibly `None` -/
  bias : Option (Vec K)

/-- `torch.nn.ReLU` or `torch.nn.LeakyReLU(negative_slope)`. -/
inductive Act (K : Type*) where
  /-- `nn.ReLU()` -/
  | relu : Act K
  /-- `nn.LeakyReLU(slope)` -/
  | leaky (slope : K) : Act K

/-- `nn.Sequential(Linear, Act, ..., Linear, Act, Linear)`. -/
structure Net (K : Type*) where
  /-- the pairs linear layer, activation -/
  hidden : List (Lin K × Act K)
  /-- the output layer -/
  last : Lin K

variable {K : Type*} [Field K] [LinearOrder K]

/-- The bias as a vector (no bias is a zero bias). -/
def Lin.b (l : Lin K) : Vec K := l.bias.getD (zeros l.W.length)

/-- `layer(x) = W x + b`. -/
def Lin.eval (l : Lin K) (x : Vec K) : Vec K := vadd (matVec l.W x) l.b

/-- The scalar activation function. -/
def Act.f : Act K → K → K
  | .relu, x => Spec.relu x
  | .leaky a, x => Spec.leaky a x

/-- Pre-activation values, layer by layer. -/
def preacts : List (Lin K × Act K) → Vec K → List (Vec K)
  | [], _ => []
  | (l, a) :: rest, x => l.eval x :: preacts rest ((l.eval x).map a.f)

/-- Post-activation values, layer by layer. -/
def postacts : List (Lin K × Act K) → Vec K → List (Vec K)
  | [], _ => []
  | (l, a) :: rest, x => (l.eval x).map a.f :: postacts rest ((l.eval x).map a.f)

/-- The value fed to the output layer. -/
def hiddenOut : List (Lin K × Act K) → Vec K → Vec K
  | [], x => x
  | (l, a) :: rest, x => hiddenOut rest ((l.eval x).map a.f)

/-- `network(x)`. -/
def Net.eval (n : Net K) (x : Vec K) : Vec K := n.last.eval (hiddenOut n.hidden x)

/-- Shapes of a linear layer are consistent (always true in torch). -/
def Lin.Ok (l : Lin K) : Prop := HasCols l.W l.inF ∧ l.b.length = l.W.length

/-- Consecutive shapes match, starting from `n` inputs and ending with `m` outputs. -/
def HidOk : ℕ → List (Lin K × Act K) → ℕ → Prop
  | n, [], m => n = m
  | n, (l, _) :: rest, m => l.inF = n ∧ l.Ok ∧ HidOk l.W.length rest m

/-- A network with matching shapes and `n` inputs. -/
def Net.Ok (net : Net K) (n : ℕ) : Prop := HidOk n net.hidden net.last.inF ∧ net.last.Ok

/-- Number of (leaky) ReLU units. -/
def numUnits : List (Lin K × Act K) → ℕ
  | [] => 0
  | (l, _) :: rest => l.W.length + numUnits rest

theorem Lin.length_eval {l : Lin K} (h : l.Ok) (x : Vec K) : (l.eval x).length = l.W.length := by
  simp [Lin.eval, h.2]

theorem length_preacts_flatten {n m : ℕ} {hs : List (Lin K × Act K)} (h : HidOk n hs m) (x : Vec K) :
    (preacts hs x).flatten.length = numUnits hs := by
  induction hs generalizing n x with
  | nil => rfl
  | cons p rest ih =>
    obtain ⟨l, a⟩ := p
    obtain ⟨-, h1, h2⟩ := h
    rw [preacts, List.flatten_cons, List.length_append, ih h2, Lin.length_eval h1, numUnits]

theorem length_postacts_flatten {n m : ℕ} {hs : List (Lin K × Act K)} (h : HidOk n hs m)
    (x : Vec K) : (postacts hs x).flatten.length = numUnits hs := by
  induction hs generalizing n x with
  | nil => rfl
  | cons p rest ih =>
    obtain ⟨l, a⟩ := p
    obtain ⟨-, h1, h2⟩ := h
    rw [postacts, List.flatten_cons, List.length_append, ih h2, List.length_map,
      Lin.length_eval h1, numUnits]

theorem length_hiddenOut {n m : ℕ} {hs : List (Lin K × Act K)} (h : HidOk n hs m) (x : Vec K)
    (hx : x.length = n) : (hiddenOut hs x).length = m := by
  induction hs generalizing n x with
  | nil => rw [hiddenOut, hx, h]
  | cons p rest ih =>
    obtain ⟨l, a⟩ := p
    obtain ⟨-, h1, h2⟩ := h
    exact ih h2 _ (by rw [List.length_map, Lin.length_eval h1])

end NNL.Spec
