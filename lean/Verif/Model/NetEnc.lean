import Verif.Model.Mic
import Verif.Model.ScalarEnc
import Verif.Model.Encoders
import Verif.Spec.Network

/-!
# Bounds and mixed-integer constraints of a whole network

mip_utils.py 413-498, relu_to_optimization_utils.py 9-145, relu_to_optimization.py 252-289, 518-894.
Only alternating networks Linear, Act, ..., Linear are modelled (the code assumes this: it reads
`model[2 * layer_count]` and `model[2 * layer_count + 1]`).
-/

namespace NNL.Model

open NNL NNL.Spec

variable {K : Type*} [Field K] [LinearOrder K]

/-! ### Bound propagation -/

/-- mip_utils.py 434-435: `A[i][mask] @ v[mask]` with `mask = torch.where(p(A[i]))`. -/
def maskDot (p : K → Bool) (a v : Vec K) : K :=
  (((a.zip v).filter fun t => p t.1).map fun t => t.1 * t.2).sum

/-- mip_utils.py 436-437: lower bound of one row. -/
def rowLo (a : Vec K) (b : K) (lo up : Vec K) : K :=
  maskDot (fun c => decide (c > 0)) a lo + maskDot (fun c => decide (c ≤ 0)) a up + b
/-- mip_utils.py 438-439: upper bound of one row. -/
def rowUp (a : Vec K) (b : K) (lo up : Vec K) : K :=
  maskDot (fun c => decide (c > 0)) a up + maskDot (fun c => decide (c ≤ 0)) a lo + b

/-- mip_utils.py 413-440 `compute_range_by_IA(A, b, x_lb, x_ub)` with its shape assertions; `n` is
`A.shape[1]`. -/
def rangeIA (n : ℕ) (A : Mat K) (b lo up : Vec K) : Option (Vec K × Vec K) :=
  if b.length = A.length ∧ lo.length = n ∧ up.length = n then
    some ((List.range A.length).map fun i => rowLo (A.getD i []) (b.getD i 0) lo up,
          (List.range A.length).map fun i => rowUp (A.getD i []) (b.getD i 0) lo up)
  else none

/-- mip_utils.py 470-498 `propagate_bounds` for one entry of a ReLU or leaky ReLU layer. -/
def actBounds (a : Act K) (lo up : K) : K × K :=
  match a with
  | .relu => (Spec.relu lo, Spec.relu up)
  | .leaky c =>
    let l := Spec.leaky c lo
    let u := Spec.leaky c up
    if c < 0 then (if lo < 0 ∧ up > 0 then 0 else min l u, max l u) else (l, u)

/-- mip_utils.py 470-498 `propagate_bounds` for a ReLU or leaky ReLU layer. -/
def propagateAct (a : Act K) (lo up : Vec K) : Vec K × Vec K :=
  (List.zipWith (fun l u => (actBounds a l u).1) lo up,
   List.zipWith (fun l u => (actBounds a l u).2) lo up)

/-- mip_utils.py 491-495 `propagate_bounds` for a linear layer. -/
def propagateLin (l : Lin K) (lo up : Vec K) : Option (Vec K × Vec K) :=
  rangeIA l.inF l.W (l.bias.getD (zeros l.W.length)) lo up

/-- The four flat vectors returned by `_compute_layer_bound`. -/
structure LayerBounds (K : Type*) where
  preLo : Vec K
  preUp : Vec K
  postLo : Vec K
  postUp : Vec K

/-- relu_to_optimization.py 518-606 `_compute_layer_bound` with method IA. The flat tensors indexed by
`relu_unit_index` are built by appending layer after layer. -/
def layerBoundIA : List (Lin K × Act K) → Vec K → Vec K → Option (LayerBounds K)
  | [], _, _ => some ⟨[], [], [], []⟩
  | (l, a) :: rest, lo, up => do
    let pre ← rangeIA l.inF l.W (l.bias.getD (zeros l.W.length)) lo up
    let post := propagateAct a pre.1 pre.2
    let r ← layerBoundIA rest post.1 post.2
    some ⟨pre.1 ++ r.preLo, pre.2 ++ r.preUp, post.1 ++ r.postLo, post.2 ++ r.postUp⟩

/-- `v[off:off+w]`, the entries of the units of one layer (`relu_unit_index` is consecutive,
relu_to_optimization.py 271-289). -/
def slice (v : Vec K) (off w : ℕ) : Vec K := (v.drop off).take w

/-- First unit of the last hidden layer: `relu_unit_index[-1][0]`. -/
def lastOff : List (Lin K × Act K) → ℕ
  | [] => 0
  | [_] => 0
  | (l, _) :: rest => l.W.length + lastOff rest

/-- relu_to_optimization.py 608-624 `_compute_network_output_bounds` with method IA:
`relu_unit_index[-1]` raises when there is no hidden layer. -/
def outputBoundsIA (net : Net K) (preLo preUp : Vec K) : Option (Vec K × Vec K) :=
  match net.hidden.getLast? with
  | none => none
  | some (l, a) =>
    let off := lastOff net.hidden
    let p := propagateAct a (slice preLo off l.W.length) (slice preUp off l.W.length)
    propagateLin net.last p.1 p.2

/-! ### Constraints of one neuron, one layer, the network -/

/-- The four inequality arrays and the four equality arrays for one neuron or one layer, row by row:
`x` multiplies the layer input, `s` the layer output, `z` the activation binaries. -/
structure Cons (K : Type*) where
  ineq : List (LRow K)
  eq : List (LRow K)

/-- relu_to_optimization_utils.py 55-61: slope and binary value of a neuron with fixed sign. -/
def fixedSlope (a : Act K) (lo : K) : K × K :=
  if lo ≥ 0 then (1, 1) else
    match a with
    | .relu => (0, 0)
    | .leaky c => (c, 0)

/-- relu_to_optimization_utils.py 26-34: the scalar encoding used. -/
def scalarRows (a : Act K) (lo up : K) : Option (Rows K) :=
  match a with
  | .relu => replaceRelu lo up
  | .leaky c => replaceLeakyRelu c lo up

/-- relu_to_optimization_utils.py 9-80 `_add_constraint_by_neuron` (the output bounds it also returns are
`actBounds`). -/
def neuronCons (W : Vec K) (b : K) (a : Act K) (lo up : K) : Option (Cons K) :=
  if lo < 0 ∧ up > 0 then
    (scalarRows a lo up).map fun R =>
      { ineq := (List.range R.rhs.length).map fun i =>
          { x := vsmul (R.Ax.getD i 0) W, s := [R.As.getD i 0], z := [R.Aa.getD i 0],
            rhs := R.rhs.getD i 0 - R.Ax.getD i 0 * b }
        eq := [] }
  else
    let f := fixedSlope a lo
    some
      { eq := [ { x := vsmul (-f.1) W, s := [1], z := [0], rhs := f.1 * b },
                { x := zeros W.length, s := [0], z := [1], rhs := f.2 } ]
        ineq := [ { x := W, s := [0], z := [0], rhs := up - b },
                  { x := vneg W, s := [0], z := [0], rhs := b - lo } ] }

/-- relu_to_optimization_utils.py 120-137: a zero row of width `n` whose column `j` is the neuron's
coefficient. -/
def spread (n j : ℕ) (r : LRow K) : LRow K :=
  { r with s := (zeros n).set j (r.s.getD 0 0), z := (zeros n).set j (r.z.getD 0 0) }

/-- Run a list of calls, failing when one fails. -/
def collect {α : Type*} : List (Option α) → Option (List α)
  | [] => some []
  | none :: _ => none
  | some a :: l => (collect l).map (a :: ·)

/-- relu_to_optimization_utils.py 113-140: the contribution of neuron `j` of a layer. -/
def layerNeuron (l : Lin K) (a : Act K) (lo up : Vec K) (j : ℕ) : Option (Cons K) :=
  (neuronCons (l.W.getD j []) ((l.bias.getD (zeros l.W.length)).getD j 0) a (lo.getD j 0)
    (up.getD j 0)).map fun c =>
      { ineq := c.ineq.map (spread l.W.length j), eq := c.eq.map (spread l.W.length j) }

/-- relu_to_optimization_utils.py 83-145 `_add_constraint_by_layer`. -/
def layerCons (l : Lin K) (a : Act K) (lo up : Vec K) : Option (Cons K) :=
  (collect ((List.range l.W.length).map (layerNeuron l a lo up))).map fun cs =>
    { ineq := cs.flatMap Cons.ineq, eq := cs.flatMap Cons.eq }

/-- `v[off:off+len(w)] = w`. -/
def setSlice (v : Vec K) (off : ℕ) (w : Vec K) : Vec K := v.take off ++ w ++ v.drop (off + w.length)

/-- relu_to_optimization.py 711-748: put the row of a layer into the full matrices. `first` is
`layer_count == 0`, `offPrev` and `off` are the first units of the previous and this layer, `n` is
`num_relu_units`. -/
def placeRow (first : Bool) (xs n offPrev off : ℕ) (r : LRow K) : LRow K :=
  { x := if first then r.x else zeros xs
    s := setSlice (if first then zeros n else setSlice (zeros n) offPrev r.x) off r.s
    z := setSlice (zeros n) off r.z
    rhs := r.rhs }

/-- relu_to_optimization.py 703-748, the loop over layers. The matrices are preallocated in the code and
cut to the rows used; here rows are appended (`C12_row_count`: the preallocation is large enough). -/
def hiddenCons (xs n : ℕ) (zlo zup : Vec K) :
    Bool → ℕ → ℕ → List (Lin K × Act K) → Option (Cons K)
  | _, _, _, [] => some ⟨[], []⟩
  | first, offPrev, off, (l, a) :: rest =>
    match layerCons l a (slice zlo off l.W.length) (slice zup off l.W.length),
      hiddenCons xs n zlo zup false off (off + l.W.length) rest with
    | some c, some r => some
        { ineq := c.ineq.map (placeRow first xs n offPrev off) ++ r.ineq
          eq := c.eq.map (placeRow first xs n offPrev off) ++ r.eq }
    | _, _ => none

/-- relu_to_optimization.py 696-701: the rows `x <= x_up`, `-x <= -x_lo`. -/
def boxRows (xs n : ℕ) (xlo xup : Vec K) : List (LRow K) :=
  ((List.range xs).map fun i =>
    { x := eyeRow xs i, s := zeros n, z := zeros n, rhs := xup.getD i 0 }) ++
  ((List.range xs).map fun i =>
    { x := vneg (eyeRow xs i), s := zeros n, z := zeros n, rhs := - xlo.getD i 0 })

/-- The tensors of a list of rows. -/
def rowsTensor (n : ℕ) (f : LRow K → Vec K) (rs : List (LRow K)) : Option (Tensor2 K) :=
  some ⟨n, rs.map f⟩

/-- relu_to_optimization.py 252-289 and 665-775: `_output_constraint_given_bounds`. A network without
hidden layer raises at `relu_unit_index[-1]`. -/
def outputConsGivenBounds (net : Net K) (xs : ℕ) (zlo zup xlo xup : Vec K) : Option (MIC K) :=
  let n := numUnits net.hidden
  match net.hidden, hiddenCons xs n zlo zup true 0 0 net.hidden with
  | [], _ => none
  | _, none => none
  | _ :: _, some c =>
    let ineq := boxRows xs n xlo xup ++ c.ineq
    some
      { Aout_slack := some ⟨n, net.last.W.map fun w => setSlice (zeros n) (lastOff net.hidden) w⟩
        Cout := some (net.last.bias.getD (zeros net.last.W.length))
        Ain_input := rowsTensor xs LRow.x ineq
        Ain_slack := rowsTensor n LRow.s ineq
        Ain_binary := rowsTensor n LRow.z ineq
        rhs_in := some (ineq.map LRow.rhs)
        Aeq_input := rowsTensor xs LRow.x c.eq
        Aeq_slack := rowsTensor n LRow.s c.eq
        Aeq_binary := rowsTensor n LRow.z c.eq
        rhs_eq := some (c.eq.map LRow.rhs) }

/-- The additional fields of `ReLUMixedIntegerConstraintsReturn` (relu_to_optimization.py 214-225). -/
structure ReluMIC (K : Type*) where
  mic : MIC K
  nnInputLo : Vec K
  nnInputUp : Vec K
  nnOutputLo : Vec K
  nnOutputUp : Vec K
  reluInputLo : Vec K
  reluInputUp : Vec K
  reluOutputLo : Vec K
  reluOutputUp : Vec K

/-- relu_to_optimization.py 859-894 `compute_relu_unit_outputs_and_activation`: the flat unit outputs
and activations, and the network output. -/
def unitOutputs : List (Lin K × Act K) → Vec K → Vec K × Vec K
  | [], _ => ([], [])
  | (l, a) :: rest, x =>
    let p := l.eval x
    let r := unitOutputs rest (p.map a.f)
    (p.map a.f ++ r.1, (p.map fun v => if v > 0 then 1 else 0) ++ r.2)

/-! ### Bounds by optimisation -/

/-- relu_to_optimization.py 567-584: lower bound of a neuron in mode IA_MIP, from the optimisation bound
`m` and the interval bound `ia`. -/
def blendLo (m ia : K) : K :=
  if |m - ia| < 1 / 10000 then ia
  else if m > 0 then 99 / 100 * m + 1 / 100 * min ia 0
  else 99 / 100 * m + 1 / 100 * ia

/-- relu_to_optimization.py 585-598: upper bound of a neuron in mode IA_MIP. -/
def blendUp (m ia : K) : K :=
  if |m - ia| < 1 / 10000 then ia
  else if m ≤ 0 then 99 / 100 * m + 1 / 100 * min ia 0
  else 99 / 100 * m + 1 / 100 * ia

/-- relu_to_optimization.py 649-654: lower bound of an output in mode IA_MIP. -/
def blendOutLo (m ia : K) : K :=
  if |m - ia| < 1 / 10000 then ia else 99 / 100 * m + 1 / 100 * ia
/-- relu_to_optimization.py 655-661: upper bound of an output in mode IA_MIP (note `1E-3`). -/
def blendOutUp (m ia : K) : K :=
  if |m - ia| < 1 / 1000 then ia else 99 / 100 * m + 1 / 100 * ia

/-- The values a "binary" variable may take: 0/1 for MIP and IA_MIP, the unit interval for LP
(mip_utils.py 454-467, gurobi_torch_mip.BINARYRELAX). -/
def BinVal (relaxed : Bool) (β : K) : Prop := if relaxed then 0 ≤ β ∧ β ≤ 1 else β = 0 ∨ β = 1

/-- relu_to_optimization.py 466-478 with relu_to_optimization_utils.py 148-188
`_add_constraint_to_program_by_layer`: the constraints between the network input and the outputs of the
layers added so far; `zs`, `bs` are the new variables of each layer and `lo`, `up` the bounds used. The
last argument is the resulting `z_curr`. -/
def ProgLayers (relaxed : Bool) : List (Lin K × Act K) → (zc : Vec K) → (zs bs : List (Vec K)) →
    (lo up : Vec K) → Vec K → Prop
  | [], zc, _, _, _, _, out => out = zc
  | (l, a) :: rest, zc, zs, bs, lo, up, out =>
    ∃ z b zs' bs', zs = z :: zs' ∧ bs = b :: bs' ∧ z.length = l.W.length ∧ b.length = l.W.length ∧
      (∀ j, j < l.W.length → BinVal relaxed (b.getD j 0) ∧
        ∃ c, neuronCons (l.W.getD j []) ((l.bias.getD (zeros l.W.length)).getD j 0) a
            ((slice lo 0 l.W.length).getD j 0) ((slice up 0 l.W.length).getD j 0) = some c ∧
          (∀ r ∈ c.ineq, r.val zc [z.getD j 0] [b.getD j 0] ≤ r.rhs) ∧
          (∀ r ∈ c.eq, r.val zc [z.getD j 0] [b.getD j 0] = r.rhs)) ∧
      ProgLayers relaxed rest z zs' bs' (lo.drop l.W.length) (up.drop l.W.length) out

/-- The calls `_compute_linear_output_bound_by_optimization(layer_index, j, ...)`: `done` are the layers
before the linear layer `l`, then come the flat bounds computed so far, `l` and the row `j`. -/
abbrev Opt (K : Type*) := List (Lin K × Act K) → Vec K → Vec K → Lin K → ℕ → K × K

/-- `l` is the linear layer of `net` that follows the layers `done`. -/
def LayerAt (net : Net K) (done : List (Lin K × Act K)) (l : Lin K) : Prop :=
  (∃ a rest, net.hidden = done ++ (l, a) :: rest) ∨ (done = net.hidden ∧ l = net.last)

/-- What the solver is trusted for in `_compute_linear_output_bound_by_optimization`
(relu_to_optimization.py 413-516, status OPTIMAL): the two reported values bound the objective
`W[j] @ z_curr + b[j]` at every feasible point. -/
def OptValid (relaxed : Bool) (net : Net K) (xlo xup : Vec K) (opt : Opt K) : Prop :=
  ∀ done preLo preUp l j x zs bs out, LayerAt net done l → j < l.W.length → InBox xlo xup x →
    ProgLayers relaxed done x zs bs preLo preUp out →
    (opt done preLo preUp l j).1 ≤ dot (l.W.getD j []) out + l.b.getD j 0 ∧
    dot (l.W.getD j []) out + l.b.getD j 0 ≤ (opt done preLo preUp l j).2

/-- relu_to_optimization.py 539-598: the pre-activation bounds of one layer by optimisation, blended with
interval bounds when `iaMip`. -/
def layerOpt (opt : Opt K) (iaMip : Bool)
    (done : List (Lin K × Act K)) (preLo preUp : Vec K) (l : Lin K) (lo up : Vec K) :
    Option (Vec K × Vec K) :=
  let m := (List.range l.W.length).map (opt done preLo preUp l)
  if iaMip then
    (rangeIA l.inF l.W (l.bias.getD (zeros l.W.length)) lo up).map fun ia =>
      (List.zipWith blendLo (m.map Prod.fst) ia.1, List.zipWith blendUp (m.map Prod.snd) ia.2)
  else some (m.map Prod.fst, m.map Prod.snd)

/-- relu_to_optimization.py 518-606 `_compute_layer_bound` with method LP, MIP (`iaMip = false`) or
IA_MIP. `acc` holds the entries already filled in, for the layers `done`. -/
def layerBoundOpt (opt : Opt K) (iaMip : Bool) :
    (done : List (Lin K × Act K)) → (acc : LayerBounds K) → (lo up : Vec K) → List (Lin K × Act K) →
      Option (LayerBounds K)
  | _, acc, _, _, [] => some acc
  | done, acc, lo, up, (l, a) :: rest =>
    match layerOpt opt iaMip done acc.preLo acc.preUp l lo up with
    | none => none
    | some pre =>
      let post := propagateAct a pre.1 pre.2
      layerBoundOpt opt iaMip (done ++ [(l, a)])
        ⟨acc.preLo ++ pre.1, acc.preUp ++ pre.2, acc.postLo ++ post.1, acc.postUp ++ post.2⟩
        post.1 post.2 rest

/-- relu_to_optimization.py 625-663 `_compute_network_output_bounds` with method LP, MIP or IA_MIP. -/
def outputBoundsOpt (opt : Opt K) (iaMip : Bool) (net : Net K) (preLo preUp : Vec K) :
    Option (Vec K × Vec K) :=
  let m := (List.range net.last.W.length).map (opt net.hidden preLo preUp net.last)
  if iaMip then
    (outputBoundsIA net preLo preUp).map fun ia =>
      (List.zipWith blendOutLo (m.map Prod.fst) ia.1, List.zipWith blendOutUp (m.map Prod.snd) ia.2)
  else some (m.map Prod.fst, m.map Prod.snd)

/-- mip_utils.py 443-451 `PropagateBoundsMethod`; LP and MIP differ only in the solver calls. -/
inductive Method (K : Type*) where
  /-- interval arithmetic -/
  | ia : Method K
  /-- `LP`, `MIP` (`iaMip = false`) or `IA_MIP` -/
  | opt (o : Opt K) (iaMip : Bool) : Method K

/-- relu_to_optimization.py 518-606 `_compute_layer_bound`. -/
def layerBound (m : Method K) (hs : List (Lin K × Act K)) (xlo xup : Vec K) :
    Option (LayerBounds K) :=
  match m with
  | .ia => layerBoundIA hs xlo xup
  | .opt o f => layerBoundOpt o f [] ⟨[], [], [], []⟩ xlo xup hs

/-- relu_to_optimization.py 608-663 `_compute_network_output_bounds`. -/
def outputBounds (m : Method K) (net : Net K) (preLo preUp : Vec K) : Option (Vec K × Vec K) :=
  match m with
  | .ia => outputBoundsIA net preLo preUp
  | .opt o f => outputBoundsOpt o f net preLo preUp

/-- relu_to_optimization.py 777-857 `output_constraint`. -/
def outputConstraint (net : Net K) (xs : ℕ) (xlo xup : Vec K) (m : Method K) :
    Option (ReluMIC K) :=
  if (∀ i, i < xlo.length → xlo.getD i 0 ≤ xup.getD i 0) then do
    let b ← layerBound m net.hidden xlo xup
    let o ← outputBounds m net b.preLo b.preUp
    let c ← outputConsGivenBounds net xs b.preLo b.preUp xlo xup
    some
      { mic := c, nnInputLo := xlo, nnInputUp := xup, nnOutputLo := o.1, nnOutputUp := o.2,
        reluInputLo := b.preLo, reluInputUp := b.preUp, reluOutputLo := b.postLo,
        reluOutputUp := b.postUp }
  else none

end NNL.Model
