import Verif.Model.NetEnc
import Verif.Spec.Pattern

/-!
# Activation patterns and gradients

relu_to_optimization.py 17-211, 896-1168, 1330-1408; utils.py 1356-1408.
-/

set_option linter.unusedSectionVars false

namespace NNL.Model

open NNL NNL.Spec

variable {K : Type*} [Field K] [LinearOrder K]

/-! ### Patterns -/

/-- relu_to_optimization.py 17-37 `ComputeReLUActivationPattern`. -/
def computePattern : List (Lin K × Act K) → Vec K → List (List Bool)
  | [], _ => []
  | (l, a) :: hs, x =>
    (l.eval x).map (fun y => decide (y ≥ 0)) :: computePattern hs ((l.eval x).map a.f)

/-- relu_to_optimization.py 60-77: extend the queue of layer patterns by the flag(s) of one unit. One
pass of `get`/`put` over the FIFO queue is a `flatMap` in queue order. -/
def extendUnit (q : List (List Bool)) (y : K) : List (List Bool) :=
  q.flatMap fun front =>
    if y > 0 then [front ++ [true]]
    else if y < 0 then [front ++ [false]]
    else [front ++ [true], front ++ [false]]

/-- relu_to_optimization.py 57-77: all patterns of one layer. -/
def layerPatterns (y : Vec K) : List (List Bool) := y.foldl extendUnit [[]]

/-- relu_to_optimization.py 40-95 `compute_all_relu_activation_patterns`, starting with queue `q`
(the code starts with one empty pattern). -/
def allPatternsFrom : List (List (List Bool)) → List (Lin K × Act K) → Vec K →
    List (List (List Bool))
  | q, [], _ => q
  | q, (l, a) :: hs, x =>
    allPatternsFrom (q.flatMap fun p => (layerPatterns (l.eval x)).map fun f => p ++ [f]) hs
      ((l.eval x).map a.f)

/-- relu_to_optimization.py 40-95 `compute_all_relu_activation_patterns`. -/
def allPatterns (hs : List (Lin K × Act K)) (x : Vec K) : List (List (List Bool)) :=
  allPatternsFrom [[]] hs x

/-- relu_to_optimization.py 120-127: cut the array at a running offset. -/
def splitBin : List ℕ → ℕ → Vec K → List (List Bool)
  | [], _, _ => []
  | w :: ws, off, z => (slice z off w).map (fun b => decide (b = 1)) :: splitBin ws (off + w) z

/-- relu_to_optimization.py 98-128 `relu_activation_binary_to_pattern`; `widths` are the
`out_features` of the hidden layers. -/
def binToPattern (widths : List ℕ) (z : Vec K) : Option (List (List Bool)) :=
  if (∀ b ∈ z, b = 1 ∨ b = 0) ∧ z.length = widths.sum then some (splitBin widths 0 z) else none

/-- relu_to_optimization.py 131-153 `set_activation_warmstart`: the start values given to the
binaries, in order. -/
def warmstart (hs : List (Lin K × Act K)) (x : Vec K) : Vec K :=
  (computePattern hs x).flatten.map fun u => if u then 1 else 0

/-- relu_to_optimization.py 185-204: the rows of one activation layer. Returns the rows appended to
`P`, `q` and the new `A_layer`, `b_layer`. -/
def rgapRows (a : Act K) : List Bool → Mat K → Vec K → Mat K × Vec K × Mat K × Vec K
  | f :: fs, r :: A, b :: bs =>
    let t := rgapRows a fs A bs
    if f then (vneg r :: t.1, b :: t.2.1, r :: t.2.2.1, b :: t.2.2.2)
    else
      (r :: t.1, -b :: t.2.1,
        (match a with
          | .relu => zeros r.length
          | .leaky s => vsmul s r) :: t.2.2.1,
        (match a with
          | .relu => 0
          | .leaky s => s * b) :: t.2.2.2)
  | _, _, _ => ([], [], [], [])

/-- relu_to_optimization.py 177-208: the loop over the layers before the output layer. `n` is
`x_size`. A missing pattern layer raises IndexError, a wrong length fails the assertion. -/
def rgapHid (n : ℕ) : List (Lin K × Act K) → List (List Bool) → Mat K → Vec K →
    Option (Mat K × Vec K × Mat K × Vec K)
  | [], _, A, b => some ([], [], A, b)
  | _ :: _, [], _, _ => none
  | (l, a) :: hs, p :: ps, A, b =>
    let A1 := matMul n l.W A
    let b1 := vadd (matVec l.W b) (l.bias.getD (zeros l.W.length))
    if p.length = l.W.length then
      let t := rgapRows a p A1 b1
      (rgapHid n hs ps t.2.2.1 t.2.2.2).map fun r => (t.1 ++ r.1, t.2.1 ++ r.2.1, r.2.2)
    else none

/-- The tuple `(g, h, P, q)`; `g` is stored transposed, as the matrix with one row per output. -/
structure Piece (K : Type*) where
  gT : Mat K
  h : Vec K
  P : Mat K
  q : Vec K

/-- relu_to_optimization.py 156-211 `ReLUGivenActivationPattern`. -/
def reluGivenPattern (net : Net K) (n : ℕ) (pat : List (List Bool)) : Option (Piece K) :=
  (rgapHid n net.hidden pat (eye n) (zeros n)).map fun r =>
    { gT := matMul n net.last.W r.2.2.1
      h := vadd (matVec net.last.W r.2.2.2) (net.last.bias.getD (zeros net.last.W.length))
      P := r.1
      q := r.2.1 }

/-! ### The gradient as a linear function of products of binaries -/

/-- relu_to_optimization.py 909-914: the loop of `compute_alpha_index`. -/
def alphaLoop : ℕ → List ℕ → List ℕ → Option ℕ
  | idx, w :: ws, i :: is => if i < w then alphaLoop (idx * w + i) ws is else none
  | idx, _, _ => some idx

/-- relu_to_optimization.py 896-915 `compute_alpha_index`. -/
def alphaIndex (widths is : List ℕ) : Option ℕ :=
  if is.length = widths.length then alphaLoop 0 widths is else none

/-- relu_to_optimization.py 1005-1026: one later linear layer. The queue holds pairs (path, gradient). -/
def gradStep (W : Mat K) (width : ℕ) (q : List (List ℕ × Mat K)) : List (List ℕ × Mat K) :=
  q.flatMap fun pg => (List.range width).map fun j =>
    (pg.1 ++ [j], W.map fun w => vsmul (w.getD j 0) (pg.2.getD j []))

/-- relu_to_optimization.py 996-1032: the loop over the layers after the first linear layer; `width`
is the number of units of the preceding ReLU layer. A leaky ReLU layer raises. -/
def gradQueue : List (List ℕ × Mat K) → List (Lin K × Act K) → Lin K →
    Option (List (List ℕ × Mat K))
  | q, [], _ => some q
  | q, [(l, a)], last =>
    match a with
    | .relu => some (gradStep last.W l.W.length q)
    | .leaky _ => none
  | q, (l, a) :: (l2, a2) :: hs, last =>
    match a with
    | .relu => gradQueue (gradStep l2.W l.W.length q) ((l2, a2) :: hs) last
    | .leaky _ => none

/-- `relu_unit_index[k][j]`: units are numbered layer by layer (relu_to_optimization.py 271-289). -/
def unitIndex (widths : List ℕ) (k j : ℕ) : ℕ := (widths.take k).sum + j

/-- relu_to_optimization.py 1047-1061: the rows for one path, as coefficients of `α` (`s`) and `β`
(`z`). -/
def alphaRows (widths : List ℕ) (numAlpha idx : ℕ) (path : List ℕ) : List (LRow K) :=
  let L := widths.length
  let n := widths.sum
  ((List.range L).map fun k =>
    ⟨[], (zeros numAlpha).set idx 1, (zeros n).set (unitIndex widths k (path.getD k 0)) (-1), 0⟩) ++
  [⟨[], (zeros numAlpha).set idx (-1),
    (List.range L).foldl (fun r k => r.set (unitIndex widths k (path.getD k 0)) 1) (zeros n),
    (L : K) - 1⟩]

/-- The result of `output_gradient`: `M` and the rows of `B1 α + B2 β <= d`. -/
structure GradEnc (K : Type*) where
  M : Mat K
  rows : List (LRow K)

/-- relu_to_optimization.py 1034-1061: read the queue. `M[alpha_index] = gradient` needs a gradient
with one row. -/
def gradFill (widths : List ℕ) (numAlpha : ℕ) : List (List ℕ × Mat K) → Mat K →
    Option (GradEnc K)
  | [], M => some ⟨M, []⟩
  | (path, g) :: q, M =>
    match alphaIndex widths path, g with
    | some idx, [r] =>
      (gradFill widths numAlpha q (M.set idx r)).map fun e =>
        ⟨e.M, alphaRows widths numAlpha idx path ++ e.rows⟩
    | _, _ => none

/-- relu_to_optimization.py 917-1063 `output_gradient`. The uninitialised entries of `torch.empty` are
empty rows here. Without a hidden layer `np.prod` of an empty array is a float and `torch.empty` raises. -/
def outputGradient (net : Net K) : Option (GradEnc K) :=
  let widths := net.hidden.map fun p => p.1.W.length
  match net.hidden with
  | [] => none
  | (l, _) :: _ =>
    (gradQueue [([], l.W)] net.hidden net.last).bind fun q =>
      gradFill widths widths.prod q (List.replicate widths.prod [])

/-! ### Gradient times vector -/

/-- relu_to_optimization.py 1367-1381: the range of `W[j] z`. -/
def wzRow (w lo up : Vec K) : K × K :=
  ((List.zipWith (fun c t => if c > 0 then c * t.1 else c * t.2) w (lo.zip up)).sum,
   (List.zipWith (fun c t => if c > 0 then c * t.2 else c * t.1) w (lo.zip up)).sum)

/-- relu_to_optimization.py 1385-1404: range of one entry of `M(β, c) W z`; a negative slope fails the
assertion. -/
def zNext (a : Act K) (lo up : K) : Option (K × K) :=
  match a with
  | .relu => some (min 0 lo, max 0 up)
  | .leaky c => if c ≥ 0 then some (min lo (c * lo), max up (c * up)) else none

/-- relu_to_optimization.py 1330-1408 `_compute_Wz_bounds_IA`: `(Wz_lo[i], Wz_up[i])` for the hidden
layers (the bounds of the last layer are not used by the encoding). -/
def wzBoundsIA : List (Lin K × Act K) → Vec K → Vec K → Option (List (Vec K × Vec K))
  | [], _, _ => some []
  | (l, a) :: hs, lo, up =>
    let wz := l.W.map fun w => wzRow w lo up
    (collect (wz.map fun t => zNext a t.1 t.2)).bind fun zn =>
      (wzBoundsIA hs (zn.map Prod.fst) (zn.map Prod.snd)).map fun r =>
        (wz.map Prod.fst, wz.map Prod.snd) :: r

/-- relu_to_optimization.py 1124-1135: the scalar encoding used for one unit. -/
def gradScalar (a : Act K) (lo up : K) : Option (Rows K) :=
  match a with
  | .relu => replaceBinaryContinuousProduct lo up
  | .leaky c => leakyGradTimesX lo up c

/-- relu_to_optimization.py 1124-1152: the rows of one unit. -/
def gradNeuron (W : Vec K) (a : Act K) (lo up : K) : Option (List (LRow K)) :=
  (gradScalar a lo up).map fun R =>
    (List.range R.rhs.length).map fun i =>
      ⟨vsmul (R.Ax.getD i 0) W, [R.As.getD i 0], [R.Aa.getD i 0], R.rhs.getD i 0⟩

/-- relu_to_optimization.py 1123-1152: the rows of one layer. -/
def gradLayer (l : Lin K) (a : Act K) (lo up : Vec K) : Option (List (LRow K)) :=
  (collect ((List.range l.W.length).map fun j =>
    (gradNeuron (l.W.getD j []) a (lo.getD j 0) (up.getD j 0)).map
      (List.map (spread l.W.length j)))).map List.flatten

/-- relu_to_optimization.py 1112-1153: the loop over the layers. -/
def gradHid (xs n : ℕ) : Bool → ℕ → ℕ → List (Lin K × Act K) → List (Vec K × Vec K) →
    Option (List (LRow K))
  | _, _, _, [], _ => some []
  | _, _, _, _ :: _, [] => none
  | first, offPrev, off, (l, a) :: hs, b :: bs =>
    match gradLayer l a b.1 b.2, gradHid xs n false off (off + l.W.length) hs bs with
    | some c, some r => some (c.map (placeRow first xs n offPrev off) ++ r)
    | _, _ => none

/-- relu_to_optimization.py 1065-1168 `output_gradient_times_vector_w_bounds`. Without a hidden layer
`relu_unit_index[-1]` raises. -/
def gradTimesVecBounds (net : Net K) (xs : ℕ) (wz : List (Vec K × Vec K)) : Option (MIC K) :=
  let n := numUnits net.hidden
  match net.hidden, gradHid xs n true 0 0 net.hidden wz with
  | [], _ => none
  | _, none => none
  | _ :: _, some rows => some
      { Aout_slack := some ⟨n, net.last.W.map fun w => setSlice (zeros n) (lastOff net.hidden) w⟩
        Ain_input := rowsTensor xs LRow.x rows
        Ain_slack := rowsTensor n LRow.s rows
        Ain_binary := rowsTensor n LRow.z rows
        rhs_in := some (rows.map LRow.rhs) }

/-- relu_to_optimization.py 1170-1208 `output_gradient_times_vector`. -/
def gradTimesVec (net : Net K) (xs : ℕ) (lo up : Vec K) : Option (MIC K) :=
  if lo.length = xs ∧ up.length = xs then
    (wzBoundsIA net.hidden lo up).bind fun wz => gradTimesVecBounds net xs wz
  else none

/-! ### All one-sided gradients -/

/-- utils.py 1395-1404: the effect of unit `i` with input `y` on the list of Jacobians. -/
def gradUnit (tol c : K) (i : ℕ) (y : K) (Ds : List (Mat K)) : List (Mat K) :=
  let scale := fun D : Mat K => D.set i (vsmul c (D.getD i []))
  if y > tol then Ds
  else if y < -tol then Ds.map scale
  else Ds ++ Ds.map scale

/-- utils.py 1395-1404: the loop over the units of a layer. -/
def gradUnits (tol c : K) : ℕ → Vec K → List (Mat K) → List (Mat K)
  | _, [], Ds => Ds
  | i, y :: ys, Ds => gradUnits tol c (i + 1) ys (gradUnit tol c i y Ds)

/-- utils.py 1387-1394: the factor `c` of a layer. -/
def actC : Act K → K
  | .relu => 0
  | .leaky c => c

/-- utils.py 1383-1406: the loop over the layers before the output layer. -/
def gradLayers (tol : K) (n : ℕ) : List (Lin K × Act K) → Vec K → List (Mat K) → List (Mat K)
  | [], _, Ds => Ds
  | (l, a) :: hs, x, Ds =>
    gradLayers tol n hs ((l.eval x).map a.f)
      (gradUnits tol (actC a) 0 (l.eval x) (Ds.map (matMul n l.W)))

/-- utils.py 1356-1408 `relu_network_gradient`. `n` is `relu_network[0].in_features`. -/
def reluNetworkGradient (tol : K) (net : Net K) (n : ℕ) (x : Vec K) : Option (List (Mat K)) :=
  if x.length = n ∧ tol ≥ 0 then
    some ((gradLayers tol n net.hidden x [eye n]).map (matMul n net.last.W))
  else none

end NNL.Model
