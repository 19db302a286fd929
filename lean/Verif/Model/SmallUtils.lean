import Mathlib.Algebra.Order.Floor.Ring
import Verif.Basic.Vec

/-!
# Small helpers (utils.py 9-30 and 1188-1202, pybullet_data_generation.py 77-89)
-/

set_option linter.unusedSectionVars false

namespace NNL.Model

open NNL

variable {K : Type*} [Field K] [LinearOrder K]

/-- utils.py 9-18: the argument of `update_progress` as `isinstance` sees it. NaN is not modelled. -/
inductive Progress (K : Type*) where
  | int (n : ℤ)
  | float (x : K)
  | other

/-- utils.py 11-18: the conversion, then the two clamps in the order of the source. -/
def clampProgress (p : Progress K) : K :=
  let x : K := match p with
    | .int n => (n : K)
    | .float x => x
    | .other => 0
  let x := if x < 0 then 0 else x
  if x ≥ 1 then 1 else x

/-- Python's `round` to an integer: halves go to the even neighbour. -/
def pyRound [FloorRing K] (x : K) : ℤ :=
  if x - ⌊x⌋ < 1 / 2 then ⌊x⌋
  else if x - ⌊x⌋ > 1 / 2 then ⌊x⌋ + 1
  else if ⌊x⌋ % 2 = 0 then ⌊x⌋ else ⌊x⌋ + 1

/-- utils.py 20-23: the bar which `update_progress` prints, and the percentage before it is formatted with one
digit. `"#" * k` is empty for a negative `k`, as is `List.replicate k.toNat`. -/
def progressBar [FloorRing K] (p : Progress K) : List Char × K :=
  let x := clampProgress p
  let block := pyRound (40 * x)
  (List.replicate block.toNat '#' ++ List.replicate (40 - block).toNat '-', x * 100)

/-- numpy's `argmin`: the first index of the smallest entry; raises for an empty array. -/
def argminFirst : List K → Option ℕ
  | [] => none
  | a :: as => match argminFirst as with
    | none => some 0
    | some i => if a ≤ as.getD i 0 then some 0 else some (i + 1)

/-- utils.py 27-30 `find_nearest`, for an array with one dimension. -/
def findNearest (array : List K) (value : K) : Option K :=
  (argminFirst (array.map fun a => |a - value|)).bind fun idx => array[idx]?

/-- A layer with the gradients stored in it, as `network_zero_grad` sees it: for a linear layer the gradient of
the weight (which may be `None`) and, if it has a bias, the gradient of the bias (which may be `None`). -/
inductive GradLayer (K : Type*) where
  | lin (wGrad : Option (Mat K)) (bias : Option (Option (Vec K)))
  | relu
  | leaky
  | other

/-- utils.py 1193-1197: one linear layer. -/
def zeroLin (wGrad : Option (Mat K)) (bias : Option (Option (Vec K))) : GradLayer K :=
  .lin (wGrad.map fun W => W.map fun r => r.map fun _ => 0) (bias.map fun g => g.map fun v => v.map fun _ => 0)

/-- utils.py 1188-1202 `network_zero_grad`: the layers afterwards, and whether the call raised. Gradients are
changed in place, so what was done before an exception stays done. -/
def networkZeroGrad : List (GradLayer K) → List (GradLayer K) × Bool
  | [] => ([], false)
  | .lin w b :: ls => let r := networkZeroGrad ls; (zeroLin w b :: r.1, r.2)
  | .relu :: ls => let r := networkZeroGrad ls; (.relu :: r.1, r.2)
  | .leaky :: ls => let r := networkZeroGrad ls; (.leaky :: r.1, r.2)
  | .other :: ls => (.other :: ls, true)

/-- pybullet_data_generation.py 86: the mean over the samples of the magnitude of entry `j`. -/
def meanAbs (data : Mat K) (j : ℕ) : K := (data.map fun r => |r.getD j 0|).sum / (data.length : K)

/-- pybullet_data_generation.py 77-89 `add_noise` for a dataset with one row per sample; `eps` is the draw of
`torch.randn` and `pct` has one entry per column (a scalar tensor would be broadcast). Data with more dimensions is
not modelled. -/
def addNoise (data : Mat K) (pct : Vec K) (eps : Mat K) : Mat K :=
  List.zipWith (fun r e => List.zipWith (· + ·) r
    ((List.range r.length).map fun j => e.getD j 0 * (pct.getD j 0 * meanAbs data j))) data eps

end NNL.Model
