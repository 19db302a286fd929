import Verif.Basic.Vec

/-!
# Grids (utils.py 1089-1106, hybrid_linear_system.py 839-941)
-/

set_option linter.unusedSectionVars false

namespace NNL.Model

open NNL

variable {K : Type*} [Field K] [LinearOrder K]

/-- `linspace(lo, up, n)` of numpy and torch: `n` values, the first is `lo`. -/
def linspace (lo up : K) (n : ℕ) : List K :=
  (List.range n).map fun (k : ℕ) => lo + (k : K) * ((up - lo) / ((n - 1 : ℕ) : K))

/-- The rows of the flattened `torch.meshgrid` (indexing `ij`): the first axis varies slowest. -/
def cart {α : Type*} : List (List α) → List (List α)
  | [] => [[]]
  | l :: ls => l.flatMap fun a => (cart ls).map fun r => a :: r

/-- Exchange the first two entries. -/
def swap01 {α : Type*} : List α → List α
  | a :: b :: r => b :: a :: r
  | l => l

/-- The rows of the flattened `np.meshgrid` (indexing `xy`): the second axis varies slowest, then the first, then
the others. -/
def meshXY {α : Type*} (ls : List (List α)) : List (List α) := (cart (swap01 ls)).map swap01

/-- utils.py 1089-1106 `get_meshgrid_samples`. `torch.cat` of an empty list raises. -/
def meshSamples (lower upper : Vec K) (sizes : List ℕ) : Option (List (Vec K)) :=
  if upper.length = sizes.length ∧ lower.length = sizes.length ∧ sizes ≠ [] then
    some (cart ((List.range sizes.length).map fun i =>
      linspace (lower.getD i 0) (upper.getD i 0) (sizes.getD i 0)))
  else none

/-- One cell of the partition. -/
structure Cell (K : Type*) where
  x : Vec K
  u : Vec K
  xLo : Vec K
  xUp : Vec K
  uLo : Vec K
  uUp : Vec K

/-- hybrid_linear_system.py 884-885, 893-894: the intervals of one axis. -/
def limits (lo up : K) (n : ℕ) : List (K × K) :=
  let l := linspace lo up (n + 1)
  (List.range n).map fun k => (l.getD k 0, l.getD (k + 1) 0)

/-- hybrid_linear_system.py 881-882: `delta * (up - lo) / num_breaks`. -/
def deltaScaled (lo up delta : Vec K) (n : List ℕ) : Vec K :=
  List.zipWith (fun a k => a / ((k : ℕ) : K)) (List.zipWith (· * ·) delta (vsub up lo)) n

/-- hybrid_linear_system.py 926-929: `min(max(v, lo), up)`. -/
def clampV (v lo up : Vec K) : Vec K := List.zipWith min (List.zipWith max v lo) up

/-- hybrid_linear_system.py 911-941: the cell of one tuple of indices. -/
def cellAt (xLo xUp uLo uUp : Vec K) (nx nu : List ℕ) (dx du : Vec K) (ks : List ℕ) : Cell K :=
  let lo := xLo ++ uLo
  let up := xUp ++ uUp
  let n := nx ++ nu
  let lims := (List.range n.length).map fun i =>
    (limits (lo.getD i 0) (up.getD i 0) (n.getD i 0)).getD (ks.getD i 0) (0, 0)
  let sample := (List.range n.length).map fun i =>
    ((limits (lo.getD i 0) (up.getD i 0) (n.getD i 0)).map fun p => 1 / 2 * (p.1 + p.2)).getD (ks.getD i 0) 0
  let sLo := lims.map Prod.fst
  let sUp := lims.map Prod.snd
  let xs := deltaScaled xLo xUp dx nx
  let us := deltaScaled uLo uUp du nu
  { x := sample.take xLo.length
    u := (sample.drop xLo.length).take uLo.length
    xLo := clampV (vsub (sLo.take xLo.length) xs) xLo xUp
    xUp := clampV (vadd (sUp.take xLo.length) xs) xLo xUp
    uLo := clampV (vsub ((sLo.drop xLo.length).take uLo.length) us) uLo uUp
    uUp := clampV (vadd ((sUp.drop xLo.length).take uLo.length) us) uLo uUp }

/-- hybrid_linear_system.py 839-941 `partition_state_input_space`. The vectors must have the lengths of `x_lo` and
`u_lo` (the source would broadcast some other shapes). The source rounds samples and limits to single
precision (`torch.Tensor([...])`); here the arithmetic is exact. -/
def partition (xLo xUp uLo uUp : Vec K) (nx nu : List ℕ) (dx du : Vec K) : Option (List (Cell K)) :=
  if xUp.length = xLo.length ∧ uUp.length = uLo.length ∧ nx.length = xLo.length ∧ nu.length = uLo.length ∧
      dx.length = xLo.length ∧ du.length = uLo.length ∧ nx ++ nu ≠ [] then
    some ((meshXY ((nx ++ nu).map List.range)).map (cellAt xLo xUp uLo uUp nx nu dx du))
  else none

end NNL.Model
