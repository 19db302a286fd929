import Verif.Basic.Vec

/-!
# Scalar mixed-integer encoders of `utils.py`

Each encoder returns four coefficient arrays `(A_x, A_s, A_alpha, rhs)`; the code uses them as rows
`A_x[i]*x + A_s[i]*s + A_alpha[i]*alpha <= rhs[i]`.  A failed `assert` is `none`.
-/

namespace NNL.Model

variable {K : Type*} [Field K] [LinearOrder K]

/-- The tuple `(A_x, A_s, A_alpha, rhs)` returned by the scalar encoders (utils.py 68, 155, 393, 439). -/
structure Rows (K : Type*) where
  /-- coefficients of the input -/
  Ax : Vec K
  /-- coefficients of the output/slack -/
  As : Vec K
  /-- coefficients of the binary -/
  Aa : Vec K
  /-- right-hand sides -/
  rhs : Vec K

/-- The meaning documented in the docstrings: `A_x*x + A_s*s + A_alpha*alpha <= rhs`, row by row. -/
def Rows.Holds (R : Rows K) (x s a : K) : Prop :=
  ∀ i, i < R.rhs.length →
    R.Ax.getD i 0 * x + R.As.getD i 0 * s + R.Aa.getD i 0 * a ≤ R.rhs.getD i 0

/-- `(-A_x, -A_y, -A_alpha, -rhs)`, utils.py 157 and 441. -/
def Rows.neg (R : Rows K) : Rows K :=
  { Ax := vneg R.Ax, As := vneg R.As, Aa := vneg R.Aa, rhs := vneg R.rhs }

/-- utils.py 38-68 `replace_binary_continuous_product`. Simplification: the float/tensor type checks
are dropped. -/
def replaceBinaryContinuousProduct (lo up : K) : Option (Rows K) :=
  if lo ≤ up then
    some { Ax := [0, 0, 1, -1], As := [-1, 1, -1, 1], Aa := [lo, -up, up, -lo],
           rhs := [0, 0, up, -lo] }
  else none

/-- utils.py 358-393 `replace_relu_with_mixed_integer_constraint`. -/
def replaceRelu (lo up : K) : Option (Rows K) :=
  if lo < 0 then
    if up > 0 then
      some { Ax := [0, 1, 0, -1], As := [-1, -1, 1, 1], Aa := [0, 0, -up, -lo],
             rhs := [0, 0, 0, -lo] }
    else none
  else none

/-- utils.py 396-441 `replace_leaky_relu_mixed_integer_constraint`. -/
def replaceLeakyRelu (a lo up : K) : Option (Rows K) :=
  if lo < 0 then
    if up > 0 then
      let R : Rows K :=
        { Ax := [1, a, -a, -1], As := [-1, -1, 1, 1],
          Aa := [0, 0, (a - 1) * up, (a - 1) * lo], rhs := [0, 0, 0, (a - 1) * lo] }
      some (if a ≤ 1 then R else R.neg)
    else none
  else none

/-- utils.py 123-157 `leaky_relu_gradient_times_x`. -/
def leakyGradTimesX (lo up c : K) : Option (Rows K) :=
  if up ≥ lo then
    let R : Rows K :=
      { Ax := [-1, 1, c, -c], As := [1, -1, -1, 1],
        Aa := [(c - 1) * lo, (1 - c) * up, (1 - c) * lo, (c - 1) * up],
        rhs := [(c - 1) * lo, (1 - c) * up, 0, 0] }
    some (if c < 1 then R else R.neg)
  else none

/-- utils.py 898-934 `leaky_relu_interval(negative_slope, x_lo, x_up)`; the result is
`(output_lo, output_up)`. Simplification: `clone()` is dropped. -/
def leakyReluInterval (a lo up : K) : Option (K × K) :=
  if up > lo then
    if a ≥ 0 then
      if lo ≥ 0 then some (lo, up)
      else if up ≤ 0 then some (a * lo, a * up)
      else some (a * lo, up)
    else
      if lo ≥ 0 then some (lo, up)
      else if up ≤ 0 then some (a * up, a * lo)
      else some (0, max (a * lo) up)
  else none

end NNL.Model
