import Verif.Model.Mip
import Verif.Model.Encoders
import Verif.Model.ScalarEnc

/-!
# The saturation block of `utils.py`
-/

namespace NNL.Model

open NNL

variable {K : Type*} [Field K] [LinearOrder K]

/-- utils.py 505-527: `y - lower = relu(x - lower)`, where `R` is the ReLU encoding and `beta = 1` means
that the lower limit is active. -/
def Mip.addLowerRows (m : Mip K) (R : Rows K) (x y beta : ℕ) (lower : K) : Option (Mip K) :=
  m.addMConstr [colT R.Ax, colT R.As, colT (vneg R.Aa)] [[x], [y], [beta]] .le
    (vadd (vsub R.rhs R.Aa) (vsmul lower (vadd R.Ax R.As)))

/-- utils.py 528-549: `upper - y = relu(upper - x)`, `beta = 1` means that the upper limit is active. -/
def Mip.addUpperRows (m : Mip K) (R : Rows K) (x y beta : ℕ) (upper : K) : Option (Mip K) :=
  m.addMConstr [colT (vneg R.Ax), colT (vneg R.As), colT (vneg R.Aa)] [[x], [y], [beta]] .le
    (vsub (vsub R.rhs R.Aa) (vsmul upper (vadd R.Ax R.As)))

/-- utils.py 444-591 `add_saturation_as_mixed_integer_constraint(mip, input_var, output_var, lower_limit,
upper_limit, input_lower_bound, input_upper_bound, binary_var_type)`; the result is the new program and the
binaries returned. Simplification: the type assertions are dropped. -/
def Mip.addSaturation (m : Mip K) (x y : ℕ) (lower upper lo up : K) (bt : VType) :
    Option (Mip K × List ℕ) :=
  if up ≤ lower then do
    let m ← m.addLConstr [[1]] [[y]] .eq lower
    some (m, [])
  else if lo ≥ upper then do
    let m ← m.addLConstr [[1]] [[y]] .eq upper
    some (m, [])
  else if lo ≥ lower ∧ up ≤ upper then do
    let m ← m.addLConstr [[1, -1]] [[x, y]] .eq 0
    some (m, [])
  else if lo < lower ∧ up ≤ upper then do
    let R ← replaceRelu (lo - lower) (up - lower)
    let t ← m.addVars 1 (scalarBound 1 0) (scalarBound 1 1) bt
    let m ← t.1.addLowerRows R x y (t.2.getD 0 0) lower
    some (m, t.2)
  else if lo ≥ lower ∧ up > upper then do
    let R ← replaceRelu (upper - up) (upper - lo)
    let t ← m.addVars 1 (scalarBound 1 0) (scalarBound 1 1) bt
    let m ← t.1.addUpperRows R x y (t.2.getD 0 0) upper
    some (m, t.2)
  else do
    let tz ← m.addVars 1 (noBound 1) (noBound 1) .continuous
    let t ← tz.1.addVars 2 (scalarBound 2 0) (scalarBound 2 1) bt
    let m ← t.1.addLConstr [[1, 1]] [t.2] .le 1
    let R1 ← replaceRelu (lo - lower) (up - lower)
    let m ← m.addLowerRows R1 x (tz.2.getD 0 0) (t.2.getD 0 0) lower
    let R2 ← replaceRelu (upper - up) (upper - lo)
    let m ← m.addUpperRows R2 (tz.2.getD 0 0) y (t.2.getD 1 0) upper
    some (m, t.2)

end NNL.Model
