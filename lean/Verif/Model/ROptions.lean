import Verif.Basic.Vec
import Verif.Model.SimplePwl
import Verif.Model.ControlAffine

/-!
# `r_options.py`
-/

set_option linter.unusedSectionVars false

namespace NNL.Model

open NNL

variable {K : Type*} [Field K] [LinearOrder K]

/-- `M.T` for a matrix with `n` columns. -/
def transposeM (n : ℕ) (M : Mat K) : Mat K := (List.range n).map fun j => M.map fun r => r.getD j 0

/-- `torch.split(v, sizes)`; the sizes must add up to the length. -/
def splitSizes : List ℕ → Vec K → List (Vec K)
  | [], _ => []
  | k :: ks, v => v.take k :: splitSizes ks (v.drop k)

/-- `SearchRwithSPDOptions`: `R_size = (m, n)`, `epsilon`, `_variables`. -/
structure SpdR (K : Type*) where
  m : ℕ
  n : ℕ
  eps : K
  vars : Vec K

/-- r_options.py 51-54: the number of variables. -/
def spdNum (m n : ℕ) : ℕ := n * (n + 1) / 2 + (m - n) * n

/-- r_options.py 48-56: what the constructor asserts; `_variables` keeps its length. -/
def SpdR.Ok (S : SpdR K) : Prop := S.n ≤ S.m ∧ 0 < S.eps ∧ S.vars.length = spdNum S.m S.n

/-- r_options.py 61-62: `(R_top + R_top.T) / 2`. -/
def symPart (n : ℕ) (A : Mat K) : Mat K := List.zipWith (fun r c => vsmul (1 / 2) (vadd r c)) A (transposeM n A)

/-- r_options.py 66-69: the columns of `L` from the diagonal down. -/
def lowerCols (n : ℕ) (L : Mat K) : List (Vec K) := (List.range n).map fun i => (L.drop i).map fun r => r.getD i 0

/-- r_options.py 58-73 `set_variable_value`; `chol` is `np.linalg.cholesky` (`none`: `LinAlgError`). -/
def SpdR.setValue (chol : Mat K → Option (Mat K)) (S : SpdR K) (R : Mat K) : Option (SpdR K) :=
  if R.length = S.m ∧ (∀ r ∈ R, r.length = S.n) then do
    let L ← chol (addEye S.n (symPart S.n (R.take S.n)) (-S.eps))
    some { S with vars := (lowerCols S.n L).flatten ++ (R.drop S.n).flatten }
  else none

/-- r_options.py 75-79 `set_variable_value_directly`. -/
def SpdR.setDirect (S : SpdR K) (v : Vec K) : Option (SpdR K) :=
  if v.length = S.vars.length then some { S with vars := v } else none

/-- r_options.py 82-90: the matrix `L`. (The rows of the reshaped tensor before the transpose have `n` entries each.) -/
def SpdR.lower (S : SpdR K) : Mat K :=
  let parts := splitSizes ((List.range S.n).map (S.n - ·)) (S.vars.take (S.n * (S.n + 1) / 2))
  transposeM S.n ((List.range S.n).map fun i => zeros i ++ parts.getD i [])

/-- r_options.py 81-98 `R()`. -/
def SpdR.R (S : SpdR K) : Mat K :=
  let L := S.lower
  addEye S.n (matMul S.n L (transposeM S.n L)) S.eps ++
    reshapeRows (S.m - S.n) S.n (S.vars.drop (S.n * (S.n + 1) / 2))

/-- `SearchRwithSVDOptions`: `R_size = (m, n)`. -/
structure SvdR (K : Type*) where
  m : ℕ
  n : ℕ
  a : Vec K
  vars : Vec K
  U : Mat K
  V : Mat K

/-- r_options.py 152-167: the constructor. -/
def SvdR.new (m n : ℕ) (a vars : Vec K) : Option (SvdR K) :=
  if a.length = min m n ∧ (∀ c ∈ a, c > 0) ∧ vars.length = a.length then some ⟨m, n, a, vars, eye m, eye n⟩ else none

/-- r_options.py 169-176 `set_variable_value`; `svd` is `np.linalg.svd`, `sqrt` is `np.sqrt`. -/
def SvdR.setValue (svd : Mat K → Mat K × Vec K × Mat K) (sqrt : K → K) (S : SvdR K) (R : Mat K) : Option (SvdR K) :=
  if R.length = S.m ∧ (∀ r ∈ R, r.length = S.n) then
    let d := svd R
    if d.2.1.length = S.a.length ∧ ∀ i < S.a.length, S.a.getD i 0 ≤ d.2.1.getD i 0 then
      some { S with U := d.1, V := d.2.2, vars := (vsub d.2.1 S.a).map sqrt }
    else none
  else none

/-- r_options.py 178-182 `set_variable_value_directly`. -/
def SvdR.setDirect (S : SvdR K) (v : Vec K) : Option (SvdR K) :=
  if v.length = min S.m S.n then some { S with vars := v } else none

/-- r_options.py 185: the diagonal of `Σ`. -/
def SvdR.diag (S : SvdR K) : Vec K := vadd S.a (S.vars.map fun v => v * v)

/-- r_options.py 185-199: `Σ`, a diagonal block with rows or columns of zeros. -/
def SvdR.sigma (S : SvdR K) : Mat K :=
  let D := (List.range S.diag.length).map fun i => vsmul (S.diag.getD i 0) (eyeRow S.diag.length i)
  if S.n < S.m then D ++ zerosM (S.m - S.n) S.n
  else if S.m < S.n then D.map (· ++ zeros (S.n - S.m))
  else D

/-- r_options.py 184-200 `R()`. -/
def SvdR.R (S : SvdR K) : Mat K := matMul S.n (matMul S.n S.U S.sigma) S.V

end NNL.Model
