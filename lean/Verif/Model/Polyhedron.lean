import Mathlib.Analysis.InnerProductSpace.PiL2
import Mathlib.Data.Matrix.Mul

/-!
# Polyhedra `P x <= q`, `utils.py`

The answers of the solvers are parameters.
-/

namespace NNL.Model

variable {m n : ℕ}

/-- utils.py 733-746 `is_polyhedron_bounded`; `infeasible P i c` tells whether the solver reports the status `infeasible` for the rows
`P x <= 0` and `x[i] = c`. -/
def isPolyhedronBounded (infeasible : Matrix (Fin m) (Fin n) ℝ → Fin n → ℝ → Bool) (P : Matrix (Fin m) (Fin n) ℝ) : Bool :=
  (List.finRange n).all fun i => infeasible P i 1 && infeasible P i (-1)

open Classical in
/-- utils.py 937-948 `project_to_polyhedron`; `solve` returns the solution of the program `min |x - y|^2, A y <= b`, `none` if it has
none (then `y.value` is `None` and the function raises). -/
noncomputable def projectToPolyhedron
    (solve : Matrix (Fin m) (Fin n) ℝ → (Fin m → ℝ) → EuclideanSpace ℝ (Fin n) → Option (EuclideanSpace ℝ (Fin n)))
    (A : Matrix (Fin m) (Fin n) ℝ) (b : Fin m → ℝ) (x : EuclideanSpace ℝ (Fin n)) : Option (EuclideanSpace ℝ (Fin n)) :=
  if A.mulVec x ≤ b then some x else solve A b x

end NNL.Model
