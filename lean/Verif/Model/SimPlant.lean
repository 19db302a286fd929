import Verif.Model.Feedback
import Verif.Model.Physics
import Mathlib.Algebra.Order.Floor.Ring

/-!
# `utils.py`: simulations

The solution that `solve_ivp` computes is a parameter.
-/

namespace NNL.Model

open NNL NNL.Spec

/-- utils.py 1234-1242 `step_system`; `step` may raise. -/
def stepSystem {X : Type} (step : X → Option X) (x : X) : ℕ → Option (List X)
  | 0 => some [x]
  | k + 1 => do
    let path ← stepSystem step x k
    let l ← path.getLast?
    let y ← step l
    some (path ++ [y])

/-- utils.py 1255-1258: the control in `simulate_plant_with_controller`. -/
noncomputable def simControl (ctrl : Controller ℝ) (xEq uEq uLo uUp x : Vec ℝ) : Vec ℝ :=
  List.zipWith max (List.zipWith min (vadd (vsub (ctrl.eval x) (ctrl.eval xEq)) uEq) uUp) uLo

/-- utils.py 1252-1258: the function `dyn` of `simulate_plant_with_controller`. -/
noncomputable def simDyn {n p : ℕ} (f : (Fin n → ℝ) → (Fin p → ℝ) → Fin n → ℝ) (ctrl : Controller ℝ) (xEq : Fin n → ℝ)
    (uEq uLo uUp : Fin p → ℝ) (x : Fin n → ℝ) : Fin n → ℝ :=
  f x fun i => (simControl ctrl (List.ofFn xEq) (List.ofFn uEq) (List.ofFn uLo) (List.ofFn uUp) (List.ofFn x)).getD i 0

/-- `np.arange(start, stop, step)`. -/
noncomputable def arange (start stop step : ℝ) : List ℝ := (List.range ⌈(stop - start) / step⌉₊).map fun k : ℕ => start + k * step

/-- utils.py 1245-1266 `simulate_plant_with_controller`: times and states of the result. -/
noncomputable def simulatePlant {n p : ℕ} (solve : ((Fin n → ℝ) → Fin n → ℝ) → ℝ → ℝ → (Fin n → ℝ) → ℝ → Fin n → ℝ)
    (f : (Fin n → ℝ) → (Fin p → ℝ) → Fin n → ℝ) (ctrl : Controller ℝ) (t0 t1 : ℝ) (xEq : Fin n → ℝ)
    (uEq uLo uUp : Fin p → ℝ) (x0 : Fin n → ℝ) : List (ℝ × (Fin n → ℝ)) :=
  (arange t0 t1 0.01).map fun t => (t, solve (simDyn f ctrl xEq uEq uLo uUp) t0 t1 x0 t)

end NNL.Model
