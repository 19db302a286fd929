import Verif.Model.ContCostToGo
import Mathlib.MeasureTheory.Integral.IntervalIntegral.Basic

/-!
Specification for C109: trajectories of a piecewise affine system, and what the integrator is trusted for.
-/

namespace NNL.Spec

open NNL NNL.Model MeasureTheory

/-- `x` solves the piecewise affine system on `[0, h]`: the state always lies in some mode, and it is the
integral of `A x + g` of a mode that contains it (so it may have kinks where modes change). -/
def Follows (S : AutoHybrid ℝ) (h : ℝ) (x : ℝ → Vec ℝ) : Prop :=
  ∃ d : ℝ → Vec ℝ,
    (∀ t, 0 ≤ t → t ≤ h → (x t).length = S.xdim ∧ ∃ md ∈ S.modes,
      (∀ i, i < md.q.length → dot (md.P.getD i []) (x t) ≤ md.q.getD i 0) ∧
      d t = vadd (matVec md.A (x t)) md.g) ∧
    ∀ j, j < S.xdim → IntervalIntegrable (fun t => (d t).getD j 0) volume 0 h ∧
      ∀ t, 0 ≤ t → t ≤ h → (x t).getD j 0 = (x 0).getD j 0 + ∫ τ in (0 : ℝ)..t, (d τ).getD j 0

/-- The two vectors have the same length and differ by at most `δ` in each entry. -/
def Close (δ : ℝ) (a b : Vec ℝ) : Prop := a.length = b.length ∧ ∀ j, |a.getD j 0 - b.getD j 0| ≤ δ

/-- What `solve_ivp` is trusted for, with accuracy `δ`: the points returned for `ẏ = f y`, `y 0 = y0` on `[0, T]`
are within `δ` of a solution `y` at the returned times, the first time is `0`, the last one `te ≤ T`, and
unless an event happens at `te` it is `T`. -/
structure IvpOk (δ : ℝ) (f : Vec ℝ → Option (Vec ℝ)) (T : ℝ) (y0 : Vec ℝ) (ev : Option (Vec ℝ → ℝ))
    (sol : List (ℝ × Vec ℝ)) (y : ℝ → Vec ℝ) (te : ℝ) : Prop where
  ne : sol ≠ []
  first : (sol.map Prod.fst).head? = some 0
  last : (sol.map Prod.fst).getLast? = some te
  range : ∀ p ∈ sol, 0 ≤ p.1 ∧ p.1 ≤ te
  te_le : te ≤ T
  stop : te = T ∨ ∃ g, ev = some g ∧ g (y te) = 0
  start : y 0 = y0
  close : ∀ p ∈ sol, Close δ p.2 (y p.1)
  solves : ∃ d : ℝ → Vec ℝ,
    (∀ t, 0 ≤ t → t ≤ te → (y t).length = y0.length ∧ f (y t) = some (d t)) ∧
    ∀ j, j < y0.length → IntervalIntegrable (fun t => (d t).getD j 0) volume 0 te ∧
      ∀ t, 0 ≤ t → t ≤ te → (y t).getD j 0 = y0.getD j 0 + ∫ τ in (0 : ℝ)..t, (d τ).getD j 0

end NNL.Spec
