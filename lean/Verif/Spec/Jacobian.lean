import Mathlib.Analysis.Calculus.FDeriv.Pi
import Mathlib.Analysis.Calculus.Deriv.Basic
import Mathlib.LinearAlgebra.Matrix.ToLin
import Mathlib.Topology.Algebra.Module.FiniteDimension

/-!
# Jacobians and trajectories
-/

namespace NNL.Spec

/-- `A` is the derivative of `f` at `x` (Fréchet derivative, Mathlib's `HasFDerivAt`): `f (x + v) = f x + A v + o(v)`. -/
def IsJacobian {m n : ℕ} (f : (Fin n → ℝ) → Fin m → ℝ) (A : Matrix (Fin m) (Fin n) ℝ) (x : Fin n → ℝ) : Prop :=
  HasFDerivAt f (LinearMap.toContinuousLinearMap A.mulVecLin) x

/-- `X` is a trajectory of `xdot = f(x, u)` under the input signal `U`. -/
def Trajectory {n p : ℕ} (f : (Fin n → ℝ) → (Fin p → ℝ) → Fin n → ℝ) (X : ℝ → Fin n → ℝ) (U : ℝ → Fin p → ℝ) : Prop :=
  ∀ t i, HasDerivAt (fun s => X s i) (f (X t) (U t) i) t

open Topology in
/-- `L` is the derivative at `x` of a function which is defined (`some`) near `x`. -/
def DerivOf {E F : Type*} [NormedAddCommGroup E] [NormedSpace ℝ E] [NormedAddCommGroup F] [NormedSpace ℝ F]
    (f : E → Option F) (L : E → F) (x : E) : Prop :=
  ∃ (g : E → F) (A : E →L[ℝ] F), (∀ᶠ y in 𝓝 x, f y = some (g y)) ∧ HasFDerivAt g A x ∧ ∀ v, A v = L v

/-- The affine function `x ↦ l x` is the first order approximation at `x0` of a function defined near `x0`: it has the value
and the derivative of the function there. -/
def FirstOrder {E F : Type*} [NormedAddCommGroup E] [NormedSpace ℝ E] [NormedAddCommGroup F] [NormedSpace ℝ F]
    (f : E → Option F) (l : E → F) (x0 : E) : Prop :=
  f x0 = some (l x0) ∧ DerivOf f (fun v => l (x0 + v) - l x0) x0

end NNL.Spec
